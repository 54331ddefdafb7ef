import Verif.Model.Samplers
import Mathlib.Analysis.Normed.Algebra.MatrixExponential
import Mathlib.Analysis.SpecialFunctions.Arsinh
import Mathlib.MeasureTheory.Integral.IntervalIntegral.Basic

/-!
# Model of the deterministic transforms (/repo/src/bmi/transforms) and of the tasks that apply them

Third-party functions are modelled by what they compute: `jax.scipy.special.erf` by the integral that defines it,
`jax.scipy.linalg.expm` by Mathlib's matrix exponential, `jnp.sin`, `jnp.cos`, `jnp.sqrt`, `jnp.power`, `jnp.arcsinh`
by the real functions.  Tasks are modelled by their samplers; names and parameters are left out.
-/

namespace BMI.Samplers

open Matrix

variable {Key : Type}

/-! ## transforms/simple.py -/

/-- `jax.scipy.special.erf`, used at /repo/src/bmi/transforms/simple.py:6. -/
noncomputable def erf (x : ℝ) : ℝ := 2 / √Real.pi * ∫ t in (0 : ℝ)..x, Real.exp (-t ^ 2)

/-- `normal_cdf` (/repo/src/bmi/transforms/simple.py:5-6). -/
noncomputable def normalCdf (x : ℝ) : ℝ := 0.5 * (1 + erf (x / (2 : ℝ) ^ (0.5 : ℝ)))

/-- `half_cube` (/repo/src/bmi/transforms/simple.py:9-11). -/
noncomputable def halfCube (x : ℝ) : ℝ := x * √|x|

/-- `swissroll2d` (/repo/src/bmi/transforms/simple.py:14-27). -/
noncomputable def swissroll2d (x : List ℝ) : List ℝ :=
  let t := 1.5 * Real.pi * (1 + 2 * x.getD 0 0)
  [t * Real.cos t / 21, t * Real.sin t / 21]

/-! ## transforms/_rotate.py -/

/-- A two-dimensional array of any shape. -/
abbrev Arr2 := Σ r c : ℕ, Matrix (Fin r) (Fin c) ℝ

/-- The fields of a `Spiral` object (/repo/src/bmi/transforms/_rotate.py:27-28). -/
structure SpiralObj where
  n : ℕ
  initial : Matrix (Fin n) (Fin n) ℝ
  generator : Matrix (Fin n) (Fin n) ℝ

/-- `Spiral.__init__` (/repo/src/bmi/transforms/_rotate.py:30-56), for arrays of rank two; other ranks, which the
same comparisons reject, are not modelled. -/
noncomputable def spiral (generator : Arr2) (initial : Option Arr2) (speed : ℝ) : Except Err SpiralObj :=
  match generator with
  | ⟨r, c, g⟩ =>
    if h : r = c then
      match initial with
      | none => .ok ⟨r, 1, (g.submatrix id (Fin.cast h)).map (· * speed)⟩
      | some ⟨r', c', m⟩ =>
        if h' : r = r' ∧ c = c' then
          .ok ⟨r, m.submatrix (Fin.cast h'.1) (Fin.cast (h.trans h'.2)),
            (g.submatrix id (Fin.cast h)).map (· * speed)⟩
        else .error .valueError
    else .error .valueError

/-- `Spiral.__call__` (/repo/src/bmi/transforms/_rotate.py:58-67). -/
noncomputable def SpiralObj.call (s : SpiralObj) (x : Fin s.n → ℝ) : Fin s.n → ℝ :=
  let r := x ⬝ᵥ x
  (s.initial * NormedSpace.exp (s.generator.map (· * r))) *ᵥ x

/-- The same, on a row of an array of samples. -/
noncomputable def SpiralObj.row (s : SpiralObj) (x : List ℝ) : List ℝ := List.ofFn (s.call (toVec s.n x))

/-- `so_generator` (/repo/src/bmi/transforms/_rotate.py:70-102). -/
def soGenerator (n : ℕ) (i j : ℤ) : Except Err (Matrix (Fin n) (Fin n) ℝ) :=
  if n < 2 then .error .valueError
  else if ¬ (0 ≤ i ∧ i < j ∧ j < n) then .error .valueError
  else .ok fun a b => if (a : ℤ) = j ∧ (b : ℤ) = i then 1 else if (a : ℤ) = i ∧ (b : ℤ) = j then -1 else 0

/-- `skew_symmetrize` (/repo/src/bmi/transforms/_rotate.py:115-127). -/
noncomputable def skewSymmetrize {n : ℕ} (a : Matrix (Fin n) (Fin n) ℝ) : Matrix (Fin n) (Fin n) ℝ :=
  (0.5 : ℝ) • (a - aᵀ)

/-! ## Transforms defined in the benchmark tasks -/

/-- `wiggly_x` (/repo/src/bmi/benchmark/tasks/wiggly.py:9-10). -/
noncomputable def wigglyX (x : ℝ) : ℝ :=
  x + 0.4 * Real.sin (1.0 * x) + 0.2 * Real.sin (1.7 * x + 1) + 0.03 * Real.sin (3.3 * x - 2.5)

/-- `wiggly_y` (/repo/src/bmi/benchmark/tasks/wiggly.py:13-16). -/
noncomputable def wigglyY (x : ℝ) : ℝ :=
  x - 0.4 * Real.sin (0.4 * x) + 0.17 * Real.sin (1.3 * x + 3.5) + 0.02 * Real.sin (4.3 * x - 2.5)

/-- `pow` in `transform_power_task` (/repo/src/bmi/benchmark/tasks/power.py:18-19).  For a negative exponent the code
gives NaN at 0, where this function gives 0. -/
noncomputable def signedPow (alpha x : ℝ) : ℝ := SignType.sign x * |x| ^ alpha

/-- The first transform of `task_waves` (/repo/src/bmi/benchmark/tasks/mixtures.py:168-170). -/
noncomputable def waves (amplitude frequency : ℝ) (x : List ℝ) : List ℝ :=
  let s := Real.sin (frequency * x.getD 1 0)
  [x.getD 0 0 + amplitude * s, x.getD 1 0 + 0 * s]

/-- The second transform of `task_waves` (/repo/src/bmi/benchmark/tasks/mixtures.py:172). -/
noncomputable def wavesShrink (x : List ℝ) : List ℝ := [0.1 * x.getD 0 0 - 0.8, 0.5 * x.getD 1 0]

/-! ## The tasks -/

/-- `transform_half_cube_task` (/repo/src/bmi/benchmark/tasks/half_cube.py:8-25). -/
noncomputable def halfCubeTask (base : Sampler Key) : Except Err (Sampler Key) :=
  transformed base (.row (List.map halfCube)) (.row (List.map halfCube)) 0 0

/-- `transform_asinh_task` (/repo/src/bmi/benchmark/tasks/asinh.py:9-26). -/
noncomputable def asinhTask (base : Sampler Key) : Except Err (Sampler Key) :=
  transformed base (.row (List.map Real.arsinh)) (.row (List.map Real.arsinh)) 0 0

/-- `transform_normal_cdf_task` (/repo/src/bmi/benchmark/tasks/normal_cdf.py:8-25). -/
noncomputable def normalCdfTask (base : Sampler Key) : Except Err (Sampler Key) :=
  transformed base (.row (List.map normalCdf)) (.row (List.map normalCdf)) 0 0

/-- `transform_wiggly_task` (/repo/src/bmi/benchmark/tasks/wiggly.py:19-36). -/
noncomputable def wigglyTask (base : Sampler Key) : Except Err (Sampler Key) :=
  transformed base (.row (List.map wigglyX)) (.row (List.map wigglyY)) 0 0

/-- `transform_power_task` (/repo/src/bmi/benchmark/tasks/power.py:9-33): not vectorised, so the function gets the
whole array. -/
noncomputable def powerTask (base : Sampler Key) (alpha : ℝ) : Except Err (Sampler Key) :=
  transformed base (.batch (List.map (List.map (signedPow alpha)))) (.batch (List.map (List.map (signedPow alpha)))) 0 0

/-- `transform_swissroll_task` (/repo/src/bmi/benchmark/tasks/embeddings.py:6-23). -/
noncomputable def swissrollTask (base : Sampler Key) : Except Err (Sampler Key) := do
  let dx ← base.dimX
  if dx ≠ 1 then .error .assertionError
  else transformed base (.row swissroll2d) .none 1 0

/-- `transform_spiral_task` (/repo/src/bmi/benchmark/tasks/spiral.py:8-44). -/
noncomputable def spiralTask (base : Sampler Key) (speed : ℝ) (normalize : Bool) : Except Err (Sampler Key) := do
  let dx ← base.dimX
  if ¬ dx > 1 then .error .assertionError
  else do
    let dy ← base.dimY
    if ¬ dy > 2 then .error .assertionError
    else do
      let gx ← soGenerator dx 0 1
      let gy ← soGenerator dy 1 2
      let speedX := if normalize then speed / dx else speed
      let speedY := if normalize then speed / dy else speed
      let tx ← spiral ⟨dx, dx, gx⟩ none speedX
      let ty ← spiral ⟨dy, dy, gy⟩ none speedY
      transformed base (.row tx.row) (.row ty.row) 0 0

/-- `x @ rot_m` on a row (/repo/src/bmi/benchmark/tasks/rotate.py:29,35). -/
noncomputable def rowMul {n : ℕ} (m : Matrix (Fin n) (Fin n) ℝ) (x : List ℝ) : List ℝ := List.ofFn (toVec n x ᵥ* m)

/-- `transform_rotate_task` (/repo/src/bmi/benchmark/tasks/rotate.py:10-50). -/
noncomputable def rotateTask (base : Sampler Key) : Except Err (Sampler Key) := do
  let dx ← base.dimX
  let dy ← base.dimY
  if ¬ dx > 2 then .error .assertionError
  else if ¬ dy > 2 then .error .assertionError
  else do
    let a ← soGenerator dx 0 1
    let b ← soGenerator dx 1 2
    let c ← soGenerator dx 0 2
    let a' ← soGenerator dy 0 1
    let b' ← soGenerator dy 1 2
    transformed base (.row (rowMul (NormedSpace.exp ((2 : ℝ) • a - (1 : ℝ) • b - (1 : ℝ) • c))))
      (.row (rowMul (NormedSpace.exp ((1 : ℝ) • a' + (2 : ℝ) • b')))) 0 0

/-- The transforms of `task_galaxy` (/repo/src/bmi/benchmark/tasks/mixtures.py:127-130), over any base sampler. -/
noncomputable def galaxyTransforms (base : Sampler Key) (speed : ℝ) : Except Err (Sampler Key) := do
  let tx ← spiral ⟨2, 2, !![0, -1; 1, 0]⟩ none speed
  transformed base (.row tx.row) .none 0 0

/-- The transforms of `task_waves` (/repo/src/bmi/benchmark/tasks/mixtures.py:166-173), over any base sampler. -/
noncomputable def wavesTransforms (base : Sampler Key) (amplitude frequency : ℝ) : Except Err (Sampler Key) := do
  let aux ← transformed base (.row (waves amplitude frequency)) .none 0 0
  transformed aux (.row wavesShrink) .none 0 0

end BMI.Samplers
