import Verif.Model.Basic
import Verif.Model.ProductSpace

/-!
Model of `add_noise` (/repo/src/bmi/utils.py:19-32).
-/

namespace BMI.AddNoise

open BMI.PSpace

/-- NumPy's generator of normal numbers as used by `add_noise` (/repo/src/bmi/utils.py:29,31): the state of a new generator for a
seed, and the standard normal numbers drawn from it one after the other.  An array of a given shape is filled row by row. -/
structure Normals (State : Type) where
  defaultRng : ℤ → State
  stream : State → ℕ → ℝ

/-- `rng.normal(scale=noise_std, size=points.shape)` (/repo/src/bmi/utils.py:31); a negative scale is refused. -/
noncomputable def normal {State : Type} (G : Normals State) (rng : State) (scale : ℝ) (n d : ℕ) :
    Except Err (Fin n → Fin d → ℝ) :=
  if scale < 0 then .error .valueError else .ok fun i j => scale * G.stream rng (i * d + j)

/-- `add_noise` (/repo/src/bmi/utils.py:19-32); `np.random.default_rng` refuses negative seeds. -/
noncomputable def addNoise {State : Type} (G : Normals State) (points : Mat) (noiseStd : ℝ := 1e-5) (rngKey : ℤ := 0) :
    Except Err Mat := do
  if rngKey < 0 then
    .error .valueError
  else
    let rng := G.defaultRng rngKey
    let noise ← normal G rng noiseStd points.n points.d
    .ok ⟨points.n, points.d, fun i j => points.v i j + noise i j⟩

end BMI.AddNoise
