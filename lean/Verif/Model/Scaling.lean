import Verif.Model.Task
import Mathlib.Data.Fin.Tuple.Sort
import Mathlib.Data.Nat.Find
import Mathlib.Data.Real.Sqrt
import Mathlib.Algebra.BigOperators.Fin
import Mathlib.Algebra.Order.Floor.Defs

/-!
Model of the tasks that preprocess whole samples (/repo/src/bmi/benchmark/tasks/scaling.py) and of `scale_tasks`
(/repo/workflows/projects/Mixtures/_benchmark_rules.smk:18-29).

`sklearn.preprocessing.scale` and `sklearn.preprocessing.quantile_transform` (third-party) are modelled from their
documentation and known behaviour, on finite numbers.  Floats are real numbers; the float epsilon, the number of rows
above which the quantiles are computed from a random subset, the rows drawn then, and the normal quantile function are
parameters.
-/

namespace BMI.Scaling

open BMI.SampleIO (NdArr)
open BMI.Task (Task Sampler)

/-! ### `sklearn.preprocessing.scale` -/

/-- Column mean (`np.nanmean` in `scale`, used at /repo/src/bmi/benchmark/tasks/scaling.py:16). -/
noncomputable def mean {n : ℕ} (c : Fin n → ℝ) : ℝ := (∑ i, c i) / n

/-- Column standard deviation (`np.nanstd` in `scale`, used at /repo/src/bmi/benchmark/tasks/scaling.py:16). -/
noncomputable def std {n : ℕ} (c : Fin n → ℝ) : ℝ := √((∑ i, (c i - mean c) ^ 2) / n)

open Classical in
/-- One column of `preproc.scale` (/repo/src/bmi/benchmark/tasks/scaling.py:16): centred, then divided by the standard
deviation, or by one if that is below `10 * eps`. -/
noncomputable def scaleCol (eps : ℝ) {n : ℕ} (c : Fin n → ℝ) (i : Fin n) : ℝ :=
  (c i - mean c) / (if std c < 10 * eps then 1 else std c)

/-- `_rescale` (/repo/src/bmi/benchmark/tasks/scaling.py:10-16).  Empty arrays are refused by `check_array`.  Arrays of
a rank other than two do not come from samplers; they are refused here (`scale` would take rank one). -/
noncomputable def rescale (eps : ℝ) : NdArr ℝ → Except Err (NdArr ℝ)
  | .mat n d v =>
    if n = 0 ∨ d = 0 then .error .valueError
    else .ok (.mat n d fun i j => scaleCol eps (fun i' => v i' j) i)
  | .otherRank => .error .valueError

/-! ### `sklearn.preprocessing.quantile_transform` -/

/-- The sorted column, indexed by all natural numbers (the last value repeated), `np.nanpercentile` sorts the column
(used at /repo/src/bmi/benchmark/tasks/scaling.py:45). -/
noncomputable def sorted {n : ℕ} (c : Fin (n + 1) → ℝ) (k : ℕ) : ℝ :=
  c (Tuple.sort c ⟨min k n, by omega⟩)

/-- `np.nanpercentile(c, 100 * r)` with linear interpolation (used at
/repo/src/bmi/benchmark/tasks/scaling.py:45). -/
noncomputable def percentile {n : ℕ} (c : Fin (n + 1) → ℝ) (r : ℝ) : ℝ :=
  let k := ⌊r * n⌋₊
  sorted c k + (r * n - k) * (sorted c (k + 1) - sorted c k)

/-- `np.linspace(0, 1, m + 1)[k]`, the references (used at /repo/src/bmi/benchmark/tasks/scaling.py:45). -/
noncomputable def reference (m k : ℕ) : ℝ := if m = 0 then 0 else (k : ℝ) / m

open Classical in
/-- `np.interp(x, xp, fp)` for arrays with last index `m` (used in `quantile_transform`,
/repo/src/bmi/benchmark/tasks/scaling.py:45): constant outside the range, otherwise linear after the last `xp[j] ≤ x`. -/
noncomputable def interp (m : ℕ) (xp fp : ℕ → ℝ) (x : ℝ) : ℝ :=
  if x < xp 0 then fp 0
  else
    let j := Nat.findGreatest (fun j => xp j ≤ x) m
    if j = m then fp m
    else fp j + (fp (j + 1) - fp j) / (xp (j + 1) - xp j) * (x - xp j)

/-- The two interpolations, from the left and from the right, averaged, which maps repeated quantiles to the middle
(`QuantileTransformer._transform_col`, used at /repo/src/bmi/benchmark/tasks/scaling.py:45). -/
noncomputable def between (m : ℕ) (q : ℕ → ℝ) (x : ℝ) : ℝ :=
  1 / 2 * (interp m q (reference m) x
    - interp m (fun k => -q (m - k)) (fun k => -reference m (m - k)) (-x))

open Classical in
/-- `_transform_col` up to the output distribution: values at the lower bound (or up to `τ` above it) become zero, those
at the upper bound one, where `τ` is zero for `"uniform"` and `1e-7` for `"normal"`
(used at /repo/src/bmi/benchmark/tasks/scaling.py:45).  The comparison is strict for `τ > 0`. -/
noncomputable def toUnit (τ : ℝ) (m : ℕ) (q : ℕ → ℝ) (x : ℝ) : ℝ :=
  if (if τ = 0 then x = q 0 else x - τ < q 0) then 0
  else if (if τ = 0 then x = q m else q m < x + τ) then 1
  else between m q x

/-- `output_distribution` (/repo/src/bmi/benchmark/tasks/scaling.py:42). -/
inductive Output where
  | uniform
  | normal
  deriving DecidableEq

/-- `BOUNDS_THRESHOLD` of scikit-learn (used at /repo/src/bmi/benchmark/tasks/scaling.py:45). -/
noncomputable def threshold : ℝ := 1 / 10 ^ 7

/-- Third-party parameters: float epsilon (`np.spacing(1)`), the size above which quantiles are computed from a random
subset, the rows of `n + 1` drawn by `random_state.choice(n + 1, size, replace=False)` for column `j`, and `scipy.stats.norm.ppf` on
the open unit interval (used at /repo/src/bmi/benchmark/tasks/scaling.py:16,45). -/
structure Lib where
  eps : ℝ
  subsample : ℕ
  pick : (seed : ℤ) → (n j : ℕ) → Fin (subsample - 1 + 1) → Fin (n + 1)
  ppf : ℝ → ℝ

open Classical in
/-- `np.clip(norm.ppf(u), clip_min, clip_max)`, where the bounds are the quantiles at `threshold - eps` from the ends
(used at /repo/src/bmi/benchmark/tasks/scaling.py:45); `ppf` is infinite at zero and one. -/
noncomputable def clippedPpf (L : Lib) (u : ℝ) : ℝ :=
  let lo := L.ppf (threshold - L.eps)
  let hi := L.ppf (1 - (threshold - L.eps))
  if u ≤ 0 then lo else if 1 ≤ u then hi else min hi (max lo (L.ppf u))

/-- The value given to `x` in a column with quantiles `q` (used at /repo/src/bmi/benchmark/tasks/scaling.py:45). -/
noncomputable def transformed (L : Lib) : Output → (m : ℕ) → (q : ℕ → ℝ) → ℝ → ℝ
  | .uniform, m, q, x => toUnit 0 m q x
  | .normal, m, q, x => clippedPpf L (toUnit threshold m q x)

/-- The quantiles of one column (`_dense_fit`, used at /repo/src/bmi/benchmark/tasks/scaling.py:45): of all rows, or of
the rows drawn. -/
noncomputable def quantiles (L : Lib) (seed : ℤ) (m : ℕ) {n : ℕ} (j : ℕ) (c : Fin (n + 1) → ℝ) (k : ℕ) : ℝ :=
  if L.subsample < n + 1 then percentile (fun s => c (L.pick seed n j s)) (reference m k)
  else percentile c (reference m k)

/-- The number of quantiles minus one: `max(1, min(n_quantiles, n_samples))` minus one
(used at /repo/src/bmi/benchmark/tasks/scaling.py:45). -/
def lastQuantile (nQuantiles n : ℕ) : ℕ := min nQuantiles n - 1

/-- The function returned by `_quantile_transform_wrapper` (/repo/src/bmi/benchmark/tasks/scaling.py:41-52).  scikit-learn
refuses arrays that are empty or not two-dimensional, a number of quantiles that is zero or exceeds the size of the
subset. -/
noncomputable def quantileTransform (L : Lib) (nQuantiles : ℕ) (out : Output) (seed : ℤ) :
    NdArr ℝ → Except Err (NdArr ℝ)
  | .mat 0 _ _ => .error .valueError
  | .mat (n + 1) d v =>
    if d = 0 then .error .valueError
    else if nQuantiles = 0 then .error .valueError
    else if L.subsample < nQuantiles then .error .valueError
    else
      let m := lastQuantile nQuantiles (n + 1)
      .ok (.mat (n + 1) d fun i j =>
        transformed L out m (quantiles L seed m j fun i' => v i' j) (v i j))
  | .otherRank => .error .valueError

/-! ### Tasks -/

variable {α V : Type} [LinearOrder α] [Zero α]

/-- `TransformedSampler(base_sampler=…, transform_x=f, transform_y=g, vectorise=False)`
(/repo/src/bmi/samplers/_transformed.py:64-80,98-107), for a sampler as seen by a task. -/
def wrap (base : Sampler α ℝ) (f g : NdArr ℝ → Except Err (NdArr ℝ)) : Except Err (Sampler α ℝ) := do
  let dx ← base.dimX
  let dy ← base.dimY
  if dx < 1 ∨ dy < 1 then .error .valueError
  else .ok { dimX := .ok dx
             dimY := .ok dy
             mi := base.mi
             sample := fun n seed => do
               let xy ← base.sample n seed
               let x ← f xy.1
               let y ← g xy.2
               .ok (x, y) }

/-- `given or default`, where an empty string counts as not given
(/repo/src/bmi/benchmark/tasks/scaling.py:35-36,83,110). -/
def orElse (given : Option String) (default : Except Err String) : Except Err String :=
  match given with
  | some s => if s = "" then default else .ok s
  | none => default

/-- `transform_rescale` (/repo/src/bmi/benchmark/tasks/scaling.py:19-38). -/
noncomputable def transformRescale (eps : ℝ) (base : Task α ℝ (String × V)) (name id : Option String) :
    Except Err (Task α ℝ (String × V)) := do
  let s ← wrap base.sampler (rescale eps) (rescale eps)
  let i ← orElse id (base.id.map ("rescale-" ++ ·))
  let n ← orElse name (base.name.map ("Rescale @ " ++ ·))
  let p ← base.getParams
  .ok { sampler := s, taskId := i, taskName := n, params := some p }

/-- `params | {key: value}` (/repo/src/bmi/benchmark/tasks/scaling.py:84,111): an existing key keeps its place and gets
the new value. -/
def merge (params : List (String × V)) (key : String) (value : V) : List (String × V) :=
  if params.any (·.1 == key) then params.map fun p => if p.1 == key then (key, value) else p
  else params ++ [(key, value)]

/-- `transform_uniformise` (/repo/src/bmi/benchmark/tasks/scaling.py:55-85) and `transform_gaussianise`
(/repo/src/bmi/benchmark/tasks/scaling.py:88-112), which differ in the distribution and the two prefixes. -/
noncomputable def transformQuantile (L : Lib) (nat : ℕ → V) (out : Output) (base : Task α ℝ (String × V))
    (name : Option String) (nQuantiles : ℕ) (seed : ℤ) : Except Err (Task α ℝ (String × V)) := do
  let f := quantileTransform L nQuantiles out seed
  let s ← wrap base.sampler f f
  let i ← base.id
  let n ← orElse name (base.name.map ((match out with
    | .uniform => "Uniformise @ "
    | .normal => "Gaussianise @ ") ++ ·))
  let p ← base.getParams
  .ok { sampler := s
        taskId := (match out with
          | .uniform => "uniformise-"
          | .normal => "gaussianise-") ++ i
        taskName := n
        params := some (merge p "n_quantiles" (nat nQuantiles)) }

/-- `scale_tasks` (/repo/workflows/projects/Mixtures/_benchmark_rules.smk:18-29): each task of the dictionary rescaled
under its own name and id. -/
noncomputable def scaleTasks (eps : ℝ) (tasks : List (String × Task α ℝ (String × V))) :
    Except Err (List (String × Task α ℝ (String × V))) :=
  tasks.mapM fun kt => do
    let n ← kt.2.name
    let i ← kt.2.id
    let t ← transformRescale eps kt.2 (some n) (some i)
    .ok (kt.1, t)

end BMI.Scaling
