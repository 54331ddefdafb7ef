import Verif.Model.Basic
import Mathlib.Analysis.SpecialFunctions.Log.ENNRealLog
import Mathlib.Analysis.SpecialFunctions.Log.ERealExp
import Mathlib.Data.EReal.Inv

/-!
# Model of the objectives of the neural estimators

`/repo/src/bmi/estimators/neural/_backend_linear_memory.py` and
`/repo/src/bmi/estimators/neural/_backend_quadratic_memory.py`.

Numbers are extended reals, because the code puts `-inf` on the diagonal; finite values are exact.  Batches are lists
of points of arbitrary types; the two lists are taken to have the same length (`jax.vmap` raises otherwise).
-/

namespace BMI.Neural

variable {X Y : Type}

/-- `jax.scipy.special.logsumexp` of a vector (used at _backend_linear_memory.py:37,43,57 and
_backend_quadratic_memory.py:36,48 in /repo/src/bmi/estimators/neural): `exp(-inf) = 0` and `log 0 = -inf`. -/
noncomputable def logsumexp (v : List EReal) : EReal := ENNReal.log (v.map EReal.exp).sum

/-- `jnp.mean` of a vector (used at _backend_linear_memory.py:62,65,72,78 and
_backend_quadratic_memory.py:48,51,56,63 in /repo/src/bmi/estimators/neural). -/
noncomputable def mean (v : List EReal) : EReal := v.sum / (v.length : EReal)

/-- `jnp.log` of a non-negative integer (used at _backend_linear_memory.py:48,67 and
_backend_quadratic_memory.py:42,49 in /repo/src/bmi/estimators/neural). -/
noncomputable def logNat (n : ℕ) : EReal := ENNReal.log (n : ENNReal)

/-- `jnp.exp` (used at _backend_linear_memory.py:79 and _backend_quadratic_memory.py:63 in
/repo/src/bmi/estimators/neural). -/
noncomputable def expE (v : EReal) : EReal := (EReal.exp v : EReal)

namespace Linear

/-- `jax.vmap(f, in_axes=(None, 0))(x, ys)` (/repo/src/bmi/estimators/neural/_backend_linear_memory.py:28,53). -/
def scoresOf (f : X → Y → ℝ) (x : X) (ys : List Y) : List EReal := ys.map fun y => ((f x y : ℝ) : EReal)

/-- `jax.vmap(f, in_axes=(0, 0))(xs, ys)` (/repo/src/bmi/estimators/neural/_backend_linear_memory.py:65,71,76). -/
def paired (f : X → Y → ℝ) (xs : List X) (ys : List Y) : List EReal :=
  List.zipWith (fun x y => ((f x y : ℝ) : EReal)) xs ys

/-- `logmeanexp_nodiag` (/repo/src/bmi/estimators/neural/_backend_linear_memory.py:14-48): the scan carries the row
number and collects the values. -/
noncomputable def logmeanexpNodiag (f : X → Y → ℝ) (xs : List X) (ys : List Y) (offset : ℝ) : EReal :=
  let body (acc : ℕ × List EReal) (x : X) : ℕ × List EReal :=
    let fs := (scoresOf f x ys).map (· + (offset : EReal))
    let fs := fs.set acc.1 ⊥
    (acc.1 + 1, acc.2 ++ [logsumexp fs])
  let r := xs.foldl body (0, [])
  let size := r.1
  let vals := r.2
  logsumexp vals - logNat (size * (size - 1))

/-- `infonce` (/repo/src/bmi/estimators/neural/_backend_linear_memory.py:51-67). -/
noncomputable def infonce (f : X → Y → ℝ) (xs : List X) (ys : List Y) : EReal :=
  let vals := xs.map fun x => logsumexp (scoresOf f x ys)
  let meanNegative := mean vals
  let meanPositive := mean (paired f xs ys)
  let nll := meanPositive - meanNegative
  nll + logNat xs.length

/-- `donsker_varadhan` (/repo/src/bmi/estimators/neural/_backend_linear_memory.py:70-72). -/
noncomputable def donskerVaradhan (f : X → Y → ℝ) (xs : List X) (ys : List Y) : EReal :=
  mean (paired f xs ys) - logmeanexpNodiag f xs ys 0

/-- `nwj` (/repo/src/bmi/estimators/neural/_backend_linear_memory.py:75-80). -/
noncomputable def nwj (f : X → Y → ℝ) (xs : List X) (ys : List Y) : EReal :=
  let positive := mean (paired f xs ys)
  let negative := expE (logmeanexpNodiag f xs ys (-1))
  positive - negative

end Linear

namespace Quadratic

/-- `get_full_scores` (/repo/src/bmi/estimators/neural/_backend_quadratic_memory.py:16-18). -/
def fullScores (f : X → Y → ℝ) (xs : List X) (ys : List Y) : List (List EReal) :=
  xs.map fun x => ys.map fun y => ((f x y : ℝ) : EReal)

/-- `array.diagonal()` of a square array
(/repo/src/bmi/estimators/neural/_backend_quadratic_memory.py:35,48,56,63). -/
noncomputable def diagonal (a : List (List EReal)) : List EReal := a.mapIdx fun i r => r.getD i 0

/-- `logmeanexp_nodiag` (/repo/src/bmi/estimators/neural/_backend_quadratic_memory.py:21-42): `-inf` is added to the
diagonal. -/
noncomputable def logmeanexpNodiag (a : List (List EReal)) : EReal :=
  let size := a.length
  let masked := a.mapIdx fun i r => r.mapIdx fun j v => v + (if i = j then ⊥ else 0)
  logsumexp masked.flatten - logNat (size * (size - 1))

/-- `infonce` (/repo/src/bmi/estimators/neural/_backend_quadratic_memory.py:45-51). -/
noncomputable def infonce (f : X → Y → ℝ) (xs : List X) (ys : List Y) : EReal :=
  let a := fullScores f xs ys
  let nll := a.map fun r => mean (diagonal a) - logsumexp r
  let mi := nll.map fun v => logNat a.length + v
  mean mi

/-- `donsker_varadhan` (/repo/src/bmi/estimators/neural/_backend_quadratic_memory.py:54-56). -/
noncomputable def donskerVaradhan (f : X → Y → ℝ) (xs : List X) (ys : List Y) : EReal :=
  let a := fullScores f xs ys
  mean (diagonal a) - logmeanexpNodiag a

/-- `nwj` (/repo/src/bmi/estimators/neural/_backend_quadratic_memory.py:59-63). -/
noncomputable def nwj (f : X → Y → ℝ) (xs : List X) (ys : List Y) : EReal :=
  let a := fullScores f xs ys
  let am1 := a.map fun r => r.map fun v => v - 1
  1 + mean (diagonal am1) - expE (logmeanexpNodiag am1)

end Quadratic

end BMI.Neural
