import Verif.Model.Chunker
import Verif.Model.ProductSpace
import Mathlib.Data.EReal.Operations
import Mathlib.Data.EReal.Inv
import Mathlib.Analysis.SpecialFunctions.Gamma.Deriv
import Mathlib.Analysis.Calculus.LogDeriv
import Mathlib.Data.List.FinRange
import Mathlib.Data.NNReal.Basic

/-!
Model of the KSG estimators (/repo/src/bmi/estimators/ksg.py).

Numbers are extended reals: finite values are exact real numbers (no rounding), and `⊥`, `⊤` stand for the
IEEE infinities that arise from `digamma(0) = -inf`.  On the values that occur (finite and `-inf` in the sums,
finite and `+inf` in the estimates) the extended-real operations agree with IEEE.
Sorting is a parameter: `argsort f` is any function returning positions in non-decreasing order of `f`
(`np.argsort` is not stable, `sorted` is).
-/

namespace BMI.KSG

open BMI.PSpace (Mat)

/-- `scipy.special.digamma` at a natural number (used at /repo/src/bmi/estimators/ksg.py:123,131,225,229):
the logarithmic derivative of Γ, and `-inf` at 0. -/
noncomputable def dig (m : ℕ) : EReal :=
  if m = 0 then ⊥ else ((logDeriv Real.Gamma m : ℝ) : EReal)

/-- Allowed metrics (/repo/src/bmi/estimators/ksg.py:15). -/
inductive Metric where
  | euclidean
  | manhattan
  | chebyshev
  deriving DecidableEq

/-- `sklearn.metrics.pairwise_distances` for one pair (/repo/src/bmi/estimators/ksg.py:95-100, 202-207). -/
noncomputable def Metric.dist {d : ℕ} (m : Metric) (a b : Fin d → ℝ) : ℝ :=
  match m with
  | .euclidean => √(∑ j, (a j - b j) ^ 2)
  | .manhattan => ∑ j, |a j - b j|
  | .chebyshev => ((Finset.univ.sup fun j => Real.nnabs (a j - b j) : NNReal) : ℝ)

/-- `KSGEnsembleParameters` (/repo/src/bmi/estimators/ksg.py:18-22) after validation. -/
structure Params where
  neighborhoods : List ℕ
  standardize : Bool
  metricX : Metric
  metricY : Metric

/-- Construction of the parameters with the validator (/repo/src/bmi/estimators/ksg.py:24-30) and the default of
`metric_y` (lines 68-73).  Simplification: integers only, no coercion of other types. -/
def mkParams (neighborhoods : List ℤ) (standardize : Bool) (metricX : Metric)
    (metricY : Option Metric) : Except Err Params :=
  if neighborhoods = [] then .error .validationError
  else if neighborhoods.any (· < 1) then .error .validationError
  else .ok ⟨neighborhoods.map Int.toNat, standardize, metricX, metricY.getD metricX⟩

/-- `max(neighborhoods)` (/repo/src/bmi/estimators/ksg.py:84,192); the list is non-empty. -/
def maxNbh (l : List ℕ) : ℕ := l.foldl max 0

/-- `ProductSpace(x, y, standardize)` at value level (/repo/src/bmi/utils.py:109-119; the model with memory is
`BMI.PSpace.init`). -/
noncomputable def space (ε : ℝ) (std : Bool) (mx my : Mat) : Except Err (Mat × Mat) :=
  if mx.n ≠ my.n then .error .valueError
  else if std then
    if mx.n = 0 ∨ mx.d = 0 ∨ my.d = 0 then .error .valueError
    else .ok (⟨mx.n, mx.d, fun i j => PSpace.scaleCol ε (fun i' => mx.v i' j) i⟩,
              ⟨my.n, my.d, fun i j => PSpace.scaleCol ε (fun i' => my.v i' j) i⟩)
  else .ok (mx, my)

/-- `(distances < d).sum()` for one row (/repo/src/bmi/estimators/ksg.py:120-121, 222-223). -/
noncomputable def countLt {n : ℕ} (f : Fin n → ℝ) (d : ℝ) : ℕ :=
  (Finset.univ.filter fun j => f j < d).card

/-- The summand of one point (/repo/src/bmi/estimators/ksg.py:103-123 and 209-225): `dx`, `dy` are the rows of
distances.  `_DIGAMMA(n_x + 1)` with `n_x = count - 1` is `dig count`.  The case `n ≤ k` is excluded by the check at
lines 84/192. -/
noncomputable def pointTerm {n : ℕ} (argsort : (Fin n → ℝ) → Fin n → Fin n) (dx dy : Fin n → ℝ)
    (k : ℕ) : EReal :=
  let dz : Fin n → ℝ := fun j => max (dx j) (dy j)
  if h : k < n then
    let dk := dz (argsort dz ⟨k, h⟩)
    dig (countLt dx dk) + dig (countLt dy dk)
  else 0

/-- Keys of `{k: [] for k in neighborhoods}` in insertion order (/repo/src/bmi/estimators/ksg.py:90,198). -/
def keys (l : List ℕ) : List ℕ := l.foldl (fun acc k => if k ∈ acc then acc else acc ++ [k]) []

/-- `digammas_dict[k].append(v)` (/repo/src/bmi/estimators/ksg.py:126,226). -/
def appendTo (d : List (ℕ × List EReal)) (k : ℕ) (v : EReal) : List (ℕ × List EReal) :=
  d.map fun e => if e.1 = k then (e.1, e.2 ++ [v]) else e

/-- The distance tables of the two spaces (/repo/src/bmi/estimators/ksg.py:95-100). -/
noncomputable def table (m : Metric) (a : Mat) : Fin a.n → Fin a.n → ℝ :=
  fun i j => m.dist (a.v i) (a.v j)

/-- The loops of `KSGEnsembleFirstEstimator.fit` (/repo/src/bmi/estimators/ksg.py:90-132) on distance tables. -/
noncomputable def fastCore {n : ℕ} (argsort : (Fin n → ℝ) → Fin n → Fin n)
    (DX DY : Fin n → Fin n → ℝ) (nbh : List ℕ) (chunks : List Chunker.Slice) : List (ℕ × EReal) :=
  let contribution (s : Chunker.Slice) (k : ℕ) : EReal :=
    ((s.apply (List.finRange n)).map fun i => pointTerm argsort (DX i) (DY i) k / (n : EReal)).sum
  let dict := chunks.foldl
    (fun dict s => nbh.foldl (fun dict k => appendTo dict k (contribution s k)) dict)
    ((keys nbh).map fun k => (k, []))
  dict.map fun e => (e.1, max 0 (dig e.1 - e.2.sum + dig n))

/-- `KSGEnsembleFirstEstimator.fit` (/repo/src/bmi/estimators/ksg.py:81-134): the dictionary of predictions. -/
noncomputable def fastFit (ε : ℝ) (argsort : (n : ℕ) → (Fin n → ℝ) → Fin n → Fin n) (p : Params)
    (chunkSize : ℤ) (mx my : Mat) : Except Err (List (ℕ × EReal)) :=
  match space ε p.standardize mx my with
  | .error e => .error e
  | .ok (a, b) =>
    if h : a.n = b.n then
      if a.n ≤ maxNbh p.neighborhoods then .error .valueError
      else
        match Chunker.chunker a.n chunkSize with
        | .error e => .error e
        | .ok chunks =>
          .ok (fastCore (argsort a.n) (table p.metricX a)
            (fun i j => table p.metricY b (Fin.cast h i) (Fin.cast h j)) p.neighborhoods chunks)
    else .error .valueError

/-- The loops of `KSGEnsembleFirstEstimatorSlow.fit` (/repo/src/bmi/estimators/ksg.py:198-230). -/
noncomputable def slowCore {n : ℕ} (argsort : (Fin n → ℝ) → Fin n → Fin n)
    (DX DY : Fin n → Fin n → ℝ) (nbh : List ℕ) : List (ℕ × EReal) :=
  let dict := (List.finRange n).foldl
    (fun dict i => nbh.foldl (fun dict k => appendTo dict k (pointTerm argsort (DX i) (DY i) k)) dict)
    ((keys nbh).map fun k => (k, []))
  dict.map fun e => (e.1, max 0 (dig e.1 - e.2.sum / (e.2.length : EReal) + dig n))

/-- `KSGEnsembleFirstEstimatorSlow.fit` (/repo/src/bmi/estimators/ksg.py:188-232). -/
noncomputable def slowFit (ε : ℝ) (argsort : (n : ℕ) → (Fin n → ℝ) → Fin n → Fin n) (p : Params)
    (mx my : Mat) : Except Err (List (ℕ × EReal)) :=
  match space ε p.standardize mx my with
  | .error e => .error e
  | .ok (a, b) =>
    if h : a.n = b.n then
      if a.n ≤ maxNbh p.neighborhoods then .error .valueError
      else .ok (slowCore (argsort a.n) (table p.metricX a)
        (fun i j => table p.metricY b (Fin.cast h i) (Fin.cast h j)) p.neighborhoods)
    else .error .valueError

/-! ### The estimator object -/

/-- State of an estimator object: `_fitted` and `_mi_dict` (/repo/src/bmi/estimators/ksg.py:78-79). -/
structure State where
  fitted : Bool := false
  miDict : List (ℕ × EReal) := []

/-- `self._mi_dict[k] = v` (/repo/src/bmi/estimators/ksg.py:132). -/
def setKey (d : List (ℕ × EReal)) (k : ℕ) (v : EReal) : List (ℕ × EReal) :=
  if d.any (fun e => e.1 = k) then d.map fun e => if e.1 = k then (k, v) else e else d ++ [(k, v)]

/-- `fit` as a state change (/repo/src/bmi/estimators/ksg.py:81-134): all exceptions are raised before
the object is written to; then the entries are stored one by one. -/
def State.fit (s : State) (result : Except Err (List (ℕ × EReal))) : Except Err Unit × State :=
  match result with
  | .error e => (.error e, s)
  | .ok preds => (.ok (), ⟨true, preds.foldl (fun d e => setKey d e.1 e.2) s.miDict⟩)

/-- `get_predictions` (/repo/src/bmi/estimators/ksg.py:136-139). -/
def State.getPredictions (s : State) : Except Err (List (ℕ × EReal)) :=
  if s.fitted then .ok s.miDict else .error .notFitted

/-- `estimate` (/repo/src/bmi/estimators/ksg.py:141-144): fit, then the mean of the predictions. -/
noncomputable def State.estimate (s : State) (result : Except Err (List (ℕ × EReal))) :
    Except Err EReal × State :=
  match s.fit result with
  | (.error e, s') => (.error e, s')
  | (.ok (), s') =>
    match s'.getPredictions with
    | .error e => (.error e, s')
    | .ok preds => (.ok ((preds.map Prod.snd).sum / (preds.length : EReal)), s')

end BMI.KSG
