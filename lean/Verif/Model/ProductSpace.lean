import Verif.Model.Basic
import Mathlib.Data.Real.Sqrt
import Mathlib.Algebra.BigOperators.Fin
import Mathlib.Data.Fin.Tuple.Basic

/-!
Model of `ProductSpace` (/repo/src/bmi/utils.py:82-147).

Arrays live on a heap so that it can be said whether the caller's arrays are written to.
`sklearn.preprocessing.StandardScaler` (third-party) is modelled from its documentation: subtract the column
mean, divide by the square root of the population variance, except that a column counted as constant
(`var ≤ n·ε·var + (n·mean·ε)²`, with ε the float epsilon) is divided by one.  ε is a parameter;
floats are real numbers.
-/

namespace BMI.PSpace

/-- A two-dimensional array (/repo/src/bmi/utils.py:110). -/
structure Mat where
  n : ℕ
  d : ℕ
  v : Fin n → Fin d → ℝ

/-- Memory: array buffers, addressed by position (used to model /repo/src/bmi/utils.py:110,115-116). -/
abbrev Heap := List Mat

/-- Column mean (`StandardScaler`, used at /repo/src/bmi/utils.py:115-116). -/
noncomputable def colMean {n : ℕ} (c : Fin n → ℝ) : ℝ := (∑ i, c i) / n

/-- Population variance (`StandardScaler`, used at /repo/src/bmi/utils.py:115-116). -/
noncomputable def colVar {n : ℕ} (c : Fin n → ℝ) : ℝ := (∑ i, (c i - colMean c) ^ 2) / n

/-- Is the column treated as constant (`StandardScaler`, used at /repo/src/bmi/utils.py:115-116)? -/
def flagged {n : ℕ} (ε : ℝ) (c : Fin n → ℝ) : Prop :=
  colVar c ≤ n * ε * colVar c + (n * colMean c * ε) ^ 2

open Classical in
/-- Standardised column (`StandardScaler`, used at /repo/src/bmi/utils.py:115-116). -/
noncomputable def scaleCol {n : ℕ} (ε : ℝ) (c : Fin n → ℝ) (i : Fin n) : ℝ :=
  (c i - colMean c) / (if flagged ε c then 1 else √(colVar c))

/-- `StandardScaler(copy=False).fit_transform(x)` (/repo/src/bmi/utils.py:115-116): empty arrays are
refused; the result is written into the buffer of the argument. -/
noncomputable def fitTransform (ε : ℝ) (h : Heap) (a : ℕ) : Except Err Heap :=
  match h[a]? with
  | none => .error .indexError
  | some m =>
    if m.n = 0 ∨ m.d = 0 then .error .valueError
    else .ok (h.set a ⟨m.n, m.d, fun i j => scaleCol ε (fun i' => m.v i' j) i⟩)

/-- `np.array(x)`: a new buffer with the same contents (/repo/src/bmi/utils.py:110). -/
def npArray (h : Heap) (a : ℕ) : Except Err (Heap × ℕ) :=
  match h[a]? with
  | none => .error .indexError
  | some m => .ok (h ++ [m], h.length)

/-- `ProductSpace.__init__` (/repo/src/bmi/utils.py:109-119); `ax`, `ay` are the caller's arrays, the result
contains the addresses stored in `self._x`, `self._y`. -/
noncomputable def init (ε : ℝ) (h : Heap) (ax ay : ℕ) (standardize : Bool) :
    Except Err (Heap × ℕ × ℕ) := do
  let (h, bx) ← npArray h ax
  let (h, by_) ← npArray h ay
  let mx ← (h[bx]?).elim (.error .indexError) .ok
  let my ← (h[by_]?).elim (.error .indexError) .ok
  if mx.n ≠ my.n then .error .valueError
  else if standardize then
    let h ← fitTransform ε h bx
    let h ← fitTransform ε h by_
    .ok (h, bx, by_)
  else .ok (h, bx, by_)

/-- `xy` (/repo/src/bmi/utils.py:140-142): rows side by side. -/
def xy (mx my : Mat) (e : mx.n = my.n) : Fin mx.n → Fin (mx.d + my.d) → ℝ :=
  fun i => Fin.append (mx.v i) (my.v (Fin.cast e i))

/-- `space[i]` for a non-negative or negative integer (/repo/src/bmi/utils.py:144-147). -/
def getItem (mx my : Mat) (item : ℤ) : Except Err (Fin (mx.d + my.d) → ℝ) :=
  let ix := if item < 0 then item + mx.n else item
  let iy := if item < 0 then item + my.n else item
  if hx : 0 ≤ ix ∧ ix < mx.n then
    if hy : 0 ≤ iy ∧ iy < my.n then
      .ok (Fin.append (mx.v ⟨ix.toNat, by omega⟩) (my.v ⟨iy.toNat, by omega⟩))
    else .error .indexError
  else .error .indexError

/-- `__len__` (/repo/src/bmi/utils.py:121-122). -/
def len (mx : Mat) : ℕ := mx.n

end BMI.PSpace
