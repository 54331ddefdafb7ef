import Verif.Model.KSG
import Mathlib.Analysis.SpecialFunctions.Log.Basic

/-! Model of the histogram estimator (/repo/src/bmi/estimators/_histogram.py).  `np.histogramdd` (third-party) is
modelled from its source: equal-width edges, `searchsorted(side="right")`, values on the last edge moved into the
last cell.  Real arithmetic. -/

namespace BMI.Histogram

open BMI.PSpace (Mat)

/-- `HistogramEstimatorParams` (/repo/src/bmi/estimators/_histogram.py:18-21). -/
structure Params where
  nBinsX : ℕ
  nBinsY : ℕ
  standardize : Bool

/-- `HistogramEstimator.__init__` (/repo/src/bmi/estimators/_histogram.py:25-38): `n_bins_y or n_bins_x`, then the
`PositiveInt` checks. -/
def mkParams (nBinsX : ℤ) (nBinsY : Option ℤ) (standardize : Bool) : Except Err Params :=
  let ny := match nBinsY with
    | none => nBinsX
    | some m => if m = 0 then nBinsX else m
  if nBinsX ≤ 0 ∨ ny ≤ 0 then .error .validationError
  else .ok ⟨nBinsX.toNat, ny.toNat, standardize⟩

/-- Smallest and largest value of a column as computed by NumPy's `_get_outer_edges` (used by `np.histogramdd` at
/repo/src/bmi/estimators/_histogram.py:51): 0 and 1 without data; widened by 0.5 if they coincide. -/
noncomputable def outerEdges {n : ℕ} (c : Fin n → ℝ) : ℝ × ℝ :=
  if h : 0 < n then
    have : (Finset.univ : Finset (Fin n)).Nonempty := ⟨⟨0, h⟩, Finset.mem_univ _⟩
    let lo := Finset.univ.inf' this c
    let hi := Finset.univ.sup' this c
    if lo = hi then (lo - 0.5, hi + 0.5) else (lo, hi)
  else (0, 1)

/-- `np.linspace(lo, hi, b + 1)` (in `np.histogramdd`, /repo/src/bmi/estimators/_histogram.py:51). -/
noncomputable def edge (lo hi : ℝ) (b i : ℕ) : ℝ := lo + (hi - lo) * i / b

open Classical in
/-- Cell number of one value (in `np.histogramdd`, /repo/src/bmi/estimators/_histogram.py:51): the number of edges
not above the value, less one if the value is on the last edge, less one for the outlier bin removed at the end. -/
noncomputable def binOf (lo hi : ℝ) (b : ℕ) (x : ℝ) : ℕ :=
  let count := ((List.range (b + 1)).filter fun i => decide (edge lo hi b i ≤ x)).length
  (if x = edge lo hi b b then count - 1 else count) - 1

/-- `bins` (/repo/src/bmi/estimators/_histogram.py:49): number of cells per column. -/
def bins (p : Params) (d e : ℕ) : Fin (d + e) → ℕ :=
  Fin.append (fun _ : Fin d => p.nBinsX) (fun _ : Fin e => p.nBinsY)

/-- Cell numbers of a sample, over the columns of `space.xy` (/repo/src/bmi/estimators/_histogram.py:51). -/
noncomputable def cellRow {n D : ℕ} (nb : Fin D → ℕ) (xy : Fin n → Fin D → ℝ) (i : Fin n) : List ℕ :=
  List.ofFn fun j =>
    binOf (outerEdges fun i' => xy i' j).1 (outerEdges fun i' => xy i' j).2 (nb j) (xy i j)

/-- `histogram[index]` (/repo/src/bmi/estimators/_histogram.py:51,59): the number of samples in a cell. -/
noncomputable def hist {n D : ℕ} (nb : Fin D → ℕ) (xy : Fin n → Fin D → ℝ) (index : List ℕ) : ℝ :=
  ((List.finRange n).filter fun i => cellRow nb xy i = index).length

/-- `itertools.product(range(b), repeat=d)` (/repo/src/bmi/estimators/_histogram.py:56-57). -/
def product (b : ℕ) : ℕ → List (List ℕ)
  | 0 => [[]]
  | d + 1 => (List.range b).flatMap fun i => (product b d).map fun t => i :: t

/-- `flat_histogram` (/repo/src/bmi/estimators/_histogram.py:55-59) from the histogram as a function of the index. -/
noncomputable def flat (bx dx by_ dy : ℕ) (h : List ℕ → ℝ) : List (List ℝ) :=
  (product bx dx).map fun x => (product by_ dy).map fun y => h (x ++ y)

/-- The estimate from the flat table (/repo/src/bmi/estimators/_histogram.py:64-79). -/
noncomputable def tableMI (rx ry : ℕ) (t : List (List ℝ)) : ℝ :=
  let total := (t.map List.sum).sum
  let pxy := t.map fun r => r.map fun c => c / total
  let px := pxy.map List.sum
  let py := (List.range ry).map fun j => (pxy.map fun r => r.getD j 0).sum
  (List.range rx).foldl (fun mi i =>
    (List.range ry).foldl (fun mi j =>
      let p := (pxy.getD i []).getD j 0
      if p > 0 then mi + p * (Real.log p - Real.log (px.getD i 0) - Real.log (py.getD j 0)) else mi) mi) 0

/-- `HistogramEstimator.estimate` (/repo/src/bmi/estimators/_histogram.py:43-79). -/
noncomputable def estimate (ε : ℝ) (p : Params) (mx my : Mat) : Except Err ℝ :=
  match KSG.space ε p.standardize mx my with
  | .error e => .error e
  | .ok (a, b) =>
    if h : a.n = b.n then
      .ok (tableMI (p.nBinsX ^ a.d) (p.nBinsY ^ b.d)
        (flat p.nBinsX a.d p.nBinsY b.d (hist (bins p a.d b.d) (PSpace.xy a b h))))
    else .error .valueError

end BMI.Histogram
