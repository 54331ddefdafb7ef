import Verif.Model.MiFigure

/-! Specification of the figures which show estimates against a parameter of the tasks. -/

namespace BMI.MiFigure

open BMI.Run (Dict)

/-- The average of some numbers; there is none of no numbers. -/
def IsAverage (vs : List ℝ) (a : Option ℝ) : Prop :=
  (vs = [] → a = none) ∧ (vs ≠ [] → ∃ m, a = some m ∧ vs.length * m = vs.sum)

/-- The band around the average `m` of at least two numbers: from `m - s` to `m + s`, where `s²` is the sum of the squared differences from
`m` divided by one less than their number; there is none of fewer numbers. -/
def IsBand (vs : List ℝ) (b : Option (ℝ × ℝ)) : Prop :=
  (vs.length < 2 → b = none) ∧ (2 ≤ vs.length → ∃ m s, b = some (m - s, m + s) ∧ vs.length * m = vs.sum ∧ 0 ≤ s ∧
    ((vs.length : ℝ) - 1) * s ^ 2 = (vs.map fun v => (v - m) ^ 2).sum)

open Classical in
/-- The estimates of an estimator at a value of the parameter. -/
noncomputable def estimates (rows : List Row) (e : String) (x : ℝ) : List ℝ :=
  rows.filterMap fun r => if r.est = e ∧ r.x = some x then r.mi else none

open Classical in
/-- The true values at a value of the parameter. -/
noncomputable def truths (rows : List Row) (x : ℝ) : List ℝ := rows.filterMap fun r => if r.x = some x then r.miTrue else none

/-- What the curve of an estimator should show: from left to right, at each value of the parameter for which it has a row, the average of
its estimates and the band. -/
structure IsCurve (rows : List Row) (e : String) (c : Curve) : Prop where
  increasing : (c.points.map Prod.fst).Pairwise (· < ·)
  places : ∀ x, x ∈ c.points.map Prod.fst ↔ ∃ r ∈ rows, r.est = e ∧ r.x = some x
  heights : ∀ p ∈ c.points, IsAverage (estimates rows e p.1) p.2
  band_places : c.band.map Prod.fst = c.points.map Prod.fst
  band : ∀ b ∈ c.band, IsBand (estimates rows e b.1) b.2

/-- What the figure should show: a curve for each estimator which has a row, with its colour and its name, in alphabetical order, and a
curve of the average true values. -/
structure IsFigure (colors names : Dict String) (rows : List Row) (f : Fig) : Prop where
  curves : ∃ ids : List String, ids.Pairwise (· < ·) ∧ (∀ e, e ∈ ids ↔ ∃ r ∈ rows, r.est = e) ∧
    List.Forall₂ (fun e c => colors.get e = some c.color ∧ names.get e = some c.label ∧ IsCurve rows e c) ids f.curves
  increasing : (f.truth.map Prod.fst).Pairwise (· < ·)
  places : ∀ x, x ∈ f.truth.map Prod.fst ↔ ∃ r ∈ rows, r.x = some x
  heights : ∀ p ∈ f.truth, IsAverage (truths rows p.1) p.2
  bottom : f.bottom = 0

open BMI.Training (Fl) in
/-- A line of the results with an estimate below the bound. -/
def Kept {V P : Type} (bound : ℝ) (l : Workflow.Line ℝ (Fl ℝ) V P) : Prop := ∃ v < bound, l.result.mi = .num v

open BMI.Training (Fl) in
/-- What a row of the frame should say about a line of the results, where `place l x` tells whether the line belongs to the value `x` of the
parameter. -/
structure Shows {V P : Type} (place : Workflow.Line ℝ (Fl ℝ) V P → ℝ → Prop) (l : Workflow.Line ℝ (Fl ℝ) V P) (r : Row) : Prop where
  est : r.est = l.result.estimatorId
  x : ∀ x, r.x = some x ↔ place l x
  mi : ∀ v, r.mi = some v ↔ l.result.mi = .num v
  miTrue : ∀ v, r.miTrue = some v ↔ l.miTrue = .num v

open Classical BMI.Training in
/-- What a panel should show of the lines of the results: the figure of the rows with an estimate below 3. -/
def IsPanel {V P : Type} (place : Workflow.Line ℝ (Fl ℝ) V P → ℝ → Prop) (lines : List (Workflow.Line ℝ (Fl ℝ) V P)) (f : Fig) : Prop :=
  ∃ rows, List.Forall₂ (Shows place) (lines.filter fun l => Kept 3 l) rows ∧ IsFigure estimatorColors estimatorNames rows f

/-- A point turned by an angle. -/
noncomputable def turned (angle : ℝ) (p : ℝ × ℝ) : ℝ × ℝ :=
  (Real.cos angle * p.1 - Real.sin angle * p.2, Real.sin angle * p.1 + Real.cos angle * p.2)

end BMI.MiFigure
