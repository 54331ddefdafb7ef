import Verif.Model.SparsityFigure
import Verif.Spec.MiFigure
import Verif.Spec.CoolTasks
import Verif.Spec.HighMi
import Verif.Spec.NormalTasks
import Verif.Spec.IdealRandom

/-! Specification of the workflow and the two figures between dense and sparse interactions. -/

namespace BMI.SparsityFigure

open MeasureTheory BMI.Samplers
open BMI.Training (Fl)
open BMI.ReadResults (PVal)
open BMI.MiFigure (Shows IsFigure Fig Kept)
open BMI.TaskIds (Format)

variable {Key V : Type} [MeasurableSpace Key]

/-- The largest `α`. -/
noncomputable def top : ℝ := 18865 / 16384

/-- The numbers of interacting pairs and the values of `α`: ten pairs and `α` from 0 up in ten steps, then one to nine pairs and `α = 0`. -/
noncomputable def settings : List (ℕ × ℝ) :=
  (List.range 10).map (fun i : ℕ => (10, (i : ℝ) * (top / 9))) ++ (List.range' 1 9).map fun k : ℕ => (k, (0 : ℝ))

/-- The correlations of `Xᵢ = α U + λ Zᵢ + Eᵢ` and `Yᵢ = α U + λ Zᵢ + Fᵢ`, where from the `k`-th on `Zᵢ` in `Yᵢ` is replaced by another
variable. -/
structure IsShade (k : ℕ) (α l : ℝ) (M : Matrix (Fin (10 + 10)) (Fin (10 + 10)) ℝ) : Prop where
  xx : ∀ i j : Fin 10, M (Fin.castAdd 10 i) (Fin.castAdd 10 j) = if i = j then 1 else α ^ 2 / (1 + α ^ 2 + l ^ 2)
  yy : ∀ i j : Fin 10, M (Fin.natAdd 10 i) (Fin.natAdd 10 j) = if i = j then 1 else α ^ 2 / (1 + α ^ 2 + l ^ 2)
  xy : ∀ i j : Fin 10, M (Fin.castAdd 10 i) (Fin.natAdd 10 j) =
    if i = j ∧ (i : ℕ) < k then (α ^ 2 + l ^ 2) / (1 + α ^ 2 + l ^ 2) else α ^ 2 / (1 + α ^ 2 + l ^ 2)
  yx : ∀ i j : Fin 10, M (Fin.natAdd 10 i) (Fin.castAdd 10 j) = M (Fin.castAdd 10 j) (Fin.natAdd 10 i)

/-- The law of the pairs with these correlations. -/
noncomputable def pairs (M : Matrix (Fin (10 + 10)) (Fin (10 + 10)) ℝ) : Measure ((Fin 10 → ℝ) × (Fin 10 → ℝ)) :=
  (normalLaw 0 M).map fun z => (fun i => z (Fin.castAdd 10 i), fun i => z (Fin.natAdd 10 i))

/-- The task for `k` pairs and `α`: its number is the mutual information of the law and almost one; its samples are standardised draws from
it. -/
structure IsTask (R : JaxRandom Key) (κ : Measure Key) (eps : ℝ) (p : ℕ × ℝ) (t : String × Task.Task ℝ ℝ (String × PVal ℝ)) : Prop where
  id : t.2.id = .ok t.1
  params : ∃ d : Run.Dict (PVal ℝ), t.2.getParams = .ok d ∧ d.get "n_interacting" = some (.int p.1) ∧ d.get "alpha" = some (.float p.2)
  law : ∃ l M s, 0 < l ∧ l < 10 ∧ IsShade p.1 p.2 l M ∧ Correct R κ s 10 10 (pairs M) ∧ |s.mi - 1| < 1e-4 ∧
    t.2.dimX = .ok 10 ∧ t.2.dimY = .ok 10 ∧ t.2.mi = .ok (.num s.mi) ∧
    ∀ n, 0 < n → ∀ seed, ∃ x y w u, s.sample n (.seed seed) = .ok (rowsOf (n := n) (d := 10) x, rowsOf (n := n) (d := 10) y) ∧
      t.2.sample n seed = .ok (.mat n 10 w, .mat n 10 u) ∧ CoolTasks.Standardised eps x w ∧ CoolTasks.Standardised eps y u

/-- A line of the results is about ten pairs and `α = x`. -/
def AboutAlpha (ts : List (String × Task.Task ℝ ℝ (String × PVal ℝ))) (l : Workflow.Line ℝ (Fl ℝ) V (String × PVal ℝ)) (x : ℝ) : Prop :=
  ∃ p ∈ settings.zip ts, p.1 = (10, x) ∧ l.result.taskId = p.2.1

/-- A line of the results is about `x` pairs and `α = 0`. -/
def AboutPairs (ts : List (String × Task.Task ℝ ℝ (String × PVal ℝ))) (l : Workflow.Line ℝ (Fl ℝ) V (String × PVal ℝ)) (x : ℝ) : Prop :=
  ∃ p ∈ settings.zip ts, (p.1.1 : ℝ) = x ∧ p.1.2 = 0 ∧ l.result.taskId = p.2.1

open Classical in
/-- What a panel should show: the estimates below 3 for its tasks, and a dotted curve over the same places which is off one by less than
0.0001. -/
structure IsSparse (place : Workflow.Line ℝ (Fl ℝ) V (String × PVal ℝ) → ℝ → Prop) (lines : List (Workflow.Line ℝ (Fl ℝ) V (String × PVal ℝ)))
    (f : Fig) : Prop where
  figure : ∃ rows, List.Forall₂ (Shows place) (lines.filter fun l => Kept 3 l ∧ ∃ x, place l x) rows ∧
    IsFigure MiFigure.estimatorColors MiFigure.estimatorNames rows f
  places : ∀ x, x ∈ f.truth.map Prod.fst ↔ ∃ l ∈ lines, Kept 3 l ∧ place l x
  flat : ∀ p ∈ f.truth, ∃ a, p.2 = some a ∧ |a - 1| < 1e-4

/-- What the printing of numbers with five digits guarantees: numbers which are not negative and differ by more than 0.00001 look different,
and no dash, slash or end of line is printed. -/
structure Prints (fm : Format ℝ) : Prop where
  close : ∀ x y, 0 ≤ x → 0 ≤ y → fm.fix5 x = fm.fix5 y → |x - y| ≤ 1e-5
  nodash : ∀ x, 0 ≤ x → '-' ∉ fm.fix5 x
  plain : ∀ x, 0 ≤ x → '\n' ∉ fm.fix5 x ∧ '/' ∉ fm.fix5 x

/-- The heatmaps: numbers of pairs, values of `α`, and titles. -/
noncomputable def shown : List (ℕ × ℝ × String) :=
  [(10, top, "$\\alpha$=1.2"), (10, 4 / 5 * top, "$\\alpha$=0.9"), (10, 2 / 5 * top, "$\\alpha$=0.5"), (10, 0, "$K$=10"), (5, 0, "$K$=5"),
   (1, 0, "$K$=1")]

/-- What a heatmap should show: correlations of a task with a mutual information of almost one, from white for 0 to black for 1, the first ten
rows and columns marked as `X` and the others as `Y`. -/
structure IsHeatmap (R : JaxRandom Key) (κ : Measure Key) (q : ℕ × ℝ × String) (h : Heatmap) : Prop where
  title : h.title = q.2.2
  matrix : ∃ l M s, 0 < l ∧ l < 10 ∧ IsShade q.1 q.2.1 l M ∧ Correct R κ s 10 10 (pairs M) ∧ |s.mi - 1| < 1e-4 ∧ h.matrix = rowsOf M
  ends : h.vmin = 0 ∧ h.vmax = 1
  marks : h.line = 10 ∧ h.ticks = [(5, "$X$"), (15, "$Y$")]
  visible : ∀ r ∈ h.matrix, ∀ c ∈ r, h.vmin ≤ c ∧ c ≤ h.vmax

end BMI.SparsityFigure
