import Verif.Model.HighMi
import Verif.Spec.MiFigure
import Verif.Spec.CoolTasks
import Verif.Spec.Transforms
import Verif.Spec.MatrixUtils
import Verif.Spec.IdealRandom

/-! Specification of the figure with growing mutual information. -/

namespace BMI.HighMi

open MeasureTheory BMI.Samplers
open BMI.Training (Fl)
open BMI.MiFigure (Shows IsFigure Fig)

variable {Key V : Type} [MeasurableSpace Key]

/-- The families, in the order of the panels, with the beginnings of the identifiers. -/
def panels : List (String × String) :=
  [("Half-cube", "half_cube-sparse-gaussian-"), ("Sparse Gaussian", "sparse-gaussian-"), ("Spiral", "spiral-sparse-gaussian-")]

/-- The shown values with the ends of the identifiers. -/
noncomputable def values : List (String × ℝ) :=
  [("0.000", 0), ("0.500", 1 / 2), ("1.000", 1), ("1.500", 3 / 2), ("2.000", 2), ("3.000", 3), ("4.000", 4), ("5.000", 5)]

/-- The families in the order of the tasks. -/
def order : List (String × String) :=
  [("Sparse Gaussian", "sparse-gaussian-"), ("Spiral", "spiral-sparse-gaussian-"), ("Half-cube", "half_cube-sparse-gaussian-")]

/-- How a family distorts the normal pairs: signed powers of 3/2 of all coordinates, or `X` turned in the plane of the first two coordinates
and `Y` in that of the last two by a ninth of the squared length. -/
noncomputable def warp (family : String) : (Fin 3 → ℝ) × (Fin 3 → ℝ) → (Fin 3 → ℝ) × (Fin 3 → ℝ) :=
  if family = "Half-cube" then Prod.map (fun v i => v i * √|v i|) fun v i => v i * √|v i|
  else if family = "Spiral" then Prod.map (fun x => turn 0 1 (1 / 9 * sumSq x) x) fun y => turn 1 2 (1 / 9 * sumSq y) y
  else id

/-- The laws of a family: pairs of normal vectors, the first two pairs of coordinates correlated by some `c`, distorted. -/
def IsMember (family : String) (Q : Measure ((Fin 3 → ℝ) × (Fin 3 → ℝ))) : Prop :=
  ∃ (c : ℝ) (m : Matrix _ _ ℝ), |c| < 1 ∧ MatrixUtils.IsParametrised (dx := 3) (dy := 3) 2 c 0 0 m ∧
    Q = ((normalLaw (fun _ => 0) m).map fun z => (fun i => z (Fin.castAdd 3 i), fun i => z (Fin.natAdd 3 i))).map (warp family)

/-- The task of a family for the value `v`: its number is the mutual information of a law of the family and almost the wanted one; its samples
are standardised draws from that law. -/
structure IsTask (R : JaxRandom Key) (κ : Measure Key) (eps : ℝ) (p : String × String) (v : String × ℝ)
    (t : String × Task.Task ℝ ℝ (String × Param)) : Prop where
  key : t.1 = p.2 ++ v.1
  id : t.2.id = .ok (p.2 ++ v.1)
  params : ∃ d : Run.Dict Param, t.2.getParams = .ok d ∧ d.get "desired_mi" = some (.float v.2) ∧ d.get "family_name" = some (.str p.1)
  law : ∃ Q s, IsMember p.1 Q ∧ Correct R κ s 3 3 Q ∧ |s.mi - v.2| < 1e-4 ∧ t.2.dimX = .ok 3 ∧ t.2.dimY = .ok 3 ∧ t.2.mi = .ok (.num s.mi) ∧
    ∀ n, 0 < n → ∀ seed, ∃ x y w u, s.sample n (.seed seed) = .ok (rowsOf (n := n) (d := 3) x, rowsOf (n := n) (d := 3) y) ∧
      t.2.sample n seed = .ok (.mat n 3 w, .mat n 3 u) ∧ CoolTasks.Standardised eps x w ∧ CoolTasks.Standardised eps y u

/-- A line of the results is about the value `x` in a family. -/
def About (start : String) (l : Workflow.Line ℝ (Fl ℝ) V (String × Param)) (x : ℝ) : Prop :=
  ∃ v ∈ values, v.2 = x ∧ l.result.taskId = start ++ v.1

open Classical in
/-- What a panel should show: the estimates for the tasks of the family against the wanted values, and a dotted curve over all of them which
is off the diagonal by less than 0.0001. -/
structure IsHigh (start : String) (lines : List (Workflow.Line ℝ (Fl ℝ) V (String × Param))) (f : Fig) : Prop where
  figure : ∃ rows, List.Forall₂ (Shows (About start)) (lines.filter fun l => ∃ x, About start l x) rows ∧
    IsFigure MiFigure.estimatorColors MiFigure.estimatorNames rows f
  places : ∀ x, x ∈ f.truth.map Prod.fst ↔ ∃ v ∈ values, v.2 = x
  diagonal : ∀ p ∈ f.truth, ∃ a, p.2 = some a ∧ |a - p.1| < 1e-4

/-- All estimators end, and what they report can be read back. -/
structure Usable (E : World V) : Prop where
  alive : ∀ e ∈ MiFigure.estimators, (∀ p, (E.est e).onPath p ≠ .abort) ∧ ∀ x y, (E.est e).onData x y ≠ .abort
  yaml : ∀ d, ∃ d', E.yaml d = .ok d'

end BMI.HighMi
