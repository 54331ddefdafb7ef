import Verif.Model.Appearing
import Verif.Spec.MutualInfo
import Mathlib.MeasureTheory.Measure.Lebesgue.Basic
import Mathlib.Analysis.SpecialFunctions.Log.Basic
import Mathlib.Probability.ConditionalProbability

/-! Specification for C81: densities of uniform laws in the plane, and what a panel is to show. -/

namespace BMI.Appearing

open MeasureTheory ProbabilityTheory

/-- The open squares of the illustration. -/
def square (a b : ℝ) : Set (ℝ × ℝ) := Set.Ioo a (a + 1) ×ˢ Set.Ioo b (b + 1)

open scoped Classical in
/-- The density of the uniform law on the set `S`, `1 / area` inside and `0` outside. -/
noncomputable def uniformDensity (S : Set (ℝ × ℝ)) (z : ℝ × ℝ) : ℝ := if z ∈ S then 1 / (volume S).toReal else 0

/-- The number behind the title of a panel. -/
noncomputable def ofTitle : String → Option ℝ
  | "$I=0$" => some 0
  | "$I=\\log 2$" => some (Real.log 2)
  | _ => none

/-- The panel shows the density of the uniform law on the open set `S` at the points of a grid with `50` points along each side of the
square `[0, 2]²`, the lowest row first; all its numbers are in the range of the colours; its title is the mutual information. -/
structure Shows (panel : Panel) (S : Set (ℝ × ℝ)) : Prop where
  isOpen : IsOpen S
  law : IsProbabilityMeasure (volume[|S]) ∧ volume[|S] = volume.withDensity fun z => ENNReal.ofReal (uniformDensity S z)
  rows : panel.rows.length = 50 ∧ ∀ i : Fin 50, ∃ row, panel.rows[(i : ℕ)]? = some row ∧ row.length = 50 ∧
    ∀ j : Fin 50, row[(j : ℕ)]? = some (uniformDensity S (2 * (j : ℝ) / 49, 2 * (i : ℝ) / 49))
  range : ∀ row ∈ panel.rows, ∀ v ∈ row, panel.vmin ≤ v ∧ v ≤ panel.vmax
  extent : panel.extent = (0, 2, 0, 2)
  title : ∃ mi, ofTitle panel.title = some mi ∧ mutualInfo (volume[|S]) = ENNReal.ofReal mi ∧ 0 ≤ mi

end BMI.Appearing
