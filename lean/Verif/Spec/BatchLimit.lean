import Mathlib.MeasureTheory.Constructions.Pi
import Mathlib.MeasureTheory.Integral.Lebesgue.Basic
import Mathlib.Data.EReal.Basic

/-! What it means that a quantity computed from a batch of pairs settles when the batch grows. -/

namespace BMI.Batch

open MeasureTheory Filter Topology

variable {X Y : Type} [MeasurableSpace X] [MeasurableSpace Y]

/-- On batches of independent pairs with law `P`, the quantity is a finite number as soon as there are two pairs, and its mean distance from
`c` tends to zero as the batch grows. -/
def MeanConverges (P : Measure (X × Y)) (quantity : List X → List Y → EReal) (c : ℝ) : Prop :=
  (∀ n, 2 ≤ n → ∀ (x : Fin n → X) (y : Fin n → Y), ∃ v : ℝ, quantity (List.ofFn x) (List.ofFn y) = v) ∧
  (∀ n, 2 ≤ n → Measurable fun b : Fin n → X × Y => (quantity (List.ofFn fun i => (b i).1) (List.ofFn fun i => (b i).2)).toReal) ∧
  Tendsto (fun n => ∫⁻ b : Fin n → X × Y, ENNReal.ofReal |(quantity (List.ofFn fun i => (b i).1) (List.ofFn fun i => (b i).2)).toReal - c|
    ∂(Measure.pi fun _ : Fin n => P)) atTop (𝓝 0)

end BMI.Batch
