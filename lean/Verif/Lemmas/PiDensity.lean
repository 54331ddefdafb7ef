import Mathlib.MeasureTheory.Constructions.Pi
import Mathlib.MeasureTheory.Measure.Prod
import Mathlib.MeasureTheory.Measure.WithDensity

/-! Densities of product measures. -/

namespace BMI

open MeasureTheory

theorem lintegral_pi_prod {n : ℕ} {E : Type*} [MeasurableSpace E] (μ : Fin n → Measure E) [∀ i, SigmaFinite (μ i)]
    (f : Fin n → E → ENNReal) (hf : ∀ i, Measurable (f i)) :
    ∫⁻ x, ∏ i, f i (x i) ∂(Measure.pi μ) = ∏ i, ∫⁻ x, f i x ∂(μ i) := by
  induction n with
  | zero => simp
  | succ n ih =>
    have hm : Measurable fun x : Fin n → E => ∏ i, f (Fin.succ i) (x i) :=
      Finset.measurable_fun_prod _ fun i _ => (hf _).comp (measurable_pi_apply i)
    have h := (measurePreserving_piFinSuccAbove (fun i => μ i) 0).symm
    rw [← h.map_eq, lintegral_map_equiv, Fin.prod_univ_succ, ← ih (fun i => μ i.succ) (fun i => f i.succ) fun i => hf _,
      ← lintegral_prod_mul (hf 0).aemeasurable hm.aemeasurable]
    simp only [Fin.prod_univ_succ]
    rfl

theorem pi_withDensity {n : ℕ} {E : Type*} [MeasurableSpace E] (μ : Fin n → Measure E) [∀ i, SigmaFinite (μ i)]
    (f : Fin n → E → ENNReal) (hf : ∀ i, Measurable (f i)) [∀ i, SigmaFinite ((μ i).withDensity (f i))] :
    (Measure.pi fun i => (μ i).withDensity (f i)) = (Measure.pi μ).withDensity fun x => ∏ i, f i (x i) := by
  refine Measure.pi_eq fun s hs => ?_
  rw [withDensity_apply _ (MeasurableSet.univ_pi hs), Measure.restrict_pi_pi, lintegral_pi_prod _ f hf]
  refine Finset.prod_congr rfl fun i _ => ?_
  rw [withDensity_apply _ (hs i)]

end BMI
