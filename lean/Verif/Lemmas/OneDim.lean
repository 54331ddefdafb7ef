import Verif.Lemmas.SamplerInv
import Verif.Spec.IdealRandom

/-! Laws of samplers with one-dimensional `X` and `Y`. -/

namespace BMI.Samplers

open MeasureTheory

variable {Key : Type}

/-- A number as a vector with one entry. -/
def single (x : ℝ) : Fin 1 → ℝ := fun _ => x

theorem measurable_single : Measurable single := by unfold single; fun_prop

theorem single_injective : Function.Injective single := fun _ _ h => congrFun h 0

/-- A law on pairs of numbers as a law on pairs of vectors with one entry. -/
noncomputable def liftPair (P : Measure (ℝ × ℝ)) : Measure ((Fin 1 → ℝ) × (Fin 1 → ℝ)) :=
  P.map (Prod.map single single)

instance (P : Measure (ℝ × ℝ)) [IsProbabilityMeasure P] : IsProbabilityMeasure (liftPair P) :=
  Measure.isProbabilityMeasure_map (measurable_single.prodMap measurable_single).aemeasurable

theorem mutualInfo_liftPair (P : Measure (ℝ × ℝ)) [IsProbabilityMeasure P] :
    mutualInfo (liftPair P) = mutualInfo P :=
  mutualInfo_map_eq_of_injOn P measurable_single measurable_single MeasurableSet.univ MeasurableSet.univ
    (by simp) (by simp) single_injective.injOn single_injective.injOn

theorem pi_pi_one {α : Type} [MeasurableSpace α] (n : ℕ) (μ : Measure α) [IsProbabilityMeasure μ] :
    (Measure.pi fun _ : Fin n => Measure.pi fun _ : Fin 1 => μ).map (fun a i => a i 0) = Measure.pi fun _ => μ := by
  have h : (Measure.pi fun _ : Fin 1 => μ).map (fun a => a 0) = μ := (measurePreserving_eval (fun _ : Fin 1 => μ) 0).map_eq
  conv_rhs => rw [← h]
  have : IsProbabilityMeasure ((Measure.pi fun _ : Fin 1 => μ).map (fun a => a 0)) := by rw [h]; infer_instance
  exact Measure.pi_map_pi (f := fun _ (a : Fin 1 → α) => a 0) fun _ => (measurable_pi_apply 0).aemeasurable

theorem pi_zip {α β : Type} [MeasurableSpace α] [MeasurableSpace β] (n : ℕ) (μ : Measure α) (ν : Measure β)
    [IsProbabilityMeasure μ] [IsProbabilityMeasure ν] :
    ((Measure.pi fun _ : Fin n => μ).prod (Measure.pi fun _ : Fin n => ν)).map (fun z i => (z.1 i, z.2 i))
      = Measure.pi fun _ => μ.prod ν :=
  (measurePreserving_arrowProdEquivProdArrow α β (Fin n) (fun _ => μ) (fun _ => ν)).symm.map_eq

theorem split_two [MeasurableSpace Key] {R : JaxRandom Key} {κ : Measure Key} [IsProbabilityMeasure κ]
    (h : IdealSplit R κ) : Measurable (fun k => (R.split k 2 0, R.split k 2 1)) ∧
      κ.map (fun k => (R.split k 2 0, R.split k 2 1)) = κ.prod κ := by
  obtain ⟨h1, h2⟩ := h 2
  have hm : Measurable fun a : Fin 2 → Key => (a 0, a 1) := by fun_prop
  refine ⟨hm.comp h1, ?_⟩
  have h3 := (measurePreserving_finTwoArrow κ).map_eq
  rw [← h3, ← h2, Measure.map_map (MeasurableEquiv.measurable _) h1]
  rfl

/-- Independent draws of pairs from two split keys. -/
theorem two_draws [MeasurableSpace Key] {R : JaxRandom Key} {κ : Measure Key} [IsProbabilityMeasure κ]
    (hs : IdealSplit R κ) {α β : Type} [MeasurableSpace α] [MeasurableSpace β] (μ : Measure α) (ν : Measure β)
    [IsProbabilityMeasure μ] [IsProbabilityMeasure ν] (n : ℕ) (A : Key → Fin n → Fin 1 → α)
    (B : Key → Fin n → Fin 1 → β) (hA : Measurable A) (hB : Measurable B)
    (lA : κ.map A = Measure.pi fun _ => Measure.pi fun _ => μ)
    (lB : κ.map B = Measure.pi fun _ => Measure.pi fun _ => ν) (F : α × β → ℝ × ℝ) (hF : Measurable F) :
    Measurable (fun k (i : Fin n) =>
        Prod.map single single (F (A (R.split k 2 0) i 0, B (R.split k 2 1) i 0))) ∧
      κ.map (fun k (i : Fin n) => Prod.map single single (F (A (R.split k 2 0) i 0, B (R.split k 2 1) i 0)))
        = Measure.pi fun _ => liftPair ((μ.prod ν).map F) := by
  obtain ⟨m2, l2⟩ := split_two hs
  have mev : ∀ {γ : Type} [MeasurableSpace γ], Measurable fun (a : Fin n → Fin 1 → γ) i => a i 0 := by
    intro γ _
    fun_prop
  have mAB : Measurable (Prod.map (fun k i => A k i 0) (fun k i => B k i 0)) :=
    (mev.comp hA).prodMap (mev.comp hB)
  have mz : Measurable fun (z : (Fin n → α) × (Fin n → β)) i => (z.1 i, z.2 i) := by fun_prop
  have mG : Measurable fun z : α × β => Prod.map single single (F z) :=
    (measurable_single.prodMap measurable_single).comp hF
  have mG' : Measurable fun (z : Fin n → α × β) i => Prod.map single single (F (z i)) :=
    measurable_pi_lambda _ fun i => mG.comp (measurable_pi_apply i)
  have key : κ.map (fun k (i : Fin n) => (A (R.split k 2 0) i 0, B (R.split k 2 1) i 0))
      = Measure.pi fun _ => μ.prod ν := by
    have e : (fun k (i : Fin n) => (A (R.split k 2 0) i 0, B (R.split k 2 1) i 0))
        = (fun (z : (Fin n → α) × (Fin n → β)) i => (z.1 i, z.2 i)) ∘
          (Prod.map (fun k i => A k i 0) (fun k i => B k i 0)) ∘ (fun k => (R.split k 2 0, R.split k 2 1)) := rfl
    have mA : Measurable fun k (i : Fin n) => A k i 0 := mev.comp hA
    have mB : Measurable fun k (i : Fin n) => B k i 0 := mev.comp hB
    rw [e, ← Measure.map_map mz (mAB.comp m2), ← Measure.map_map mAB m2, l2, ← Measure.map_prod_map _ _ mA mB]
    have eA : κ.map (fun k i => A k i 0) = Measure.pi fun _ : Fin n => μ := by
      rw [← pi_pi_one n μ, ← lA, Measure.map_map mev hA]
      rfl
    have eB : κ.map (fun k i => B k i 0) = Measure.pi fun _ : Fin n => ν := by
      rw [← pi_pi_one n ν, ← lB, Measure.map_map mev hB]
      rfl
    rw [eA, eB, pi_zip]
  have mk : Measurable (fun k (i : Fin n) => (A (R.split k 2 0) i 0, B (R.split k 2 1) i 0)) := mz.comp (mAB.comp m2)
  refine ⟨mG'.comp mk, ?_⟩
  have e : (fun k (i : Fin n) => Prod.map single single (F (A (R.split k 2 0) i 0, B (R.split k 2 1) i 0)))
      = (fun (z : Fin n → α × β) i => Prod.map single single (F (z i))) ∘
        (fun k (i : Fin n) => (A (R.split k 2 0) i 0, B (R.split k 2 1) i 0)) := rfl
  rw [e, ← Measure.map_map mG' mk, key]
  have h1 := Measure.pi_map_pi (μ := fun _ : Fin n => μ.prod ν) (f := fun _ z => Prod.map single single (F z))
    (hμ := fun _ => (by
      have := Measure.isProbabilityMeasure_map (μ := μ.prod ν) mG.aemeasurable
      infer_instance))
    (fun _ => mG.aemeasurable)
  rw [h1]
  congr 1
  funext i
  unfold liftPair
  rw [Measure.map_map (measurable_single.prodMap measurable_single) hF]
  rfl

end BMI.Samplers
