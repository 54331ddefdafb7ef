import Verif.Spec.MutualInfo
import Mathlib.InformationTheory.KullbackLeibler.ChainRule
import Mathlib.InformationTheory.KullbackLeibler.DataProcessing
import Mathlib.MeasureTheory.Constructions.Polish.Basic
import Mathlib.MeasureTheory.Constructions.Pi
import Mathlib.Probability.ProductMeasure

/-! General facts about mutual information. -/

namespace BMI

open MeasureTheory ProbabilityTheory InformationTheory

variable {X Y X' Y' : Type*} [MeasurableSpace X] [MeasurableSpace Y] [MeasurableSpace X'] [MeasurableSpace Y']

theorem map_fst_prodMap (P : Measure (X × Y)) {f : X → X'} {g : Y → Y'} (hf : Measurable f) (hg : Measurable g) :
    (P.map (Prod.map f g)).fst = P.fst.map f := by
  unfold Measure.fst
  rw [Measure.map_map measurable_fst (hf.prodMap hg), Measure.map_map hf measurable_fst]
  rfl

theorem map_snd_prodMap (P : Measure (X × Y)) {f : X → X'} {g : Y → Y'} (hf : Measurable f) (hg : Measurable g) :
    (P.map (Prod.map f g)).snd = P.snd.map g := by
  unfold Measure.snd
  rw [Measure.map_map measurable_snd (hf.prodMap hg), Measure.map_map hg measurable_snd]
  rfl

/-- Data processing: maps applied to each variable separately cannot increase the mutual information. -/
theorem mutualInfo_map_le (P : Measure (X × Y)) [IsProbabilityMeasure P] {f : X → X'} {g : Y → Y'}
    (hf : Measurable f) (hg : Measurable g) : mutualInfo (P.map (Prod.map f g)) ≤ mutualInfo P := by
  unfold mutualInfo
  rw [map_fst_prodMap P hf hg, map_snd_prodMap P hf hg, Measure.map_prod_map _ _ hf hg]
  exact klDiv_map_le _ _ (hf.prodMap hg)

/-- Maps that can be undone almost surely by measurable maps keep the mutual information. -/
theorem mutualInfo_map_eq_of_leftInverse (P : Measure (X × Y)) [IsProbabilityMeasure P] {f : X → X'} {g : Y → Y'}
    (hf : Measurable f) (hg : Measurable g) {f' : X' → X} {g' : Y' → Y} (hf' : Measurable f')
    (hg' : Measurable g') (h1 : ∀ᵐ x ∂P.fst, f' (f x) = x) (h2 : ∀ᵐ y ∂P.snd, g' (g y) = y) :
    mutualInfo (P.map (Prod.map f g)) = mutualInfo P := by
  refine le_antisymm (mutualInfo_map_le P hf hg) ?_
  have hprob : IsProbabilityMeasure (P.map (Prod.map f g)) :=
    Measure.isProbabilityMeasure_map (hf.prodMap hg).aemeasurable
  have e : (P.map (Prod.map f g)).map (Prod.map f' g') = P := by
    rw [Measure.map_map (hf'.prodMap hg') (hf.prodMap hg)]
    conv_rhs => rw [← Measure.map_id (μ := P)]
    refine Measure.map_congr ?_
    have a1 : ∀ᵐ z ∂P, f' (f z.1) = z.1 := ae_of_ae_map measurable_fst.aemeasurable h1
    have a2 : ∀ᵐ z ∂P, g' (g z.2) = z.2 := ae_of_ae_map measurable_snd.aemeasurable h2
    filter_upwards [a1, a2] with z h3 h4
    simp [Prod.map, h3, h4]
  calc mutualInfo P = mutualInfo ((P.map (Prod.map f g)).map (Prod.map f' g')) := by rw [e]
    _ ≤ _ := mutualInfo_map_le _ hf' hg'

/-- A measurable map that is injective on a measurable set of full measure has an almost sure left inverse. -/
theorem exists_leftInverse_of_injOn [StandardBorelSpace X] [MeasurableSpace.CountablySeparated X'] [Nonempty X]
    (μ : Measure X) {f : X → X'} (hf : Measurable f) {S : Set X} (hS : MeasurableSet S) (hμ : ∀ᵐ x ∂μ, x ∈ S)
    (hinj : Set.InjOn f S) : ∃ f' : X' → X, Measurable f' ∧ ∀ᵐ x ∂μ, f' (f x) = x := by
  have : StandardBorelSpace S := hS.standardBorel
  have hemb : MeasurableEmbedding (fun x : S => f x) :=
    Measurable.measurableEmbedding (hf.comp measurable_subtype_coe) (fun a b h =>
      Subtype.ext (hinj a.2 b.2 h))
  obtain ⟨f', hf', he⟩ := hemb.exists_measurable_extend (measurable_subtype_coe (p := (· ∈ S))) (fun _ => inferInstance)
  refine ⟨f', hf', ?_⟩
  filter_upwards [hμ] with x hx
  exact congrFun he ⟨x, hx⟩

/-- Maps that are injective on sets of full measure keep the mutual information. -/
theorem mutualInfo_map_eq_of_injOn [StandardBorelSpace X] [StandardBorelSpace Y] [MeasurableSpace.CountablySeparated X']
    [MeasurableSpace.CountablySeparated Y'] (P : Measure (X × Y)) [IsProbabilityMeasure P] {f : X → X'} {g : Y → Y'}
    (hf : Measurable f) (hg : Measurable g) {S : Set X} {T : Set Y} (hS : MeasurableSet S) (hT : MeasurableSet T)
    (hPS : ∀ᵐ x ∂P.fst, x ∈ S) (hPT : ∀ᵐ y ∂P.snd, y ∈ T)
    (hfi : Set.InjOn f S) (hgi : Set.InjOn g T) :
    mutualInfo (P.map (Prod.map f g)) = mutualInfo P := by
  have hne : Nonempty (X × Y) := by
    by_contra h
    rw [not_nonempty_iff] at h
    have := measure_univ (μ := P)
    rw [Set.univ_eq_empty_iff.2 h] at this
    simp at this
  have hX : Nonempty X := hne.map Prod.fst
  have hY : Nonempty Y := hne.map Prod.snd
  obtain ⟨f', h1, h2⟩ := exists_leftInverse_of_injOn P.fst hf hS hPS hfi
  obtain ⟨g', h3, h4⟩ := exists_leftInverse_of_injOn P.snd hg hT hPT hgi
  exact mutualInfo_map_eq_of_leftInverse P hf hg h1 h3 h2 h4

theorem klDiv_map_equiv {α β : Type*} [MeasurableSpace α] [MeasurableSpace β] (e : α ≃ᵐ β) (μ ν : Measure α)
    [IsFiniteMeasure μ] [IsFiniteMeasure ν] : klDiv (μ.map e) (ν.map e) = klDiv μ ν := by
  refine le_antisymm (klDiv_map_le _ _ e.measurable) ?_
  have h := klDiv_map_le (μ.map e) (ν.map e) e.symm.measurable
  rwa [Measure.map_map e.symm.measurable e.measurable, Measure.map_map e.symm.measurable e.measurable,
    e.symm_comp_self, Measure.map_id, Measure.map_id] at h

theorem klDiv_prod {α β : Type*} [MeasurableSpace α] [MeasurableSpace β] (μ ν : Measure α) (μ' ν' : Measure β)
    [IsProbabilityMeasure μ] [IsProbabilityMeasure ν] [IsProbabilityMeasure μ'] [IsProbabilityMeasure ν'] :
    klDiv (μ.prod μ') (ν.prod ν') = klDiv μ ν + klDiv μ' ν' := by
  have h1 := klDiv_compProd_eq_add μ ν (Kernel.const α μ') (Kernel.const α ν')
  rw [Measure.compProd_const, Measure.compProd_const, Measure.compProd_const] at h1
  rw [h1]
  congr 1
  have h2 : klDiv ((μ.prod μ').map MeasurableEquiv.prodComm) ((μ.prod ν').map MeasurableEquiv.prodComm)
      = klDiv (μ.prod μ') (μ.prod ν') := klDiv_map_equiv _ _ _
  rw [← h2]
  have e1 : (μ.prod μ').map (MeasurableEquiv.prodComm : α × β ≃ᵐ β × α) = μ'.prod μ := Measure.prod_swap
  have e2 : (μ.prod ν').map (MeasurableEquiv.prodComm : α × β ≃ᵐ β × α) = ν'.prod μ := Measure.prod_swap
  rw [e1, e2, ← Measure.compProd_const, ← Measure.compProd_const, klDiv_compProd_left]

theorem mutualInfo_prod (μ : Measure X) (ν : Measure Y) [IsProbabilityMeasure μ] [IsProbabilityMeasure ν] :
    mutualInfo (μ.prod ν) = 0 := by
  unfold mutualInfo
  rw [Measure.fst_prod, Measure.snd_prod, klDiv_self]

theorem mutualInfo_eq_zero_iff (P : Measure (X × Y)) [IsProbabilityMeasure P] :
    mutualInfo P = 0 ↔ P = P.fst.prod P.snd := klDiv_eq_zero_iff

theorem mutualInfo_swap (P : Measure (X × Y)) [IsProbabilityMeasure P] :
    mutualInfo (P.map Prod.swap) = mutualInfo P := by
  unfold mutualInfo
  have h : klDiv (P.map MeasurableEquiv.prodComm) ((P.fst.prod P.snd).map MeasurableEquiv.prodComm)
      = klDiv P (P.fst.prod P.snd) := klDiv_map_equiv _ _ _
  rw [← h]
  congr 1
  have e1 : (P.fst.prod P.snd).map (MeasurableEquiv.prodComm : X × Y ≃ᵐ Y × X) = P.snd.prod P.fst :=
    Measure.prod_swap
  rw [e1]
  unfold Measure.fst Measure.snd
  rw [Measure.map_map measurable_fst measurable_swap, Measure.map_map measurable_snd measurable_swap]
  rfl

/-- Regrouping two pairs into a pair of pairs. -/
def regroup {X₁ Y₁ X₂ Y₂ : Type*} (z : (X₁ × Y₁) × (X₂ × Y₂)) : (X₁ × X₂) × (Y₁ × Y₂) :=
  ((z.1.1, z.2.1), (z.1.2, z.2.2))

/-- Independent pairs: the mutual informations add up. -/
theorem mutualInfo_regroup {X₁ Y₁ X₂ Y₂ : Type*} [MeasurableSpace X₁] [MeasurableSpace Y₁] [MeasurableSpace X₂]
    [MeasurableSpace Y₂] (P₁ : Measure (X₁ × Y₁)) (P₂ : Measure (X₂ × Y₂)) [IsProbabilityMeasure P₁]
    [IsProbabilityMeasure P₂] :
    mutualInfo ((P₁.prod P₂).map regroup) = mutualInfo P₁ + mutualInfo P₂ := by
  have hreg : Measurable (regroup : (X₁ × Y₁) × (X₂ × Y₂) → (X₁ × X₂) × (Y₁ × Y₂)) := by
    unfold regroup; fun_prop
  have hfst : ((P₁.prod P₂).map regroup).fst = P₁.fst.prod P₂.fst := by
    unfold Measure.fst
    rw [Measure.map_map measurable_fst hreg, Measure.map_prod_map _ _ measurable_fst measurable_fst]
    rfl
  have hsnd : ((P₁.prod P₂).map regroup).snd = P₁.snd.prod P₂.snd := by
    unfold Measure.snd
    rw [Measure.map_map measurable_snd hreg, Measure.map_prod_map _ _ measurable_snd measurable_snd]
    rfl
  unfold mutualInfo
  rw [hfst, hsnd, ← klDiv_prod]
  have e : (P₁.fst.prod P₂.fst).prod (P₁.snd.prod P₂.snd)
      = ((P₁.fst.prod P₁.snd).prod (P₂.fst.prod P₂.snd)).map regroup := by
    refine Measure.prod_eq_generateFrom generateFrom_prod generateFrom_prod isPiSystem_prod isPiSystem_prod
      (Measure.FiniteSpanningSetsIn.prod (P₁.fst.toFiniteSpanningSetsIn) (P₂.fst.toFiniteSpanningSetsIn))
      (Measure.FiniteSpanningSetsIn.prod (P₁.snd.toFiniteSpanningSetsIn) (P₂.snd.toFiniteSpanningSetsIn)) ?_
    rintro _ ⟨a, ha, b, hb, rfl⟩ _ ⟨c, hc, d, hd, rfl⟩
    rw [Measure.map_apply hreg ((ha.prod hb).prod (hc.prod hd))]
    have : (regroup ⁻¹' ((a ×ˢ b) ×ˢ c ×ˢ d) : Set ((X₁ × Y₁) × (X₂ × Y₂))) = (a ×ˢ c) ×ˢ (b ×ˢ d) := by
      ext z; simp only [regroup, Set.mem_preimage, Set.mem_prod]; tauto
    rw [this]
    simp only [Measure.prod_prod]
    ring
  rw [e]
  have hinv : Measurable (regroup : (X₁ × X₂) × (Y₁ × Y₂) → (X₁ × Y₁) × (X₂ × Y₂)) := by
    unfold regroup; fun_prop
  let eq : ((X₁ × Y₁) × (X₂ × Y₂)) ≃ ((X₁ × X₂) × (Y₁ × Y₂)) :=
    ⟨regroup, regroup, fun _ => rfl, fun _ => rfl⟩
  exact klDiv_map_equiv (MeasurableEquiv.mk eq hreg hinv) _ _

end BMI
