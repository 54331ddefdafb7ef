import Verif.Lemmas.Density
import Mathlib.MeasureTheory.Group.Prod
import Mathlib.MeasureTheory.Measure.Lebesgue.Basic

/-! The joint law of `(X, X + N)` for independent `X` and `N`. -/

namespace BMI

open MeasureTheory

theorem map_withDensity_equiv {X Y : Type*} [MeasurableSpace X] [MeasurableSpace Y] (e : X ≃ᵐ Y) {μ : Measure X}
    {ν : Measure Y} (h : MeasurePreserving e μ ν) (f : X → ENNReal) :
    (μ.withDensity f).map e = ν.withDensity (f ∘ e.symm) := by
  ext s hs
  rw [e.map_apply, withDensity_apply _ (e.measurable hs), withDensity_apply _ hs, ← h.map_eq,
    e.restrict_map, lintegral_map_equiv]
  simp

theorem snd_withDensity {X Y : Type*} [MeasurableSpace X] [MeasurableSpace Y] (l₁ : Measure X) (l₂ : Measure Y)
    [SFinite l₁] [SFinite l₂] (p : X × Y → ENNReal) (hp : Measurable p) :
    ((l₁.prod l₂).withDensity p).snd = l₂.withDensity fun y => ∫⁻ x, p (x, y) ∂l₁ := by
  ext s hs
  rw [Measure.snd_apply hs, withDensity_apply _ (measurable_snd hs), withDensity_apply _ hs]
  have : Prod.snd ⁻¹' s = (Set.univ : Set X) ×ˢ s := by ext; simp
  rw [this, ← Measure.prod_restrict, Measure.restrict_univ, lintegral_prod_symm' _ hp]

theorem fst_withDensity {X Y : Type*} [MeasurableSpace X] [MeasurableSpace Y] (l₁ : Measure X) (l₂ : Measure Y)
    [SFinite l₁] [SFinite l₂] (p : X × Y → ENNReal) (hp : Measurable p) :
    ((l₁.prod l₂).withDensity p).fst = l₁.withDensity fun x => ∫⁻ y, p (x, y) ∂l₂ := by
  ext s hs
  rw [Measure.fst_apply hs, withDensity_apply _ (measurable_fst hs), withDensity_apply _ hs]
  have : Prod.fst ⁻¹' s = s ×ˢ (Set.univ : Set Y) := by ext; simp
  rw [this, ← Measure.prod_restrict, Measure.restrict_univ, lintegral_prod _ hp.aemeasurable]

/-- The joint law of `(X, X + N)`. -/
noncomputable def additiveLaw (μ ν : Measure ℝ) : Measure (ℝ × ℝ) := (μ.prod ν).map fun z => (z.1, z.1 + z.2)

theorem measurable_shear : Measurable fun z : ℝ × ℝ => (z.1, z.1 + z.2) := by fun_prop

instance (μ ν : Measure ℝ) [IsProbabilityMeasure μ] [IsProbabilityMeasure ν] :
    IsProbabilityMeasure (additiveLaw μ ν) := Measure.isProbabilityMeasure_map measurable_shear.aemeasurable

theorem additiveLaw_fst (μ ν : Measure ℝ) [SFinite μ] [IsProbabilityMeasure ν] : (additiveLaw μ ν).fst = μ := by
  unfold additiveLaw Measure.fst
  rw [Measure.map_map measurable_fst measurable_shear]
  show (μ.prod ν).map Prod.fst = μ
  rw [Measure.map_fst_prod]
  simp

theorem additiveLaw_density (l : Measure ℝ) [SFinite l] (a v : ℝ → ENNReal) (ha : Measurable a) (hv : Measurable v)
    [SFinite (l.withDensity a)] [SFinite ((volume : Measure ℝ).withDensity v)] :
    additiveLaw (l.withDensity a) (volume.withDensity v)
      = (l.prod volume).withDensity fun z => a z.1 * v (z.2 - z.1) := by
  unfold additiveLaw
  rw [prod_withDensity ha hv]
  have := map_withDensity_equiv (MeasurableEquiv.shearAddRight ℝ) (measurePreserving_prod_add l volume)
    fun z => a z.1 * v z.2
  refine this.trans ?_
  congr 1
  funext z
  simp [MeasurableEquiv.shearAddRight, Equiv.prodShear, sub_eq_neg_add]

end BMI
