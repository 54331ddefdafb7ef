import Verif.Spec.Bmm
import Verif.Lemmas.Samplers
import Mathlib.MeasureTheory.Function.Jacobian
import Mathlib.LinearAlgebra.Determinant
import Mathlib.MeasureTheory.Measure.Lebesgue.EqHaar

/-! Transformed distributions. -/

namespace BMI.Bmm

open MeasureTheory ProbabilityTheory BMI.Samplers

variable {Key : Type} [MeasurableSpace Key]

theorem map_draws {Ω Ω' : Type} [MeasurableSpace Ω] [MeasurableSpace Ω'] {n : ℕ} {κ : Measure Key} {μ : Measure Ω}
    [IsProbabilityMeasure μ] {draw : Key → Fin n → Ω} (hd : Measurable draw) (hl : κ.map draw = Measure.pi fun _ => μ)
    {F : Ω → Ω'} (hF : Measurable F) :
    Measurable (fun k i => F (draw k i)) ∧ κ.map (fun k i => F (draw k i)) = Measure.pi fun _ => μ.map F := by
  have hp : Measurable fun (z : Fin n → Ω) i => F (z i) := measurable_pi_lambda _ fun i => hF.comp (measurable_pi_apply i)
  refine ⟨hp.comp hd, ?_⟩
  haveI := Measure.isProbabilityMeasure_map (μ := μ) hF.aemeasurable
  have h2 := Measure.pi_map_pi (μ := fun _ : Fin n => μ) (f := fun _ => F) (fun _ => hF.aemeasurable)
  rw [← hl, Measure.map_map hp hd] at h2
  exact h2

/-- A transformed distribution stands for the image of the law. -/
theorem transformed_represents {E : Type} [NormedAddCommGroup E] [NormedSpace ℝ E] [FiniteDimensional ℝ E]
    [MeasurableSpace E] [BorelSpace E] (vol : Measure E) [vol.IsAddHaarMeasure] {κ : Measure Key} {D : Dist Key} {d : ℕ}
    {e : E → List ℝ} {S : Set E} {μ : Measure E} [IsProbabilityMeasure μ] (hS : MeasurableSet S)
    (hD : Represents κ D d e (vol.restrict S) μ) {b : Bijector} {F : E → E} {F' : E → E →L[ℝ] E} (hF : Measurable F)
    (hfor : ∀ v, b.forward (e v) = e (F v)) (hinv : ∀ v ∈ S, b.inverse (e (F v)) = e v) (he : Function.Injective e)
    (hF' : ∀ v ∈ S, HasFDerivWithinAt F (F' v) S v) (hdet : ∀ v ∈ S, (F' v).det ≠ 0)
    (hildj : ∀ v ∈ S, b.ildj (e (F v)) = -Real.log |(F' v).det|) :
    Represents κ (transformedDistribution D b) d e (vol.restrict (F '' S)) (μ.map F) := by
  have hinj : Set.InjOn F S := by
    intro v hv w hw h
    apply he
    rw [← hinv v hv, ← hinv w hw, h]
  have himg := measurable_image_of_fderivWithin hS hF' hinj
  have hlp : ∀ v ∈ S, (transformedDistribution D b).logProb (e (F v)) = D.logProb (e v) + (-Real.log |(F' v).det| : ℝ) := by
    intro v hv
    show D.logProb (b.inverse (e (F v))) + (b.ildj (e (F v)) : ℝ) = _
    rw [hinv v hv, hildj v hv]
  refine ⟨hD.shape, fun n => ?_, ?_, ?_⟩
  · obtain ⟨draw, h1, h2, h3⟩ := hD.law n
    obtain ⟨h4, h5⟩ := map_draws h1 h3 hF
    refine ⟨_, h4, fun k => ?_, h5⟩
    show (D.sample k n).map b.forward = _
    rw [h2, List.map_ofFn]
    congr 1
    funext i
    exact hfor _
  · rw [← restrict_map_withDensity_abs_det_fderiv_eq_addHaar vol hS hF' hinj,
      (measurableEmbedding_of_fderivWithin hS hF' hinj).aemeasurable_map_iff]
    have h1 : AEMeasurable (fun v => D.logProb (e v) + ((-Real.log |(F' v).det| : ℝ) : EReal)) (vol.restrict S) := by
      have hd : AEMeasurable (fun v => (F' v).det) (vol.restrict S) :=
        ContinuousLinearMap.continuous_det.measurable.comp_aemeasurable (aemeasurable_fderivWithin vol hS hF')
      have ha : AEMeasurable (fun v => |(F' v).det|) (vol.restrict S) := continuous_abs.measurable.comp_aemeasurable hd
      have hl : AEMeasurable (fun v => -Real.log |(F' v).det|) (vol.restrict S) :=
        (Real.measurable_log.comp_aemeasurable ha).neg
      exact hD.measurable.add (measurable_coe_real_ereal.comp_aemeasurable hl)
    have h2 : AEMeasurable (fun v => D.logProb (e v) + ((-Real.log |(F' v).det| : ℝ) : EReal))
        ((vol.withDensity fun x => ENNReal.ofReal |(F' x).det|).restrict S) := by
      refine h1.mono_ac ?_
      rw [restrict_withDensity hS]
      exact withDensity_absolutelyContinuous _ _
    have h3 := (MeasurableEmbedding.subtype_coe hS).aemeasurable_map_iff
      (μ := Measure.comap (Subtype.val : S → E) (vol.withDensity fun x => ENNReal.ofReal |(F' x).det|))
      (g := fun v => D.logProb (e v) + ((-Real.log |(F' v).det| : ℝ) : EReal))
    rw [map_comap_subtype_coe hS] at h3
    refine (h3.1 h2).congr (Filter.Eventually.of_forall fun v => ?_)
    exact (hlp v.1 v.2).symm
  · refine Measure.ext fun A hA => ?_
    have hAS : MeasurableSet (S ∩ F ⁻¹' A) := hS.inter (hF hA)
    have hset : A ∩ F '' S = F '' (S ∩ F ⁻¹' A) := by
      rw [Set.image_inter_preimage, Set.inter_comm]
    rw [Measure.map_apply hF hA, hD.density, withDensity_apply _ (hF hA), withDensity_apply _ hA,
      Measure.restrict_restrict hA, Measure.restrict_restrict (hF hA), hset, Set.inter_comm _ S,
      lintegral_image_eq_lintegral_abs_det_fderiv_mul vol hAS
        (fun v hv => (hF' v hv.1).mono Set.inter_subset_left) (hinj.mono Set.inter_subset_left)]
    refine setLIntegral_congr_fun hAS fun v hv => ?_
    have hpos : 0 < |(F' v).det| := abs_pos.2 (hdet v hv.1)
    rw [hlp v hv.1, EReal.exp_add, EReal.exp_coe, Real.exp_neg, Real.exp_log hpos, mul_left_comm,
      ← ENNReal.ofReal_mul hpos.le, mul_inv_cancel₀ hpos.ne', ENNReal.ofReal_one, mul_one]

theorem pairList_injective {dx dy : ℕ} :
    Function.Injective (pairList : (Fin dx → ℝ) × (Fin dy → ℝ) → List ℝ) := by
  intro v w h
  obtain ⟨h1, h2⟩ := List.append_inj h (by simp)
  exact Prod.ext (List.ofFn_injective h1) (List.ofFn_injective h2)

theorem take_pairList {dx dy : ℕ} (z : (Fin dx → ℝ) × (Fin dy → ℝ)) : (pairList z).take dx = List.ofFn z.1 := by
  unfold pairList
  rw [List.take_left' (by simp)]

theorem drop_pairList {dx dy : ℕ} (z : (Fin dx → ℝ) × (Fin dy → ℝ)) : (pairList z).drop dx = List.ofFn z.2 := by
  unfold pairList
  rw [List.drop_left' (by simp)]

theorem det_prodMap {E F : Type} [NormedAddCommGroup E] [NormedSpace ℝ E] [FiniteDimensional ℝ E]
    [NormedAddCommGroup F] [NormedSpace ℝ F] [FiniteDimensional ℝ F] (a : E →L[ℝ] E) (b : F →L[ℝ] F) :
    (a.prodMap b).det = a.det * b.det := by
  have := LinearMap.det_prodMap (a : E →ₗ[ℝ] E) (b : F →ₗ[ℝ] F)
  exact this

/-- The joint distribution of a transformed Bend and Mix Model. -/
theorem blockwise_represents {κ : Measure Key} {D : Dist Key} {dx dy d : ℕ} {Sx : Set (Fin dx → ℝ)} {Sy : Set (Fin dy → ℝ)}
    {P : Measure ((Fin dx → ℝ) × (Fin dy → ℝ))} [IsProbabilityMeasure P] (hx : MeasurableSet Sx) (hy : MeasurableSet Sy)
    (hD : Represents κ D d pairList (volume.restrict (Sx ×ˢ Sy)) P) {b c : Bijector}
    {f : (Fin dx → ℝ) → Fin dx → ℝ} {f' : (Fin dx → ℝ) → (Fin dx → ℝ) →L[ℝ] Fin dx → ℝ}
    {g : (Fin dy → ℝ) → Fin dy → ℝ} {g' : (Fin dy → ℝ) → (Fin dy → ℝ) →L[ℝ] Fin dy → ℝ}
    (hb : Diffeo b Sx f f') (hc : Diffeo c Sy g g') :
    Represents κ (transformedDistribution D (Bijector.blockwise b c dx)) d pairList
      (volume.restrict ((f '' Sx) ×ˢ (g '' Sy))) (P.map (Prod.map f g)) := by
  rw [← Set.prodMap_image_prod]
  haveI : (volume : Measure ((Fin dx → ℝ) × (Fin dy → ℝ))).IsAddHaarMeasure :=
    Measure.prod.instIsAddHaarMeasure volume volume
  refine transformed_represents volume (hx.prod hy) hD (F' := fun v => (f' v.1).prodMap (g' v.2))
    (hb.measurable.prodMap hc.measurable) (fun v => ?_) (fun v hv => ?_) pairList_injective (fun v hv => ?_)
    (fun v hv => ?_) (fun v hv => ?_)
  · show b.forward ((pairList v).take dx) ++ c.forward ((pairList v).drop dx) = _
    rw [take_pairList, drop_pairList, hb.forward, hc.forward]
    rfl
  · show b.inverse ((pairList (Prod.map f g v)).take dx) ++ c.inverse ((pairList (Prod.map f g v)).drop dx) = _
    rw [take_pairList, drop_pairList]
    show b.inverse (List.ofFn (f v.1)) ++ c.inverse (List.ofFn (g v.2)) = _
    rw [hb.inverse _ hv.1, hc.inverse _ hv.2]
    rfl
  · have h1 := (hb.deriv v.1 hv.1).comp v (hasFDerivWithinAt_fst (s := Sx ×ˢ Sy)) (fun w hw => hw.1)
    have h2 := (hc.deriv v.2 hv.2).comp v (hasFDerivWithinAt_snd (s := Sx ×ˢ Sy)) (fun w hw => hw.2)
    exact h1.prodMk h2
  · rw [det_prodMap]
    exact mul_ne_zero (hb.det _ hv.1) (hc.det _ hv.2)
  · show b.ildj ((pairList (Prod.map f g v)).take dx) + c.ildj ((pairList (Prod.map f g v)).drop dx) = _
    rw [take_pairList, drop_pairList]
    show b.ildj (List.ofFn (f v.1)) + c.ildj (List.ofFn (g v.2)) = _
    rw [hb.ildj _ hv.1, hc.ildj _ hv.2, det_prodMap, abs_mul,
      Real.log_mul (abs_ne_zero.2 (hb.det _ hv.1)) (abs_ne_zero.2 (hc.det _ hv.2))]
    ring

end BMI.Bmm
