import Verif.Lemmas.KdeRule
import Verif.Lemmas.GaussianMI
import Mathlib.MeasureTheory.Measure.Decomposition.RadonNikodym
import Mathlib.MeasureTheory.Function.Jacobian
import Verif.Lemmas.Additive

/-! Laws of vectors with densities: bounded ones, pairs, changes of variables. -/

namespace BMI.Kde

open MeasureTheory ProbabilityTheory Filter Topology BMI.Batch BMI.Kde.Spec BMI.Samplers

variable {d dx dy : ℕ}

theorem dense_of_le {Q : Measure (Fin d → ℝ)} [IsProbabilityMeasure Q] {M : NNReal} (hM : ∀ A, MeasurableSet A → Q A ≤ M * volume A)
    (ht : ∀ c, Integrable (fun u => Real.log (1 + |u c|)) Q) : ∃ f, Dense Q f := by
  have hac : Q ≪ volume := Measure.AbsolutelyContinuous.mk fun A hA h0 => by
    have := hM A hA
    rw [h0, mul_zero] at this
    exact le_antisymm this bot_le
  have hr := Measure.withDensity_rnDeriv_eq Q volume hac
  have hle : ∀ᵐ u ∂(volume : Measure (Fin d → ℝ)), Q.rnDeriv volume u ≤ M := by
    refine ae_le_of_forall_setLIntegral_le_of_sigmaFinite (Measure.measurable_rnDeriv Q volume) fun A hA _ => ?_
    rw [← withDensity_apply _ hA, hr, setLIntegral_const]
    exact hM A hA
  refine ⟨fun u => min M (Q.rnDeriv volume u).toReal, ⟨measurable_const.min (Measure.measurable_rnDeriv Q volume).ennreal_toReal,
    fun u => le_min M.2 ENNReal.toReal_nonneg, ?_, ?_, ht⟩⟩
  · have ml := (measurable_const (a := (M : ℝ)).min (Measure.measurable_rnDeriv Q volume).ennreal_toReal).log
    refine Integrable.mono' (integrable_const (max 0 (Real.log M))) (measurable_const.max ml).aestronglyMeasurable (.of_forall fun u => ?_)
    rw [Real.norm_eq_abs, abs_of_nonneg (le_max_left _ _)]
    rcases (le_min M.2 ENNReal.toReal_nonneg : 0 ≤ min (M : ℝ) (Q.rnDeriv volume u).toReal).eq_or_lt with h0 | h0
    · rw [← h0, Real.log_zero, max_self]
      exact le_max_left _ _
    · exact max_le_max le_rfl (Real.log_le_log h0 (min_le_left _ _))
  · conv_lhs => rw [← hr]
    refine withDensity_congr_ae ?_
    filter_upwards [hle] with u hu
    have h1 : Q.rnDeriv volume u ≠ ⊤ := ne_top_of_le_ne_top ENNReal.coe_ne_top hu
    have h2 : (Q.rnDeriv volume u).toReal ≤ M := ENNReal.toReal_le_of_le_ofReal M.2 (by rwa [ENNReal.ofReal_coe_nnreal])
    rw [min_eq_right h2, ENNReal.ofReal_toReal h1]

theorem log_tail_measurable (c : Fin d) : Measurable fun u : Fin d → ℝ => Real.log (1 + |u c|) :=
  ((measurable_pi_apply c).norm.const_add 1).log

/-- Vectors whose components are bounded. -/
def box (d : ℕ) (B : ℝ) : Set (Fin d → ℝ) := {u | ∀ c, |u c| ≤ B}

theorem box_eq (B : ℝ) : box d B = Set.univ.pi fun _ => Set.Icc (-B) B := by
  ext u
  simp only [box, Set.mem_setOf_eq, abs_le, Set.mem_univ_pi, Set.mem_Icc]

theorem measurableSet_box (B : ℝ) : MeasurableSet (box d B) := by
  rw [box_eq]
  exact MeasurableSet.univ_pi fun _ => measurableSet_Icc

theorem volume_box (B : ℝ) : volume (box d B) ≠ ⊤ := by
  rw [box_eq, volume_pi_pi]
  exact ENNReal.prod_ne_top fun i _ => by rw [Real.volume_Icc]; exact ENNReal.ofReal_ne_top

section

variable {P : Measure ((Fin dx → ℝ) × (Fin dy → ℝ))} [IsProbabilityMeasure P]

theorem fst_dense (h : Spread P) : ∃ f, Dense P.fst f := by
  obtain ⟨f, h1, h2, h3, h4⟩ := h.left.density
  exact ⟨f, h1, h2, h4, h3, h.left.tail⟩

theorem snd_dense (h : Spread P) : ∃ f, Dense P.snd f := by
  obtain ⟨f, h1, h2, h3, h4⟩ := h.right.density
  exact ⟨f, h1, h2, h4, h3, h.right.tail⟩

theorem log_tail_of_bounded {E : Type} [MeasurableSpace E] {P : Measure E} [IsProbabilityMeasure P] {g : E → ℝ} (hg : Measurable g) {B : ℝ}
    (hB : ∀ᵐ e ∂P, |g e| ≤ B) : Integrable (fun e => Real.log (1 + |g e|)) P := by
  refine Integrable.mono' (integrable_const B) ((hg.norm.const_add 1).log).aestronglyMeasurable ?_
  filter_upwards [hB] with e he
  rw [Real.norm_eq_abs, abs_of_nonneg (Real.log_nonneg (by linarith [abs_nonneg (g e)]))]
  linarith [Real.log_le_sub_one_of_pos (show 0 < 1 + |g e| by positivity)]

theorem log_tail_of_memLp {E : Type} [MeasurableSpace E] {P : Measure E} [IsProbabilityMeasure P] {g : E → ℝ} (hm : Measurable g) (hg : MemLp g 2 P) :
    Integrable (fun e => Real.log (1 + |g e|)) P := by
  refine Integrable.mono' (hg.integrable (by norm_num)).norm ((hm.norm.const_add 1).log).aestronglyMeasurable (.of_forall fun e => ?_)
  rw [Real.norm_eq_abs, Real.norm_eq_abs, abs_of_nonneg (Real.log_nonneg (by linarith [abs_nonneg (g e)]))]
  linarith [Real.log_le_sub_one_of_pos (show 0 < 1 + |g e| by positivity)]

theorem append_eq : (fun p : (Fin dx → ℝ) × (Fin dy → ℝ) => (Fin.append p.1 p.2 : Fin (dx + dy) → ℝ)) = (partsEquiv dx dy).symm := by
  funext p
  rw [eq_comm, MeasurableEquiv.symm_apply_eq, partsEquiv_apply]
  simp [parts]

theorem append_tail (hx : ∀ c, Integrable (fun u => Real.log (1 + |u c|)) P.fst) (hy : ∀ c, Integrable (fun u => Real.log (1 + |u c|)) P.snd)
    (c : Fin (dx + dy)) : Integrable (fun u => Real.log (1 + |u c|)) (P.map fun p => (Fin.append p.1 p.2 : Fin (dx + dy) → ℝ)) := by
  refine (integrable_map_measure (log_tail_measurable c).aestronglyMeasurable measurable_append.aemeasurable).2 ?_
  refine Fin.addCases (fun i => ?_) (fun i => ?_) c
  · have := (integrable_map_measure (log_tail_measurable i).aestronglyMeasurable measurable_fst.aemeasurable).1 (hx i)
    simpa [Function.comp_def] using this
  · have := (integrable_map_measure (log_tail_measurable i).aestronglyMeasurable measurable_snd.aemeasurable).1 (hy i)
    simpa [Function.comp_def] using this

/-- A pair with finite mutual information has a density if both parts do. -/
theorem append_dense (h : Spread P) : ∃ f, Dense (P.map fun p => (Fin.append p.1 p.2 : Fin (dx + dy) → ℝ)) f := by
  obtain ⟨fx, Dx⟩ := fst_dense h
  obtain ⟨fy, Dy⟩ := snd_dense h
  obtain ⟨hac, hint⟩ := InformationTheory.klDiv_ne_top_iff.1 h.finite
  have ma := measurable_append (dx := dx) (dy := dy)
  have mp := measurable_parts dx dy
  have mx := Dx.meas
  have my := Dy.meas
  set r := P.rnDeriv (P.fst.prod P.snd) with hr
  have mr : Measurable r := Measure.measurable_rnDeriv _ _
  set g : (Fin dx → ℝ) × (Fin dy → ℝ) → ℝ := fun z => fx z.1 * fy z.2 * (r z).toReal with hg
  have mg : Measurable g := by fun_prop
  have g0 : ∀ z, 0 ≤ g z := fun z => mul_nonneg (mul_nonneg (Dx.nonneg _) (Dy.nonneg _)) ENNReal.toReal_nonneg
  have hprod : P.fst.prod P.snd = (volume.prod volume).withDensity fun z : (Fin dx → ℝ) × (Fin dy → ℝ) => ENNReal.ofReal (fx z.1) * ENNReal.ofReal (fy z.2) := by
    conv_lhs => rw [Dx.law, Dy.law]
    exact prod_withDensity (by fun_prop) (by fun_prop)
  have hP : P = (volume.prod volume).withDensity fun z : (Fin dx → ℝ) × (Fin dy → ℝ) => ENNReal.ofReal (g z) := by
    have h1 : P = (P.fst.prod P.snd).withDensity fun z => ENNReal.ofReal (r z).toReal := by
      haveI : SigmaFinite (P.fst.prod P.snd) := inferInstance
      haveI : SFinite P := inferInstance
      haveI : P.HaveLebesgueDecomposition (P.fst.prod P.snd) := inferInstance
      have h0 := Measure.withDensity_rnDeriv_eq P (P.fst.prod P.snd) hac
      refine h0.symm.trans ?_
      refine withDensity_congr_ae ?_
      filter_upwards [Measure.rnDeriv_lt_top P (P.fst.prod P.snd)] with z hz
      rw [ENNReal.ofReal_toReal hz.ne]
    have h2 := withDensity_mul (volume.prod volume) (f := fun z : (Fin dx → ℝ) × (Fin dy → ℝ) => ENNReal.ofReal (fx z.1) * ENNReal.ofReal (fy z.2))
      (g := fun z => ENNReal.ofReal (r z).toReal) (by fun_prop) (by fun_prop)
    rw [← hprod, ← h1] at h2
    conv_lhs => rw [← h2]
    congr 1
    funext z
    simp only [Pi.mul_apply, hg]
    rw [ENNReal.ofReal_mul (mul_nonneg (Dx.nonneg _) (Dy.nonneg _)), ENNReal.ofReal_mul (Dx.nonneg _)]
  have hpk : Integrable (fun z => max 0 (Real.log (g z))) P := by
    have i1 : Integrable (fun z : (Fin dx → ℝ) × (Fin dy → ℝ) => max 0 (Real.log (fx z.1))) P :=
      (integrable_map_measure (measurable_const.max mx.log).aestronglyMeasurable measurable_fst.aemeasurable).1 Dx.peak
    have i2 : Integrable (fun z : (Fin dx → ℝ) × (Fin dy → ℝ) => max 0 (Real.log (fy z.2))) P :=
      (integrable_map_measure (measurable_const.max my.log).aestronglyMeasurable measurable_snd.aemeasurable).1 Dy.peak
    refine Integrable.mono' ((i1.add i2).add hint.norm) (measurable_const.max mg.log).aestronglyMeasurable (.of_forall fun z => ?_)
    rw [Real.norm_eq_abs, abs_of_nonneg (le_max_left _ _)]
    simp only [Pi.add_apply, llr, Real.norm_eq_abs]
    have p1 := le_max_left 0 (Real.log (fx z.1))
    have p2 := le_max_left 0 (Real.log (fy z.2))
    have p3 := abs_nonneg (Real.log (r z).toReal)
    refine max_le (by linarith) ?_
    rcases (g0 z).eq_or_lt with e | e
    · rw [← e, Real.log_zero]; linarith
    · have hne : fx z.1 ≠ 0 ∧ fy z.2 ≠ 0 ∧ (r z).toReal ≠ 0 := by
        refine ⟨fun h => ?_, fun h => ?_, fun h => ?_⟩ <;> simp [hg, h] at e
      rw [hg]
      simp only
      rw [Real.log_mul (mul_ne_zero hne.1 hne.2.1) hne.2.2, Real.log_mul hne.1 hne.2.1]
      linarith [le_max_right 0 (Real.log (fx z.1)), le_max_right 0 (Real.log (fy z.2)), le_abs_self (Real.log (r z).toReal)]
  refine ⟨g ∘ parts, mg.comp mp, fun u => g0 _, ?_, ?_, append_tail Dx.tail Dy.tail⟩
  · refine (integrable_map_measure (measurable_const.max (mg.comp mp).log).aestronglyMeasurable ma.aemeasurable).2 ?_
    refine hpk.congr (.of_forall fun z => ?_)
    simp [parts]
  · have h1 := map_withDensity_equiv (partsEquiv dx dy).symm ((partsEquiv_volume dx dy).symm _) fun z => ENNReal.ofReal (g z)
    rw [← hP, ← append_eq] at h1
    rw [h1]
    rfl

/-- The mutual information as a combination of mean logarithms of densities. -/
theorem spread_mi {fx : (Fin dx → ℝ) → ℝ} {fy : (Fin dy → ℝ) → ℝ} {fxy : (Fin (dx + dy) → ℝ) → ℝ}
    (Dx : Dense P.fst fx) (Dy : Dense P.snd fy)
    (Dxy : Dense (P.map fun p => (Fin.append p.1 p.2 : Fin (dx + dy) → ℝ)) fxy) :
    mutualInfo P = ENNReal.ofReal (-∫ u, Real.log (fx u) ∂P.fst + -∫ u, Real.log (fy u) ∂P.snd
        - -∫ u, Real.log (fxy u) ∂(P.map fun p => (Fin.append p.1 p.2 : Fin (dx + dy) → ℝ))) ∧
      0 ≤ -∫ u, Real.log (fx u) ∂P.fst + -∫ u, Real.log (fy u) ∂P.snd
        - -∫ u, Real.log (fxy u) ∂(P.map fun p => (Fin.append p.1 p.2 : Fin (dx + dy) → ℝ)) := by
  have ma := measurable_append (dx := dx) (dy := dy)
  haveI : IsProbabilityMeasure (P.map fun p => (Fin.append p.1 p.2 : Fin (dx + dy) → ℝ)) := Measure.isProbabilityMeasure_map ma.aemeasurable
  have l1 := log_density_integrable Dx
  have l2 := log_density_integrable Dy
  have l3 := log_density_integrable Dxy
  have i1 : Integrable (fun p : (Fin dx → ℝ) × (Fin dy → ℝ) => Real.log (fx p.1)) P :=
    (integrable_map_measure Dx.meas.log.aestronglyMeasurable measurable_fst.aemeasurable).1 l1
  have i2 : Integrable (fun p : (Fin dx → ℝ) × (Fin dy → ℝ) => Real.log (fy p.2)) P :=
    (integrable_map_measure Dy.meas.log.aestronglyMeasurable measurable_snd.aemeasurable).1 l2
  have i3 : Integrable (fun p : (Fin dx → ℝ) × (Fin dy → ℝ) => Real.log (fxy (Fin.append p.1 p.2))) P :=
    (integrable_map_measure Dxy.meas.log.aestronglyMeasurable ma.aemeasurable).1 l3
  have e1 : ∫ u, Real.log (fx u) ∂P.fst = ∫ p, Real.log (fx p.1) ∂P :=
    integral_map measurable_fst.aemeasurable Dx.meas.log.aestronglyMeasurable
  have e2 : ∫ u, Real.log (fy u) ∂P.snd = ∫ p, Real.log (fy p.2) ∂P :=
    integral_map measurable_snd.aemeasurable Dy.meas.log.aestronglyMeasurable
  have e3 : ∫ u, Real.log (fxy u) ∂(P.map fun p => (Fin.append p.1 p.2 : Fin (dx + dy) → ℝ)) = ∫ p, Real.log (fxy (Fin.append p.1 p.2)) ∂P :=
    integral_map ma.aemeasurable Dxy.meas.log.aestronglyMeasurable
  have q1 : ∀ᵐ p ∂P, 0 < fx p.1 := ae_of_ae_map measurable_fst.aemeasurable Dx.ae_pos
  have q2 : ∀ᵐ p ∂P, 0 < fy p.2 := ae_of_ae_map measurable_snd.aemeasurable Dy.ae_pos
  have q3 : ∀ᵐ p ∂P, 0 < fxy (Fin.append p.1 p.2) := ae_of_ae_map ma.aemeasurable Dxy.ae_pos
  have hae : (fun p : (Fin dx → ℝ) × (Fin dy → ℝ) => Real.log (fxy (Fin.append p.1 p.2)) - Real.log (fx p.1) - Real.log (fy p.2)) =ᵐ[P]
      fun p => Real.log (fxy (Fin.append p.1 p.2) / (fx p.1 * fy p.2)) := by
    filter_upwards [q1, q2, q3] with p h1 h2 h3
    rw [Real.log_div h3.ne' (mul_pos h1 h2).ne', Real.log_mul h1.ne' h2.ne']
    ring
  have hP : P = (volume.prod volume).withDensity fun z : (Fin dx → ℝ) × (Fin dy → ℝ) => ENNReal.ofReal (fxy (Fin.append z.1 z.2)) := by
    have h1 := map_withDensity_equiv (partsEquiv dx dy) (partsEquiv_volume dx dy) fun u => ENNReal.ofReal (fxy u)
    rw [← Dxy.law, append_eq, MeasurableEquiv.map_map_symm] at h1
    rw [h1]
    congr 1
    funext z
    simp only [Function.comp_apply]
    rw [← append_eq]
  have key := mutualInfo_of_density volume volume P (fun z => fxy (Fin.append z.1 z.2)) fx fy (Dxy.meas.comp ma) Dx.meas Dy.meas
    (fun z => Dxy.nonneg _) Dx.nonneg Dy.nonneg hP Dx.law Dy.law (((i3.sub i1).sub i2).congr hae)
  have e4 : ∫ z, Real.log (fxy (Fin.append z.1 z.2) / (fx z.1 * fy z.2)) ∂P
      = -∫ u, Real.log (fx u) ∂P.fst + -∫ u, Real.log (fy u) ∂P.snd
        - -∫ u, Real.log (fxy u) ∂(P.map fun p => (Fin.append p.1 p.2 : Fin (dx + dy) → ℝ)) := by
    have i4 : Integrable (fun p : (Fin dx → ℝ) × (Fin dy → ℝ) => Real.log (fxy (Fin.append p.1 p.2)) - Real.log (fx p.1)) P := i3.sub i1
    rw [← integral_congr_ae hae, integral_sub i4 i2, integral_sub i3 i1, e1, e2, e3]
    ring
  rw [e4] at key
  exact key

/-- Bounded variables with a bounded density. -/
theorem spread_of_bounded (h : Boxed P) : Spread P := by
  obtain ⟨B, hB⟩ := h.bounded
  obtain ⟨M, hM⟩ := h.density
  have ma := measurable_append (dx := dx) (dy := dy)
  have tx : ∀ c, Integrable (fun u => Real.log (1 + |u c|)) P.fst := fun c =>
    (integrable_map_measure (log_tail_measurable c).aestronglyMeasurable measurable_fst.aemeasurable).2
      (log_tail_of_bounded ((measurable_pi_apply c).comp measurable_fst) (hB.mono fun p hp => hp.1 c))
  have ty : ∀ c, Integrable (fun u => Real.log (1 + |u c|)) P.snd := fun c =>
    (integrable_map_measure (log_tail_measurable c).aestronglyMeasurable measurable_snd.aemeasurable).2
      (log_tail_of_bounded ((measurable_pi_apply c).comp measurable_snd) (hB.mono fun p hp => hp.2 c))
  obtain ⟨fx, Dx⟩ := dense_of_le (Q := P.fst) (M := M * (volume (box dy B)).toNNReal) (fun A hA => by
    have hv := volume_box (d := dy) B
    have h1 : P (Prod.fst ⁻¹' A) ≤ P (A ×ˢ box dy B) := by
      refine measure_mono_ae ?_
      filter_upwards [hB] with p hp hA
      exact ⟨hA, hp.2⟩
    rw [Measure.fst_apply hA]
    refine h1.trans ((hM _ (hA.prod (measurableSet_box B))).trans (le_of_eq ?_))
    rw [Measure.prod_prod, ENNReal.coe_mul, ENNReal.coe_toNNReal hv]
    ring) tx
  obtain ⟨fy, Dy⟩ := dense_of_le (Q := P.snd) (M := M * (volume (box dx B)).toNNReal) (fun A hA => by
    have hv := volume_box (d := dx) B
    have h1 : P (Prod.snd ⁻¹' A) ≤ P (box dx B ×ˢ A) := by
      refine measure_mono_ae ?_
      filter_upwards [hB] with p hp hA
      exact ⟨hp.1, hA⟩
    rw [Measure.snd_apply hA]
    refine h1.trans ((hM _ ((measurableSet_box B).prod hA)).trans (le_of_eq ?_))
    rw [Measure.prod_prod, ENNReal.coe_mul, ENNReal.coe_toNNReal hv]
    ring) ty
  haveI : IsProbabilityMeasure (P.map fun p => (Fin.append p.1 p.2 : Fin (dx + dy) → ℝ)) := Measure.isProbabilityMeasure_map ma.aemeasurable
  obtain ⟨f, D⟩ := dense_of_le (Q := P.map fun p => (Fin.append p.1 p.2 : Fin (dx + dy) → ℝ)) (M := M) (fun A hA => by
    rw [Measure.map_apply ma hA]
    refine (hM _ (ma hA)).trans (le_of_eq ?_)
    congr 1
    rw [append_eq]
    exact ((partsEquiv_volume dx dy).symm _).measure_preimage_equiv A) (append_tail tx ty)
  exact ⟨⟨⟨fx, Dx.meas, Dx.nonneg, Dx.law, Dx.peak⟩, tx⟩, ⟨⟨fy, Dy.meas, Dy.nonneg, Dy.law, Dy.peak⟩, ty⟩, by
    rw [(spread_mi Dx Dy D).1]; exact ENNReal.ofReal_ne_top⟩

/-- A component with a density is not constant. -/
theorem regular_var {Q : Measure (Fin d → ℝ)} [IsProbabilityMeasure Q] (h : Regular Q) (c : Fin d) (hL : MemLp (fun u : Fin d → ℝ => u c) 2 Q) :
    0 < Var[fun u : Fin d → ℝ => u c; Q] := by
  refine lt_of_le_of_ne (variance_nonneg _ _) fun h0 => ?_
  have h1 : evariance (fun u : Fin d → ℝ => u c) Q = 0 := by
    rw [← hL.ofReal_variance_eq, ← h0, ENNReal.ofReal_zero]
  rw [evariance_eq_zero_iff (measurable_pi_apply c).aemeasurable] at h1
  obtain ⟨f, -, -, h3, -⟩ := h.density
  have hac : Q ≪ volume := by rw [h3]; exact withDensity_absolutelyContinuous _ _
  set a := Q[fun u : Fin d → ℝ => u c]
  have h4 : Q {u : Fin d → ℝ | u c = a} = 0 := hac (by rw [volume_pi]; exact Measure.pi_hyperplane (fun _ : Fin d => (volume : Measure ℝ)) c a)
  have h5 : Q Set.univ ≤ Q {u : Fin d → ℝ | u c = a} := by
    refine measure_mono_ae ?_
    filter_upwards [h1] with u hu _
    exact hu
  rw [h4] at h5
  simp at h5

theorem spread_var_fst (h : Spread P) (c : Fin dx) (hL : MemLp (fun p : (Fin dx → ℝ) × (Fin dy → ℝ) => p.1 c) 2 P) : 0 < Var[fun p : (Fin dx → ℝ) × (Fin dy → ℝ) => p.1 c; P] := by
  have := regular_var h.left c ((memLp_map_measure_iff (measurable_pi_apply c).aestronglyMeasurable measurable_fst.aemeasurable).2 hL)
  rwa [Measure.fst, variance_map (measurable_pi_apply c).aemeasurable measurable_fst.aemeasurable] at this

theorem spread_var_snd (h : Spread P) (c : Fin dy) (hL : MemLp (fun p : (Fin dx → ℝ) × (Fin dy → ℝ) => p.2 c) 2 P) : 0 < Var[fun p : (Fin dx → ℝ) × (Fin dy → ℝ) => p.2 c; P] := by
  have := regular_var h.right c ((memLp_map_measure_iff (measurable_pi_apply c).aestronglyMeasurable measurable_snd.aemeasurable).2 hL)
  rwa [Measure.snd, variance_map (measurable_pi_apply c).aemeasurable measurable_snd.aemeasurable] at this

theorem map_withDensity_comp {X Y : Type} [MeasurableSpace X] [MeasurableSpace Y] {μ : Measure X} {e : X → Y} (me : Measurable e) {g : Y → ENNReal}
    (mg : Measurable g) : (μ.withDensity (g ∘ e)).map e = (μ.map e).withDensity g := by
  ext A hA
  rw [Measure.map_apply me hA, withDensity_apply _ (me hA), withDensity_apply _ hA, setLIntegral_map hA mg me]
  rfl

/-- Change of variables: `J` is the factor by which volumes grow. -/
theorem regular_map {Q : Measure (Fin d → ℝ)} (h : Regular Q) {e : (Fin d → ℝ) → Fin d → ℝ} (me : Measurable e) (hi : Function.Injective e)
    {J : (Fin d → ℝ) → ℝ} (mJ : Measurable J) (hJ0 : ∀ᵐ u ∂Q, 0 < J u) {S : Set (Fin d → ℝ)} (mS : MeasurableSet S)
    (hJ : (volume.withDensity fun u => ENNReal.ofReal (J u)).map e = volume.restrict S) (hl : Integrable (fun u => max 0 (-Real.log (J u))) Q)
    (ht : ∀ c, Integrable (fun u => Real.log (1 + |e u c|)) Q) : Regular (Q.map e) := by
  obtain ⟨f, mf, f0, hQ, hf⟩ := h.density
  obtain ⟨e', me', he⟩ := (me.measurableEmbedding hi).exists_measurable_extend measurable_id fun u => ⟨u⟩
  have he' : ∀ u, e' (e u) = u := fun u => congrFun he u
  set g : (Fin d → ℝ) → ℝ := fun y => f (e' y) / J (e' y) with hg
  have mg : Measurable g := (mf.comp me').div (mJ.comp me')
  have hge : ∀ u, g (e u) = f u / J u := fun u => by rw [hg]; simp only [he']
  have hQ1 : Q = (volume.withDensity fun u => ENNReal.ofReal (J u)).withDensity ((fun y => ENNReal.ofReal (g y)) ∘ e) := by
    have h2 := withDensity_mul (volume : Measure (Fin d → ℝ)) (f := fun u => ENNReal.ofReal (J u)) (g := (fun y => ENNReal.ofReal (g y)) ∘ e)
      (by fun_prop) (mg.ennreal_ofReal.comp me)
    rw [← h2, hQ]
    refine withDensity_congr_ae ?_
    rw [hQ, ae_withDensity_iff (by fun_prop)] at hJ0
    filter_upwards [hJ0] with u hu
    simp only [Pi.mul_apply, Function.comp_apply, hge]
    by_cases h0 : ENNReal.ofReal (f u) = 0
    · have : f u = 0 := le_antisymm (ENNReal.ofReal_eq_zero.1 h0) (f0 u)
      simp [this]
    · rw [← ENNReal.ofReal_mul (hu h0).le, mul_div_cancel₀ _ (hu h0).ne']
  have hmap : Q.map e = volume.withDensity fun y => ENNReal.ofReal (S.indicator (fun y => max 0 (g y)) y) := by
    rw [hQ1, map_withDensity_comp me mg.ennreal_ofReal, hJ, ← withDensity_indicator mS]
    congr 1
    funext y
    by_cases hy : y ∈ S
    · rw [Set.indicator_of_mem hy, Set.indicator_of_mem hy, ENNReal.ofReal_max]
      simp
    · rw [Set.indicator_of_notMem hy, Set.indicator_of_notMem hy, ENNReal.ofReal_zero]
  have md : Measurable (S.indicator fun y => max 0 (g y)) := (measurable_const.max mg).indicator mS
  refine ⟨⟨S.indicator fun y => max 0 (g y), md, fun y => Set.indicator_nonneg (fun _ _ => le_max_left _ _) y, hmap, ?_⟩, fun c => ?_⟩
  · refine (integrable_map_measure (measurable_const.max md.log).aestronglyMeasurable me.aemeasurable).2 ?_
    refine Integrable.mono' (hf.add hl) ((measurable_const.max md.log).comp me).aestronglyMeasurable ?_
    filter_upwards [hJ0] with u hu
    simp only [Function.comp_apply, Pi.add_apply, Real.norm_eq_abs]
    rw [abs_of_nonneg (le_max_left _ _)]
    have p1 := le_max_left 0 (Real.log (f u))
    have p2 := le_max_left 0 (-Real.log (J u))
    refine max_le (by linarith) ?_
    by_cases hy : e u ∈ S
    · rw [Set.indicator_of_mem hy, hge, max_eq_right (div_nonneg (f0 u) hu.le)]
      rcases (f0 u).eq_or_lt with h0 | h0
      · have : Real.log (f u / J u) = 0 := by rw [← h0]; simp
        linarith
      · rw [Real.log_div h0.ne' hu.ne']
        linarith [le_max_right 0 (Real.log (f u)), le_max_right 0 (-Real.log (J u))]
    · rw [Set.indicator_of_notMem hy, Real.log_zero]; linarith
  · exact (integrable_map_measure (log_tail_measurable c).aestronglyMeasurable me.aemeasurable).2 (ht c)

/-- Functions applied to the components. -/
theorem componentwise_volume {h h' : Fin d → ℝ → ℝ} (hd : ∀ c x, HasDerivAt (h c) (h' c x) x) (hi : ∀ c, Function.Injective (h c)) :
    (volume.withDensity fun u : Fin d → ℝ => ENNReal.ofReal |∏ c, h' c (u c)|).map (fun u c => h c (u c))
      = volume.restrict (Set.range fun (u : Fin d → ℝ) c => h c (u c)) := by
  have hinj : Function.Injective fun (u : Fin d → ℝ) c => h c (u c) := fun u v huv => funext fun c => hi c (congrFun huv c)
  have hf : ∀ u : Fin d → ℝ, HasFDerivAt (fun (u : Fin d → ℝ) c => h c (u c))
      (ContinuousLinearMap.pi fun c => h' c (u c) • ContinuousLinearMap.proj (R := ℝ) (φ := fun _ : Fin d => ℝ) c) u := fun u => by
    rw [hasFDerivAt_pi]
    intro c
    have := (hd c (u c)).comp_hasFDerivAt u (ContinuousLinearMap.proj (R := ℝ) (φ := fun _ : Fin d => ℝ) c).hasFDerivAt
    exact this
  have hdet : ∀ u : Fin d → ℝ, (ContinuousLinearMap.pi fun c => h' c (u c) • ContinuousLinearMap.proj (R := ℝ) (φ := fun _ : Fin d => ℝ) c).det
      = ∏ c, h' c (u c) := fun u => by
    rw [← Matrix.det_diagonal, ← LinearMap.det_toLin']
    unfold ContinuousLinearMap.det
    congr 1
    ext v c
    simp [Matrix.toLin'_apply, Matrix.mulVec_diagonal]
  have hm := map_withDensity_abs_det_fderiv_eq_addHaar (volume : Measure (Fin d → ℝ)) (s := Set.univ) MeasurableSet.univ.nullMeasurableSet (fun u _ => (hf u).hasFDerivWithinAt) hinj.injOn
  simp only [hdet] at hm
  rw [Measure.restrict_univ, Set.image_univ] at hm
  exact hm

/-- Division of the components by positive numbers. -/
noncomputable def units (s : Fin d → ℝ) (u : Fin d → ℝ) : Fin d → ℝ := fun c => u c / s c

theorem measurable_units (s : Fin d → ℝ) : Measurable (units s) := measurable_pi_lambda _ fun c => (measurable_pi_apply c).div_const _

theorem log_tail_units {E : Type} [MeasurableSpace E] {P : Measure E} [IsProbabilityMeasure P] {g : E → ℝ} (hm : Measurable g) {s : ℝ} (hs : 0 < s)
    (hg : Integrable (fun e => Real.log (1 + |g e|)) P) : Integrable (fun e => Real.log (1 + |g e / s|)) P := by
  refine Integrable.mono' (hg.add (integrable_const (Real.log (1 + 1 / s)))) ((((hm.div_const s).norm).const_add 1).log).aestronglyMeasurable
    (.of_forall fun e => ?_)
  rw [Real.norm_eq_abs, abs_of_nonneg (Real.log_nonneg (by linarith [abs_nonneg (g e / s)])), Pi.add_apply,
    ← Real.log_mul (by positivity) (by positivity)]
  refine Real.log_le_log (by positivity) ?_
  rw [abs_div, abs_of_pos hs]
  have h1 : 0 < 1 / s := by positivity
  have h2 : |g e| / s = |g e| * (1 / s) := by ring
  rw [h2]
  nlinarith [abs_nonneg (g e)]

/-- The mutual information does not depend on the units. -/
theorem units_mi {s : Fin dx → ℝ} {t : Fin dy → ℝ} (hs : ∀ c, 0 < s c) (ht : ∀ c, 0 < t c) :
    mutualInfo (P.map (Prod.map (units s) (units t))) = mutualInfo P := by
  refine mutualInfo_map_eq_of_leftInverse P (measurable_units s) (measurable_units t) (f' := fun u c => u c * s c) (g' := fun u c => u c * t c)
    (measurable_pi_lambda _ fun c => (measurable_pi_apply c).mul_const _) (measurable_pi_lambda _ fun c => (measurable_pi_apply c).mul_const _)
    (.of_forall fun u => ?_) (.of_forall fun u => ?_)
  · funext c; exact div_mul_cancel₀ _ (hs c).ne'
  · funext c; exact div_mul_cancel₀ _ (ht c).ne'


theorem units_regular {Q : Measure (Fin d → ℝ)} [IsProbabilityMeasure Q] (h : Regular Q) {s : Fin d → ℝ} (hs : ∀ c, 0 < s c) : Regular (Q.map (units s)) := by
  have hi : ∀ c, Function.Injective fun x : ℝ => x / s c := fun c x y hxy => (div_left_inj' (hs c).ne').1 hxy
  have hv := componentwise_volume (h := fun c x => x / s c) (h' := fun c _ => 1 / s c) (fun c x => (hasDerivAt_id x).div_const (s c)) hi
  have hinj : Function.Injective (units s) := fun u v huv => funext fun c => hi c (congrFun huv c)
  have hp : 0 < |∏ c, 1 / s c| := abs_pos.2 (Finset.prod_ne_zero_iff.2 fun c _ => (one_div_pos.2 (hs c)).ne')
  refine regular_map h (measurable_units s) hinj measurable_const (.of_forall fun u => hp)
    ((measurable_units s).measurableEmbedding hinj).measurableSet_range hv (integrable_const _) fun c => ?_
  exact log_tail_units (measurable_pi_apply c) (hs c) (h.tail c)

theorem units_spread (h : Spread P) {s : Fin dx → ℝ} {t : Fin dy → ℝ} (hs : ∀ c, 0 < s c) (ht : ∀ c, 0 < t c) :
    Spread (P.map (Prod.map (units s) (units t))) := by
  have mU : Measurable (Prod.map (units s) (units t)) := (measurable_units s).prodMap (measurable_units t)
  refine ⟨?_, ?_, by rw [units_mi hs ht]; exact h.finite⟩
  · have : (P.map (Prod.map (units s) (units t))).fst = P.fst.map (units s) := by
      unfold Measure.fst
      rw [Measure.map_map measurable_fst mU, Measure.map_map (measurable_units s) measurable_fst]
      rfl
    rw [this]
    exact units_regular h.left hs
  · have : (P.map (Prod.map (units s) (units t))).snd = P.snd.map (units t) := by
      unfold Measure.snd
      rw [Measure.map_map measurable_snd mU, Measure.map_map (measurable_units t) measurable_snd]
      rfl
    rw [this]
    exact units_regular h.right ht

end

theorem le_of_density {E : Type} [MeasurableSpace E] {μ Q : Measure E} {g : E → ℝ} {C : ℝ} (hg : ∀ e, g e ≤ C)
    (hQ : Q = μ.withDensity fun e => ENNReal.ofReal (Real.exp (g e))) :
    ∃ M : NNReal, ∀ A : Set E, MeasurableSet A → Q A ≤ M * μ A := by
  refine ⟨(Real.exp C).toNNReal, fun A hA => ?_⟩
  rw [hQ, withDensity_apply _ hA, ← setLIntegral_const]
  exact lintegral_mono fun e => ENNReal.ofReal_le_ofReal (Real.exp_le_exp.2 (hg e))

theorem regular_of_le {Q : Measure (Fin d → ℝ)} [IsProbabilityMeasure Q] (hM : ∃ M : NNReal, ∀ A, MeasurableSet A → Q A ≤ M * volume A)
    (ht : ∀ c, Integrable (fun u => Real.log (1 + |u c|)) Q) : Regular Q := by
  obtain ⟨M, hM⟩ := hM
  obtain ⟨f, D⟩ := dense_of_le hM ht
  exact ⟨⟨f, D.meas, D.nonneg, D.law, D.peak⟩, ht⟩

end BMI.Kde
