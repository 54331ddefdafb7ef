import Verif.Lemmas.CentralLimit
import Verif.Props.BmmPmi
import Verif.Props.BmmMixtureMI
import Verif.Lemmas.InfiniteMI

/-! C99: Monte Carlo estimates of the mutual information with more and more points, and the meaning of their standard errors, over
/repo/src/bmi/samplers/_tfp/_core.py. -/

namespace BMI.Bmm

open MeasureTheory ProbabilityTheory Filter Topology BMI.Samplers BMI.Consistency

variable {Key : Type} [MeasurableSpace Key] {κ : Measure Key} {J : JointDistribution Key} {dx dy : ℕ}
  {Sx : Set (Fin dx → ℝ)} {Sy : Set (Fin dy → ℝ)} {P : Measure ((Fin dx → ℝ) × (Fin dy → ℝ))} {bx : Measure (Fin dx → ℝ)} {by' : Measure (Fin dy → ℝ)}

/-- The estimate with the key `k` and `n` points is `v`, its standard error is `e`. -/
def Estimates (J : JointDistribution Key) (n : ℕ) (k : Key) (v e : ℝ) : Prop := monteCarloMiEstimate k J n = .ok ((v : EReal), e)

/-- The estimates through a measurable version of the pointwise mutual information. -/
theorem estimates_sample [SFinite bx] [SFinite by'] (hJ : ConsistentOn κ J bx by' P) :
    ∃ f : (Fin dx → ℝ) × (Fin dy → ℝ) → ℝ, Measurable f ∧ (fun z => (J.pmiAt (List.ofFn z.1) (List.ofFn z.2)).toReal) =ᵐ[P] f ∧
      ∀ n : ℕ, 0 < n → ∃ draw : Key → Fin n → (Fin dx → ℝ) × (Fin dy → ℝ), Measurable draw ∧ κ.map draw = Measure.pi (fun _ => P) ∧
        ∀ᵐ k ∂κ, Estimates J n k (sampleMean f (draw k)) (sampleStd f (draw k) / √n) := by
  haveI := hJ.prob
  obtain ⟨-, -, hmeas, -, -⟩ := pmi_density_on hJ
  refine ⟨hmeas.mk _, hmeas.measurable_mk, hmeas.ae_eq_mk, fun n hn => ?_⟩
  obtain ⟨draw, hm, hl, hest⟩ := monteCarlo_draws_on hJ n hn
  refine ⟨draw, hm, hl, ?_⟩
  have hall : ∀ᵐ w ∂(Measure.pi fun _ : Fin n => P), ∀ i, (J.pmiAt (List.ofFn (w i).1) (List.ofFn (w i).2)).toReal = hmeas.mk _ (w i) := by
    rw [ae_all_iff]
    exact fun i => (measurePreserving_eval (fun _ : Fin n => P) i).quasiMeasurePreserving.ae hmeas.ae_eq_mk
  rw [← hl] at hall
  filter_upwards [hest, ae_of_ae_map hm.aemeasurable hall] with k h1 h2
  unfold Estimates
  rw [h1]
  simp only [h2]
  rfl

theorem measure_unique {A : Key → ℝ → ℝ → Prop} {a b : Key → ℝ} {n : ℕ} (h : ∀ᵐ k ∂κ, Estimates J n k (a k) (b k)) :
    κ {k | ∃ v e, Estimates J n k v e ∧ A k v e} = κ {k | A k (a k) (b k)} ∧
    κ {k | ¬ ∃ v e, Estimates J n k v e ∧ A k v e} = κ {k | ¬ A k (a k) (b k)} := by
  have hiff : ∀ᵐ k ∂κ, (∃ v e, Estimates J n k v e ∧ A k v e) ↔ A k (a k) (b k) := by
    filter_upwards [h] with k hk
    refine ⟨?_, fun hA => ⟨_, _, hk, hA⟩⟩
    rintro ⟨v, e, h1, h2⟩
    have h3 := Except.ok.inj (h1.symm.trans hk)
    obtain rfl : v = a k := EReal.coe_injective (congrArg Prod.fst h3)
    obtain rfl : e = b k := congrArg Prod.snd h3
    exact h2
  refine ⟨measure_congr ?_, measure_congr ?_⟩
  · filter_upwards [hiff] with k hk
    exact propext hk
  · filter_upwards [hiff] with k hk
    exact propext (not_congr hk)

/-- **C99** If the mutual information is finite, the estimates converge to it in probability. -/
theorem monteCarlo_converges [SFinite bx] [SFinite by'] (hJ : ConsistentOn κ J bx by' P) (hne : mutualInfo P ≠ ⊤) {δ : ℝ} (hδ : 0 < δ) :
    Tendsto (fun n : ℕ => κ {k | ¬ ∃ v e, Estimates J n k v e ∧ |v - (mutualInfo P).toReal| < δ}) atTop (𝓝 0) := by
  haveI := hJ.prob
  obtain ⟨f, hf, hfe, hd⟩ := estimates_sample hJ
  obtain ⟨-, -, -, hiff, hmi⟩ := pmi_density_on hJ
  have hi : Integrable f P := (hiff.1 hne).congr hfe
  have hmean : ∫ z, f z ∂P = (mutualInfo P).toReal := by
    conv_rhs => rw [(hmi hne).1]
    rw [ENNReal.toReal_ofReal (hmi hne).2, integral_congr_ae hfe]
  have hm : ∀ n, MeasurableSet {w : Fin n → (Fin dx → ℝ) × (Fin dy → ℝ) | ¬ |sampleMean f w - (mutualInfo P).toReal| < δ} := fun n =>
    (measurableSet_lt ((measurable_sampleMean hf n).sub_const _).abs measurable_const).compl
  have hb := bad_tendsto (P := P) hm (by
    filter_upwards [averages f hf hi] with ω hω
    rw [hmean] at hω
    filter_upwards [Metric.tendsto_nhds.1 hω δ hδ] with n hn
    exact not_not.2 hn)
  refine hb.congr' ?_
  filter_upwards [eventually_gt_atTop 0] with n hn
  obtain ⟨draw, hdm, hl, hest⟩ := hd n hn
  rw [(measure_unique (A := fun _ v _ => |v - (mutualInfo P).toReal| < δ) hest).2, ← hl, Measure.map_apply hdm (hm n)]
  rfl

/-- The negative part of the logarithm of a density has a finite integral. -/
theorem negative_part {E : Type} [MeasurableSpace E] {P Q : Measure E} [IsProbabilityMeasure Q] {p : E → EReal}
    (hden : P = Q.withDensity fun z => (p z).exp) (hw : AEMeasurable (fun z => (p z).exp) Q) (hfin : ∀ᵐ z ∂P, p z ≠ ⊥ ∧ p z ≠ ⊤) :
    ∫⁻ z, ENNReal.ofReal (-(p z).toReal) ∂P ≠ ⊤ := by
  have h2 : ∀ z, p z ≠ ⊥ → p z ≠ ⊤ → ENNReal.ofReal (-(p z).toReal) ≤ ((p z).exp)⁻¹ := by
    intro z hz1 hz2
    rw [← EReal.exp_neg]
    conv_rhs => rw [← EReal.coe_toReal hz2 hz1, ← EReal.coe_neg, EReal.exp_coe]
    refine ENNReal.ofReal_le_ofReal ?_
    linarith [Real.add_one_le_exp (-(p z).toReal)]
  have hac : P ≪ Q := by rw [hden]; exact withDensity_absolutelyContinuous _ _
  have hinv : AEMeasurable (fun z => ((p z).exp)⁻¹) P := (hw.mono_ac hac).inv
  have h3 : ∫⁻ z, ((p z).exp)⁻¹ ∂P ≤ 1 := by
    rw [hden] at hinv
    rw [hden, lintegral_withDensity_eq_lintegral_mul₀' hw hinv]
    calc ∫⁻ z, ((fun z => (p z).exp) * fun z => ((p z).exp)⁻¹) z ∂Q ≤ ∫⁻ _, 1 ∂Q := lintegral_mono fun z => ENNReal.mul_inv_le_one _
      _ = 1 := by simp
  have h4 : ∫⁻ z, ENNReal.ofReal (-(p z).toReal) ∂P ≤ ∫⁻ z, ((p z).exp)⁻¹ ∂P :=
    lintegral_mono_ae (by filter_upwards [hfin] with z hz; exact h2 z hz.1 hz.2)
  exact ne_top_of_le_ne_top ENNReal.one_ne_top (h4.trans h3)

/-- Below a function with an infinite integral there are integrable functions with large integrals. -/
theorem exists_lower {E : Type} [MeasurableSpace E] {P : Measure E} [IsProbabilityMeasure P] {f : E → ℝ} (hf : Measurable f)
    (hneg : ∫⁻ z, ENNReal.ofReal (-f z) ∂P ≠ ⊤) (hni : ¬ Integrable f P) (b : ℝ) :
    ∃ g : E → ℝ, Measurable g ∧ Integrable g P ∧ (∀ z, g z ≤ f z) ∧ b < ∫ z, g z ∂P := by
  have hnegi : Integrable (fun z => max (-f z) 0) P := by
    refine ⟨(hf.neg.max measurable_const).aestronglyMeasurable, ?_⟩
    have h0 : 0 ≤ᵐ[P] fun z => max (-f z) 0 := .of_forall fun z => le_max_right _ _
    rw [hasFiniteIntegral_iff_ofReal h0]
    refine lt_of_le_of_ne le_top fun h => hneg ?_
    rw [← h]
    refine lintegral_congr fun z => ?_
    rcases le_total (-f z) 0 with h' | h'
    · rw [max_eq_right h', ENNReal.ofReal_of_nonpos h', ENNReal.ofReal_zero]
    · rw [max_eq_left h']
  have hpos : ∫⁻ z, ENNReal.ofReal (f z) ∂P = ⊤ := by
    by_contra h
    refine hni ?_
    have h1 : Integrable (fun z => max (f z) 0) P := by
      refine ⟨(hf.max measurable_const).aestronglyMeasurable, ?_⟩
      have h0 : 0 ≤ᵐ[P] fun z => max (f z) 0 := .of_forall fun z => le_max_right _ _
      rw [hasFiniteIntegral_iff_ofReal h0]
      refine lt_of_le_of_ne le_top fun h' => h ?_
      rw [← h']
      refine lintegral_congr fun z => ?_
      rcases le_total (f z) 0 with h' | h'
      · rw [max_eq_right h', ENNReal.ofReal_of_nonpos h', ENNReal.ofReal_zero]
      · rw [max_eq_left h']
    refine (h1.sub hnegi).congr (.of_forall fun z => ?_)
    show max (f z) 0 - max (-f z) 0 = f z
    rcases le_total (f z) 0 with h' | h'
    · rw [max_eq_right h', max_eq_left (by linarith)]; ring
    · rw [max_eq_left h', max_eq_right (by linarith)]; ring
  -- the function cut off at a high level
  have hcut : ∀ M : ℕ, Integrable (fun z => min (max (f z) 0) M) P := fun M => by
    refine Integrable.of_bound ((hf.max measurable_const).min measurable_const).aestronglyMeasurable (M : ℝ) (.of_forall fun z => ?_)
    rw [Real.norm_eq_abs, abs_of_nonneg (le_min (le_max_right _ _) (Nat.cast_nonneg _))]
    exact min_le_right _ _
  have hlim : Tendsto (fun M : ℕ => ∫⁻ z, ENNReal.ofReal (min (max (f z) 0) M) ∂P) atTop (𝓝 ⊤) := by
    rw [← hpos]
    refine lintegral_tendsto_of_tendsto_of_monotone
      (fun M => ((hf.max measurable_const).min measurable_const).ennreal_ofReal.aemeasurable) (.of_forall fun z => ?_)
      (.of_forall fun z => ?_)
    · exact fun M N hMN => ENNReal.ofReal_le_ofReal (min_le_min_left _ (by exact_mod_cast hMN))
    · refine tendsto_const_nhds.congr' ?_
      obtain ⟨N, hN⟩ := exists_nat_ge (max (f z) 0)
      filter_upwards [eventually_ge_atTop N] with M hM
      have hM' : max (f z) 0 ≤ M := hN.trans (by exact_mod_cast hM)
      rw [min_eq_left hM']
      rcases le_total (f z) 0 with h' | h'
      · rw [max_eq_right h', ENNReal.ofReal_of_nonpos h', ENNReal.ofReal_zero]
      · rw [max_eq_left h']
  obtain ⟨M, hM⟩ := (hlim.eventually (lt_mem_nhds (ENNReal.ofReal_lt_top (r := b + ∫ z, max (-f z) 0 ∂P)))).exists
  set g : E → ℝ := fun z => min (max (f z) 0) M - max (-f z) 0 with hg
  have hgm : Measurable g := ((hf.max measurable_const).min measurable_const).sub (hf.neg.max measurable_const)
  have hgi : Integrable g P := (hcut M).sub hnegi
  have hgle : ∀ z, g z ≤ f z := fun z => by
    simp only [hg]
    rcases le_total (f z) 0 with h' | h'
    · rw [max_eq_right h', max_eq_left (by linarith)]
      have : min (0 : ℝ) M ≤ 0 := min_le_left _ _
      linarith
    · rw [max_eq_left h', max_eq_right (by linarith : -f z ≤ 0)]
      have : min (f z) (M : ℝ) ≤ f z := min_le_left _ _
      linarith
  have hgb : b < ∫ z, g z ∂P := by
    rw [hg, integral_sub (hcut M) hnegi]
    rw [← ofReal_integral_eq_lintegral_ofReal (hcut M) (.of_forall fun z => le_min (le_max_right _ _) (Nat.cast_nonneg _))] at hM
    have := (ENNReal.ofReal_lt_ofReal_iff'.1 hM).1
    linarith
  exact ⟨g, hgm, hgi, hgle, hgb⟩

/-- **C99** If the mutual information is infinite, the estimates exceed every bound in the long run. -/
theorem monteCarlo_diverges [SFinite bx] [SFinite by'] (hJ : ConsistentOn κ J bx by' P) (htop : mutualInfo P = ⊤) (b : ℝ) :
    Tendsto (fun n : ℕ => κ {k | ¬ ∃ v e, Estimates J n k v e ∧ b < v}) atTop (𝓝 0) := by
  haveI := hJ.prob
  obtain ⟨f, hf, hfe, hd⟩ := estimates_sample hJ
  obtain ⟨hden, hfin, hmeas, hiff, -⟩ := pmi_density_on hJ
  have hni : ¬ Integrable f P := fun h => hiff.2 (h.congr hfe.symm) htop
  have hw : AEMeasurable (fun z : (Fin dx → ℝ) × (Fin dy → ℝ) => (J.pmiAt (List.ofFn z.1) (List.ofFn z.2)).exp) (P.fst.prod P.snd) :=
    (ratio_density hJ.joint.measurable hJ.x.measurable hJ.y.measurable hJ.joint.density hJ.x.density hJ.y.density).2.1
  have hneg : ∫⁻ z, ENNReal.ofReal (-f z) ∂P ≠ ⊤ := by
    have h1 := negative_part hden hw hfin
    rwa [lintegral_congr_ae (g := fun z => ENNReal.ofReal (-f z)) (by filter_upwards [hfe] with z hz; rw [← hz])] at h1
  obtain ⟨g, hgm, hgi, hgle, hgb⟩ := exists_lower hf hneg hni b
  have hm : ∀ n, MeasurableSet {w : Fin n → (Fin dx → ℝ) × (Fin dy → ℝ) | ¬ b < sampleMean f w} := fun n =>
    (measurableSet_lt measurable_const (measurable_sampleMean hf n)).compl
  have hb := bad_tendsto (P := P) hm (by
    filter_upwards [averages g hgm hgi] with ω hω
    filter_upwards [hω.eventually (lt_mem_nhds hgb)] with n hn
    refine not_not.2 (hn.trans_le ?_)
    unfold sampleMean
    exact div_le_div_of_nonneg_right (Finset.sum_le_sum fun i _ => hgle _) (Nat.cast_nonneg _))
  refine hb.congr' ?_
  filter_upwards [eventually_gt_atTop 0] with n hn
  obtain ⟨draw, hdm, hl, hest⟩ := hd n hn
  rw [(measure_unique (A := fun _ v _ => b < v) hest).2, ← hl, Measure.map_apply hdm (hm n)]
  rfl

/-- The hypotheses can be met: two equal numbers with heavy tails. -/
example (b : ℝ) := monteCarlo_diverges equal_consistent equal_infinite b

/-- **C99** The standard error is honest: if the pointwise mutual information has a finite variance which is not zero, the
probability that the mutual information is within `z` standard errors of the estimate tends to the probability that a standard
normal number is between `-z` and `z`. -/
theorem error_bars [SFinite bx] [SFinite by'] (hJ : ConsistentOn κ J bx by' P)
    (h2 : MemLp (fun z => (J.pmiAt (List.ofFn z.1) (List.ofFn z.2)).toReal) 2 P)
    (hv : Var[fun z => (J.pmiAt (List.ofFn z.1) (List.ofFn z.2)).toReal; P] ≠ 0) (z : ℝ) :
    Tendsto (fun n : ℕ => κ {k | ∃ v e, Estimates J n k v e ∧ |v - (mutualInfo P).toReal| ≤ z * e}) atTop
      (𝓝 (gaussianReal 0 1 (Set.Icc (-z) z))) := by
  haveI := hJ.prob
  obtain ⟨f, hf, hfe, hd⟩ := estimates_sample hJ
  obtain ⟨-, -, -, hiff, hmi⟩ := pmi_density_on hJ
  have hne := hiff.2 (h2.integrable one_le_two)
  have hmean : ∫ z, f z ∂P = (mutualInfo P).toReal := by
    conv_rhs => rw [(hmi hne).1]
    rw [ENNReal.toReal_ofReal (hmi hne).2, integral_congr_ae hfe]
  have hi := interval_tendsto hf (h2.ae_eq hfe) (by rwa [← variance_congr hfe]) z
  refine hi.congr' ?_
  filter_upwards [eventually_gt_atTop 0] with n hn
  obtain ⟨draw, hdm, hl, hest⟩ := hd n hn
  have hms : MeasurableSet {w : Fin n → _ | |sampleMean f w - ∫ x, f x ∂P| ≤ z * (sampleStd f w / √n)} :=
    measurableSet_le ((measurable_sampleMean hf n).sub_const _).abs (((measurable_sampleStd hf n).div_const _).const_mul z)
  rw [(measure_unique (A := fun _ v e => |v - (mutualInfo P).toReal| ≤ z * e) hest).1, ← hl, Measure.map_apply hdm hms, hmean]
  rfl

/-- **C99** If the variance is zero, every estimate is exact and its standard error is zero. -/
theorem error_bars_zero [SFinite bx] [SFinite by'] (hJ : ConsistentOn κ J bx by' P)
    (h2 : MemLp (fun z => (J.pmiAt (List.ofFn z.1) (List.ofFn z.2)).toReal) 2 P)
    (hv : Var[fun z => (J.pmiAt (List.ofFn z.1) (List.ofFn z.2)).toReal; P] = 0) {n : ℕ} (hn : 0 < n) :
    ∀ᵐ k ∂κ, Estimates J n k (mutualInfo P).toReal 0 := by
  haveI := hJ.prob
  obtain ⟨f, hf, hfe, hd⟩ := estimates_sample hJ
  obtain ⟨-, -, -, hiff, hmi⟩ := pmi_density_on hJ
  have hne := hiff.2 (h2.integrable one_le_two)
  have hmean : ∫ z, f z ∂P = (mutualInfo P).toReal := by
    conv_rhs => rw [(hmi hne).1]
    rw [ENNReal.toReal_ofReal (hmi hne).2, integral_congr_ae hfe]
  obtain ⟨draw, hdm, hl, hest⟩ := hd n hn
  have hc : f =ᵐ[P] fun _ => ∫ x, f x ∂P := ae_eq_integral_of_variance_eq_zero (h2.ae_eq hfe) (by rw [← variance_congr hfe, hv])
  have hall : ∀ᵐ w ∂(Measure.pi fun _ : Fin n => P), ∀ i, f (w i) = ∫ x, f x ∂P := by
    rw [ae_all_iff]
    exact fun i => (measurePreserving_eval (fun _ : Fin n => P) i).quasiMeasurePreserving.ae hc
  rw [← hl] at hall
  filter_upwards [hest, ae_of_ae_map hdm.aemeasurable hall] with k h1 h2
  have hn' : (n : ℝ) ≠ 0 := by positivity
  have e1 : sampleMean f (draw k) = (mutualInfo P).toReal := by
    unfold sampleMean
    simp only [h2, Finset.sum_const, Finset.card_univ, Fintype.card_fin, nsmul_eq_mul, hmean]
    field_simp
  have e2 : sampleStd f (draw k) = 0 := by
    unfold sampleStd
    simp only [h2, Finset.sum_const, Finset.card_univ, Fintype.card_fin, nsmul_eq_mul]
    rw [mul_div_cancel_left₀ _ hn', mul_div_cancel_left₀ _ hn', sub_self]
    simp
  rw [e1, e2, zero_div] at h1
  exact h1

/-- The variance is zero exactly for independent variables, if the product of the marginals has a density with respect to the joint
law. -/
theorem variance_zero_iff (hJ : Consistent κ J Sx Sy P) (hac : P.fst.prod P.snd ≪ P)
    (h2 : MemLp (fun z => (J.pmiAt (List.ofFn z.1) (List.ofFn z.2)).toReal) 2 P) :
    Var[fun z => (J.pmiAt (List.ofFn z.1) (List.ofFn z.2)).toReal; P] = 0 ↔ mutualInfo P = 0 := by
  haveI := hJ.prob
  obtain ⟨hdens, hfin, -, -, -⟩ := pmi_density hJ
  have hw : AEMeasurable (fun z : (Fin dx → ℝ) × (Fin dy → ℝ) => (J.pmiAt (List.ofFn z.1) (List.ofFn z.2)).exp) (P.fst.prod P.snd) :=
    EReal.measurable_exp.comp_aemeasurable (pmi_aemeasurable hJ)
  have h3 : ∫⁻ z, (J.pmiAt (List.ofFn z.1) (List.ofFn z.2)).exp ∂(P.fst.prod P.snd) = 1 := by
    have := congrArg (fun μ => μ Set.univ) hdens
    simp only [measure_univ] at this
    rw [withDensity_apply _ MeasurableSet.univ, Measure.restrict_univ] at this
    exact this.symm
  rw [mutualInfo_eq_zero_iff]
  constructor
  · intro hv
    have hc := ae_eq_integral_of_variance_eq_zero h2 hv
    set c := ∫ z, (J.pmiAt (List.ofFn z.1) (List.ofFn z.2)).toReal ∂P
    have hc' : ∀ᵐ z ∂(P.fst.prod P.snd), (J.pmiAt (List.ofFn z.1) (List.ofFn z.2)).exp = ENNReal.ofReal (Real.exp c) := by
      filter_upwards [hac.ae_le hc, hac.ae_le hfin] with z hz hz'
      rw [← hz, ← EReal.exp_coe, EReal.coe_toReal hz'.2 hz'.1]
    rw [lintegral_congr_ae hc'] at h3
    simp only [lintegral_const, measure_univ, mul_one] at h3
    conv_lhs => rw [hdens]
    rw [withDensity_congr_ae hc', h3]
    exact withDensity_one
  · intro hP
    have h4 : (fun z => (J.pmiAt (List.ofFn z.1) (List.ofFn z.2)).exp) =ᵐ[P.fst.prod P.snd] fun _ => 1 := by
      refine (withDensity_eq_iff hw aemeasurable_const (by rw [h3]; exact ENNReal.one_ne_top)).1 ?_
      rw [← hdens, hP, Measure.fst_prod, Measure.snd_prod]
      exact withDensity_one.symm
    have h5 : (fun z => (J.pmiAt (List.ofFn z.1) (List.ofFn z.2)).toReal) =ᵐ[P] fun _ => 0 := by
      have hPQ : P ≪ P.fst.prod P.snd := by
        conv_lhs => rw [hdens]
        exact withDensity_absolutelyContinuous _ _
      filter_upwards [hPQ.ae_le h4, hfin] with z hz hz'
      rw [← EReal.coe_toReal hz'.2 hz'.1, EReal.exp_coe, ENNReal.ofReal_eq_one, Real.exp_eq_one_iff] at hz
      exact hz
    rw [variance_congr h5]
    exact variance_zero P

/-- The hypotheses can be met: two correlated normal numbers. -/
example (R : JaxRandom PathKey) (z : ℝ) : ∃ J P, multivariateNormalDistribution R path 1 1 (rowsOf (bivariateCov 0.5 1 1))
    (some (List.ofFn ![1, 2])) = .ok J ∧ Consistent (dx := 1) (dy := 1) pathLaw J Set.univ Set.univ P ∧ mutualInfo P ≠ 0 ∧
    Tendsto (fun n : ℕ => pathLaw {k | ∃ v e, Estimates J n k v e ∧ |v - (mutualInfo P).toReal| ≤ z * e}) atTop
      (𝓝 (gaussianReal 0 1 (Set.Icc (-z) z))) := by
  obtain ⟨J, P, h1, h2, h3, h4, h5⟩ := example_normal R
  have hac := product_ac_of_positive h2 fun z => by
    obtain ⟨C, -, hC⟩ := (tame_normal path_ideal R 1 1 ![1, 2] (bivariateCov 0.5 1 1)
      (bivariateCov_posDef 0.5 1 1 one_pos one_pos (by norm_num) (by norm_num)) h1).joint
    obtain ⟨a, ha, -⟩ := hC z
    simp only at ha
    rw [ha]
    exact EReal.coe_ne_bot a
  exact ⟨J, P, h1, h2, h5, error_bars h2.on h3 (fun hv => h5 ((variance_zero_iff h2 hac h3).1 hv)) z⟩

/-- The hypotheses of `error_bars_zero` can be met: two independent normal numbers. -/
example (R : JaxRandom PathKey) : ∃ J, multivariateNormalDistribution R path 1 1 (rowsOf (bivariateCov 0 1 1))
    (some (List.ofFn ![1, 2])) = .ok J ∧ ∀ᵐ k ∂pathLaw, Estimates J 1000 k 0 0 := by
  have hpos := bivariateCov_posDef 0 1 1 one_pos one_pos (by norm_num) (by norm_num)
  obtain ⟨J, h1, -, h3⟩ := multivariateNormal_consistent path_ideal R 1 1 one_pos one_pos ![1, 2] (bivariateCov 0 1 1) hpos
  haveI := h3.prob
  have htame := tame_normal path_ideal R 1 1 ![1, 2] (bivariateCov 0 1 1) hpos h1
  have h4 := htame.memLp (pmi_density h3).2.2.1
  have hac := product_ac_of_positive h3 fun z => by
    obtain ⟨C, -, hC⟩ := htame.joint
    obtain ⟨a, ha, -⟩ := hC z
    simp only at ha
    rw [ha]
    exact EReal.coe_ne_bot a
  have hmi : mutualInfo ((normalLaw ![1, 2] (bivariateCov 0 1 1)).map fun z =>
      ((fun i => z (Fin.castAdd 1 i), fun i => z (Fin.natAdd 1 i)) : (Fin 1 → ℝ) × (Fin 1 → ℝ))) = _ :=
    (splitNormal_mi (dx := 1) (dy := 1) ![1, 2] hpos).1
  have e1 : (blockX (dx := 1) (dy := 1) (bivariateCov 0 1 1)).det = 1 := by
    rw [Matrix.det_fin_one]
    show bivariateCov 0 1 1 0 0 = 1
    simp [bivariateCov]
  have e2 : (blockY (dx := 1) (dy := 1) (bivariateCov 0 1 1)).det = 1 := by
    rw [Matrix.det_fin_one]
    show bivariateCov 0 1 1 1 1 = 1
    simp [bivariateCov]
  have e3 : (bivariateCov 0 1 1).det = 1 := by rw [Matrix.det_fin_two]; simp [bivariateCov]
  rw [e1, e2, e3] at hmi
  have h0 : mutualInfo ((normalLaw ![1, 2] (bivariateCov 0 1 1)).map fun z =>
      ((fun i => z (Fin.castAdd 1 i), fun i => z (Fin.natAdd 1 i)) : (Fin 1 → ℝ) × (Fin 1 → ℝ))) = 0 := by rw [hmi]; simp
  have h5 := error_bars_zero h3.on h4 ((variance_zero_iff h3 hac h4).2 h0) (n := 1000) (by norm_num)
  rw [h0, ENNReal.toReal_zero] at h5
  exact ⟨J, h1, h5⟩

/-- **C99** Mixtures of normal distributions: the estimates converge.  If the variables are independent, every estimate is zero with
standard error zero; otherwise the probability that the mutual information is within `z` standard errors of the estimate tends to the
probability that a standard normal number is between `-z` and `z`. -/
theorem gaussianMixture_error_bars {T : Tfp Key} (hT : IdealTfp T κ) (R : JaxRandom Key) {m : ℕ} (p : Fin m → ℝ) (h0 : ∀ j, 0 ≤ p j)
    (h1 : ∑ j, p j = 1) (hx : 0 < dx) (hy : 0 < dy) (mean : Fin m → Fin (dx + dy) → ℝ)
    (cov : Fin m → Matrix (Fin (dx + dy)) (Fin (dx + dy)) ℝ) (hpos : ∀ j, (cov j).PosDef) :
    ∃ (J : Fin m → JointDistribution Key) (M : JointDistribution Key) (P : Measure ((Fin dx → ℝ) × (Fin dy → ℝ))),
      P = mixtureLaw p (fun j => (normalLaw (mean j) (cov j)).map fun z =>
        (fun i => z (Fin.castAdd dy i), fun i => z (Fin.natAdd dx i))) ∧
      (∀ j, multivariateNormalDistribution R T dx dy (rowsOf (cov j)) (some (List.ofFn (mean j))) = .ok (J j)) ∧
      mixture T (List.ofFn p) (List.ofFn J) = .ok M ∧ mutualInfo P ≠ ⊤ ∧
      (∀ δ > 0, Tendsto (fun n : ℕ => κ {k | ¬ ∃ v e, Estimates M n k v e ∧ |v - (mutualInfo P).toReal| < δ}) atTop (𝓝 0)) ∧
      (mutualInfo P = 0 → ∀ n, 0 < n → ∀ᵐ k ∂κ, Estimates M n k 0 0) ∧
      (mutualInfo P ≠ 0 → ∀ z : ℝ,
        Tendsto (fun n : ℕ => κ {k | ∃ v e, Estimates M n k v e ∧ |v - (mutualInfo P).toReal| ≤ z * e}) atTop
          (𝓝 (gaussianReal 0 1 (Set.Icc (-z) z)))) := by
  choose J hJ _ hC using fun j => multivariateNormal_consistent hT R dx dy hx hy (mean j) (cov j) (hpos j)
  obtain ⟨M, hM, -, hMC⟩ := mixture_consistent hT p h0 h1 J _ hC
  haveI := hMC.prob
  have htame := tame_mixture T h0 h1 (fun j => tame_normal hT R dx dy (mean j) (cov j) (hpos j) (hJ j)) hM
  have ht := htame.memLp (pmi_density hMC).2.2.1
  have hne := (pmi_density hMC).2.2.2.1.2 (ht.integrable one_le_two)
  have hac := product_ac_of_positive hMC fun z => by
    obtain ⟨C, -, hC⟩ := htame.joint
    obtain ⟨a, ha, -⟩ := hC z
    simp only at ha
    rw [ha]
    exact EReal.coe_ne_bot a
  have hiff := variance_zero_iff hMC hac ht
  refine ⟨J, M, _, rfl, hJ, hM, hne, fun δ hδ => monteCarlo_converges hMC.on hne hδ, fun h n hn => ?_, fun h z =>
    error_bars hMC.on ht (fun hv => h (hiff.1 hv)) z⟩
  have := error_bars_zero hMC.on ht (hiff.2 h) hn
  rwa [h, ENNReal.toReal_zero] at this

/-- The hypotheses can be met: a mixture of two normal distributions. -/
example (R : JaxRandom PathKey) := gaussianMixture_error_bars path_ideal R ![0.3, 0.7] (fun j => by fin_cases j <;> norm_num)
  (by norm_num [Fin.sum_univ_two]) (dx := 1) (dy := 1) one_pos one_pos (fun _ => ![1, 2]) (fun _ => bivariateCov 0.5 1 1)
  (fun _ => bivariateCov_posDef _ _ _ one_pos one_pos (by norm_num) (by norm_num))

end BMI.Bmm
