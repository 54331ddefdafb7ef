import Verif.Lemmas.BatchBias

/-! Property C77: the critics for which the objectives of the neural estimators are largest
(/repo/src/bmi/estimators/neural/_backend_linear_memory.py). -/

namespace BMI.Neural

open MeasureTheory ProbabilityTheory BMI.Integration

section
variable {X Y : Type} [MeasurableSpace X] [MeasurableSpace Y] {P : Measure (X × Y)} [IsProbabilityMeasure P] {t f : X → Y → ℝ}

/-- **C77**, NWJ: the expected objective attains the mutual information exactly if the critic is the pointwise mutual information
plus one. -/
theorem nwj_optimal (h : IsPmi P t) (hP : Integrable (fun p : X × Y => f p.1 p.2) P)
    (hQ : Integrable (fun p : X × Y => Real.exp (f p.1 p.2)) (P.fst.prod P.snd)) (n : ℕ) (hn : 2 ≤ n) :
    ∫ b, (Linear.nwj f (List.ofFn fun i => (b i).1) (List.ofFn fun i => (b i).2)).toReal ∂(Measure.pi fun _ : Fin n => P)
        = (mutualInfo P).toReal
      ↔ ∀ᵐ p ∂(P.fst.prod P.snd), f p.1 p.2 = 1 + t p.1 p.2 := by
  rw [(integral_nwj P f hP hQ n hn).2]
  exact nwj_value_iff h hP hQ

/-- **C77**, Donsker-Varadhan: the bound attains the mutual information exactly if the critic is the pointwise mutual information plus
a constant. -/
theorem donskerVaradhan_optimal (h : IsPmi P t) (hP : Integrable (fun p : X × Y => f p.1 p.2) P)
    (hQ : Integrable (fun p : X × Y => Real.exp (f p.1 p.2)) (P.fst.prod P.snd)) :
    ∫ p, f p.1 p.2 ∂P - Real.log (∫ p, Real.exp (f p.1 p.2) ∂(P.fst.prod P.snd)) = (mutualInfo P).toReal
      ↔ ∃ c : ℝ, ∀ᵐ p ∂(P.fst.prod P.snd), f p.1 p.2 = t p.1 p.2 + c :=
  dv_value_iff h hP hQ

/-- The expected InfoNCE objective as an average over independent candidates. -/
theorem infonce_value (h : IsPmi P t) (ht : Measurable fun p : X × Y => t p.1 p.2) (hf : Measurable fun p : X × Y => f p.1 p.2)
    (hP : Integrable (fun p : X × Y => f p.1 p.2) P) (hQ : Integrable (fun p : X × Y => f p.1 p.2) (P.fst.prod P.snd)) (m : ℕ) :
    Integrable (fun z : X × (Fin (m + 1) → Y) => ∑ i, Real.exp (t z.1 (z.2 i)) * logShare (fun j => f z.1 (z.2 j)) i)
        (P.fst.prod (Measure.pi fun _ => P.snd)) ∧
    ∫ b, (Linear.infonce f (List.ofFn fun i => (b i).1) (List.ofFn fun i => (b i).2)).toReal ∂(Measure.pi fun _ : Fin (m + 1) => P)
      = (∫ z : X × (Fin (m + 1) → Y), ∑ i, Real.exp (t z.1 (z.2 i)) * logShare (fun j => f z.1 (z.2 j)) i
          ∂(P.fst.prod (Measure.pi fun _ => P.snd))) / (m + 1 : ℕ) := by
  have hφ : ∀ i : Fin (m + 1), Measurable fun b : Fin (m + 1) → X × Y => (((b i).1, fun j => (b j).2) : X × (Fin (m + 1) → Y)) := fun i =>
    (measurable_fst.comp (measurable_pi_apply i)).prodMk (measurable_pi_lambda _ fun j => measurable_snd.comp (measurable_pi_apply j))
  have hfj : ∀ j, Measurable fun z : X × (Fin (m + 1) → Y) => f z.1 (z.2 j) := fun j =>
    hf.comp (measurable_fst.prodMk ((measurable_pi_apply j).comp measurable_snd))
  have htj : ∀ j, Measurable fun z : X × (Fin (m + 1) → Y) => t z.1 (z.2 j) := fun j =>
    ht.comp (measurable_fst.prodMk ((measurable_pi_apply j).comp measurable_snd))
  have hS : ∀ i, Measurable fun z : X × (Fin (m + 1) → Y) => logShare (fun j => f z.1 (z.2 j)) i := fun i => by
    unfold logShare
    exact (((hfj i).exp).div ((Finset.measurable_sum _ fun j _ => (hfj j).exp).div_const _)).log
  have key : ∀ i, Integrable (fun z : X × (Fin (m + 1) → Y) => Real.exp (t z.1 (z.2 i)) * logShare (fun j => f z.1 (z.2 j)) i)
        (P.fst.prod (Measure.pi fun _ => P.snd)) ∧
      ∫ b, logShare (fun j => f (b i).1 (b j).2) i ∂(Measure.pi fun _ : Fin (m + 1) => P)
        = ∫ z : X × (Fin (m + 1) → Y), Real.exp (t z.1 (z.2 i)) * logShare (fun j => f z.1 (z.2 j)) i
          ∂(P.fst.prod (Measure.pi fun _ => P.snd)) := fun i => by
    have hI : Integrable (fun b : Fin (m + 1) → X × Y => logShare (fun j => f (b i).1 (b j).2) i) (Measure.pi fun _ => P) :=
      integrable_log_share P f hP hQ i
    have hI' : Integrable (fun z : X × (Fin (m + 1) → Y) => logShare (fun j => f z.1 (z.2 j)) i)
        ((Measure.pi fun _ : Fin (m + 1) => P).map fun b => ((b i).1, fun j => (b j).2)) :=
      (integrable_map_measure (hS i).aestronglyMeasurable (hφ i).aemeasurable).2 hI
    have hw : Measurable fun z : X × (Fin (m + 1) → Y) => ENNReal.ofReal (Real.exp (t z.1 (z.2 i))) := (htj i).exp.ennreal_ofReal
    have hfin : ∀ᵐ z ∂(P.fst.prod (Measure.pi fun _ : Fin (m + 1) => P.snd)), ENNReal.ofReal (Real.exp (t z.1 (z.2 i))) < ⊤ :=
      Filter.Eventually.of_forall fun z => ENNReal.ofReal_lt_top
    have e : ∀ (z : X × (Fin (m + 1) → Y)) (v : ℝ), (ENNReal.ofReal (Real.exp (t z.1 (z.2 i)))).toReal • v
        = Real.exp (t z.1 (z.2 i)) * v := fun z v => by
      rw [ENNReal.toReal_ofReal (Real.exp_pos _).le, smul_eq_mul]
    rw [map_candidates h ht i, integrable_withDensity_iff_integrable_smul₀' hw.aemeasurable hfin] at hI'
    simp only [e] at hI'
    refine ⟨hI', ?_⟩
    have h1 := integral_map (hφ i).aemeasurable (μ := Measure.pi fun _ : Fin (m + 1) => P)
      (f := fun z : X × (Fin (m + 1) → Y) => logShare (fun j => f z.1 (z.2 j)) i) (hS i).aestronglyMeasurable
    rw [← h1, map_candidates h ht i, integral_withDensity_eq_integral_toReal_smul₀ hw.aemeasurable hfin]
    simp only [e]
  refine ⟨integrable_finsetSum _ fun i _ => (key i).1, ?_⟩
  simp only [Linear.infonce_eq (Nat.succ_pos m), EReal.toReal_coe]
  unfold Spec.infonce
  rw [integral_div, integral_finsetSum _ fun i _ => (key i).1, integral_finsetSum _ fun i _ => integrable_log_share P f hP hQ i]
  congr 1
  exact Finset.sum_congr rfl fun i _ => (key i).2

/-- How much a critic loses against the pointwise mutual information. -/
theorem infonce_gap (h : IsPmi P t) (ht : Measurable fun p : X × Y => t p.1 p.2) (hf : Measurable fun p : X × Y => f p.1 p.2)
    (hP : Integrable (fun p : X × Y => f p.1 p.2) P) (hQ : Integrable (fun p : X × Y => f p.1 p.2) (P.fst.prod P.snd)) (m : ℕ) :
    ∃ J₁ J₂ : ℝ, J₁ = ∫ b, (Linear.infonce f (List.ofFn fun i => (b i).1) (List.ofFn fun i => (b i).2)).toReal
        ∂(Measure.pi fun _ : Fin (m + 1) => P) ∧
      J₂ = ∫ b, (Linear.infonce t (List.ofFn fun i => (b i).1) (List.ofFn fun i => (b i).2)).toReal
        ∂(Measure.pi fun _ : Fin (m + 1) => P) ∧ J₁ ≤ J₂ ∧
      (J₁ = J₂ ↔ ∀ᵐ z : X × (Fin (m + 1) → Y) ∂(P.fst.prod (Measure.pi fun _ => P.snd)), ∀ i j,
        f z.1 (z.2 i) - t z.1 (z.2 i) = f z.1 (z.2 j) - t z.1 (z.2 j)) := by
  obtain ⟨i1, e1⟩ := infonce_value h ht hf hP hQ m
  obtain ⟨i2, e2⟩ := infonce_value h ht ht h.joint h.product m
  refine ⟨_, _, rfl, rfl, ?_⟩
  rw [e1, e2]
  have hn : (0 : ℝ) < (m + 1 : ℕ) := by positivity
  have hD : (fun z : X × (Fin (m + 1) → Y) => ∑ i, Real.exp (t z.1 (z.2 i)) * (logShare (fun j => t z.1 (z.2 j)) i
      - logShare (fun j => f z.1 (z.2 j)) i)) = fun z => (∑ i, Real.exp (t z.1 (z.2 i)) * logShare (fun j => t z.1 (z.2 j)) i)
      - ∑ i, Real.exp (t z.1 (z.2 i)) * logShare (fun j => f z.1 (z.2 j)) i := by
    funext z
    simp only [mul_sub, Finset.sum_sub_distrib]
  have iD := i2.sub i1
  have h0 := integral_sub i2 i1
  have hpos : ∀ z : X × (Fin (m + 1) → Y), 0 ≤ (∑ i, Real.exp (t z.1 (z.2 i)) * logShare (fun j => t z.1 (z.2 j)) i)
      - ∑ i, Real.exp (t z.1 (z.2 i)) * logShare (fun j => f z.1 (z.2 j)) i := fun z =>
    (logShare_gap (fun j => t z.1 (z.2 j)) fun j => f z.1 (z.2 j)).1.trans_eq (congrFun hD z)
  refine ⟨(div_le_div_iff_of_pos_right hn).2 ?_, ?_⟩
  · rw [← sub_nonneg, ← h0]
    exact integral_nonneg fun z => hpos z
  · rw [div_left_inj' hn.ne', eq_comm, ← sub_eq_zero, ← h0, integral_eq_zero_iff_of_nonneg hpos iD]
    refine Filter.eventually_congr (Filter.Eventually.of_forall fun z => ?_)
    have := (logShare_gap (fun j => t z.1 (z.2 j)) fun j => f z.1 (z.2 j)).2
    rw [congrFun hD z] at this
    exact this

/-- **C77**, InfoNCE: for batches of two points or more, the pointwise mutual information is a best critic, and the other best critics are
the pointwise mutual information plus a function of `x`. -/
theorem infonce_optimal (h : IsPmi P t) (ht : Measurable fun p : X × Y => t p.1 p.2) (hf : Measurable fun p : X × Y => f p.1 p.2)
    (hP : Integrable (fun p : X × Y => f p.1 p.2) P) (hQ : Integrable (fun p : X × Y => f p.1 p.2) (P.fst.prod P.snd))
    (n : ℕ) (hn : 2 ≤ n) :
    ∃ J₁ J₂ : ℝ, J₁ = ∫ b, (Linear.infonce f (List.ofFn fun i => (b i).1) (List.ofFn fun i => (b i).2)).toReal
        ∂(Measure.pi fun _ : Fin n => P) ∧
      J₂ = ∫ b, (Linear.infonce t (List.ofFn fun i => (b i).1) (List.ofFn fun i => (b i).2)).toReal ∂(Measure.pi fun _ : Fin n => P) ∧
      J₁ ≤ J₂ ∧ (J₁ = J₂ ↔ ∃ c : X → ℝ, Measurable c ∧ ∀ᵐ p ∂(P.fst.prod P.snd), f p.1 p.2 = t p.1 p.2 + c p.1) := by
  obtain ⟨m, rfl⟩ : ∃ m, n = m + 1 + 1 := ⟨n - 2, by omega⟩
  obtain ⟨J₁, J₂, h1, h2, h3, h4⟩ := infonce_gap h ht hf hP hQ (m + 1)
  refine ⟨J₁, J₂, h1, h2, h3, h4.trans ⟨fun H => ?_, ?_⟩⟩
  · have hg : Measurable fun p : X × Y => f p.1 p.2 - t p.1 p.2 := hf.sub ht
    have hmp := candidate_two P.fst P.snd (n := m + 1 + 1) (i := 0) (j := 1) (by simp)
    have : ∀ᵐ q : X × Y × Y ∂(P.fst.prod (P.snd.prod P.snd)), f q.1 q.2.1 - t q.1 q.2.1 = f q.1 q.2.2 - t q.1 q.2.2 := by
      rw [← hmp.map_eq]
      refine (ae_map_iff hmp.measurable.aemeasurable ?_).2 (H.mono fun z hz => hz 0 1)
      exact measurableSet_eq_fun (hg.comp (measurable_fst.prodMk (measurable_fst.comp measurable_snd)))
        (hg.comp (measurable_fst.prodMk (measurable_snd.comp measurable_snd)))
    obtain ⟨c, hc, hc'⟩ := depends_on_first P.fst P.snd hg this
    exact ⟨c, hc, hc'.mono fun p hp => by linarith⟩
  · rintro ⟨c, -, hc⟩
    have : ∀ i : Fin (m + 1 + 1), ∀ᵐ z : X × (Fin (m + 1 + 1) → Y) ∂(P.fst.prod (Measure.pi fun _ => P.snd)),
        f z.1 (z.2 i) = t z.1 (z.2 i) + c z.1 := fun i =>
      (candidate_pair P.fst P.snd i).quasiMeasurePreserving.ae hc
    filter_upwards [ae_all_iff.2 this] with z hz i j
    rw [hz i, hz j]
    ring

end

/-! ## Batches -/

section
variable {X Y : Type} [MeasurableSpace X] [MeasurableSpace Y] {P : Measure (X × Y)} [IsProbabilityMeasure P] {t f : X → Y → ℝ}

theorem independent_of_zero (h : IsPmi P t) (h0 : ∀ᵐ p ∂(P.fst.prod P.snd), t p.1 p.2 = 0) : P = P.fst.prod P.snd := by
  conv_lhs => rw [h.density]
  rw [withDensity_congr_ae (g := 1) (h0.mono fun p hp => by simp [hp]), withDensity_one]

/-- **C77**, InfoNCE: no critic and no size of the batches attain the mutual information of dependent variables. -/
theorem infonce_lt_mi (h : IsPmi P t) (ht : Measurable fun p : X × Y => t p.1 p.2) (hf : Measurable fun p : X × Y => f p.1 p.2)
    (hP : Integrable (fun p : X × Y => f p.1 p.2) P) (hQ : Integrable (fun p : X × Y => f p.1 p.2) (P.fst.prod P.snd))
    (hdep : P ≠ P.fst.prod P.snd) (n : ℕ) (hn : 1 ≤ n) :
    ∫ b, (Linear.infonce f (List.ofFn fun i => (b i).1) (List.ofFn fun i => (b i).2)).toReal ∂(Measure.pi fun _ : Fin n => P)
      < (mutualInfo P).toReal := by
  obtain ⟨m, rfl⟩ : ∃ m, n = m + 1 := ⟨n - 1, by omega⟩
  obtain ⟨J₁, J₂, h1, h2, h3, -⟩ := infonce_gap h ht hf hP hQ m
  rw [← h1]
  refine h3.trans_lt ?_
  obtain ⟨i2, e2⟩ := infonce_value h ht ht h.joint h.product m
  rw [h2, e2]
  have hn : (0 : ℝ) < (m + 1 : ℕ) := by positivity
  set ν := P.fst.prod (Measure.pi fun _ : Fin (m + 1) => P.snd) with hν
  -- the two sums of which the objective is the difference
  have w := pmi_weight_iff h (u := fun p : X × Y => t p.1 p.2)
  have iE : ∀ i : Fin (m + 1), Integrable (fun z : X × (Fin (m + 1) → Y) => Real.exp (t z.1 (z.2 i))) ν := fun i =>
    (candidate_pair P.fst P.snd i).integrable_comp_of_integrable (pmi_exp_integrable h)
  have vE : ∀ i : Fin (m + 1), ∫ z : X × (Fin (m + 1) → Y), Real.exp (t z.1 (z.2 i)) ∂ν = 1 := fun i => by
    rw [← pmi_exp_integral h, ← (candidate_pair P.fst P.snd i).map_eq]
    exact (integral_map (candidate_pair P.fst P.snd i).measurable.aemeasurable ht.exp.aestronglyMeasurable).symm
  have iT : ∀ i : Fin (m + 1), Integrable (fun z : X × (Fin (m + 1) → Y) => Real.exp (t z.1 (z.2 i)) * t z.1 (z.2 i)) ν := fun i =>
    (candidate_pair P.fst P.snd i).integrable_comp_of_integrable (w.1.1 h.joint)
  have vT : ∀ i : Fin (m + 1), ∫ z : X × (Fin (m + 1) → Y), Real.exp (t z.1 (z.2 i)) * t z.1 (z.2 i) ∂ν = (mutualInfo P).toReal := fun i => by
    rw [← h.info.2, ← w.2, ← (candidate_pair P.fst P.snd i).map_eq]
    exact (integral_map (candidate_pair P.fst P.snd i).measurable.aemeasurable (ht.exp.mul ht).aestronglyMeasurable).symm
  set A : X × (Fin (m + 1) → Y) → ℝ := fun z => (∑ j, Real.exp (t z.1 (z.2 j))) / (m + 1 : ℕ) with hA
  have hA0 : ∀ z, 0 < A z := fun z => div_pos (Finset.sum_pos (fun j _ => Real.exp_pos _) Finset.univ_nonempty) hn
  have iA : Integrable A ν := (integrable_finsetSum _ fun i _ => iE i).div_const _
  have vA : ∫ z, A z ∂ν = 1 := by
    rw [hA, integral_div, integral_finsetSum _ fun i _ => iE i]
    simp only [vE, Finset.sum_const, Finset.card_univ, Fintype.card_fin, nsmul_eq_mul, mul_one]
    exact div_self hn.ne'
  have pt : ∀ z, A z * Real.log (A z) = ((∑ i, Real.exp (t z.1 (z.2 i)) * t z.1 (z.2 i))
      - ∑ i, Real.exp (t z.1 (z.2 i)) * logShare (fun j => t z.1 (z.2 j)) i) / (m + 1 : ℕ) := fun z => by
    have : ∀ i, logShare (fun j => t z.1 (z.2 j)) i = t z.1 (z.2 i) - Real.log (A z) := fun i => by
      unfold logShare
      rw [Real.log_div (Real.exp_ne_zero _) (hA0 z).ne', Real.log_exp]
    simp only [this, ← Finset.sum_sub_distrib, mul_sub, sub_sub_cancel, ← Finset.sum_mul]
    rw [hA]
    ring
  have iT' := integrable_finsetSum Finset.univ fun i (_ : i ∈ Finset.univ) => iT i
  have iL : Integrable (fun z => A z * Real.log (A z)) ν := by
    simp only [pt]
    exact (iT'.sub i2).div_const _
  have vL : ∫ z, A z * Real.log (A z) ∂ν = (mutualInfo P).toReal
      - (∫ z : X × (Fin (m + 1) → Y), ∑ i, Real.exp (t z.1 (z.2 i)) * logShare (fun j => t z.1 (z.2 j)) i ∂ν) / (m + 1 : ℕ) := by
    simp only [pt]
    rw [integral_div, integral_sub iT' i2, integral_finsetSum _ fun i _ => iT i]
    simp only [vT, Finset.sum_const, Finset.card_univ, Fintype.card_fin, nsmul_eq_mul]
    field_simp
  have pos : ∀ z, 0 ≤ A z * Real.log (A z) - A z + 1 := fun z => by
    have := Real.one_sub_inv_le_log_of_pos (hA0 z)
    have := mul_le_mul_of_nonneg_left this (hA0 z).le
    rw [mul_sub, mul_inv_cancel₀ (hA0 z).ne'] at this
    linarith
  have iD : Integrable (fun z => A z * Real.log (A z) - A z + 1) ν := (iL.sub iA).add (integrable_const 1)
  have vD : ∫ z, (A z * Real.log (A z) - A z + 1) ∂ν = ∫ z, A z * Real.log (A z) ∂ν := by
    have e1 : ∫ z, (A z * Real.log (A z) - A z + 1) ∂ν = ∫ z, (A z * Real.log (A z) - A z) ∂ν + ∫ _, (1 : ℝ) ∂ν :=
      integral_add (iL.sub iA) (integrable_const 1)
    rw [e1, integral_sub iL iA, vA]
    simp
  rw [← sub_pos, ← vL, ← vD]
  refine lt_of_le_of_ne (integral_nonneg pos) fun h0 => hdep (independent_of_zero h (candidates_constant h ht m ?_))
  have := (integral_eq_zero_iff_of_nonneg pos iD).1 h0.symm
  filter_upwards [this] with z hz
  have hz' : A z * Real.log (A z) - A z + 1 = 0 := hz
  have hz1 : A z = 1 := by
    by_contra hne
    have l := Real.log_lt_sub_one_of_pos (inv_pos.2 (hA0 z)) (by simpa using hne)
    rw [Real.log_inv] at l
    have := mul_lt_mul_of_pos_left l (hA0 z)
    rw [mul_sub, mul_inv_cancel₀ (hA0 z).ne'] at this
    linarith
  exact (div_eq_one_iff_eq hn.ne').1 hz1

/-- Over batches, the Donsker-Varadhan objective is at least the bound it estimates. -/
theorem donskerVaradhan_batch (hf : Measurable fun p : X × Y => f p.1 p.2) (hP : Integrable (fun p : X × Y => f p.1 p.2) P)
    (hQ : Integrable (fun p : X × Y => f p.1 p.2) (P.fst.prod P.snd))
    (hE : Integrable (fun p : X × Y => Real.exp (f p.1 p.2)) (P.fst.prod P.snd)) (n : ℕ) (hn : 2 ≤ n) :
    ∃ B J : ℝ, B = ∫ p, f p.1 p.2 ∂P - Real.log (∫ p, Real.exp (f p.1 p.2) ∂(P.fst.prod P.snd)) ∧
      J = ∫ b, (Linear.donskerVaradhan f (List.ofFn fun i => (b i).1) (List.ofFn fun i => (b i).2)).toReal
        ∂(Measure.pi fun _ : Fin n => P) ∧ B ≤ J ∧
      (B = J → ∀ᵐ b : Fin n → X × Y ∂(Measure.pi fun _ => P), Spec.negative f (fun i => (b i).1) (fun i => (b i).2)
        = ∫ p, Real.exp (f p.1 p.2) ∂(P.fst.prod P.snd)) := by
  refine ⟨_, _, rfl, rfl, ?_⟩
  have iJ := integrable_donskerVaradhan f hP hQ n hn
  simp only [Linear.donskerVaradhan_eq hn, EReal.toReal_coe] at iJ ⊢
  unfold Spec.donskerVaradhan at iJ ⊢
  set M := ∫ p, Real.exp (f p.1 p.2) ∂(P.fst.prod P.snd) with hM
  have hM0 : 0 < M := integral_exp_pos hE
  set u : (Fin n → X × Y) → ℝ := fun b => Spec.negative f (fun i => (b i).1) (fun i => (b i).2) with hu
  have hn0 : (n : ℝ) ≠ 0 := by
    have : (0 : ℝ) < n := by exact_mod_cast (by omega : 0 < n)
    exact this.ne'
  have ip : Integrable (fun b : Fin n → X × Y => Spec.positive f (fun i => (b i).1) (fun i => (b i).2)) (Measure.pi fun _ => P) := by
    unfold Spec.positive
    exact (integrable_finsetSum _ fun i _ => integrable_pair P i hP).div_const _
  have vp : ∫ b : Fin n → X × Y, Spec.positive f (fun i => (b i).1) (fun i => (b i).2) ∂(Measure.pi fun _ => P) = ∫ p, f p.1 p.2 ∂P := by
    unfold Spec.positive
    rw [integral_div, integral_finsetSum _ fun i _ => integrable_pair P i hP]
    have : ∀ i : Fin n, ∫ b : Fin n → X × Y, f (b i).1 (b i).2 ∂(Measure.pi fun _ => P) = ∫ p, f p.1 p.2 ∂P := fun i =>
      integral_comp_eval (μ := fun _ : Fin n => P) (f := fun p : X × Y => f p.1 p.2) hP.1
    simp only [this, Finset.sum_const, Finset.card_univ, Fintype.card_fin, nsmul_eq_mul]
    field_simp
  have il : Integrable (fun b => Real.log (u b)) (Measure.pi fun _ : Fin n => P) := by
    have := ip.sub iJ
    refine this.congr (Filter.Eventually.of_forall fun b => ?_)
    show _ - (_ - Real.log (u b)) = _
    ring
  have hne : (Finset.univ : Finset (Fin n)).offDiag.Nonempty := ⟨(⟨0, by omega⟩, ⟨1, by omega⟩), by simp⟩
  have hcard : (0 : ℝ) < ((Finset.univ : Finset (Fin n)).offDiag.card : ℝ) := by exact_mod_cast hne.card_pos
  have hk : ∀ k ∈ (Finset.univ : Finset (Fin n)).offDiag, Integrable (fun b : Fin n → X × Y => Real.exp (f (b k.1).1 (b k.2).2))
      (Measure.pi fun _ => P) := fun k hk =>
    integrable_cross P (g := fun p : X × Y => Real.exp (f p.1 p.2)) (Finset.mem_offDiag.1 hk).2.2 hE
  have u0 : ∀ b, 0 < u b := fun b => by
    simp only [hu, negative_offDiag]
    exact div_pos (Finset.sum_pos (fun k _ => Real.exp_pos _) hne) hcard
  have iu : Integrable u (Measure.pi fun _ : Fin n => P) := by
    simp only [hu, negative_offDiag]
    exact (integrable_finsetSum _ hk).div_const _
  have vu : ∫ b, u b ∂(Measure.pi fun _ : Fin n => P) = M := by
    simp only [hu, negative_offDiag]
    rw [integral_div, integral_finsetSum _ hk, Finset.sum_congr rfl fun k hk => ?_, Finset.sum_const, nsmul_eq_mul,
      mul_div_cancel_left₀ _ hcard.ne']
    rw [hM, ← map_cross P (Finset.mem_offDiag.1 hk).2.2]
    have mp : Measurable fun b : Fin n → X × Y => ((b k.1).1, (b k.2).2) :=
      (measurable_fst.comp (measurable_pi_apply k.1)).prodMk (measurable_snd.comp (measurable_pi_apply k.2))
    exact (integral_map (f := fun p : X × Y => Real.exp (f p.1 p.2)) mp.aemeasurable hf.exp.aestronglyMeasurable).symm
  have pos : ∀ b, 0 ≤ u b / M - 1 - (Real.log (u b) - Real.log M) := fun b => by
    have := Real.log_le_sub_one_of_pos (div_pos (u0 b) hM0)
    rw [Real.log_div (u0 b).ne' hM0.ne'] at this
    linarith
  have iD : Integrable (fun b => u b / M - 1 - (Real.log (u b) - Real.log M)) (Measure.pi fun _ : Fin n => P) :=
    ((iu.div_const _).sub (integrable_const _)).sub (il.sub (integrable_const _))
  have vD : ∫ b, (u b / M - 1 - (Real.log (u b) - Real.log M)) ∂(Measure.pi fun _ : Fin n => P)
      = Real.log M - ∫ b, Real.log (u b) ∂(Measure.pi fun _ : Fin n => P) := by
    have e1 : ∫ b, (u b / M - 1 - (Real.log (u b) - Real.log M)) ∂(Measure.pi fun _ : Fin n => P)
        = ∫ b, (u b / M - 1) ∂(Measure.pi fun _ : Fin n => P) - ∫ b, (Real.log (u b) - Real.log M) ∂(Measure.pi fun _ : Fin n => P) :=
      integral_sub ((iu.div_const _).sub (integrable_const _)) (il.sub (integrable_const _))
    rw [e1, integral_sub (iu.div_const _) (integrable_const _), integral_sub il (integrable_const _), integral_div, vu, div_self hM0.ne']
    simp
  rw [integral_sub ip il, vp]
  have hD : 0 ≤ ∫ b, (u b / M - 1 - (Real.log (u b) - Real.log M)) ∂(Measure.pi fun _ : Fin n => P) := integral_nonneg fun b => pos b
  rw [vD] at hD
  refine ⟨by linarith, fun heq => ?_⟩
  have h0 : ∫ b, (u b / M - 1 - (Real.log (u b) - Real.log M)) ∂(Measure.pi fun _ : Fin n => P) = 0 := by
    rw [vD]
    linarith
  filter_upwards [(integral_eq_zero_iff_of_nonneg pos iD).1 h0] with b hb
  have hb' : u b / M - 1 - (Real.log (u b) - Real.log M) = 0 := hb
  by_contra hne
  have := Real.log_lt_sub_one_of_pos (div_pos (u0 b) hM0) (mt (div_eq_one_iff_eq hM0.ne').1 hne)
  rw [Real.log_div (u0 b).ne' hM0.ne'] at this
  linarith

/-- **C77**, Donsker-Varadhan: with a best critic, the objective overshoots the mutual information of dependent variables on average. -/
theorem donskerVaradhan_overshoots (h : IsPmi P t) (ht : Measurable fun p : X × Y => t p.1 p.2)
    (hf : Measurable fun p : X × Y => f p.1 p.2) (hP : Integrable (fun p : X × Y => f p.1 p.2) P)
    (hQ : Integrable (fun p : X × Y => f p.1 p.2) (P.fst.prod P.snd))
    (hE : Integrable (fun p : X × Y => Real.exp (f p.1 p.2)) (P.fst.prod P.snd)) (hdep : P ≠ P.fst.prod P.snd)
    (hbest : ∫ p, f p.1 p.2 ∂P - Real.log (∫ p, Real.exp (f p.1 p.2) ∂(P.fst.prod P.snd)) = (mutualInfo P).toReal)
    (n : ℕ) (hn : 2 ≤ n) :
    (mutualInfo P).toReal < ∫ b, (Linear.donskerVaradhan f (List.ofFn fun i => (b i).1) (List.ofFn fun i => (b i).2)).toReal
      ∂(Measure.pi fun _ : Fin n => P) := by
  obtain ⟨c, hc⟩ := (donskerVaradhan_optimal h hP hE).1 hbest
  obtain ⟨B, J, b1, b2, b3, b4⟩ := donskerVaradhan_batch hf hP hQ hE n hn
  rw [← hbest, ← b1, ← b2]
  refine lt_of_le_of_ne b3 fun heq => hdep (independent_of_zero h (batch_constant h ht n hn ?_))
  have hM : ∫ p, Real.exp (f p.1 p.2) ∂(P.fst.prod P.snd) = Real.exp c := by
    rw [integral_congr_ae (g := fun p : X × Y => Real.exp (t p.1 p.2) * Real.exp c) (hc.mono fun p hp => by
      show Real.exp _ = _
      rw [hp, Real.exp_add]), integral_mul_const, pmi_exp_integral h, one_mul]
  have hcross : ∀ k ∈ (Finset.univ : Finset (Fin n)).offDiag, ∀ᵐ b : Fin n → X × Y ∂(Measure.pi fun _ => P),
      f (b k.1).1 (b k.2).2 = t (b k.1).1 (b k.2).2 + c := fun k hk => by
    rw [← map_cross P (Finset.mem_offDiag.1 hk).2.2] at hc
    exact ae_of_ae_map (by fun_prop) hc
  filter_upwards [b4 heq, (Finset.eventually_all _).2 hcross] with b hb hall
  rw [hM, negative_offDiag, Finset.sum_congr rfl fun k hk => by rw [hall k hk, Real.exp_add], ← Finset.sum_mul] at hb
  rw [negative_offDiag]
  have := Real.exp_pos c
  rw [mul_div_right_comm] at hb
  exact mul_right_cancel₀ this.ne' (hb.trans (one_mul _).symm)

end

/-! ## Continuous critics -/

section
variable {X Y : Type} [TopologicalSpace X] [TopologicalSpace Y] [SecondCountableTopology X] [SecondCountableTopology Y] [MeasurableSpace X]
  [MeasurableSpace Y] [BorelSpace X] [BorelSpace Y] {P : Measure (X × Y)} [IsProbabilityMeasure P] [P.fst.IsOpenPosMeasure]
  [P.snd.IsOpenPosMeasure] {t f : X → Y → ℝ}

/-- **C77**: if no open set has probability zero and critic and pointwise mutual information are continuous, the best critics are exactly
the three families. -/
theorem continuous_optimal (h : IsPmi P t) (ht : Continuous fun p : X × Y => t p.1 p.2) (hf : Continuous fun p : X × Y => f p.1 p.2)
    (hP : Integrable (fun p : X × Y => f p.1 p.2) P) (hQ : Integrable (fun p : X × Y => f p.1 p.2) (P.fst.prod P.snd))
    (n : ℕ) (hn : 2 ≤ n) :
    (∫ b, (Linear.infonce f (List.ofFn fun i => (b i).1) (List.ofFn fun i => (b i).2)).toReal ∂(Measure.pi fun _ : Fin n => P)
        = ∫ b, (Linear.infonce t (List.ofFn fun i => (b i).1) (List.ofFn fun i => (b i).2)).toReal ∂(Measure.pi fun _ : Fin n => P)
      ↔ ∃ c : X → ℝ, ∀ x y, f x y = t x y + c x) ∧
    (Integrable (fun p : X × Y => Real.exp (f p.1 p.2)) (P.fst.prod P.snd) →
      (∫ b, (Linear.nwj f (List.ofFn fun i => (b i).1) (List.ofFn fun i => (b i).2)).toReal ∂(Measure.pi fun _ : Fin n => P)
          = (mutualInfo P).toReal ↔ ∀ x y, f x y = 1 + t x y) ∧
      (∫ p, f p.1 p.2 ∂P - Real.log (∫ p, Real.exp (f p.1 p.2) ∂(P.fst.prod P.snd)) = (mutualInfo P).toReal
        ↔ ∃ c : ℝ, ∀ x y, f x y = t x y + c)) := by
  refine ⟨?_, fun hE => ⟨?_, ?_⟩⟩
  · obtain ⟨m, rfl⟩ : ∃ m, n = m + 1 + 1 := ⟨n - 2, by omega⟩
    obtain ⟨J₁, J₂, h1, h2, -, h4⟩ := infonce_gap h ht.measurable hf.measurable hP hQ (m + 1)
    rw [← h1, ← h2, h4]
    constructor
    · intro H
      have hg : Continuous fun p : X × Y => f p.1 p.2 - t p.1 p.2 := hf.sub ht
      have hmp := candidate_two P.fst P.snd (n := m + 1 + 1) (i := 0) (j := 1) (by simp)
      have c1 : Continuous fun q : X × Y × Y => f q.1 q.2.1 - t q.1 q.2.1 := hg.comp (continuous_fst.prodMk (continuous_fst.comp continuous_snd))
      have c2 : Continuous fun q : X × Y × Y => f q.1 q.2.2 - t q.1 q.2.2 := hg.comp (continuous_fst.prodMk (continuous_snd.comp continuous_snd))
      have hae : (fun q : X × Y × Y => f q.1 q.2.1 - t q.1 q.2.1) =ᵐ[P.fst.prod (P.snd.prod P.snd)]
          fun q => f q.1 q.2.2 - t q.1 q.2.2 := by
        rw [← hmp.map_eq]
        exact (ae_map_iff hmp.measurable.aemeasurable (measurableSet_eq_fun c1.measurable c2.measurable)).2 (H.mono fun z hz => hz 0 1)
      have heq := (c1.ae_eq_iff_eq _ c2).1 hae
      rcases isEmpty_or_nonempty Y with hY | ⟨⟨y₀⟩⟩
      · exact ⟨0, fun x y => (hY.false y).elim⟩
      · refine ⟨fun x => f x y₀ - t x y₀, fun x y => ?_⟩
        have := congrFun heq (x, y, y₀)
        simp only at this
        linarith
    · rintro ⟨c, hc⟩
      exact Filter.Eventually.of_forall fun z i j => by
        rw [hc, hc]
        ring
  · rw [nwj_optimal h hP hE n hn]
    have := hf.ae_eq_iff_eq (P.fst.prod P.snd) (continuous_const.add ht) (g := fun p : X × Y => 1 + t p.1 p.2)
    exact this.trans ⟨fun H x y => congrFun H (x, y), fun H => funext fun p => H p.1 p.2⟩
  · rw [donskerVaradhan_optimal h hP hE]
    refine exists_congr fun c => ?_
    have := hf.ae_eq_iff_eq (P.fst.prod P.snd) (ht.add continuous_const) (g := fun p : X × Y => t p.1 p.2 + c)
    exact this.trans ⟨fun H x y => congrFun H (x, y), fun H => funext fun p => H p.1 p.2⟩

end

/-! ## Example: two bits which agree three times out of four -/

/-- A fair bit. -/
noncomputable def coin : Measure Bool := (1 / 2 : ENNReal) • (Measure.dirac true + Measure.dirac false)

/-- The pointwise mutual information of two fair bits which agree with probability 3/4. -/
noncomputable def agreePmi (x y : Bool) : ℝ := if x = y then Real.log (3 / 2) else Real.log (1 / 2)

/-- Their law. -/
noncomputable def agreeing : Measure (Bool × Bool) :=
  (coin.prod coin).withDensity fun p => ENNReal.ofReal (Real.exp (agreePmi p.1 p.2))

instance : IsProbabilityMeasure coin := ⟨by
  simp only [coin, Measure.smul_apply, Measure.add_apply, measure_univ, smul_eq_mul]
  rw [one_add_one_eq_two, one_div, ENNReal.inv_mul_cancel two_ne_zero (by simp)]⟩

theorem coin_lintegral (g : Bool → ENNReal) : ∫⁻ x, g x ∂coin = 1 / 2 * (g true + g false) := by
  rw [coin, lintegral_smul_measure, lintegral_add_measure, lintegral_dirac, lintegral_dirac, smul_eq_mul]

theorem exp_agree (x y : Bool) : ENNReal.ofReal (Real.exp (agreePmi x y)) = if x = y then ENNReal.ofReal (3 / 2) else ENNReal.ofReal (1 / 2) := by
  unfold agreePmi
  split_ifs <;> rw [Real.exp_log (by norm_num)]

theorem agreeing_lintegral (g : Bool × Bool → ENNReal) :
    ∫⁻ p, g p ∂agreeing = ∫⁻ x, ∫⁻ y, ENNReal.ofReal (Real.exp (agreePmi x y)) * g (x, y) ∂coin ∂coin := by
  rw [agreeing, lintegral_withDensity_eq_lintegral_mul _ (measurable_of_finite _) (measurable_of_finite _),
    lintegral_prod _ (measurable_of_finite _).aemeasurable]
  rfl

theorem half_sum : (1 / 2 : ENNReal) * ENNReal.ofReal (3 / 2) + 1 / 2 * ENNReal.ofReal (1 / 2) = 1 := by
  rw [← mul_add, ← ENNReal.ofReal_add (by norm_num) (by norm_num), show (3 / 2 + 1 / 2 : ℝ) = 2 by norm_num, ENNReal.ofReal_ofNat,
    one_div, ENNReal.inv_mul_cancel two_ne_zero (by simp)]

theorem agreeing_fst : agreeing.fst = coin := by
  ext A hA
  rw [Measure.fst_apply hA, ← lintegral_indicator_one (measurable_fst hA), agreeing_lintegral, ← lintegral_indicator_one hA]
  refine lintegral_congr fun x => ?_
  rw [coin_lintegral]
  simp only [exp_agree]
  have e : (Prod.fst ⁻¹' A : Set (Bool × Bool)).indicator (1 : Bool × Bool → ENNReal) (x, true) = A.indicator 1 x := rfl
  have e' : (Prod.fst ⁻¹' A : Set (Bool × Bool)).indicator (1 : Bool × Bool → ENNReal) (x, false) = A.indicator 1 x := rfl
  rw [e, e', ← add_mul, ← mul_assoc, mul_add]
  cases x
  · simp only [Bool.false_eq_true, if_false, if_true]
    rw [add_comm, half_sum, one_mul]
  · simp only [Bool.true_eq_false, if_false, if_true]
    rw [half_sum, one_mul]

theorem agreeing_swap : agreeing.map Prod.swap = agreeing := by
  ext A hA
  rw [Measure.map_apply measurable_swap hA, agreeing, withDensity_apply _ (measurable_swap hA), withDensity_apply _ hA]
  conv_rhs => rw [← Measure.prod_swap]
  rw [setLIntegral_map hA (measurable_of_finite _) measurable_swap]
  refine lintegral_congr fun p => ?_
  simp only [exp_agree, Prod.fst_swap, Prod.snd_swap, eq_comm]

theorem agreeing_snd : agreeing.snd = coin := by
  rw [← agreeing_swap, Measure.snd_map_swap, agreeing_fst]

instance : IsProbabilityMeasure agreeing := ⟨by
  rw [← Measure.fst_univ, agreeing_fst, measure_univ]⟩

theorem agreeing_pmi : IsPmi agreeing agreePmi :=
  ⟨by rw [agreeing_fst, agreeing_snd]; rfl, Integrable.of_finite, Integrable.of_finite⟩

theorem agreeing_dependent : agreeing ≠ agreeing.fst.prod agreeing.snd := fun h => by
  have h1 : agreeing {(true, true)} = 1 / 2 * (1 / 2 * ENNReal.ofReal (3 / 2)) := by
    rw [← lintegral_indicator_one (measurableSet_singleton _), agreeing_lintegral, coin_lintegral, coin_lintegral, coin_lintegral]
    simp only [exp_agree]
    simp
  have h2 : (coin.prod coin) {(true, true)} = 1 / 2 * (1 / 2) := by
    rw [← Set.singleton_prod_singleton, Measure.prod_prod]
    simp [coin]
  rw [h, agreeing_fst, agreeing_snd, h2] at h1
  have := congrArg ENNReal.toReal h1
  simp only [ENNReal.toReal_mul, ENNReal.toReal_ofReal (show (0 : ℝ) ≤ 3 / 2 by norm_num), one_div, ENNReal.toReal_inv,
    ENNReal.toReal_ofNat] at this
  norm_num at this

/-- The objectives for batches of 64 pairs of bits: NWJ is exact for the critic `1 + pmi` and for no other, InfoNCE is too small for every
critic, and Donsker-Varadhan too large for the critic `pmi + 7`. -/
example (f : Bool → Bool → ℝ) :
    (∫ b, (Linear.nwj f (List.ofFn fun i => (b i).1) (List.ofFn fun i => (b i).2)).toReal ∂(Measure.pi fun _ : Fin 64 => agreeing)
        = (mutualInfo agreeing).toReal ↔ ∀ᵐ p ∂(agreeing.fst.prod agreeing.snd), f p.1 p.2 = 1 + agreePmi p.1 p.2) ∧
    ∫ b, (Linear.infonce f (List.ofFn fun i => (b i).1) (List.ofFn fun i => (b i).2)).toReal ∂(Measure.pi fun _ : Fin 64 => agreeing)
      < (mutualInfo agreeing).toReal ∧
    (mutualInfo agreeing).toReal < ∫ b, (Linear.donskerVaradhan (fun x y => agreePmi x y + 7) (List.ofFn fun i => (b i).1)
      (List.ofFn fun i => (b i).2)).toReal ∂(Measure.pi fun _ : Fin 64 => agreeing) :=
  ⟨nwj_optimal agreeing_pmi .of_finite .of_finite 64 (by norm_num),
    infonce_lt_mi agreeing_pmi (measurable_of_finite _) (measurable_of_finite _) .of_finite .of_finite agreeing_dependent 64 (by norm_num),
    donskerVaradhan_overshoots agreeing_pmi (measurable_of_finite _) (measurable_of_finite _) .of_finite .of_finite .of_finite
      agreeing_dependent ((donskerVaradhan_optimal agreeing_pmi .of_finite .of_finite).2 ⟨7, Filter.Eventually.of_forall fun _ => rfl⟩)
      64 (by norm_num)⟩

/-- The best critics for InfoNCE. -/
example (f : Bool → Bool → ℝ) := infonce_optimal agreeing_pmi (f := f) (measurable_of_finite _) (measurable_of_finite _) .of_finite
  .of_finite 64 (by norm_num)

/-- Every critic is continuous and every value has positive probability. -/
example (f : Bool → Bool → ℝ) :
    ∫ b, (Linear.infonce f (List.ofFn fun i => (b i).1) (List.ofFn fun i => (b i).2)).toReal ∂(Measure.pi fun _ : Fin 64 => agreeing)
        = ∫ b, (Linear.infonce agreePmi (List.ofFn fun i => (b i).1) (List.ofFn fun i => (b i).2)).toReal
          ∂(Measure.pi fun _ : Fin 64 => agreeing)
      ↔ ∃ c : Bool → ℝ, ∀ x y, f x y = agreePmi x y + c x := by
  have hc : coin.IsOpenPosMeasure := ⟨fun U _ hU h0 => by
    obtain ⟨x, hx⟩ := hU
    have := measure_mono_null (Set.singleton_subset_iff.2 hx) h0
    cases x <;> simp [coin] at this⟩
  haveI : agreeing.fst.IsOpenPosMeasure := by rw [agreeing_fst]; exact hc
  haveI : agreeing.snd.IsOpenPosMeasure := by rw [agreeing_snd]; exact hc
  exact (continuous_optimal agreeing_pmi continuous_of_discreteTopology continuous_of_discreteTopology .of_finite .of_finite 64
    (by norm_num)).1

end BMI.Neural
