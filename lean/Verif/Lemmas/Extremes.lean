import Mathlib.Probability.Distributions.Gaussian.Real
import Mathlib.Probability.Moments.Basic
import Mathlib.MeasureTheory.Constructions.Pi
import Mathlib.MeasureTheory.Integral.Pi

/-! The largest, the smallest and most of `n` independent normal numbers. -/

namespace BMI.Extremes

open MeasureTheory ProbabilityTheory Filter Topology

theorem tail_le {t : ℝ} (ht : 0 ≤ t) : gaussianReal 0 1 (Set.Ici t) ≤ ENNReal.ofReal (Real.exp (-t ^ 2 / 2)) := by
  have h := measure_ge_le_exp_mul_mgf (μ := gaussianReal 0 1) (X := id) t ht (by
    have := integrable_exp_mul_gaussianReal (μ := 0) (v := 1) t
    simpa using this)
  rw [mgf_id_gaussianReal] at h
  have e : Real.exp (-t * t) * (fun t => Real.exp (0 * t + ((1 : NNReal) : ℝ) * t ^ 2 / 2)) t = Real.exp (-t ^ 2 / 2) := by
    simp only
    rw [← Real.exp_add]
    congr 1
    push_cast
    ring
  rw [e] at h
  rw [← ofReal_measureReal]
  exact ENNReal.ofReal_le_ofReal h

theorem tail_ge {t : ℝ} (ht : 0 ≤ t) :
    ENNReal.ofReal ((√(2 * Real.pi))⁻¹ * Real.exp (-(t + 1) ^ 2 / 2)) ≤ gaussianReal 0 1 (Set.Ici t) := by
  calc ENNReal.ofReal ((√(2 * Real.pi))⁻¹ * Real.exp (-(t + 1) ^ 2 / 2))
      = ∫⁻ _ in Set.Icc t (t + 1), ENNReal.ofReal ((√(2 * Real.pi))⁻¹ * Real.exp (-(t + 1) ^ 2 / 2)) := by
        rw [setLIntegral_const, Real.volume_Icc]
        simp
    _ ≤ ∫⁻ x in Set.Icc t (t + 1), gaussianPDF 0 1 x := by
        refine setLIntegral_mono (measurable_gaussianPDF 0 1) fun x hx => ?_
        unfold gaussianPDF gaussianPDFReal
        refine ENNReal.ofReal_le_ofReal ?_
        simp only [NNReal.coe_one, mul_one, sub_zero]
        refine mul_le_mul_of_nonneg_left (Real.exp_le_exp.2 ?_) (by positivity)
        have : x ^ 2 ≤ (t + 1) ^ 2 := pow_le_pow_left₀ (ht.trans hx.1) hx.2 2
        linarith
    _ = gaussianReal 0 1 (Set.Icc t (t + 1)) := (gaussianReal_apply 0 one_ne_zero _).symm
    _ ≤ _ := measure_mono fun x hx => hx.1

variable {E : Type} [MeasurableSpace E] {P : Measure E} [IsProbabilityMeasure P]

/-- The size of the largest of `n` standard normal numbers. -/
noncomputable def level (n : ℕ) : ℝ := √(2 * Real.log n)

theorem level_tendsto : Tendsto level atTop atTop := by
  unfold level
  exact Real.tendsto_sqrt_atTop.comp ((Real.tendsto_log_atTop.comp tendsto_natCast_atTop_atTop).const_mul_atTop two_pos)

theorem level_nonneg (n : ℕ) : 0 ≤ level n := Real.sqrt_nonneg _

theorem nat_eq_exp {n : ℕ} (hn : 0 < n) : (n : ℝ) = Real.exp (level n ^ 2 / 2) := by
  have h1 : (1 : ℝ) ≤ n := by exact_mod_cast hn
  unfold level
  rw [Real.sq_sqrt (by have := Real.log_nonneg h1; linarith), mul_div_cancel_left₀ _ two_ne_zero, Real.exp_log (by linarith)]

/-- The probability that some point is in a set. -/
theorem some_le (n : ℕ) (S : Set E) : (Measure.pi fun _ : Fin n => P) {w | ∃ i, w i ∈ S} ≤ n * P S := by
  have h1 : {w : Fin n → E | ∃ i, w i ∈ S} = ⋃ i, (fun w => w i) ⁻¹' S := by ext w; simp
  rw [h1]
  refine (measure_iUnion_le _).trans ?_
  rw [tsum_fintype]
  calc ∑ i : Fin n, (Measure.pi fun _ : Fin n => P) ((fun w => w i) ⁻¹' S) ≤ ∑ _i : Fin n, P S := Finset.sum_le_sum fun i _ => by
        have := Measure.le_map_apply (μ := Measure.pi fun _ : Fin n => P) (f := fun w => w i) (measurable_pi_apply i).aemeasurable S
        rwa [(measurePreserving_eval (fun _ : Fin n => P) i).map_eq] at this
    _ = n * P S := by simp

/-- The probability that all points are in a set. -/
theorem all_eq (n : ℕ) (S : Set E) : (Measure.pi fun _ : Fin n => P) {w | ∀ i, w i ∈ S} = P S ^ n := by
  have h1 : {w : Fin n → E | ∀ i, w i ∈ S} = Set.univ.pi fun _ => S := by ext w; simp
  rw [h1, Measure.pi_pi]
  simp

open Classical in
/-- The probability that many points are in a set. -/
theorem many_le {n : ℕ} (hn : 0 < n) {S : Set E} (hS : MeasurableSet S) {δ : ℝ} (hδ : 0 < δ) :
    (Measure.pi fun _ : Fin n => P) {w | δ * n ≤ ((Finset.univ.filter fun i => w i ∈ S).card : ℝ)} ≤ P S / ENNReal.ofReal δ := by
  have hint : ∫⁻ w, ∑ i : Fin n, S.indicator (fun _ => (1 : ENNReal)) (w i) ∂(Measure.pi fun _ : Fin n => P) = n * P S := by
    have hmi : ∀ i : Fin n, Measurable fun w : Fin n → E => S.indicator (fun _ => (1 : ENNReal)) (w i) := fun i =>
      (measurable_const.indicator hS).comp (measurable_pi_apply i)
    rw [lintegral_finsetSum _ fun i _ => hmi i]
    have : ∀ i : Fin n, ∫⁻ w, S.indicator (fun _ => (1 : ENNReal)) (w i) ∂(Measure.pi fun _ : Fin n => P) = P S := fun i => by
      have h := (measurePreserving_eval (fun _ : Fin n => P) i).lintegral_comp (measurable_const.indicator hS : Measurable (S.indicator fun _ => (1 : ENNReal)))
      rw [lintegral_indicator hS, setLIntegral_const, one_mul] at h
      exact h
    simp [this]
  have hm : Measurable fun w : Fin n → E => ∑ i : Fin n, S.indicator (fun _ => (1 : ENNReal)) (w i) :=
    Finset.measurable_sum _ fun i _ => (measurable_const.indicator hS).comp (measurable_pi_apply i)
  have hM := mul_meas_ge_le_lintegral (μ := Measure.pi fun _ : Fin n => P) hm (ENNReal.ofReal (δ * n))
  rw [hint] at hM
  have hset : {w : Fin n → E | δ * n ≤ ((Finset.univ.filter fun i => w i ∈ S).card : ℝ)} ⊆
      {w | ENNReal.ofReal (δ * n) ≤ ∑ i : Fin n, S.indicator (fun _ => (1 : ENNReal)) (w i)} := by
    intro w hw
    have h1 : ∑ i : Fin n, S.indicator (fun _ => (1 : ENNReal)) (w i) = ENNReal.ofReal ((Finset.univ.filter fun i => w i ∈ S).card : ℝ) := by
      rw [ENNReal.ofReal_natCast, Finset.card_filter]
      push_cast
      exact Finset.sum_congr rfl fun i _ => by simp [Set.indicator_apply]
    simp only [Set.mem_setOf_eq, h1]
    exact ENNReal.ofReal_le_ofReal hw
  have hn' : (0 : ℝ) < n := by exact_mod_cast hn
  have hpos : ENNReal.ofReal (δ * n) ≠ 0 := by simp only [ne_eq, ENNReal.ofReal_eq_zero, not_le]; positivity
  calc _ ≤ (Measure.pi fun _ : Fin n => P) {w | ENNReal.ofReal (δ * n) ≤ ∑ i : Fin n, S.indicator (fun _ => (1 : ENNReal)) (w i)} := measure_mono hset
    _ ≤ n * P S / ENNReal.ofReal (δ * n) := by
        rw [ENNReal.le_div_iff_mul_le (.inl hpos) (.inl ENNReal.ofReal_ne_top), mul_comm]
        exact hM
    _ = P S / ENNReal.ofReal δ := by
        rw [ENNReal.ofReal_mul hδ.le, ENNReal.ofReal_natCast, mul_comm (ENNReal.ofReal δ)]
        exact ENNReal.mul_div_mul_left _ _ (by exact_mod_cast hn.ne') (ENNReal.natCast_ne_top n)

theorem exp_neg_sq_tendsto {a : ℝ} (ha : 0 < a) (C : ℝ) : Tendsto (fun n => ENNReal.ofReal (C * Real.exp (-(a * level n ^ 2)))) atTop (𝓝 0) := by
  have h1 : Tendsto (fun n => a * level n ^ 2) atTop atTop :=
    ((tendsto_pow_atTop two_ne_zero).comp level_tendsto).const_mul_atTop ha
  have h2 := (Real.tendsto_exp_neg_atTop_nhds_zero.comp h1).const_mul C
  rw [mul_zero] at h2
  have h3 := (ENNReal.continuous_ofReal.tendsto 0).comp h2
  rw [ENNReal.ofReal_zero] at h3
  exact h3

variable {f : E → ℝ}

theorem abs_tail (hf : Measurable f) (hP : P.map f = gaussianReal 0 1) {t : ℝ} (ht : 0 ≤ t) :
    P {z | t ≤ |f z|} ≤ ENNReal.ofReal (2 * Real.exp (-t ^ 2 / 2)) := by
  have hneg : P.map (fun z => -f z) = gaussianReal 0 1 := by
    have : (fun z => -f z) = (fun x => -x) ∘ f := rfl
    rw [this, ← Measure.map_map measurable_neg hf, hP, gaussianReal_map_neg, neg_zero]
  have h1 : P {z | t ≤ f z} ≤ ENNReal.ofReal (Real.exp (-t ^ 2 / 2)) := by
    have := tail_le ht
    rwa [← hP, Measure.map_apply hf measurableSet_Ici] at this
  have h2 : P {z | t ≤ -f z} ≤ ENNReal.ofReal (Real.exp (-t ^ 2 / 2)) := by
    have := tail_le ht
    rwa [← hneg, Measure.map_apply (by fun_prop) measurableSet_Ici] at this
  calc P {z | t ≤ |f z|} ≤ P ({z | t ≤ f z} ∪ {z | t ≤ -f z}) := measure_mono fun z hz => by
        have hz' : t ≤ |f z| := hz
        rcases le_abs.1 hz' with h | h
        · exact .inl h
        · exact .inr h
    _ ≤ _ := (measure_union_le _ _).trans (add_le_add h1 h2)
    _ = _ := by rw [← ENNReal.ofReal_add (by positivity) (by positivity), two_mul]

/-- The largest number reaches nearly the level. -/
theorem max_tendsto (hf : Measurable f) (hP : P.map f = gaussianReal 0 1) {ε : ℝ} (hε : 0 < ε) (hε1 : ε < 1) :
    Tendsto (fun n => (Measure.pi fun _ : Fin n => P) {w | ∀ i, f (w i) < (1 - ε) * level n}) atTop (𝓝 0) := by
  set c : ℝ := (√(2 * Real.pi))⁻¹
  have hc : 0 < c := by positivity
  have hb : ∀ᶠ n : ℕ in atTop, (Measure.pi fun _ : Fin n => P) {w | ∀ i, f (w i) < (1 - ε) * level n} ≤
      ENNReal.ofReal (Real.exp (-(c * Real.exp ((level n ^ 2 - ((1 - ε) * level n + 1) ^ 2) / 2)))) := by
    filter_upwards [eventually_gt_atTop 0] with n hn
    have ht : 0 ≤ (1 - ε) * level n := mul_nonneg (by linarith) (level_nonneg n)
    have h1 := tail_ge ht
    rw [← hP, Measure.map_apply hf measurableSet_Ici, ← ofReal_measureReal] at h1
    have h2 := (ENNReal.ofReal_le_ofReal_iff measureReal_nonneg).1 h1
    have h3 : P.real {z | f z < (1 - ε) * level n} = 1 - P.real (f ⁻¹' Set.Ici ((1 - ε) * level n)) := by
      rw [← probReal_compl_eq_one_sub (hf measurableSet_Ici)]
      congr 1
      ext z
      simp
    have h4 : P.real {z | f z < (1 - ε) * level n} ≤ Real.exp (-(c * Real.exp (-((1 - ε) * level n + 1) ^ 2 / 2))) := by
      rw [h3]
      have := Real.add_one_le_exp (-(c * Real.exp (-((1 - ε) * level n + 1) ^ 2 / 2)))
      linarith
    have h5 : (Measure.pi fun _ : Fin n => P) {w | ∀ i, f (w i) < (1 - ε) * level n} = P {z | f z < (1 - ε) * level n} ^ n :=
      all_eq n {z | f z < (1 - ε) * level n}
    rw [h5, ← ofReal_measureReal, ← ENNReal.ofReal_pow measureReal_nonneg]
    refine ENNReal.ofReal_le_ofReal ?_
    calc P.real {z | f z < (1 - ε) * level n} ^ n ≤ Real.exp (-(c * Real.exp (-((1 - ε) * level n + 1) ^ 2 / 2))) ^ n :=
          pow_le_pow_left₀ measureReal_nonneg h4 n
      _ = Real.exp (-(c * Real.exp ((level n ^ 2 - ((1 - ε) * level n + 1) ^ 2) / 2))) := by
          rw [← Real.exp_nat_mul]
          congr 1
          have : Real.exp ((level n ^ 2 - ((1 - ε) * level n + 1) ^ 2) / 2) = n * Real.exp (-((1 - ε) * level n + 1) ^ 2 / 2) := by
            rw [nat_eq_exp hn, ← Real.exp_add]
            congr 1
            ring
          rw [this]
          ring
  refine tendsto_of_tendsto_of_tendsto_of_le_of_le' tendsto_const_nhds ?_ (.of_forall fun _ => bot_le) hb
  have h1 : Tendsto (fun n => (level n ^ 2 - ((1 - ε) * level n + 1) ^ 2) / 2) atTop atTop := by
    have e : (fun n => (level n ^ 2 - ((1 - ε) * level n + 1) ^ 2) / 2) =
        fun n => (ε * level n + -1) * (((2 - ε) / 2) * level n + 1 / 2) := by ext n; ring
    rw [e]
    exact (tendsto_atTop_add_const_right _ _ (level_tendsto.const_mul_atTop hε)).atTop_mul_atTop₀
      (tendsto_atTop_add_const_right _ _ (level_tendsto.const_mul_atTop (by linarith)))
  have h2 := (Real.tendsto_exp_atTop.comp h1).const_mul_atTop hc
  have h3 := Real.tendsto_exp_neg_atTop_nhds_zero.comp h2
  have h4 := (ENNReal.continuous_ofReal.tendsto 0).comp h3
  rw [ENNReal.ofReal_zero] at h4
  exact h4

open Classical in
/-- The numbers fill the range from `-level` to `level`, but most of them are in the middle. -/
def Spread {n : ℕ} (f : E → ℝ) (ε δ : ℝ) (w : Fin n → E) : Prop :=
  (∀ i, |f (w i)| < (1 + ε) * level n) ∧ (∃ i, (1 - ε) * level n ≤ f (w i)) ∧ (∃ i, f (w i) ≤ -((1 - ε) * level n)) ∧
    ((Finset.univ.filter fun i => ε * level n ≤ |f (w i)|).card : ℝ) < δ * n

/-- This holds for independent normal numbers in the long run. -/
theorem spread_tendsto (hf : Measurable f) (hP : P.map f = gaussianReal 0 1) {ε δ : ℝ} (hε : 0 < ε) (hε1 : ε < 1) (hδ : 0 < δ) :
    Tendsto (fun n => (Measure.pi fun _ : Fin n => P) {w | ¬ Spread f ε δ w}) atTop (𝓝 0) := by
  classical
  have hneg : P.map (fun z => -f z) = gaussianReal 0 1 := by
    have : (fun z => -f z) = (fun x => -x) ∘ f := rfl
    rw [this, ← Measure.map_map measurable_neg hf, hP, gaussianReal_map_neg, neg_zero]
  have t1 : Tendsto (fun n => (Measure.pi fun _ : Fin n => P) {w | ∃ i, w i ∈ {z | (1 + ε) * level n ≤ |f z|}}) atTop (𝓝 0) := by
    refine tendsto_of_tendsto_of_tendsto_of_le_of_le' tendsto_const_nhds
      (exp_neg_sq_tendsto (a := (2 * ε + ε ^ 2) / 2) (by positivity) 2) (.of_forall fun _ => bot_le) ?_
    filter_upwards [eventually_gt_atTop 0] with n hn
    refine (some_le (P := P) n {z | (1 + ε) * level n ≤ |f z|}).trans ?_
    have h1 := abs_tail hf hP (t := (1 + ε) * level n) (mul_nonneg (by linarith) (level_nonneg n))
    calc (n : ENNReal) * P {z | (1 + ε) * level n ≤ |f z|} ≤ n * ENNReal.ofReal (2 * Real.exp (-((1 + ε) * level n) ^ 2 / 2)) := by gcongr
      _ = ENNReal.ofReal (2 * Real.exp (-((2 * ε + ε ^ 2) / 2 * level n ^ 2))) := by
          rw [← ENNReal.ofReal_natCast, ← ENNReal.ofReal_mul (Nat.cast_nonneg n)]
          congr 1
          conv_lhs => rw [nat_eq_exp hn]
          rw [mul_left_comm, ← Real.exp_add]
          congr 2
          ring
  have t2 := max_tendsto hf hP hε hε1
  have t3 := max_tendsto (f := fun z => -f z) (by fun_prop) hneg hε hε1
  have t4 : Tendsto (fun n => (Measure.pi fun _ : Fin n => P)
      {w | δ * n ≤ ((Finset.univ.filter fun i => w i ∈ {z | ε * level n ≤ |f z|}).card : ℝ)}) atTop (𝓝 0) := by
    refine tendsto_of_tendsto_of_tendsto_of_le_of_le' tendsto_const_nhds
      (exp_neg_sq_tendsto (a := ε ^ 2 / 2) (by positivity) (2 / δ)) (.of_forall fun _ => bot_le) ?_
    filter_upwards [eventually_gt_atTop 0] with n hn
    refine (many_le hn (measurableSet_le measurable_const hf.abs) hδ).trans ?_
    have h1 := abs_tail hf hP (t := ε * level n) (mul_nonneg hε.le (level_nonneg n))
    calc P {z | ε * level n ≤ |f z|} / ENNReal.ofReal δ ≤ ENNReal.ofReal (2 * Real.exp (-(ε * level n) ^ 2 / 2)) / ENNReal.ofReal δ := by gcongr
      _ = ENNReal.ofReal (2 / δ * Real.exp (-(ε ^ 2 / 2 * level n ^ 2))) := by
          rw [← ENNReal.ofReal_div_of_pos hδ]
          congr 1
          rw [div_mul_eq_mul_div]
          congr 3
          ring
  have hsum := ((t1.add t2).add t3).add t4
  simp only [add_zero] at hsum
  refine tendsto_of_tendsto_of_tendsto_of_le_of_le tendsto_const_nhds hsum (fun _ => bot_le) fun n => ?_
  refine le_trans (measure_mono ?_) ((measure_union_le _ _).trans (add_le_add ((measure_union_le _ _).trans
    (add_le_add (measure_union_le _ _) le_rfl)) le_rfl))
  intro w hw
  by_contra hcon
  simp only [Set.mem_union, not_or, Set.mem_setOf_eq, not_exists, not_le, not_forall] at hcon
  obtain ⟨⟨⟨h1, h2⟩, h3⟩, h4⟩ := hcon
  refine hw ⟨h1, ?_, ?_, h4⟩
  · obtain ⟨i, hi⟩ := h2
    exact ⟨i, not_lt.1 hi⟩
  · obtain ⟨i, hi⟩ := h3
    exact ⟨i, by have := not_lt.1 hi; linarith⟩

end BMI.Extremes
