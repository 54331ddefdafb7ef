import Verif.Lemmas.KdeLimit
import Mathlib.MeasureTheory.Integral.Lebesgue.Countable

/-! Kernel averages at the points of a sample when the kernel may change with the number of points. -/

namespace BMI.Batch

open MeasureTheory ProbabilityTheory Filter Topology

variable {E : Type} [MeasurableSpace E] {P : Measure E} [IsProbabilityMeasure P]

/-- Sums over the other points of functions without mean have no correlations. -/
theorem others_sq {m : E × E → ℝ} (hm : Measurable m) {D : ℝ} (hD : ∀ p, |m p| ≤ D) (h0 : ∀ u, rowMean P m u = 0) {n : ℕ} (i : Fin n) :
    ∫ b, (∑ j ∈ Finset.univ.erase i, m (b i, b j)) ^ 2 ∂(Measure.pi fun _ : Fin n => P) = (n - 1 : ℝ) * ∫ p, m p ^ 2 ∂(P.prod P) := by
  have hD0 : 0 ≤ D := by
    obtain ⟨x⟩ := (inferInstance : (ae P).NeBot).nonempty
    exact (abs_nonneg _).trans (hD (x, x))
  have mk : ∀ j, Measurable fun b : Fin n → E => m (b i, b j) := fun j => hm.comp ((measurable_pi_apply i).prodMk (measurable_pi_apply j))
  have hI : ∀ j j', Integrable (fun b : Fin n → E => m (b i, b j) * m (b i, b j')) (Measure.pi fun _ : Fin n => P) := fun j j' =>
    integrable_bdd ((mk j).mul (mk j')) (D := D * D) fun b => by
      rw [abs_mul]
      exact mul_le_mul (hD _) (hD _) (abs_nonneg _) hD0
  have hprod : ∀ j ∈ Finset.univ.erase i, ∀ j' ∈ Finset.univ.erase i,
      ∫ b, m (b i, b j) * m (b i, b j') ∂(Measure.pi fun _ : Fin n => P) = if j = j' then ∫ p, m p ^ 2 ∂(P.prod P) else 0 := by
    intro j hj j' hj'
    have h1 : j ≠ i := Finset.ne_of_mem_erase hj
    have h2 : j' ≠ i := Finset.ne_of_mem_erase hj'
    split_ifs with h3
    · subst h3
      have e1 := integral_map (μ := Measure.pi fun _ : Fin n => P) (f := fun q : E × E => m q ^ 2)
        ((measurable_pi_apply i).prodMk (measurable_pi_apply j)).aemeasurable (hm.pow_const 2).aestronglyMeasurable
      rw [map_two (P := P) (Ne.symm h1)] at e1
      rw [e1]
      exact integral_congr_ae (.of_forall fun b => by simp only [sq])
    · have hm3 := map_three (P := P) (Ne.symm h1) (Ne.symm h2) h3
      have hmm : Measurable fun q : (E × E) × E => m q.1 * m (q.1.1, q.2) :=
        (hm.comp measurable_fst).mul (hm.comp ((measurable_fst.comp measurable_fst).prodMk measurable_snd))
      have hmt : Measurable fun b : Fin n → E => ((b i, b j), b j') :=
        ((measurable_pi_apply i).prodMk (measurable_pi_apply j)).prodMk (measurable_pi_apply j')
      have e1 := integral_map (μ := Measure.pi fun _ : Fin n => P) (f := fun q : (E × E) × E => m q.1 * m (q.1.1, q.2))
        hmt.aemeasurable hmm.aestronglyMeasurable
      rw [hm3] at e1
      refine e1.symm.trans ?_
      rw [integral_prod _ (integrable_bdd hmm (D := D * D) fun q => by
        rw [abs_mul]
        exact mul_le_mul (hD _) (hD _) (abs_nonneg _) hD0)]
      have : ∀ u, ∫ v, m (u, v) ∂P = 0 := h0
      simp only [integral_const_mul, this, mul_zero, integral_zero]
  have hsq : ∀ b : Fin n → E, (∑ j ∈ Finset.univ.erase i, m (b i, b j)) ^ 2
      = ∑ j ∈ Finset.univ.erase i, ∑ j' ∈ Finset.univ.erase i, m (b i, b j) * m (b i, b j') := fun b => by
    rw [sq, Finset.sum_mul_sum]
  simp only [hsq]
  rw [integral_finsetSum _ fun j _ => integrable_finsetSum _ fun j' _ => hI j j']
  calc _ = ∑ j ∈ Finset.univ.erase i, ∑ j' ∈ Finset.univ.erase i, (if j = j' then ∫ p, m p ^ 2 ∂(P.prod P) else 0) :=
        Finset.sum_congr rfl fun j hj => by
          rw [integral_finsetSum _ fun j' _ => hI j j']
          exact Finset.sum_congr rfl fun j' hj' => hprod j hj j' hj'
    _ = ∑ j ∈ Finset.univ.erase i, ∫ p, m p ^ 2 ∂(P.prod P) := Finset.sum_congr rfl fun j hj => by
        rw [Finset.sum_ite_eq, if_pos hj]
    _ = _ := by
        rw [Finset.sum_const, Finset.card_erase_of_mem (Finset.mem_univ i), Finset.card_univ, Fintype.card_fin, nsmul_eq_mul,
          Nat.cast_sub (Fin.pos i), Nat.cast_one]

/-- The logarithm of a quantity that is at least `1 / n`. -/
theorem abs_log_sub_le {n : ℕ} (hn : 0 < n) {q r ε : ℝ} (hε : 0 < ε) (hq : 1 / (n : ℝ) ≤ q) (hr : 0 < r) (hr1 : r ≤ 1) :
    |Real.log q - Real.log r| ≤ ε + (1 / ε + 4 * Real.log n) * ((q - r) / r) ^ 2 := by
  have hn' : (0 : ℝ) < n := by exact_mod_cast hn
  have hq0 : 0 < q := lt_of_lt_of_le (by positivity) hq
  have hln : 0 ≤ Real.log n := Real.log_natCast_nonneg n
  have h2 : ∀ a : ℝ, 2 * |a| ≤ ε + 1 / ε * a ^ 2 := fun a => by
    have := sq_nonneg (|a| - ε)
    rw [one_div, ← sub_nonneg]
    have e : ε + ε⁻¹ * a ^ 2 - 2 * |a| = (|a| - ε) ^ 2 / ε := by
      rw [← sq_abs a]
      field_simp
      ring
    rw [e]
    positivity
  have hsq : 0 ≤ ((q - r) / r) ^ 2 := sq_nonneg _
  by_cases h : r / 2 ≤ q
  · have hb : |Real.log q - Real.log r| ≤ 2 * |(q - r) / r| := by
      rw [abs_div, abs_of_pos hr, abs_le]
      constructor
      · have h1 := Real.log_le_sub_one_of_pos (show 0 < r / q by positivity)
        rw [Real.log_div hr.ne' hq0.ne'] at h1
        have h3 : r / q - 1 ≤ 2 * (|q - r| / r) := by
          rw [div_sub_one hq0.ne', ← mul_div_assoc, div_le_div_iff₀ hq0 hr]
          have := neg_abs_le (q - r)
          have := abs_nonneg (q - r)
          nlinarith
        linarith
      · have h1 := Real.log_le_sub_one_of_pos (show 0 < q / r by positivity)
        rw [Real.log_div hq0.ne' hr.ne'] at h1
        have h3 : q / r - 1 ≤ 2 * (|q - r| / r) := by
          rw [div_sub_one hr.ne', ← mul_div_assoc]
          refine div_le_div_of_nonneg_right ?_ hr.le
          have := le_abs_self (q - r)
          have := abs_nonneg (q - r)
          linarith
        linarith
    have := h2 ((q - r) / r)
    nlinarith [mul_nonneg (mul_nonneg (by norm_num : (0 : ℝ) ≤ 4) hln) hsq]
  · push Not at h
    have h1 : 1 / 4 ≤ ((q - r) / r) ^ 2 := by
      rw [div_pow, div_le_div_iff₀ (by norm_num) (by positivity)]
      nlinarith
    have h3 : |Real.log q - Real.log r| ≤ Real.log n := by
      have h4 : Real.log q ≤ Real.log r := Real.log_le_log hq0 (by linarith)
      have h5 : Real.log r ≤ 0 := Real.log_nonpos hr.le hr1
      have h6 := Real.log_le_log (by positivity) hq
      rw [one_div, Real.log_inv] at h6
      rw [abs_of_nonpos (by linarith)]
      linarith
    have h4 : 0 ≤ 1 / ε * ((q - r) / r) ^ 2 := by positivity
    nlinarith [mul_nonneg hln (sub_nonneg.2 h1)]

section
variable {k : E × E → ℝ} (hk : Measurable k) (h0 : ∀ p, 0 ≤ k p) (h1 : ∀ p, k p ≤ 1)
include hk h0 h1

theorem kernel_bdd_integrable (u : E) : Integrable (fun v => k (u, v)) P :=
  integrable_bdd (hk.comp (measurable_const.prodMk measurable_id)) (D := 1) fun v => by rw [abs_of_nonneg (h0 _)]; exact h1 _

theorem rowMean_nonneg' (u : E) : 0 ≤ rowMean P k u := integral_nonneg fun v => h0 _

theorem rowMean_le_one' (u : E) : rowMean P k u ≤ 1 := by
  have := integral_mono (kernel_bdd_integrable (P := P) hk h0 h1 u) (integrable_const (1 : ℝ)) fun v => h1 (u, v)
  simpa [rowMean] using this

/-- The logarithm of the average of a kernel over a row of the table of pairs, if the point of the row lies in a set. -/
theorem row_log_shrink (hd : ∀ u, k (u, u) = 1) (hp : ∀ᵐ u ∂P, 0 < rowMean P k u) {S : Set E} (hS : MeasurableSet S)
    (hi : Integrable (S.indicator fun u => 1 / rowMean P k u) P) {D : ℝ} (hD : ∫ u, S.indicator (fun u => 1 / rowMean P k u) u ∂P ≤ D)
    {n : ℕ} (i : Fin n) {ε : ℝ} (hε : 0 < ε) :
    ∫⁻ b, ENNReal.ofReal (S.indicator 1 (b i) * |Real.log ((∑ j, k (b i, b j)) / n) - Real.log (rowMean P k (b i))|) ∂(Measure.pi fun _ : Fin n => P) ≤
      ENNReal.ofReal (ε + (1 / ε + 4 * Real.log n + 1) * (D / n)) := by
  set χ : E → ℝ := S.indicator 1 with hχ
  have hχm : Measurable χ := measurable_one.indicator hS
  have hχ01 : ∀ u, χ u = 0 ∨ χ u = 1 := fun u => by
    by_cases h : u ∈ S
    · exact .inr (Set.indicator_of_mem h _)
    · exact .inl (Set.indicator_of_notMem h _)
  have hχi : ∀ (g : E → ℝ) u, S.indicator g u = χ u * g u := fun g u => by
    by_cases h : u ∈ S
    · rw [hχ, Set.indicator_of_mem h, Set.indicator_of_mem h, Pi.one_apply, one_mul]
    · rw [hχ, Set.indicator_of_notMem h, Set.indicator_of_notMem h, zero_mul]
  have hi : Integrable (fun u => χ u * (1 / rowMean P k u)) P := hi.congr (.of_forall fun u => hχi _ u)
  have hD : ∫ u, χ u * (1 / rowMean P k u) ∂P ≤ D := by simpa only [hχi] using hD
  have hn : 0 < n := Fin.pos i
  have hn' : (0 : ℝ) < n := by exact_mod_cast hn
  have hn1 : (1 : ℝ) ≤ n := by exact_mod_cast hn
  have hln : 0 ≤ Real.log n := Real.log_natCast_nonneg n
  set p := rowMean P k with hpd
  have hpm : Measurable p := measurable_rowMean hk
  have p0 : ∀ u, 0 ≤ p u := rowMean_nonneg' hk h0 h1
  have p1 : ∀ u, p u ≤ 1 := rowMean_le_one' hk h0 h1
  -- the mean of the average over the row
  set r : E → ℝ := fun u => (1 + (n - 1) * p u) / n with hr
  have hrm : Measurable r := by fun_prop
  have r0 : ∀ u, 1 / (n : ℝ) ≤ r u := fun u => by
    refine div_le_div_of_nonneg_right ?_ hn'.le
    nlinarith [p0 u]
  have rpos : ∀ u, 0 < r u := fun u => lt_of_lt_of_le (by positivity) (r0 u)
  have r1 : ∀ u, r u ≤ 1 := fun u => by
    rw [hr, div_le_one hn']
    nlinarith [p1 u]
  have rp : ∀ u, p u ≤ r u := fun u => by
    rw [hr, le_div_iff₀ hn']
    nlinarith [p1 u]
  set m : E × E → ℝ := fun q => χ q.1 * ((k q - p q.1) / r q.1) with hm
  have hmm : Measurable m := (hχm.comp measurable_fst).mul ((hk.sub (hpm.comp measurable_fst)).div (hrm.comp measurable_fst))
  have hmb : ∀ q, |m q| ≤ n := fun q => by
    rcases hχ01 q.1 with hq | hq
    · simp [hm, hq]
    simp only [hm, hq, one_mul]
    rw [abs_div, abs_of_pos (rpos _), div_le_iff₀ (rpos _)]
    have h2 : |k q - p q.1| ≤ 1 := abs_le.2 ⟨by linarith [h0 q, p1 q.1], by linarith [h1 q, p0 q.1]⟩
    have h3 := r0 q.1
    rw [div_le_iff₀ hn'] at h3
    linarith
  have hm0 : ∀ u, rowMean P m u = 0 := fun u => by
    simp only [rowMean, hm]
    rw [integral_const_mul, integral_div, integral_sub (kernel_bdd_integrable (P := P) hk h0 h1 u) (integrable_const _)]
    simp [hpd, rowMean]
  have hsq := others_sq hmm hmb hm0 i
  -- the second moment
  have hmsq : ∫ q, m q ^ 2 ∂(P.prod P) ≤ D := by
    have hb : ∀ q, |m q ^ 2| ≤ (n : ℝ) ^ 2 := fun q => by
      rw [abs_pow]
      exact pow_le_pow_left₀ (abs_nonneg _) (hmb q) 2
    rw [integral_prod _ (integrable_bdd (hmm.pow_const 2) hb)]
    refine le_trans (integral_mono_of_nonneg (.of_forall fun u => integral_nonneg fun v => sq_nonneg _) hi ?_) hD
    filter_upwards [hp] with u hu
    have hk2 : Integrable (fun v => (k (u, v) - p u) ^ 2) P :=
      integrable_bdd (((hk.comp (measurable_const.prodMk measurable_id)).sub_const _).pow_const 2) (D := 1) fun v => by
        rw [abs_of_nonneg (sq_nonneg _)]
        have ha := h0 (u, v)
        have hb := h1 (u, v)
        nlinarith [p0 u, p1 u]
    have hle : ∫ v, (k (u, v) - p u) ^ 2 ∂P ≤ p u := by
      have hki := kernel_bdd_integrable (P := P) hk h0 h1 u
      have : ∫ v, (k (u, v) - p u) ^ 2 ∂P ≤ ∫ v, ((1 - 2 * p u) * k (u, v) + p u ^ 2) ∂P := by
        refine integral_mono hk2 ((hki.const_mul _).add (integrable_const _)) fun v => ?_
        have ha := h0 (u, v)
        have hb := h1 (u, v)
        simp only
        nlinarith
      refine this.trans ?_
      rw [integral_add (hki.const_mul _) (integrable_const _), integral_const_mul]
      have e : ∫ v, k (u, v) ∂P = p u := rfl
      rw [e]
      simp only [integral_const, probReal_univ, smul_eq_mul, one_mul]
      nlinarith [sq_nonneg (p u)]
    have : ∫ v, m (u, v) ^ 2 ∂P = χ u * ((∫ v, (k (u, v) - p u) ^ 2 ∂P) / r u ^ 2) := by
      simp only [hm, mul_pow, div_pow]
      rw [integral_const_mul, integral_div]
      rcases hχ01 u with hq | hq <;> simp [hq]
    simp only [this]
    refine mul_le_mul_of_nonneg_left ?_ (by rcases hχ01 u with hq | hq <;> simp [hq])
    rw [div_le_div_iff₀ (by have := rpos u; positivity) hu]
    have := rp u
    have := rpos u
    nlinarith [mul_le_mul_of_nonneg_right hle hu.le]
  have hD0 : 0 ≤ D := le_trans (integral_nonneg fun q => sq_nonneg _) hmsq
  have hSm : Measurable fun b : Fin n → E => ∑ j ∈ Finset.univ.erase i, m (b i, b j) :=
    Finset.measurable_sum _ fun j _ => hmm.comp ((measurable_pi_apply i).prodMk (measurable_pi_apply j))
  have hSb : ∀ b : Fin n → E, |(∑ j ∈ Finset.univ.erase i, m (b i, b j)) ^ 2| ≤ (n * n : ℝ) ^ 2 := fun b => by
    rw [abs_pow]
    refine pow_le_pow_left₀ (abs_nonneg _) ((Finset.abs_sum_le_sum_abs _ _).trans ?_) 2
    refine (Finset.sum_le_sum fun j _ => hmb _).trans ?_
    rw [Finset.sum_const, nsmul_eq_mul]
    refine mul_le_mul_of_nonneg_right ?_ hn'.le
    have := Finset.card_le_univ (Finset.univ.erase i)
    rw [Fintype.card_fin] at this
    exact_mod_cast this
  have hSi : Integrable (fun b : Fin n → E => (∑ j ∈ Finset.univ.erase i, m (b i, b j)) ^ 2) (Measure.pi fun _ : Fin n => P) :=
    integrable_bdd (hSm.pow_const 2) hSb
  -- the estimate at one sample
  have hpt : ∀ᵐ b ∂(Measure.pi fun _ : Fin n => P), χ (b i) * |Real.log ((∑ j, k (b i, b j)) / n) - Real.log (p (b i))| ≤
      ε + (1 / ε + 4 * Real.log n) * ((∑ j ∈ Finset.univ.erase i, m (b i, b j)) ^ 2 / n ^ 2) + χ (b i) * (1 / p (b i)) / n := by
    have hpi : ∀ᵐ b ∂(Measure.pi fun _ : Fin n => P), 0 < p (b i) := by
      have : ∀ᵐ u ∂((Measure.pi fun _ : Fin n => P).map fun b => b i), 0 < p u := by rw [map_one]; exact hp
      exact ae_of_ae_map (measurable_pi_apply i).aemeasurable this
    filter_upwards [hpi] with b hb
    rcases hχ01 (b i) with hq' | hq'
    · rw [hq', zero_mul, zero_mul, zero_div]
      positivity
    rw [hq', one_mul, one_mul]
    have hsum : ∑ j, k (b i, b j) = 1 + ∑ j ∈ Finset.univ.erase i, k (b i, b j) := by
      rw [← Finset.add_sum_erase _ _ (Finset.mem_univ i), hd]
    have hq : 1 / (n : ℝ) ≤ (∑ j, k (b i, b j)) / n := by
      refine div_le_div_of_nonneg_right ?_ hn'.le
      rw [hsum]
      linarith [Finset.sum_nonneg fun j (_ : j ∈ Finset.univ.erase i) => h0 (b i, b j)]
    have ha := abs_log_sub_le hn hε hq (rpos (b i)) (r1 (b i))
    have hdiff : ((∑ j, k (b i, b j)) / n - r (b i)) / r (b i) = (∑ j ∈ Finset.univ.erase i, m (b i, b j)) / n := by
      simp only [hm, hq', one_mul]
      rw [← Finset.sum_div, Finset.sum_sub_distrib, Finset.sum_const, Finset.card_erase_of_mem (Finset.mem_univ i), Finset.card_univ,
        Fintype.card_fin, nsmul_eq_mul, Nat.cast_sub hn, Nat.cast_one, hsum, div_div, mul_comm (r (b i)) (n : ℝ), ← div_div]
      congr 1
      simp only [hr]
      field_simp
      ring
    rw [hdiff, div_pow] at ha
    have hl : |Real.log (r (b i)) - Real.log (p (b i))| ≤ 1 / p (b i) / n := by
      rw [abs_of_nonneg (sub_nonneg.2 (Real.log_le_log hb (rp _)))]
      have h3 := Real.log_le_sub_one_of_pos (div_pos (rpos (b i)) hb)
      rw [Real.log_div (rpos _).ne' hb.ne'] at h3
      refine h3.trans ?_
      rw [div_sub_one hb.ne', div_div, div_le_div_iff₀ hb (by positivity)]
      have : r (b i) - p (b i) = (1 - p (b i)) / n := by
        simp only [hr]
        field_simp
        ring
      rw [this, div_mul_eq_mul_div, div_le_iff₀ hn']
      nlinarith [mul_pos hb hn', mul_nonneg (mul_nonneg hb.le hb.le) hn'.le]
    have := abs_sub_le (Real.log ((∑ j, k (b i, b j)) / n)) (Real.log (r (b i))) (Real.log (p (b i)))
    linarith
  have hii : Integrable (fun b : Fin n → E => χ (b i) * (1 / p (b i))) (Measure.pi fun _ : Fin n => P) := by
    have := (integrable_map_measure (μ := Measure.pi fun _ : Fin n => P) (f := fun b : Fin n → E => b i) (g := fun u => χ u * (1 / p u))
      (hχm.mul (hpm.const_div 1)).aestronglyMeasurable (measurable_pi_apply i).aemeasurable).1 (by rw [map_one]; exact hi)
    exact this
  have hie : ∫ b, χ (b i) * (1 / p (b i)) ∂(Measure.pi fun _ : Fin n => P) = ∫ u, χ u * (1 / p u) ∂P := by
    have := integral_map (μ := Measure.pi fun _ : Fin n => P) (φ := fun b : Fin n → E => b i) (f := fun u => χ u * (1 / p u))
      (measurable_pi_apply i).aemeasurable (hχm.mul (hpm.const_div 1)).aestronglyMeasurable
    rw [map_one] at this
    exact this.symm
  have hA : 0 ≤ 1 / ε + 4 * Real.log n := by positivity
  have hbi : Integrable (fun b : Fin n → E => ε + (1 / ε + 4 * Real.log n) * ((∑ j ∈ Finset.univ.erase i, m (b i, b j)) ^ 2 / n ^ 2) + χ (b i) * (1 / p (b i)) / n)
      (Measure.pi fun _ : Fin n => P) := ((integrable_const _).add ((hSi.div_const _).const_mul _)).add (hii.div_const _)
  calc _ ≤ ∫⁻ b, ENNReal.ofReal (ε + (1 / ε + 4 * Real.log n) * ((∑ j ∈ Finset.univ.erase i, m (b i, b j)) ^ 2 / n ^ 2) + χ (b i) * (1 / p (b i)) / n)
        ∂(Measure.pi fun _ : Fin n => P) := lintegral_mono_ae (hpt.mono fun b hb => ENNReal.ofReal_le_ofReal hb)
    _ = ENNReal.ofReal (∫ b, (ε + (1 / ε + 4 * Real.log n) * ((∑ j ∈ Finset.univ.erase i, m (b i, b j)) ^ 2 / n ^ 2) + χ (b i) * (1 / p (b i)) / n)
        ∂(Measure.pi fun _ : Fin n => P)) := (ofReal_integral_eq_lintegral_ofReal hbi (.of_forall fun b => by
          have := p0 (b i)
          have : 0 ≤ χ (b i) := by rcases hχ01 (b i) with hq | hq <;> simp [hq]
          show (0 : ℝ) ≤ ε + (1 / ε + 4 * Real.log n) * ((∑ j ∈ Finset.univ.erase i, m (b i, b j)) ^ 2 / n ^ 2) + χ (b i) * (1 / p (b i)) / n
          positivity)).symm
    _ ≤ _ := by
        refine ENNReal.ofReal_le_ofReal ?_
        have hab : Integrable (fun b : Fin n → E => ε + (1 / ε + 4 * Real.log n) * ((∑ j ∈ Finset.univ.erase i, m (b i, b j)) ^ 2 / n ^ 2))
          (Measure.pi fun _ : Fin n => P) := (integrable_const _).add ((hSi.div_const _).const_mul _)
        rw [integral_add hab (hii.div_const _),
          integral_add (integrable_const _) ((hSi.div_const _).const_mul _), integral_const_mul, integral_div, integral_div, hsq, hie]
        simp only [integral_const, probReal_univ, smul_eq_mul, one_mul]
        have h3 : ((n : ℝ) - 1) * (∫ q, m q ^ 2 ∂(P.prod P)) / n ^ 2 ≤ D / n := by
          rw [div_le_div_iff₀ (by positivity) hn']
          nlinarith [mul_nonneg hD0 hn'.le, mul_le_mul_of_nonneg_left hmsq (mul_nonneg (sub_nonneg.2 hn1) hn'.le)]
        have h4 := mul_le_mul_of_nonneg_left h3 hA
        have h5 : (∫ u, χ u * (1 / p u) ∂P) / n ≤ D / n := div_le_div_of_nonneg_right hD hn'.le
        linarith

end

/-- If a function is at least a multiple of the probability of the cell of the point, then the mean of a weight divided by it is bounded by
the integral of the weight, provided the weight does not vary much over a cell. -/
theorem recip_weight_le {ι : Type} [Countable ι] [MeasurableSpace ι] [MeasurableSingletonClass ι] {c : E → ι} (hc : Measurable c) {ν : Measure E}
    {a : ENNReal} (ha0 : a ≠ 0) (ha : a ≠ ⊤) (hν : ∀ k, ν (c ⁻¹' {k}) = a) {w : E → ENNReal} (hw : Measurable w) {C : ENNReal}
    (hC : ∀ u v, c u = c v → w u ≤ C * w v) {γ : ℝ} (hγ : 0 < γ) {p : E → ℝ} (hpm : Measurable p)
    (hle : ∀ u, γ * P.real (c ⁻¹' {c u}) ≤ p u) :
    (∀ᵐ u ∂P, 0 < p u) ∧ ∫⁻ u, w u * ENNReal.ofReal (1 / p u) ∂P ≤ C * a⁻¹ * ENNReal.ofReal (1 / γ) * ∫⁻ u, w u ∂ν := by
  have hms : ∀ k, MeasurableSet (c ⁻¹' {k}) := fun k => hc (measurableSet_singleton k)
  have hun : ⋃ k, c ⁻¹' {k} = Set.univ := Set.eq_univ_of_forall fun u => Set.mem_iUnion.2 ⟨c u, rfl⟩
  have hdis : Pairwise (Function.onFun Disjoint fun k => c ⁻¹' {k}) := fun k l hkl => Disjoint.preimage _ (by simpa using hkl)
  constructor
  · have h1 : ∀ k, ∀ᵐ u ∂P, c u = k → 0 < p u := by
      intro k
      by_cases hz : P (c ⁻¹' {k}) = 0
      · filter_upwards [measure_eq_zero_iff_ae_notMem.1 hz] with u hu hk
        exact absurd hk hu
      · refine .of_forall fun u hu => lt_of_lt_of_le ?_ (hle u)
        rw [hu]
        exact mul_pos hγ (ENNReal.toReal_pos hz (measure_ne_top _ _))
    filter_upwards [ae_all_iff.2 h1] with u h
    exact h _ rfl
  · have hk : ∀ k, ∫⁻ u in c ⁻¹' {k}, w u * ENNReal.ofReal (1 / p u) ∂P ≤ C * a⁻¹ * ENNReal.ofReal (1 / γ) * ∫⁻ u in c ⁻¹' {k}, w u ∂ν := by
      intro k
      by_cases hz : P (c ⁻¹' {k}) = 0
      · rw [setLIntegral_measure_zero _ _ hz]
        exact bot_le
      · have hz' : 0 < P.real (c ⁻¹' {k}) := ENNReal.toReal_pos hz (measure_ne_top _ _)
        have hwk : ∀ u ∈ c ⁻¹' {k}, w u ≤ C * a⁻¹ * ∫⁻ v in c ⁻¹' {k}, w v ∂ν := by
          intro u hu
          have h1 : a * w u ≤ C * ∫⁻ v in c ⁻¹' {k}, w v ∂ν := by
            rw [← lintegral_const_mul C hw, ← hν k, mul_comm, ← setLIntegral_const]
            exact setLIntegral_mono' (hms k) fun v hv => hC u v (by rw [show c u = k from hu, show c v = k from hv])
          calc w u = a⁻¹ * (a * w u) := by rw [← mul_assoc, ENNReal.inv_mul_cancel ha0 ha, one_mul]
            _ ≤ a⁻¹ * (C * ∫⁻ v in c ⁻¹' {k}, w v ∂ν) := mul_le_mul' le_rfl h1
            _ = _ := by ring
        calc ∫⁻ u in c ⁻¹' {k}, w u * ENNReal.ofReal (1 / p u) ∂P
            ≤ ∫⁻ u in c ⁻¹' {k}, (C * a⁻¹ * ∫⁻ v in c ⁻¹' {k}, w v ∂ν) * ENNReal.ofReal (1 / (γ * P.real (c ⁻¹' {k}))) ∂P := by
              refine setLIntegral_mono' (hms k) fun u hu => mul_le_mul' (hwk u hu) (ENNReal.ofReal_le_ofReal ?_)
              have h1 := hle u
              rw [show c u = k from hu] at h1
              exact one_div_le_one_div_of_le (by positivity) h1
          _ = (C * a⁻¹ * ∫⁻ v in c ⁻¹' {k}, w v ∂ν) * (ENNReal.ofReal (1 / (γ * P.real (c ⁻¹' {k}))) * P (c ⁻¹' {k})) := by
              rw [setLIntegral_const]; ring
          _ = (C * a⁻¹ * ∫⁻ v in c ⁻¹' {k}, w v ∂ν) * ENNReal.ofReal (1 / γ) := by
              rw [← ENNReal.ofReal_toReal (measure_ne_top P (c ⁻¹' {k})), ← ENNReal.ofReal_mul (by positivity)]
              congr 2
              show 1 / (γ * P.real (c ⁻¹' {k})) * P.real (c ⁻¹' {k}) = 1 / γ
              field_simp
          _ = _ := by ring
    calc ∫⁻ u, w u * ENNReal.ofReal (1 / p u) ∂P = ∑' k, ∫⁻ u in c ⁻¹' {k}, w u * ENNReal.ofReal (1 / p u) ∂P := by
          rw [← lintegral_iUnion hms hdis, hun, setLIntegral_univ]
      _ ≤ ∑' k, C * a⁻¹ * ENNReal.ofReal (1 / γ) * ∫⁻ u in c ⁻¹' {k}, w u ∂ν := ENNReal.tsum_le_tsum hk
      _ = _ := by rw [ENNReal.tsum_mul_left, ← lintegral_iUnion hms hdis, hun, setLIntegral_univ]

end BMI.Batch
