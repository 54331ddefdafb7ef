import Verif.Lemmas.BatchLimit
import Mathlib.Analysis.Convex.SpecificFunctions.Basic

/-! Logarithms of averages over the rows of the table of pairs from a growing batch. -/

namespace BMI.Batch

open MeasureTheory ProbabilityTheory Filter Topology

variable {E : Type} [MeasurableSpace E] {P : Measure E} [IsProbabilityMeasure P]

theorem max_neg_log_le {M K R : ℝ} (hM : 0 < M) (hK : 0 ≤ K) (hR : 0 ≤ R) (h : -Real.log M ≤ K + R) :
    max 0 (-Real.log M) ≤ Real.exp K * max 0 (1 - M) + R := by
  refine max_le (by positivity) ?_
  rcases le_or_gt (-Real.log M) 0 with h0 | h0
  · exact h0.trans (by positivity)
  · have hM' : M = Real.exp (-(-Real.log M)) := by rw [neg_neg, Real.exp_log hM]
    set s := -Real.log M with hs
    have hMs : M * Real.exp s = 1 := by rw [hM', ← Real.exp_add]; simp
    have h1 : M < 1 := by rw [hM']; simpa using h0
    rw [max_eq_right (by linarith)]
    have h2 := Real.add_one_le_exp s
    rcases le_total s K with h3 | h3
    · have h4 := Real.exp_le_exp.2 h3
      nlinarith
    · have h4 := Real.exp_le_exp.2 h3
      have h5 := Real.add_one_le_exp K
      nlinarith

theorem neg_log_average_le {n : ℕ} (hn : 0 < n) {a : Fin n → ℝ} (ha : ∀ j, 0 < a j) :
    -Real.log ((∑ j, a j) / n) ≤ (∑ j, -Real.log (a j)) / n := by
  have hn' : (0 : ℝ) < n := by exact_mod_cast hn
  have h := strictConcaveOn_log_Ioi.concaveOn.le_map_sum (t := Finset.univ) (w := fun _ : Fin n => (1 / n : ℝ)) (p := a)
    (fun _ _ => by positivity) (by simp [hn'.ne']) (fun j _ => ha j)
  simp only [smul_eq_mul, ← Finset.mul_sum] at h
  rw [Finset.sum_neg_distrib, neg_div]
  have e1 : (∑ j, a j) / n = 1 / n * ∑ j, a j := by ring
  have e2 : (∑ j, Real.log (a j)) / n = 1 / n * ∑ j, Real.log (a j) := by ring
  rw [e1, e2]
  linarith

theorem neg_le_clip {F : Type} (f : F → ℝ) {K : ℝ} (hK : 0 ≤ K) (x : F) : -f x ≤ K + |f x - clip K f x| := by
  unfold clip
  rcases le_total (-K) (f x) with h | h
  · linarith [abs_nonneg (f x - max (-K) (min (f x) K))]
  · rw [min_eq_left (by linarith), max_eq_left h, abs_of_nonpos (by linarith)]
    linarith

theorem log_one_add_le {a : ℝ} (ha : 0 < a) (n : ℕ) : |Real.log (1 + a / n)| ≤ Real.log 2 + |Real.log a| := by
  have h0 : 0 ≤ Real.log (1 + a / n) := Real.log_nonneg (by have : 0 ≤ a / n := by positivity
                                                            linarith)
  rw [abs_of_nonneg h0]
  have h1 : a / n ≤ a := by
    rcases Nat.eq_zero_or_pos n with h | h
    · subst h; simpa using ha.le
    · exact div_le_self ha.le (by exact_mod_cast h)
  have hp : 0 < 1 + a / n := by positivity
  rcases le_total a 1 with h | h
  · have := Real.log_le_log hp (by linarith : 1 + a / n ≤ 2)
    linarith [abs_nonneg (Real.log a)]
  · have := Real.log_le_log hp (by linarith : 1 + a / n ≤ 2 * a)
    rw [Real.log_mul (by norm_num) ha.ne'] at this
    linarith [le_abs_self (Real.log a)]

/-- The own partner of a point weighs less and less. -/
theorem log_diag {d : E → ℝ} (hd : Measurable d) (h0 : ∀ u, 0 < d u) (hi : Integrable (fun u => Real.log (d u)) P) :
    Tendsto (fun n : ℕ => ∫ u, Real.log (1 + d u / n) ∂P) atTop (𝓝 0) := by
  have := tendsto_integral_of_dominated_convergence (μ := P) (F := fun (n : ℕ) u => Real.log (1 + d u / n)) (f := fun _ => 0)
    (fun u => Real.log 2 + |Real.log (d u)|) (fun n => Measurable.aestronglyMeasurable (by fun_prop)) ((integrable_const _).add hi.abs)
    (fun n => .of_forall fun u => log_one_add_le (h0 u) n) (.of_forall fun u => ?_)
  · simpa using this
  · have h1 : Tendsto (fun n : ℕ => 1 + d u / n) atTop (𝓝 (1 + 0)) := tendsto_const_nhds.add (tendsto_const_div_atTop_nhds_zero_nat _)
    rw [add_zero] at h1
    have := (Real.continuousAt_log one_ne_zero).tendsto.comp h1
    rwa [Real.log_one] at this

theorem row_split {n : ℕ} (h : E × E → ℝ) (b : Fin n → E) (i : Fin n) :
    ∑ j, h (b i, b j) = h (b i, b i) + ∑ j ∈ Finset.univ.erase i, h (b i, b j) :=
  (Finset.add_sum_erase _ _ (Finset.mem_univ i)).symm

theorem measurable_entry {h : E × E → ℝ} (hh : Measurable h) {n : ℕ} (i j : Fin n) : Measurable fun b : Fin n → E => h (b i, b j) :=
  hh.comp ((measurable_pi_apply i).prodMk (measurable_pi_apply j))

theorem measurable_row {h : E × E → ℝ} (hh : Measurable h) {n : ℕ} (i : Fin n) : Measurable fun b : Fin n → E => (∑ j, h (b i, b j)) / n :=
  (Finset.measurable_sum _ fun j _ => measurable_entry hh i j).div_const _

/-- The average over a row of a small non-negative function is small. -/
theorem row_lintegral {w : E × E → ℝ} (hw : Measurable w) (hd : ∫⁻ u, ENNReal.ofReal |w (u, u)| ∂P ≠ ⊤) {ε : ℝ} (hε : 0 < ε)
    (hP : ∫⁻ p, ENNReal.ofReal |w p| ∂(P.prod P) ≤ ENNReal.ofReal ε) :
    ∀ᶠ n : ℕ in atTop, ∀ i : Fin n, ∫⁻ b, ENNReal.ofReal |(∑ j, w (b i, b j)) / n| ∂(Measure.pi fun _ : Fin n => P) ≤ ENNReal.ofReal (2 * ε) := by
  set D := ∫⁻ u, ENNReal.ofReal |w (u, u)| ∂P with hD
  have hlim : Tendsto (fun n : ℕ => D.toReal / n) atTop (𝓝 0) := tendsto_const_div_atTop_nhds_zero_nat _
  filter_upwards [hlim.eventually (gt_mem_nhds hε), eventually_gt_atTop 0] with n hn hn0 i
  have hn' : (0 : ℝ) < n := by exact_mod_cast hn0
  have h1 := lintegral_average_le (μ := Measure.pi fun _ : Fin n => P) (Finset.univ.erase i) (φ := fun j b => w (b i, b j))
    (fun j _ => measurable_entry hw i j) hn' (c := ENNReal.ofReal ε) (fun j hj => by
      have := lintegral_two (P := P) (measurable_ofReal_abs hw) (Finset.ne_of_mem_erase hj).symm
      exact this.le.trans hP) (by
        have : (Finset.univ.erase i).card ≤ n := (Finset.card_le_univ _).trans (by simp)
        exact_mod_cast this)
  have h2 : ∫⁻ b, ENNReal.ofReal |w (b i, b i) / n| ∂(Measure.pi fun _ : Fin n => P) ≤ ENNReal.ofReal ε := by
    have hm : Measurable fun u => w (u, u) := hw.comp (measurable_id.prodMk measurable_id)
    have e := lintegral_one (P := P) (measurable_ofReal_abs (hm.div_const (n : ℝ))) i
    rw [e]
    have : ∀ u, ENNReal.ofReal |w (u, u) / n| = ENNReal.ofReal (1 / n) * ENNReal.ofReal |w (u, u)| := fun u => by
      rw [← ENNReal.ofReal_mul (by positivity), abs_div, Nat.abs_cast]
      congr 1
      ring
    simp only [this]
    rw [lintegral_const_mul' _ _ ENNReal.ofReal_ne_top, ← hD, ← ENNReal.ofReal_toReal hd, ← ENNReal.ofReal_mul (by positivity)]
    refine ENNReal.ofReal_le_ofReal ?_
    calc 1 / (n : ℝ) * D.toReal = D.toReal / n := by ring
      _ ≤ ε := hn.le
  calc _ ≤ ∫⁻ b, ENNReal.ofReal |w (b i, b i) / n| + ENNReal.ofReal |(∑ j ∈ Finset.univ.erase i, w (b i, b j)) / n| ∂(Measure.pi fun _ : Fin n => P) := by
        refine lintegral_mono fun b => ?_
        rw [← ENNReal.ofReal_add (abs_nonneg _) (abs_nonneg _), row_split, add_div]
        exact ENNReal.ofReal_le_ofReal (abs_add_le _ _)
    _ = _ := lintegral_add_left (measurable_ofReal_abs ((measurable_entry hw i i).div_const _)) _
    _ ≤ ENNReal.ofReal ε + ENNReal.ofReal ε := add_le_add h2 h1
    _ = ENNReal.ofReal (2 * ε) := by rw [← ENNReal.ofReal_add hε.le hε.le, two_mul]

/-- The averages over the rows of a positive function are rarely much smaller than the mean. -/
theorem row_below {h : E × E → ℝ} (hh : Measurable h) (h0 : ∀ p, 0 < h p) (hi : Integrable h (P.prod P)) (h1 : ∀ᵐ u ∂P, rowMean P h u = 1)
    {ε : ℝ} (hε : 0 < ε) :
    ∀ᶠ n : ℕ in atTop, ∀ i : Fin n, ∫⁻ b, ENNReal.ofReal (max 0 (1 - (∑ j, h (b i, b j)) / n)) ∂(Measure.pi fun _ : Fin n => P) ≤ ENNReal.ofReal ε := by
  obtain ⟨L, hL, hclip⟩ := exists_clip hh hi (half_pos hε)
  have hcm := measurable_clip hh L
  have hcb := abs_clip_le h (by linarith : 0 ≤ L)
  have hle : ∀ p, clip L h p ≤ h p := fun p => max_le (by linarith [h0 p]) (min_le_left _ _)
  have hgm := measurable_rowMean (P := P) hcm
  have hg : ∫⁻ u, ENNReal.ofReal |1 - rowMean P (clip L h) u| ∂P ≤ ENNReal.ofReal (ε / 2) := by
    refine le_trans ?_ hclip
    rw [lintegral_prod (fun p => ENNReal.ofReal |h p - clip L h p|) (measurable_ofReal_abs (hh.sub hcm)).aemeasurable]
    refine lintegral_mono_ae ?_
    filter_upwards [h1, hi.prod_right_ae] with u hu hu'
    rw [← hu]
    unfold rowMean
    have hci : Integrable (fun v => clip L h (u, v)) P := integrable_bdd (hcm.comp measurable_prodMk_left) fun v => hcb (u, v)
    rw [← integral_sub hu' hci]
    have := enorm_integral_le_lintegral_enorm (μ := P) fun v => h (u, v) - clip L h (u, v)
    simpa only [Real.enorm_eq_ofReal_abs] using this
  filter_upwards [row_abs (P := P) hcm hcb (half_pos hε), eventually_gt_atTop 0] with n hn hn0 i
  have hn' : (0 : ℝ) < n := by exact_mod_cast hn0
  have hg' := lintegral_one (P := P) (measurable_ofReal_abs (measurable_const (a := (1 : ℝ)) |>.sub hgm)) i
  calc _ ≤ ∫⁻ b, ENNReal.ofReal |(∑ j, clip L h (b i, b j)) / n - rowMean P (clip L h) (b i)| + ENNReal.ofReal |1 - rowMean P (clip L h) (b i)|
        ∂(Measure.pi fun _ : Fin n => P) := by
        refine lintegral_mono fun b => ?_
        rw [← ENNReal.ofReal_add (abs_nonneg _) (abs_nonneg _)]
        refine ENNReal.ofReal_le_ofReal (max_le (by positivity) ?_)
        have e1 : (∑ j, clip L h (b i, b j)) / n ≤ (∑ j, h (b i, b j)) / n := by
          gcongr with j
          exact hle _
        have e2 := neg_abs_le ((∑ j, clip L h (b i, b j)) / n - rowMean P (clip L h) (b i))
        have e3 := le_abs_self (1 - rowMean P (clip L h) (b i))
        linarith
    _ = _ := lintegral_add_left (measurable_ofReal_abs ((measurable_row hcm i).sub (hgm.comp (measurable_pi_apply i)))) _
    _ ≤ ENNReal.ofReal (ε / 2) + ENNReal.ofReal (ε / 2) := add_le_add (hn i) (hg'.le.trans hg)
    _ = ENNReal.ofReal ε := by rw [← ENNReal.ofReal_add (half_pos hε).le (half_pos hε).le, add_halves]

/-- The negative parts of the logarithms of the averages over the rows. -/
theorem row_neg {h : E × E → ℝ} (hh : Measurable h) (h0 : ∀ p, 0 < h p) (hi : Integrable h (P.prod P))
    (hl : Integrable (fun p => Real.log (h p)) (P.prod P)) (hd : Integrable (fun u => Real.log (h (u, u))) P)
    (h1 : ∀ᵐ u ∂P, rowMean P h u = 1) {ε : ℝ} (hε : 0 < ε) :
    ∀ᶠ n : ℕ in atTop, ∀ i : Fin n, ∫⁻ b, ENNReal.ofReal (max 0 (-Real.log ((∑ j, h (b i, b j)) / n))) ∂(Measure.pi fun _ : Fin n => P) ≤
      ENNReal.ofReal ε := by
  have hlm : Measurable fun p => Real.log (h p) := hh.log
  obtain ⟨K, hK, hclip⟩ := exists_clip hlm hl (show 0 < ε / 4 by linarith)
  set w : E × E → ℝ := fun p => |Real.log (h p) - clip K (fun p => Real.log (h p)) p| with hw
  have hwm : Measurable w := by
    have := measurable_clip hlm K
    fun_prop
  have hw0 : ∀ p, 0 ≤ w p := fun p => abs_nonneg _
  have hδ : 0 < ε / 2 * (Real.exp K)⁻¹ := by positivity
  have hdt : ∫⁻ u, ENNReal.ofReal |w (u, u)| ∂P ≠ ⊤ := by
    have h2 := hd.2
    rw [hasFiniteIntegral_iff_norm] at h2
    refine (lt_of_le_of_lt (lintegral_mono fun u => ENNReal.ofReal_le_ofReal ?_) h2).ne
    rw [abs_of_nonneg (hw0 _)]
    exact abs_sub_clip_le (fun p => Real.log (h p)) (by linarith : 0 ≤ K) (u, u)
  filter_upwards [row_below hh h0 hi h1 hδ, row_lintegral hwm hdt (show 0 < ε / 4 by linarith) (by simpa [hw] using hclip), eventually_gt_atTop 0]
    with n hn1 hn2 hn0 i
  have hn' : (0 : ℝ) < n := by exact_mod_cast hn0
  haveI : Nonempty (Fin n) := ⟨i⟩
  calc _ ≤ ∫⁻ b, ENNReal.ofReal (Real.exp K) * ENNReal.ofReal (max 0 (1 - (∑ j, h (b i, b j)) / n)) + ENNReal.ofReal |(∑ j, w (b i, b j)) / n|
        ∂(Measure.pi fun _ : Fin n => P) := by
        refine lintegral_mono fun b => ?_
        rw [← ENNReal.ofReal_mul (Real.exp_pos K).le, ← ENNReal.ofReal_add (by positivity) (abs_nonneg _)]
        refine ENNReal.ofReal_le_ofReal ?_
        have hR : 0 ≤ (∑ j, w (b i, b j)) / n := div_nonneg (Finset.sum_nonneg fun j _ => hw0 _) hn'.le
        rw [abs_of_nonneg hR]
        refine max_neg_log_le (div_pos (Finset.sum_pos (fun j _ => h0 _) Finset.univ_nonempty) hn') (by linarith) hR ?_
        refine (neg_log_average_le hn0 fun j => h0 _).trans ?_
        rw [div_le_iff₀ hn', add_mul, div_mul_cancel₀ _ hn'.ne']
        calc _ ≤ ∑ j, (K + w (b i, b j)) := Finset.sum_le_sum fun j _ => neg_le_clip (fun p => Real.log (h p)) (by linarith : 0 ≤ K) (b i, b j)
          _ = _ := by rw [Finset.sum_add_distrib]; simp [mul_comm]
    _ = ENNReal.ofReal (Real.exp K) * ∫⁻ b, ENNReal.ofReal (max 0 (1 - (∑ j, h (b i, b j)) / n)) ∂(Measure.pi fun _ : Fin n => P)
        + ∫⁻ b, ENNReal.ofReal |(∑ j, w (b i, b j)) / n| ∂(Measure.pi fun _ : Fin n => P) := by
        rw [lintegral_add_right _ (measurable_ofReal_abs (measurable_row hwm i)), lintegral_const_mul' _ _ ENNReal.ofReal_ne_top]
    _ ≤ ENNReal.ofReal (Real.exp K) * ENNReal.ofReal (ε / 2 * (Real.exp K)⁻¹) + ENNReal.ofReal (2 * (ε / 4)) := by
        gcongr
        · exact hn1 i
        · exact hn2 i
    _ = ENNReal.ofReal ε := by
        rw [← ENNReal.ofReal_mul (Real.exp_pos K).le, ← ENNReal.ofReal_add (by positivity) (by positivity)]
        congr 1
        field_simp
        ring

theorem log_le_split {M A B : ℝ} (hM : M = A + B) (hA : 0 < M) (hB : 0 ≤ B) : Real.log M ≤ Real.log (1 + B) + (A - 1) / (1 + B) := by
  have h1 : 0 < 1 + B := by linarith
  have h2 := Real.log_le_sub_one_of_pos (div_pos hA h1)
  rw [Real.log_div hA.ne' h1.ne'] at h2
  have : M / (1 + B) - 1 = (A - 1) / (1 + B) := by
    rw [hM]
    field_simp
    ring
  linarith

/-- Own partners apart, the average over a row is one on average, whatever the point of the row is. -/
theorem row_rest {h : E × E → ℝ} (hh : Measurable h) (h0 : ∀ p, 0 < h p) (hi : Integrable h (P.prod P)) (h1 : ∀ᵐ u ∂P, rowMean P h u = 1)
    {n : ℕ} (i : Fin n) :
    Integrable (fun b : Fin n → E => ((∑ j ∈ Finset.univ.erase i, h (b i, b j)) / n - 1) / (1 + h (b i, b i) / n)) (Measure.pi fun _ : Fin n => P) ∧
    ∫ b, ((∑ j ∈ Finset.univ.erase i, h (b i, b j)) / n - 1) / (1 + h (b i, b i) / n) ∂(Measure.pi fun _ : Fin n => P) ≤ 0 := by
  have hn' : (0 : ℝ) < n := by exact_mod_cast Fin.pos i
  set c : E → ℝ := fun u => 1 / (1 + h (u, u) / n) with hc
  have hdm : Measurable fun u => h (u, u) := hh.comp (measurable_id.prodMk measurable_id)
  have hcm : Measurable c := by fun_prop
  have hc0 : ∀ u, 0 ≤ c u := fun u => by have := h0 (u, u); positivity
  have hc1 : ∀ u, |c u| ≤ 1 := fun u => by
    rw [abs_of_nonneg (hc0 u)]
    have : 0 ≤ h (u, u) / n := by have := h0 (u, u); positivity
    rw [hc]
    simp only
    rw [div_le_one (by linarith)]
    linarith
  have hq : Integrable (fun p : E × E => c p.1 * (h p - 1)) (P.prod P) :=
    Integrable.bdd_mul (c := 1) (hi.sub (integrable_const _)) (hcm.comp measurable_fst).aestronglyMeasurable (.of_forall fun p => hc1 p.1)
  have hq0 : ∫ p, c p.1 * (h p - 1) ∂(P.prod P) = 0 := by
    rw [integral_prod _ hq]
    refine integral_eq_zero_of_ae ?_
    filter_upwards [h1, hi.prod_right_ae] with u hu hu'
    simp only [Pi.zero_apply]
    rw [integral_const_mul, integral_sub hu' (integrable_const _)]
    unfold rowMean at hu
    rw [hu]
    simp
  have hqm : Measurable fun p : E × E => c p.1 * (h p - 1) := (hcm.comp measurable_fst).mul (hh.sub measurable_const)
  have hmp : ∀ j, Measurable fun b : Fin n → E => (b i, b j) := fun j => (measurable_pi_apply i).prodMk (measurable_pi_apply j)
  have hj : ∀ j ∈ Finset.univ.erase i, Integrable (fun b : Fin n → E => c (b i) * (h (b i, b j) - 1)) (Measure.pi fun _ : Fin n => P) ∧
      ∫ b, c (b i) * (h (b i, b j) - 1) ∂(Measure.pi fun _ : Fin n => P) = 0 := by
    intro j hj
    have hm := map_two (P := P) (Finset.ne_of_mem_erase hj).symm
    have hI : Integrable (fun p : E × E => c p.1 * (h p - 1)) ((Measure.pi fun _ : Fin n => P).map fun b => (b i, b j)) := by rw [hm]; exact hq
    refine ⟨hI.comp_measurable (hmp j), ?_⟩
    have := integral_map (μ := Measure.pi fun _ : Fin n => P) (hmp j).aemeasurable hI.1
    rw [hm, hq0] at this
    exact this.symm
  have hci : Integrable (fun b : Fin n → E => c (b i)) (Measure.pi fun _ : Fin n => P) :=
    integrable_bdd (hcm.comp (measurable_pi_apply i)) fun b => hc1 (b i)
  have e : ∀ b : Fin n → E, ((∑ j ∈ Finset.univ.erase i, h (b i, b j)) / n - 1) / (1 + h (b i, b i) / n) =
      (∑ j ∈ Finset.univ.erase i, c (b i) * (h (b i, b j) - 1)) / n - c (b i) / n := by
    intro b
    have hcard : ((Finset.univ.erase i).card : ℝ) = n - 1 := by
      rw [Finset.card_erase_of_mem (Finset.mem_univ i), Finset.card_univ, Fintype.card_fin, Nat.cast_sub (Fin.pos i)]
      simp
    rw [← Finset.mul_sum, Finset.sum_sub_distrib, Finset.sum_const, nsmul_eq_mul, hcard, mul_one]
    have hpos : 0 < 1 + h (b i, b i) / n := by have := h0 (b i, b i); positivity
    rw [hc]
    simp only
    field_simp
    ring
  simp only [e]
  have hs := integrable_finsetSum (Finset.univ.erase i) fun j hj' => (hj j hj').1
  refine ⟨(hs.div_const _).sub (hci.div_const _), ?_⟩
  rw [integral_sub (hs.div_const _) (hci.div_const _), integral_div, integral_div, integral_finsetSum _ fun j hj' => (hj j hj').1,
    Finset.sum_eq_zero fun j hj' => (hj j hj').2, zero_div, zero_sub]
  have : 0 ≤ (∫ b, c (b i) ∂(Measure.pi fun _ : Fin n => P)) / n := div_nonneg (integral_nonneg fun b => hc0 _) hn'.le
  linarith

/-- The logarithms of the averages over the rows are small. -/
theorem row_log {h : E × E → ℝ} (hh : Measurable h) (h0 : ∀ p, 0 < h p) (hi : Integrable h (P.prod P))
    (hl : Integrable (fun p => Real.log (h p)) (P.prod P)) (hd : Integrable (fun u => Real.log (h (u, u))) P)
    (h1 : ∀ᵐ u ∂P, rowMean P h u = 1) {ε : ℝ} (hε : 0 < ε) :
    ∀ᶠ n : ℕ in atTop, ∀ i : Fin n, ∫⁻ b, ENNReal.ofReal |Real.log ((∑ j, h (b i, b j)) / n)| ∂(Measure.pi fun _ : Fin n => P) ≤
      ENNReal.ofReal ε := by
  have hε3 : 0 < ε / 3 := by linarith
  have hdm : Measurable fun u => h (u, u) := hh.comp (measurable_id.prodMk measurable_id)
  filter_upwards [row_neg hh h0 hi hl hd h1 hε3, (log_diag hdm (fun u => h0 (u, u)) hd).eventually (gt_mem_nhds hε3), eventually_gt_atTop 0]
    with n hn1 hn2 hn0 i
  have hn' : (0 : ℝ) < n := by exact_mod_cast hn0
  haveI : Nonempty (Fin n) := ⟨i⟩
  set π : Measure (Fin n → E) := Measure.pi fun _ : Fin n => P with hπ
  set N : (Fin n → E) → ℝ := fun b => max 0 (-Real.log ((∑ j, h (b i, b j)) / n)) with hN
  have hMm := measurable_row hh i
  have hNm : Measurable N := measurable_const.max hMm.log.neg
  have hN0 : ∀ b, 0 ≤ N b := fun b => le_max_left _ _
  have hNi : Integrable N π := by
    refine ⟨hNm.aestronglyMeasurable, ?_⟩
    rw [hasFiniteIntegral_iff_ofReal (.of_forall hN0)]
    exact (hn1 i).trans_lt ENNReal.ofReal_lt_top
  have hNle : ∫ b, N b ∂π ≤ ε / 3 := by
    rw [integral_eq_lintegral_of_nonneg_ae (.of_forall hN0) hNm.aestronglyMeasurable]
    exact ENNReal.toReal_le_of_le_ofReal hε3.le (hn1 i)
  obtain ⟨hRi, hR⟩ := row_rest hh h0 hi h1 i
  have hLi0 : Integrable (fun u => Real.log (1 + h (u, u) / n)) P :=
    Integrable.mono' ((integrable_const (Real.log 2)).add hd.abs) (Measurable.aestronglyMeasurable (by fun_prop))
      (.of_forall fun u => log_one_add_le (h0 (u, u)) n)
  have hLi : Integrable (fun b : Fin n → E => Real.log (1 + h (b i, b i) / n)) π := by
    have : Integrable (fun u => Real.log (1 + h (u, u) / n)) (π.map fun b => b i) := by rw [hπ, map_one]; exact hLi0
    exact this.comp_measurable (measurable_pi_apply i)
  have hL : ∫ b, Real.log (1 + h (b i, b i) / n) ∂π < ε / 3 := by
    have := integral_map (μ := π) (measurable_pi_apply i).aemeasurable (f := fun u => Real.log (1 + h (u, u) / n)) (by
      rw [hπ, map_one]; exact hLi0.1)
    rw [hπ, map_one] at this
    rw [hπ, ← this]
    exact hn2
  set G : (Fin n → E) → ℝ := fun b => Real.log (1 + h (b i, b i) / n) +
    ((∑ j ∈ Finset.univ.erase i, h (b i, b j)) / n - 1) / (1 + h (b i, b i) / n) + N b with hG
  have hlog : ∀ b : Fin n → E, Real.log ((∑ j, h (b i, b j)) / n) + N b ≤ G b := fun b => by
    have := log_le_split (M := (∑ j, h (b i, b j)) / n) (A := (∑ j ∈ Finset.univ.erase i, h (b i, b j)) / n) (B := h (b i, b i) / n)
      (by rw [row_split]; ring) (div_pos (Finset.sum_pos (fun j _ => h0 _) Finset.univ_nonempty) hn') (by have := h0 (b i, b i); positivity)
    rw [hG]
    simp only
    linarith
  have hpos : ∀ b : Fin n → E, 0 ≤ Real.log ((∑ j, h (b i, b j)) / n) + N b := fun b => by
    have := le_max_right 0 (-Real.log ((∑ j, h (b i, b j)) / n))
    rw [hN]
    simp only
    linarith
  have hGi : Integrable G π := (hLi.add hRi).add hNi
  have hGle : ∫ b, G b ∂π ≤ 2 * (ε / 3) := by
    have e1 : ∫ b, G b ∂π = ∫ b, Real.log (1 + h (b i, b i) / n) ∂π +
        ∫ b, ((∑ j ∈ Finset.univ.erase i, h (b i, b j)) / n - 1) / (1 + h (b i, b i) / n) ∂π + ∫ b, N b ∂π := by
      have e2 := integral_add (hLi.add hRi) hNi
      have e3 := integral_add hLi hRi
      simp only [Pi.add_apply] at e2
      rw [← e3, ← e2]
    rw [e1]
    linarith
  calc _ ≤ ∫⁻ b, ENNReal.ofReal (G b) + ENNReal.ofReal (N b) ∂π := by
        refine lintegral_mono fun b => ?_
        rw [← ENNReal.ofReal_add ((hpos b).trans (hlog b)) (hN0 b)]
        refine ENNReal.ofReal_le_ofReal ?_
        have h2 := hlog b
        have h3 := hpos b
        have h4 := hN0 b
        rw [abs_le]
        constructor <;> linarith
    _ = ∫⁻ b, ENNReal.ofReal (G b) ∂π + ∫⁻ b, ENNReal.ofReal (N b) ∂π := lintegral_add_right _ hNm.ennreal_ofReal
    _ ≤ ENNReal.ofReal (2 * (ε / 3)) + ENNReal.ofReal (ε / 3) := by
        refine add_le_add ?_ (hn1 i)
        rw [← ofReal_integral_eq_lintegral_ofReal hGi (.of_forall fun b => (hpos b).trans (hlog b))]
        exact ENNReal.ofReal_le_ofReal hGle
    _ = ENNReal.ofReal ε := by
        rw [← ENNReal.ofReal_add (by positivity) (by positivity)]
        congr 1
        ring

/-- The average of the logarithms of the averages over the rows. -/
theorem rows_log_small {h : E × E → ℝ} (hh : Measurable h) (h0 : ∀ p, 0 < h p) (hi : Integrable h (P.prod P))
    (hl : Integrable (fun p => Real.log (h p)) (P.prod P)) (hd : Integrable (fun u => Real.log (h (u, u))) P)
    (h1 : ∀ᵐ u ∂P, rowMean P h u = 1) : Small P fun n b => (∑ i, Real.log ((∑ j, h (b i, b j)) / n)) / n := by
  rw [small_iff]
  intro ε hε
  filter_upwards [row_log hh h0 hi hl hd h1 hε, eventually_gt_atTop 0] with n hn hn0
  exact lintegral_average_le Finset.univ (fun i _ => (measurable_row hh i).log) (by exact_mod_cast hn0) (fun i _ => hn i) (by simp)

/-- The pairs of different indices. -/
def pairs (n : ℕ) : Finset (Fin n × Fin n) := Finset.univ.filter fun q => q.1 ≠ q.2

theorem card_pairs (n : ℕ) : ((pairs n).card : ℝ) = n * (n - 1) := by
  have := Finset.sum_filter (s := (Finset.univ : Finset (Fin n × Fin n))) (fun q => q.1 ≠ q.2) fun _ => (1 : ℝ)
  rw [Finset.sum_const, nsmul_eq_mul, mul_one] at this
  unfold pairs
  rw [this, ← Finset.univ_product_univ, Finset.sum_product]
  have : ∀ i j : Fin n, (if i ≠ j then (1 : ℝ) else 0) = 1 - if i = j then 1 else 0 := fun i j => by split_ifs <;> simp_all
  simp only [this, Finset.sum_sub_distrib]
  simp
  ring

theorem cross_eq {n : ℕ} (k : E × E → ℝ) (b : Fin n → E) : cross k b = (∑ q ∈ pairs n, k (b q.1, b q.2)) / (n * (n - 1)) := by
  unfold cross pairs
  rw [Finset.sum_filter, ← Finset.univ_product_univ, Finset.sum_product]
  congr 1
  refine Finset.sum_congr rfl fun i _ => Finset.sum_congr rfl fun j _ => ?_
  by_cases hij : i = j <;> simp [hij]

theorem neg_log_cross_le {n : ℕ} (hn : 2 ≤ n) {k : E × E → ℝ} (hk : ∀ p, 0 < k p) (b : Fin n → E) :
    0 < cross k b ∧ -Real.log (cross k b) ≤ cross (fun p => -Real.log (k p)) b := by
  have hn2 : (2 : ℝ) ≤ n := by exact_mod_cast hn
  have hN : (0 : ℝ) < n * (n - 1) := mul_pos (by linarith) (by linarith)
  have hne : (pairs n).Nonempty := by
    rw [← Finset.card_pos]
    have : (0 : ℝ) < (pairs n).card := by rw [card_pairs]; exact hN
    exact_mod_cast this
  have h := strictConcaveOn_log_Ioi.concaveOn.le_map_sum (t := pairs n) (w := fun _ => (1 / (n * (n - 1)) : ℝ)) (p := fun q => k (b q.1, b q.2))
    (fun _ _ => by positivity) (by rw [Finset.sum_const, nsmul_eq_mul, card_pairs]; exact mul_one_div_cancel hN.ne') (fun j _ => hk _)
  simp only [smul_eq_mul, ← Finset.mul_sum] at h
  rw [cross_eq, cross_eq, Finset.sum_neg_distrib, neg_div]
  refine ⟨div_pos (Finset.sum_pos (fun q _ => hk _) hne) hN, ?_⟩
  have e1 : (∑ q ∈ pairs n, k (b q.1, b q.2)) / (n * (n - 1)) = 1 / (n * (n - 1)) * ∑ q ∈ pairs n, k (b q.1, b q.2) := by ring
  have e2 : (∑ q ∈ pairs n, Real.log (k (b q.1, b q.2))) / (n * (n - 1)) = 1 / (n * (n - 1)) * ∑ q ∈ pairs n, Real.log (k (b q.1, b q.2)) := by ring
  rw [e1, e2]
  linarith

/-- The logarithm of the average over the pairs of different points. -/
theorem cross_log_small {h : E × E → ℝ} (hh : Measurable h) (h0 : ∀ p, 0 < h p) (hi : Integrable h (P.prod P))
    (hl : Integrable (fun p => Real.log (h p)) (P.prod P)) : Small P fun n b => Real.log (cross h b) - Real.log (∫ p, h p ∂(P.prod P)) := by
  set θ := ∫ p, h p ∂(P.prod P) with hθ
  have hθ0 : 0 < θ := by
    rw [hθ, integral_pos_iff_support_of_nonneg (fun p => (h0 p).le) hi]
    have : Function.support h = Set.univ := by ext p; simp [(h0 p).ne']
    rw [this]
    simp
  set k : E × E → ℝ := fun p => h p / θ with hk
  have hkm : Measurable k := hh.div_const _
  have hk0 : ∀ p, 0 < k p := fun p => div_pos (h0 p) hθ0
  have hki : Integrable k (P.prod P) := hi.div_const _
  have hk1 : ∫ p, k p ∂(P.prod P) = 1 := by rw [hk, integral_div, ← hθ, div_self hθ0.ne']
  have hkl : Integrable (fun p => Real.log (k p)) (P.prod P) := by
    refine (hl.sub (integrable_const (Real.log θ))).congr (.of_forall fun p => ?_)
    exact (Real.log_div (h0 p).ne' hθ0.ne').symm
  have hke : ∀ {n : ℕ} (b : Fin n → E), cross k b = cross h b / θ := fun b => by
    rw [cross_eq, cross_eq, hk, ← Finset.sum_div, div_right_comm]
  rw [small_iff]
  intro ε hε
  have hlm : Measurable fun p => Real.log (k p) := hkm.log
  obtain ⟨K, hK, hclip⟩ := exists_clip hlm hkl (half_pos hε)
  set w : E × E → ℝ := fun p => |Real.log (k p) - clip K (fun p => Real.log (k p)) p| with hw
  have hwm : Measurable w := by
    have := measurable_clip hlm K
    fun_prop
  have hδ : 0 < ε / 2 * (Real.exp K + 1)⁻¹ := by positivity
  have hsm := cross_small (P := P) hkm hki
  rw [hk1, small_iff] at hsm
  filter_upwards [hsm _ hδ, eventually_ge_atTop 2] with n hn hn2
  have hn2' : (2 : ℝ) ≤ n := by exact_mod_cast hn2
  have hN : (0 : ℝ) < n * (n - 1) := mul_pos (by linarith) (by linarith)
  have hR : ∫⁻ b, ENNReal.ofReal |cross w b| ∂(Measure.pi fun _ : Fin n => P) ≤ ENNReal.ofReal (ε / 2) := by
    simp only [cross_eq]
    refine lintegral_average_le (pairs n) (φ := fun q (b : Fin n → E) => w (b q.1, b q.2)) (fun q _ => measurable_entry hwm q.1 q.2) hN
      (fun q hq => ?_) (card_pairs n).le
    have := lintegral_two (P := P) (measurable_ofReal_abs hwm) (Finset.mem_filter.1 hq).2
    refine this.le.trans ?_
    simpa [hw] using hclip
  calc _ ≤ ∫⁻ b, ENNReal.ofReal (Real.exp K + 1) * ENNReal.ofReal |cross k b - 1| + ENNReal.ofReal |cross w b| ∂(Measure.pi fun _ : Fin n => P) := by
        refine lintegral_mono fun b => ?_
        rw [← ENNReal.ofReal_mul (by positivity), ← ENNReal.ofReal_add (by positivity) (abs_nonneg _)]
        refine ENNReal.ofReal_le_ofReal ?_
        obtain ⟨c0, c1⟩ := neg_log_cross_le hn2 hk0 b
        have hU : 0 < cross h b := by
          have := (neg_log_cross_le hn2 h0 b).1
          exact this
        have e : Real.log (cross h b) - Real.log θ = Real.log (cross k b) := by rw [hke, Real.log_div hU.ne' hθ0.ne']
        rw [e]
        have hw0 : 0 ≤ cross w b := by
          rw [cross_eq]
          exact div_nonneg (Finset.sum_nonneg fun q _ => abs_nonneg _) hN.le
        have c2 : cross (fun p => -Real.log (k p)) b ≤ K + cross w b := by
          rw [cross_eq, cross_eq, div_le_iff₀ hN, add_mul, div_mul_cancel₀ _ hN.ne']
          calc _ ≤ ∑ q ∈ pairs n, (K + w (b q.1, b q.2)) :=
                Finset.sum_le_sum fun q _ => neg_le_clip (fun p => Real.log (k p)) (by linarith : 0 ≤ K) (b q.1, b q.2)
            _ = _ := by rw [Finset.sum_add_distrib, Finset.sum_const, nsmul_eq_mul, card_pairs]; ring
        have c3 := max_neg_log_le c0 (by linarith : 0 ≤ K) hw0 (c1.trans c2)
        have c4 := Real.log_le_sub_one_of_pos c0
        have c5 := le_max_right 0 (-Real.log (cross k b))
        have c6 : max 0 (1 - cross k b) ≤ |cross k b - 1| := max_le (abs_nonneg _) (by rw [abs_sub_comm]; exact le_abs_self _)
        have c7 := mul_le_mul_of_nonneg_left c6 (Real.exp_pos K).le
        have c8 := abs_nonneg (cross k b - 1)
        have c9 := le_abs_self (cross k b - 1)
        have c10 := mul_nonneg (Real.exp_pos K).le c8
        rw [abs_of_nonneg hw0, abs_le]
        constructor <;> linarith
    _ = ENNReal.ofReal (Real.exp K + 1) * ∫⁻ b, ENNReal.ofReal |cross k b - 1| ∂(Measure.pi fun _ : Fin n => P)
        + ∫⁻ b, ENNReal.ofReal |cross w b| ∂(Measure.pi fun _ : Fin n => P) := by
        rw [lintegral_add_right _ (measurable_ofReal_abs (measurable_cross hwm)), lintegral_const_mul' _ _ ENNReal.ofReal_ne_top]
    _ ≤ ENNReal.ofReal (Real.exp K + 1) * ENNReal.ofReal (ε / 2 * (Real.exp K + 1)⁻¹) + ENNReal.ofReal (ε / 2) := by gcongr
    _ = ENNReal.ofReal ε := by
        rw [← ENNReal.ofReal_mul (by positivity), ← ENNReal.ofReal_add (by positivity) (by positivity)]
        congr 1
        field_simp
        ring

end BMI.Batch
