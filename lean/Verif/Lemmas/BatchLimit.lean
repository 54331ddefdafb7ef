import Verif.Lemmas.Consistency
import Mathlib.Probability.Independence.Integration
import Mathlib.MeasureTheory.Integral.Prod
import Mathlib.Analysis.SpecialFunctions.Log.Basic

/-! Averages over pairs of points from a growing batch. -/

namespace BMI.Batch

open MeasureTheory ProbabilityTheory Filter Topology

variable {E : Type} [MeasurableSpace E] {P : Measure E} [IsProbabilityMeasure P]

theorem measurable_ofReal_abs {F : Type} [MeasurableSpace F] {f : F → ℝ} (hf : Measurable f) : Measurable fun x => ENNReal.ofReal |f x| := by
  fun_prop

theorem map_one {n : ℕ} (i : Fin n) : (Measure.pi fun _ : Fin n => P).map (fun b => b i) = P :=
  (measurePreserving_eval (fun _ : Fin n => P) i).map_eq

theorem indep_points (n : ℕ) : iIndepFun (fun (i : Fin n) (b : Fin n → E) => b i) (Measure.pi fun _ : Fin n => P) :=
  iIndepFun_pi (μ := fun _ : Fin n => P) (X := fun _ => id) fun _ => aemeasurable_id

theorem map_two {n : ℕ} {i j : Fin n} (hij : i ≠ j) : (Measure.pi fun _ : Fin n => P).map (fun b => (b i, b j)) = P.prod P := by
  have h2 := (indep_points (P := P) n).indepFun hij
  rw [indepFun_iff_map_prod_eq_prod_map_map (measurable_pi_apply i).aemeasurable (measurable_pi_apply j).aemeasurable, map_one, map_one] at h2
  exact h2

theorem map_three {n : ℕ} {i j k : Fin n} (hij : i ≠ j) (hik : i ≠ k) (hjk : j ≠ k) :
    (Measure.pi fun _ : Fin n => P).map (fun b => ((b i, b j), b k)) = (P.prod P).prod P := by
  have h2 := (indep_points (P := P) n).indepFun_prodMk (fun i => measurable_pi_apply i) i j k hik hjk
  rw [indepFun_iff_map_prod_eq_prod_map_map ((measurable_pi_apply i).prodMk (measurable_pi_apply j)).aemeasurable
    (measurable_pi_apply k).aemeasurable, map_one, map_two hij] at h2
  exact h2

/-- The mean of a function of pairs over the second point. -/
noncomputable def rowMean (P : Measure E) (h : E × E → ℝ) (u : E) : ℝ := ∫ v, h (u, v) ∂P

theorem measurable_rowMean {h : E × E → ℝ} (hh : Measurable h) : Measurable (rowMean P h) :=
  (hh.stronglyMeasurable.integral_prod_right' (ν := P)).measurable

theorem abs_rowMean_le {h : E × E → ℝ} {D : ℝ} (hD : ∀ p, |h p| ≤ D) (u : E) : |rowMean P h u| ≤ D := by
  have := norm_integral_le_of_norm_le_const (μ := P) (f := fun v => h (u, v)) (C := D) (.of_forall fun v => hD (u, v))
  simpa [rowMean] using this

theorem integrable_bdd {F : Type} [MeasurableSpace F] {μ : Measure F} [IsFiniteMeasure μ] {f : F → ℝ} (hf : Measurable f) {D : ℝ}
    (hD : ∀ x, |f x| ≤ D) : Integrable f μ :=
  Integrable.of_bound hf.aestronglyMeasurable D (.of_forall hD)

/-- The average over a row of the table of pairs is close to its mean. -/
theorem row_sq {h : E × E → ℝ} (hh : Measurable h) {D : ℝ} (hD : ∀ p, |h p| ≤ D) {n : ℕ} (i : Fin n) :
    ∫ b, ((∑ j, h (b i, b j)) / n - rowMean P h (b i)) ^ 2 ∂(Measure.pi fun _ : Fin n => P) ≤ 12 * D ^ 2 / n := by
  have hn : (0 : ℝ) < n := by exact_mod_cast Fin.pos i
  set g := rowMean P h with hg
  have hgm : Measurable g := measurable_rowMean hh
  set k : E × E → ℝ := fun p => h p - g p.1 with hk
  have hkm : Measurable k := hh.sub (hgm.comp measurable_fst)
  have hkD : ∀ p, |k p| ≤ 2 * D := fun p => by
    have h1 := hD p
    have h2 := abs_rowMean_le (P := P) hD p.1
    calc |k p| ≤ |h p| + |g p.1| := abs_sub _ _
      _ ≤ 2 * D := by linarith
  have hD0 : 0 ≤ D := by
    have := hD (Classical.choice (by
      obtain ⟨x⟩ := (inferInstance : (ae P).NeBot).nonempty
      exact ⟨(x, x)⟩))
    exact (abs_nonneg _).trans this
  have hk0 : ∀ u, ∫ v, k (u, v) ∂P = 0 := fun u => by
    have : Integrable (fun v => h (u, v)) P := integrable_bdd (hh.comp measurable_prodMk_left) fun v => hD _
    simp only [hk]
    rw [integral_sub this (integrable_const _)]
    simp [hg, rowMean]
  have mk : ∀ j, Measurable fun b : Fin n → E => k (b i, b j) := fun j => hkm.comp ((measurable_pi_apply i).prodMk (measurable_pi_apply j))
  have hprod : ∀ j j' : Fin n, ∫ b, k (b i, b j) * k (b i, b j') ∂(Measure.pi fun _ : Fin n => P) ≤
      4 * D ^ 2 * ((if j = i then 1 else 0) + (if j' = i then 1 else 0) + (if j = j' then 1 else 0)) := by
    intro j j'
    have hbd : ∀ b : Fin n → E, k (b i, b j) * k (b i, b j') ≤ 4 * D ^ 2 := fun b => by
      have h1 := hkD (b i, b j)
      have h2 := hkD (b i, b j')
      calc _ ≤ |k (b i, b j) * k (b i, b j')| := le_abs_self _
        _ = |k (b i, b j)| * |k (b i, b j')| := abs_mul _ _
        _ ≤ (2 * D) * (2 * D) := mul_le_mul h1 h2 (abs_nonneg _) (by linarith)
        _ = 4 * D ^ 2 := by ring
    have hle : ∫ b, k (b i, b j) * k (b i, b j') ∂(Measure.pi fun _ : Fin n => P) ≤ 4 * D ^ 2 := by
      have hint : Integrable (fun b : Fin n → E => k (b i, b j) * k (b i, b j')) (Measure.pi fun _ : Fin n => P) :=
        integrable_bdd ((mk j).mul (mk j')) (D := (2 * D) * (2 * D)) fun b => by
          rw [abs_mul]
          exact mul_le_mul (hkD _) (hkD _) (abs_nonneg _) (by linarith)
      refine (integral_mono hint (integrable_const _) hbd).trans ?_
      simp
    have h4 : 0 ≤ 4 * D ^ 2 := by positivity
    by_cases h1 : j = i
    · refine hle.trans ?_
      rw [if_pos h1]
      split_ifs <;> nlinarith
    · by_cases h2 : j' = i
      · refine hle.trans ?_
        rw [if_pos h2]
        split_ifs <;> nlinarith
      · by_cases h3 : j = j'
        · refine hle.trans ?_
          rw [if_pos h3]
          split_ifs <;> nlinarith
        · rw [if_neg h1, if_neg h2, if_neg h3, add_zero, add_zero, mul_zero]
          refine le_of_eq ?_
          have hm3 := map_three (P := P) (Ne.symm h1) (Ne.symm h2) h3
          have hmm : Measurable fun q : (E × E) × E => k q.1 * k (q.1.1, q.2) :=
            (hkm.comp measurable_fst).mul (hkm.comp ((measurable_fst.comp measurable_fst).prodMk measurable_snd))
          have hmt : Measurable fun b : Fin n → E => ((b i, b j), b j') :=
            ((measurable_pi_apply i).prodMk (measurable_pi_apply j)).prodMk (measurable_pi_apply j')
          have e1 := integral_map (μ := Measure.pi fun _ : Fin n => P) (f := fun q : (E × E) × E => k q.1 * k (q.1.1, q.2))
            hmt.aemeasurable hmm.aestronglyMeasurable
          rw [hm3] at e1
          refine e1.symm.trans ?_
          rw [integral_prod _ (integrable_bdd hmm (D := (2 * D) * (2 * D)) fun q => by
            rw [abs_mul]
            exact mul_le_mul (hkD _) (hkD _) (abs_nonneg _) (by linarith))]
          simp only [integral_const_mul, hk0, mul_zero, integral_zero]
  have hsq : ∀ b : Fin n → E, ((∑ j, h (b i, b j)) / n - g (b i)) ^ 2 = (∑ j, ∑ j', k (b i, b j) * k (b i, b j')) / n ^ 2 := by
    intro b
    have : (∑ j, h (b i, b j)) / n - g (b i) = (∑ j, k (b i, b j)) / n := by
      simp only [hk, Finset.sum_sub_distrib, Finset.sum_const, Finset.card_univ, Fintype.card_fin, nsmul_eq_mul]
      field_simp
    rw [this, div_pow, sq (∑ j, _), Finset.sum_mul_sum]
  simp only [hsq]
  have hI : ∀ j j', Integrable (fun b : Fin n → E => k (b i, b j) * k (b i, b j')) (Measure.pi fun _ : Fin n => P) := fun j j' =>
    integrable_bdd ((mk j).mul (mk j')) (D := (2 * D) * (2 * D)) fun b => by
      rw [abs_mul]
      exact mul_le_mul (hkD _) (hkD _) (abs_nonneg _) (by linarith)
  rw [integral_div, integral_finsetSum _ fun j _ => integrable_finsetSum _ fun j' _ => hI j j', div_le_div_iff₀ (by positivity) hn]
  have hsum : ∑ j, ∫ b, ∑ j', k (b i, b j) * k (b i, b j') ∂(Measure.pi fun _ : Fin n => P) ≤ 4 * D ^ 2 * (3 * n) := by
    calc _ = ∑ j, ∑ j', ∫ b, k (b i, b j) * k (b i, b j') ∂(Measure.pi fun _ : Fin n => P) :=
          Finset.sum_congr rfl fun j _ => integral_finsetSum _ fun j' _ => hI j j'
      _ ≤ ∑ j : Fin n, ∑ j' : Fin n, 4 * D ^ 2 * ((if j = i then 1 else 0) + (if j' = i then 1 else 0) + (if j = j' then 1 else 0)) :=
          Finset.sum_le_sum fun j _ => Finset.sum_le_sum fun j' _ => hprod j j'
      _ = 4 * D ^ 2 * (3 * n) := by
          simp only [← Finset.mul_sum]
          congr 1
          simp only [Finset.sum_add_distrib]
          simp
          ring
  nlinarith

/-- The mean absolute value of quantities computed from batches tends to zero. -/
def Small (P : Measure E) (φ : (n : ℕ) → (Fin n → E) → ℝ) : Prop :=
  Tendsto (fun n => ∫⁻ b, ENNReal.ofReal |φ n b| ∂(Measure.pi fun _ : Fin n => P)) atTop (𝓝 0)

theorem small_iff {φ : (n : ℕ) → (Fin n → E) → ℝ} : Small P φ ↔
    ∀ ε : ℝ, 0 < ε → ∀ᶠ n in atTop, ∫⁻ b, ENNReal.ofReal |φ n b| ∂(Measure.pi fun _ : Fin n => P) ≤ ENNReal.ofReal ε := by
  constructor
  · intro h ε hε
    exact (h.eventually (gt_mem_nhds (ENNReal.ofReal_pos.2 hε))).mono fun n hn => hn.le
  · intro h
    rw [Small, ENNReal.tendsto_nhds_zero]
    intro ε hε
    by_cases ht : ε = ⊤
    · exact .of_forall fun n => ht ▸ le_top
    · have := h ε.toReal (ENNReal.toReal_pos hε.ne' ht)
      rwa [ENNReal.ofReal_toReal ht] at this

theorem Small.prob {φ : (n : ℕ) → (Fin n → E) → ℝ} (h : Small P φ) (hm : ∀ n, Measurable (φ n)) {δ : ℝ} (hδ : 0 < δ) :
    Tendsto (fun n => (Measure.pi fun _ : Fin n => P) {b | ¬ |φ n b| < δ}) atTop (𝓝 0) := by
  have h1 := ENNReal.Tendsto.div_const h (b := ENNReal.ofReal δ) (.inr (by simpa using hδ))
  rw [ENNReal.zero_div] at h1
  refine tendsto_of_tendsto_of_tendsto_of_le_of_le tendsto_const_nhds h1 (fun _ => bot_le) fun n => ?_
  refine le_trans (measure_mono fun b hb => ?_) (meas_ge_le_lintegral_div (measurable_ofReal_abs (hm n)).aemeasurable (by simpa using hδ) ENNReal.ofReal_ne_top)
  simp only [Set.mem_setOf_eq, not_lt] at hb ⊢
  exact ENNReal.ofReal_le_ofReal hb

theorem Small.add {φ ψ : (n : ℕ) → (Fin n → E) → ℝ} (h : Small P φ) (h' : Small P ψ) (hm : ∀ n, Measurable (φ n)) :
    Small P fun n b => φ n b + ψ n b := by
  have h1 := Tendsto.add h h'
  rw [add_zero] at h1
  refine tendsto_of_tendsto_of_tendsto_of_le_of_le tendsto_const_nhds h1 (fun _ => bot_le) fun n => ?_
  dsimp only
  rw [← lintegral_add_left (measurable_ofReal_abs (hm n))]
  refine lintegral_mono fun b => ?_
  rw [← ENNReal.ofReal_add (abs_nonneg _) (abs_nonneg _)]
  exact ENNReal.ofReal_le_ofReal (abs_add_le _ _)

theorem Small.mono {φ ψ : (n : ℕ) → (Fin n → E) → ℝ} (h : Small P φ) (hle : ∀ᶠ n in atTop, ∀ b, |ψ n b| ≤ |φ n b|) : Small P ψ := by
  refine tendsto_of_tendsto_of_tendsto_of_le_of_le' tendsto_const_nhds h (.of_forall fun _ => bot_le) ?_
  filter_upwards [hle] with n hn
  exact lintegral_mono fun b => ENNReal.ofReal_le_ofReal (hn b)

theorem Small.congr {φ ψ : (n : ℕ) → (Fin n → E) → ℝ} (h : Small P φ) (hle : ∀ᶠ n in atTop, ∀ b, ψ n b = φ n b) : Small P ψ :=
  h.mono (hle.mono fun n hn b => by rw [hn b])

/-- Quantities which can be approximated by small ones are small. -/
theorem small_of_approx {φ : (n : ℕ) → (Fin n → E) → ℝ} (h : ∀ ε : ℝ, 0 < ε → ∃ ψ : (n : ℕ) → (Fin n → E) → ℝ, Small P ψ ∧ (∀ n, Measurable (ψ n)) ∧
    ∀ᶠ n in atTop, ∫⁻ b, ENNReal.ofReal |φ n b - ψ n b| ∂(Measure.pi fun _ : Fin n => P) ≤ ENNReal.ofReal ε) : Small P φ := by
  rw [small_iff]
  intro ε hε
  obtain ⟨ψ, h1, hm, h2⟩ := h (ε / 2) (half_pos hε)
  filter_upwards [small_iff.1 h1 (ε / 2) (half_pos hε), h2] with n n1 n2
  calc ∫⁻ b, ENNReal.ofReal |φ n b| ∂(Measure.pi fun _ : Fin n => P)
      ≤ ∫⁻ b, ENNReal.ofReal |ψ n b| + ENNReal.ofReal |φ n b - ψ n b| ∂(Measure.pi fun _ : Fin n => P) := by
        refine lintegral_mono fun b => ?_
        rw [← ENNReal.ofReal_add (abs_nonneg _) (abs_nonneg _)]
        refine ENNReal.ofReal_le_ofReal ?_
        have := abs_add_le (ψ n b) (φ n b - ψ n b)
        rwa [add_sub_cancel] at this
    _ = _ := lintegral_add_left (measurable_ofReal_abs (hm n)) _
    _ ≤ ENNReal.ofReal (ε / 2) + ENNReal.ofReal (ε / 2) := add_le_add n1 n2
    _ = ENNReal.ofReal ε := by rw [← ENNReal.ofReal_add (by positivity) (by positivity), add_halves]

/-- The mean absolute value from the mean square. -/
theorem lintegral_abs_le {F : Type} [MeasurableSpace F] {μ : Measure F} [IsProbabilityMeasure μ] {f : F → ℝ} (hf : Measurable f) {V ε : ℝ}
    (hε : 0 < ε) (hi : Integrable (fun x => f x ^ 2) μ) (hV : ∫ x, f x ^ 2 ∂μ ≤ V) :
    ∫⁻ x, ENNReal.ofReal |f x| ∂μ ≤ ENNReal.ofReal (ε + V / ε) := by
  have hle : ∀ x, |f x| ≤ ε + f x ^ 2 / ε := fun x => by
    rw [← sub_le_iff_le_add', le_div_iff₀ hε]
    nlinarith [sq_abs (f x), sq_nonneg (|f x| - ε)]
  calc ∫⁻ x, ENNReal.ofReal |f x| ∂μ ≤ ∫⁻ x, ENNReal.ofReal (ε + f x ^ 2 / ε) ∂μ := lintegral_mono fun x => ENNReal.ofReal_le_ofReal (hle x)
    _ = ENNReal.ofReal (∫ x, (ε + f x ^ 2 / ε) ∂μ) :=
        (ofReal_integral_eq_lintegral_ofReal ((integrable_const _).add (hi.div_const _)) (.of_forall fun x => add_nonneg hε.le (div_nonneg (sq_nonneg _) hε.le))).symm
    _ ≤ ENNReal.ofReal (ε + V / ε) := by
        refine ENNReal.ofReal_le_ofReal ?_
        rw [integral_add (integrable_const _) (hi.div_const _), integral_div]
        simp only [integral_const, probReal_univ, one_smul]
        gcongr

/-- Averages over rows of bounded functions, uniformly in the row. -/
theorem row_abs {h : E × E → ℝ} (hh : Measurable h) {D : ℝ} (hD : ∀ p, |h p| ≤ D) {ε : ℝ} (hε : 0 < ε) :
    ∀ᶠ n : ℕ in atTop, ∀ i : Fin n, ∫⁻ b, ENNReal.ofReal |(∑ j, h (b i, b j)) / n - rowMean P h (b i)| ∂(Measure.pi fun _ : Fin n => P) ≤
      ENNReal.ofReal ε := by
  have hlim : Tendsto (fun n : ℕ => ε / 2 + 12 * D ^ 2 / n / (ε / 2)) atTop (𝓝 (ε / 2 + 0 / (ε / 2))) :=
    tendsto_const_nhds.add ((tendsto_const_div_atTop_nhds_zero_nat _).div_const _)
  rw [zero_div, add_zero] at hlim
  filter_upwards [hlim.eventually (gt_mem_nhds (by linarith : ε / 2 < ε))] with n hn i
  have hm : Measurable fun b : Fin n → E => (∑ j, h (b i, b j)) / n - rowMean P h (b i) := by
    refine Measurable.sub (Measurable.div_const (Finset.measurable_sum _ fun j _ => ?_) _) ((measurable_rowMean hh).comp (measurable_pi_apply i))
    exact hh.comp ((measurable_pi_apply i).prodMk (measurable_pi_apply j))
  have hn0 : (0 : ℝ) < n := by exact_mod_cast Fin.pos i
  have hb : ∀ b : Fin n → E, |(∑ j, h (b i, b j)) / n - rowMean P h (b i)| ≤ 2 * D := fun b => by
    have h1 : |(∑ j, h (b i, b j)) / n| ≤ D := by
      rw [abs_div, Nat.abs_cast, div_le_iff₀ hn0]
      refine (Finset.abs_sum_le_sum_abs _ _).trans ((Finset.sum_le_sum fun j _ => hD _).trans ?_)
      simp [mul_comm]
    have h2 := abs_rowMean_le (P := P) hD (b i)
    exact (abs_sub _ _).trans (by linarith)
  refine (lintegral_abs_le hm (half_pos hε) (integrable_bdd (hm.pow_const 2) (D := (2 * D) ^ 2) fun b => ?_) (row_sq hh hD i)).trans
    (ENNReal.ofReal_le_ofReal hn.le)
  rw [abs_pow]
  exact pow_le_pow_left₀ (abs_nonneg _) (hb b) 2

/-- A function cut off at `-K` and `K`. -/
noncomputable def clip {F : Type} (K : ℝ) (f : F → ℝ) (x : F) : ℝ := max (-K) (min (f x) K)

theorem measurable_clip {F : Type} [MeasurableSpace F] {f : F → ℝ} (hf : Measurable f) (K : ℝ) : Measurable (clip K f) := by
  unfold clip
  fun_prop

theorem abs_clip_le {F : Type} (f : F → ℝ) {K : ℝ} (hK : 0 ≤ K) (x : F) : |clip K f x| ≤ K := by
  unfold clip
  rw [abs_le]
  exact ⟨le_max_left _ _, max_le (by linarith) (min_le_right _ _)⟩

theorem abs_sub_clip_le {F : Type} (f : F → ℝ) {K : ℝ} (hK : 0 ≤ K) (x : F) : |f x - clip K f x| ≤ |f x| := by
  unfold clip
  rcases le_total (f x) K with h | h
  · rw [min_eq_left h]
    rcases le_total (-K) (f x) with h' | h'
    · rw [max_eq_right h', sub_self, abs_zero]
      exact abs_nonneg _
    · rw [max_eq_left h', abs_of_nonpos (by linarith), abs_of_nonpos (by linarith)]
      linarith
  · rw [min_eq_right h, max_eq_right (by linarith), abs_of_nonneg (by linarith), abs_of_nonneg (by linarith)]
    linarith

/-- Integrable functions can be cut off with a small error. -/
theorem exists_clip {F : Type} [MeasurableSpace F] {μ : Measure F} {f : F → ℝ} (hf : Measurable f) (hi : Integrable f μ) {ε : ℝ} (hε : 0 < ε) :
    ∃ K : ℝ, 1 ≤ K ∧ ∫⁻ x, ENNReal.ofReal |f x - clip K f x| ∂μ ≤ ENNReal.ofReal ε := by
  have hlim : Tendsto (fun m : ℕ => ∫⁻ x, ENNReal.ofReal |f x - clip (m + 1) f x| ∂μ) atTop (𝓝 (∫⁻ _, 0 ∂μ)) := by
    refine tendsto_lintegral_of_dominated_convergence (fun x => ENNReal.ofReal |f x|)
      (fun m => measurable_ofReal_abs (hf.sub (measurable_clip hf _))) (fun m => .of_forall fun x => ENNReal.ofReal_le_ofReal (abs_sub_clip_le f (by positivity) x))
      ?_ (.of_forall fun x => ?_)
    · have := hi.2
      rw [hasFiniteIntegral_iff_norm] at this
      exact this.ne
    · refine tendsto_const_nhds.congr' ?_
      filter_upwards [eventually_ge_atTop ⌈|f x|⌉₊] with m hm
      have h1 : |f x| ≤ m := (Nat.le_ceil _).trans (by exact_mod_cast hm)
      have h2 := abs_le.1 h1
      have : clip (m + 1 : ℝ) f x = f x := by
        unfold clip
        rw [min_eq_left (by linarith [h2.2]), max_eq_right (by linarith [h2.1])]
      rw [this]
      simp
  rw [lintegral_zero] at hlim
  obtain ⟨m, hm⟩ := (hlim.eventually (gt_mem_nhds (ENNReal.ofReal_pos.2 hε))).exists
  exact ⟨m + 1, by linarith [(Nat.cast_nonneg m : (0 : ℝ) ≤ m)], hm.le⟩

theorem lintegral_one {w : E → ENNReal} (hw : Measurable w) {n : ℕ} (i : Fin n) :
    ∫⁻ b, w (b i) ∂(Measure.pi fun _ : Fin n => P) = ∫⁻ x, w x ∂P := by
  conv_rhs => rw [← map_one (P := P) i]
  exact (lintegral_map hw (measurable_pi_apply i)).symm

theorem lintegral_two {w : E × E → ENNReal} (hw : Measurable w) {n : ℕ} {i j : Fin n} (hij : i ≠ j) :
    ∫⁻ b, w (b i, b j) ∂(Measure.pi fun _ : Fin n => P) = ∫⁻ p, w p ∂(P.prod P) := by
  conv_rhs => rw [← map_two (P := P) hij]
  exact (lintegral_map hw ((measurable_pi_apply i).prodMk (measurable_pi_apply j))).symm

/-- A finite average of quantities with small mean absolute values. -/
theorem lintegral_average_le {F ι : Type} [MeasurableSpace F] {μ : Measure F} (s : Finset ι) {φ : ι → F → ℝ} (hφ : ∀ i ∈ s, Measurable (φ i))
    {N : ℝ} (hN : 0 < N) {c : ENNReal} (h : ∀ i ∈ s, ∫⁻ x, ENNReal.ofReal |φ i x| ∂μ ≤ c) (hs : (s.card : ℝ) ≤ N) :
    ∫⁻ x, ENNReal.ofReal |(∑ i ∈ s, φ i x) / N| ∂μ ≤ c := by
  have h1 : ∀ x, ENNReal.ofReal |(∑ i ∈ s, φ i x) / N| ≤ (ENNReal.ofReal N)⁻¹ * ∑ i ∈ s, ENNReal.ofReal |φ i x| := by
    intro x
    rw [abs_div, abs_of_pos hN, div_eq_inv_mul, ENNReal.ofReal_mul (by positivity), ENNReal.ofReal_inv_of_pos hN,
      ← ENNReal.ofReal_sum_of_nonneg fun i _ => abs_nonneg _]
    gcongr
    exact Finset.abs_sum_le_sum_abs _ _
  refine (lintegral_mono h1).trans ?_
  rw [lintegral_const_mul' _ _ (ENNReal.inv_ne_top.2 (by simpa using hN)), lintegral_finsetSum _ fun i hi => measurable_ofReal_abs (hφ i hi)]
  calc (ENNReal.ofReal N)⁻¹ * ∑ i ∈ s, ∫⁻ x, ENNReal.ofReal |φ i x| ∂μ ≤ (ENNReal.ofReal N)⁻¹ * ∑ i ∈ s, c := by
        gcongr with i hi
        exact h i hi
    _ = (ENNReal.ofReal N)⁻¹ * s.card * c := by rw [Finset.sum_const, nsmul_eq_mul, mul_assoc]
    _ ≤ (ENNReal.ofReal N)⁻¹ * ENNReal.ofReal N * c := by
        gcongr
        rw [← ENNReal.ofReal_natCast]
        exact ENNReal.ofReal_le_ofReal hs
    _ = c := by rw [ENNReal.inv_mul_cancel (by simpa using hN) ENNReal.ofReal_ne_top, one_mul]

theorem small_const {c : ℕ → ℝ} (h : Tendsto c atTop (𝓝 0)) : Small P fun n _ => c n := by
  have h1 : Tendsto (fun n => ENNReal.ofReal |c n|) atTop (𝓝 (ENNReal.ofReal |(0 : ℝ)|)) := ENNReal.tendsto_ofReal h.abs
  rw [abs_zero, ENNReal.ofReal_zero] at h1
  refine h1.congr fun n => ?_
  simp

theorem abs_integral_sub_le {F : Type} [MeasurableSpace F] {μ : Measure F} {f g : F → ℝ} (hf : Integrable f μ) (hg : Integrable g μ) {ε : ℝ}
    (hε : 0 ≤ ε) (h : ∫⁻ x, ENNReal.ofReal |f x - g x| ∂μ ≤ ENNReal.ofReal ε) : |∫ x, f x ∂μ - ∫ x, g x ∂μ| ≤ ε := by
  rw [← integral_sub hf hg]
  refine (abs_integral_le_integral_abs).trans ?_
  rw [integral_eq_lintegral_of_nonneg_ae (f := fun x => |f x - g x|) (.of_forall fun x => abs_nonneg _) (hf.sub hg).1.norm]
  exact ENNReal.toReal_le_of_le_ofReal hε h

/-- The law of large numbers for the mean absolute error. -/
theorem average_small {φ : E → ℝ} (hφ : Measurable φ) (hi : Integrable φ P) : Small P fun n b => (∑ i, φ (b i)) / n - ∫ x, φ x ∂P := by
  refine small_of_approx fun ε hε => ?_
  obtain ⟨K, hK, hclip⟩ := exists_clip hφ hi (half_pos hε)
  have hcm := measurable_clip hφ K
  have hcb := abs_clip_le φ (by linarith : 0 ≤ K)
  refine ⟨fun n b => (∑ i, clip K φ (b i)) / n - ∫ x, clip K φ x ∂P, ?_, fun n => ?_, ?_⟩
  · rw [small_iff]
    intro δ hδ
    filter_upwards [row_abs (P := P) (h := fun p : E × E => clip K φ p.2) (hcm.comp measurable_snd) (fun p => hcb p.2) hδ, eventually_gt_atTop 0] with n hn hn0
    exact hn ⟨0, hn0⟩
  · exact (Measurable.div_const (Finset.measurable_sum _ fun i _ => hcm.comp (measurable_pi_apply i)) _).sub measurable_const
  · filter_upwards [eventually_gt_atTop 0] with n hn
    have hn' : (0 : ℝ) < n := by exact_mod_cast hn
    have hint := abs_integral_sub_le hi (integrable_bdd hcm hcb) (half_pos hε).le hclip
    have h1 := lintegral_average_le (μ := Measure.pi fun _ : Fin n => P) (Finset.univ : Finset (Fin n)) (φ := fun i b => φ (b i) - clip K φ (b i))
      (fun i _ => (hφ.sub hcm).comp (measurable_pi_apply i)) hn' (c := ENNReal.ofReal (ε / 2)) (fun i _ => by
        have := lintegral_one (P := P) (measurable_ofReal_abs (hφ.sub hcm)) i
        exact this.le.trans hclip) (by simp)
    calc _ ≤ ∫⁻ b, ENNReal.ofReal |(∑ i, (φ (b i) - clip K φ (b i))) / n| + ENNReal.ofReal (ε / 2) ∂(Measure.pi fun _ : Fin n => P) := by
          refine lintegral_mono fun b => ?_
          rw [← ENNReal.ofReal_add (abs_nonneg _) (half_pos hε).le]
          refine ENNReal.ofReal_le_ofReal ?_
          rw [Finset.sum_sub_distrib, sub_div]
          have h2 := abs_sub ((∑ i, φ (b i)) / n - (∑ i, clip K φ (b i)) / n) (∫ x, φ x ∂P - ∫ x, clip K φ x ∂P)
          calc _ = |((∑ i, φ (b i)) / n - (∑ i, clip K φ (b i)) / n) - (∫ x, φ x ∂P - ∫ x, clip K φ x ∂P)| := by congr 1; ring
            _ ≤ _ := h2
            _ ≤ _ := by gcongr
      _ = _ := lintegral_add_right _ measurable_const
      _ ≤ ENNReal.ofReal (ε / 2) + ENNReal.ofReal (ε / 2) := add_le_add h1 (by simp)
      _ = ENNReal.ofReal ε := by rw [← ENNReal.ofReal_add (half_pos hε).le (half_pos hε).le, add_halves]

/-- The average over the pairs of different points. -/
noncomputable def cross {n : ℕ} (h : E × E → ℝ) (b : Fin n → E) : ℝ := (∑ i, ∑ j, if i = j then 0 else h (b i, b j)) / (n * (n - 1))

theorem measurable_cross {n : ℕ} {h : E × E → ℝ} (hh : Measurable h) : Measurable (cross h : (Fin n → E) → ℝ) := by
  unfold cross
  refine Measurable.div_const (Finset.measurable_sum _ fun i _ => Finset.measurable_sum _ fun j _ => ?_) _
  by_cases hij : i = j
  · simp only [hij, if_true]
    exact measurable_const
  · simp only [hij, if_false]
    exact hh.comp ((measurable_pi_apply i).prodMk (measurable_pi_apply j))

theorem cross_small_bdd {h : E × E → ℝ} (hh : Measurable h) {D : ℝ} (hD : ∀ p, |h p| ≤ D) :
    Small P fun n b => cross h b - ∫ p, h p ∂(P.prod P) := by
  have hgm := measurable_rowMean (P := P) hh
  have hg : ∫ u, rowMean P h u ∂P = ∫ p, h p ∂(P.prod P) := (integral_prod _ (integrable_bdd hh hD)).symm
  have hD0 : 0 ≤ D := by
    obtain ⟨x⟩ := (inferInstance : (ae P).NeBot).nonempty
    exact (abs_nonneg _).trans (hD (x, x))
  have s1 := average_small (P := P) hgm (integrable_bdd hgm (abs_rowMean_le hD))
  rw [hg] at s1
  have hmr : ∀ n (i : Fin n), Measurable fun b : Fin n → E => (∑ j, h (b i, b j)) / n - rowMean P h (b i) := fun n i => by
    refine Measurable.sub (Measurable.div_const (Finset.measurable_sum _ fun j _ => ?_) _) (hgm.comp (measurable_pi_apply i))
    exact hh.comp ((measurable_pi_apply i).prodMk (measurable_pi_apply j))
  have s2 : Small P fun n b => (∑ i, ((∑ j, h (b i, b j)) / n - rowMean P h (b i))) / n := by
    rw [small_iff]
    intro ε hε
    filter_upwards [row_abs (P := P) hh hD hε, eventually_gt_atTop 0] with n hn hn0
    exact lintegral_average_le Finset.univ (fun i _ => hmr n i) (by exact_mod_cast hn0) (fun i _ => hn i) (by simp)
  have s3 : Small P fun n b => cross h b - (∑ i, ∑ j, h (b i, b j)) / n / n := by
    have hc : Tendsto (fun n : ℕ => 2 * D / ((n : ℝ) - 1)) atTop (𝓝 0) :=
      Tendsto.const_div_atTop (tendsto_atTop_add_const_right _ _ tendsto_natCast_atTop_atTop) _
    refine (small_const (P := P) hc).mono ?_
    filter_upwards [eventually_ge_atTop 2] with n hn b
    have hn2 : (2 : ℝ) ≤ n := by exact_mod_cast hn
    have hn0 : (0 : ℝ) < n := by linarith
    have hn1 : (0 : ℝ) < n - 1 := by linarith
    set S := ∑ i, ∑ j, h (b i, b j) with hS
    set T := ∑ i, h (b i, b i) with hT
    have e1 : (∑ i, ∑ j, if i = j then 0 else h (b i, b j)) = S - T := by
      rw [hS, hT, ← Finset.sum_sub_distrib]
      refine Finset.sum_congr rfl fun i _ => ?_
      have : ∀ j, (if i = j then 0 else h (b i, b j)) = h (b i, b j) - if i = j then h (b i, b j) else 0 := fun j => by split_ifs <;> simp
      simp only [this, Finset.sum_sub_distrib]
      simp
    have e2 : |S| ≤ n * (n * D) := by
      refine (Finset.abs_sum_le_sum_abs _ _).trans ((Finset.sum_le_sum fun i _ => (Finset.abs_sum_le_sum_abs _ _).trans (Finset.sum_le_sum fun j _ => hD _)).trans ?_)
      simp
    have e3 : |T| ≤ n * D := by
      refine (Finset.abs_sum_le_sum_abs _ _).trans ((Finset.sum_le_sum fun i _ => hD _).trans ?_)
      simp
    have e4 : cross h b - S / n / n = (S / n - T) / (n * (n - 1)) := by
      unfold cross
      rw [e1]
      field_simp
      ring
    rw [e4, abs_of_nonneg (show 0 ≤ 2 * D / ((n : ℝ) - 1) by positivity), abs_div, abs_of_pos (show (0 : ℝ) < n * (n - 1) by positivity),
      div_le_div_iff₀ (by positivity) hn1]
    have e5 : |S / n - T| ≤ 2 * n * D := by
      refine (abs_sub _ _).trans ?_
      have : |S / n| ≤ n * D := by
        rw [abs_div, Nat.abs_cast, div_le_iff₀ hn0]
        linarith
      linarith
    nlinarith
  have hms : ∀ n, Measurable fun b : Fin n → E => (∑ i, ∑ j, h (b i, b j)) / n / n := fun n => by
    refine Measurable.div_const (Measurable.div_const (Finset.measurable_sum _ fun i _ => Finset.measurable_sum _ fun j _ => ?_) _) _
    exact hh.comp ((measurable_pi_apply i).prodMk (measurable_pi_apply j))
  refine ((s3.add (s2.add s1 fun n => ?_) fun n => ?_)).congr ?_
  · exact (Finset.measurable_sum _ fun i _ => hmr n i).div_const _
  · exact (measurable_cross hh).sub (hms n)
  · filter_upwards with n b
    rw [Finset.sum_sub_distrib, sub_div, ← Finset.sum_div]
    ring

/-- The law of large numbers for the pairs of different points. -/
theorem cross_small {h : E × E → ℝ} (hh : Measurable h) (hi : Integrable h (P.prod P)) :
    Small P fun n b => cross h b - ∫ p, h p ∂(P.prod P) := by
  refine small_of_approx fun ε hε => ?_
  obtain ⟨K, hK, hclip⟩ := exists_clip hh hi (half_pos hε)
  have hcm := measurable_clip hh K
  have hcb := abs_clip_le h (by linarith : 0 ≤ K)
  refine ⟨_, cross_small_bdd hcm hcb, fun n => (measurable_cross hcm).sub measurable_const, ?_⟩
  filter_upwards [eventually_ge_atTop 2] with n hn
  have hn2 : (2 : ℝ) ≤ n := by exact_mod_cast hn
  have hn' : (0 : ℝ) < n * (n - 1) := mul_pos (by linarith) (by linarith)
  have hint := abs_integral_sub_le hi (integrable_bdd hcm hcb) (half_pos hε).le hclip
  have hsum : ∀ (k : E × E → ℝ) (b : Fin n → E), (∑ i, ∑ j, if i = j then 0 else k (b i, b j)) =
      ∑ q ∈ (Finset.univ : Finset (Fin n × Fin n)).filter (fun q => q.1 ≠ q.2), k (b q.1, b q.2) := by
    intro k b
    rw [Finset.sum_filter, ← Finset.univ_product_univ, Finset.sum_product]
    refine Finset.sum_congr rfl fun i _ => Finset.sum_congr rfl fun j _ => ?_
    by_cases hij : i = j <;> simp [hij]
  have hcard : (((Finset.univ : Finset (Fin n × Fin n)).filter fun q => q.1 ≠ q.2).card : ℝ) = n * (n - 1) := by
    have := Finset.sum_filter (s := (Finset.univ : Finset (Fin n × Fin n))) (fun q => q.1 ≠ q.2) fun _ => (1 : ℝ)
    rw [Finset.sum_const, nsmul_eq_mul, mul_one] at this
    rw [this, ← Finset.univ_product_univ, Finset.sum_product]
    have : ∀ i j : Fin n, (if i ≠ j then (1 : ℝ) else 0) = 1 - if i = j then 1 else 0 := fun i j => by split_ifs <;> simp_all
    simp only [this, Finset.sum_sub_distrib]
    simp
    ring
  have h1 := lintegral_average_le (μ := Measure.pi fun _ : Fin n => P) ((Finset.univ : Finset (Fin n × Fin n)).filter fun q => q.1 ≠ q.2)
    (φ := fun q b => h (b q.1, b q.2) - clip K h (b q.1, b q.2))
    (fun q _ => (hh.sub hcm).comp ((measurable_pi_apply q.1).prodMk (measurable_pi_apply q.2))) hn' (c := ENNReal.ofReal (ε / 2)) (fun q hq => by
      have := lintegral_two (P := P) (measurable_ofReal_abs (hh.sub hcm)) (Finset.mem_filter.1 hq).2
      exact this.le.trans hclip) hcard.le
  calc _ ≤ ∫⁻ b, ENNReal.ofReal |(∑ q ∈ (Finset.univ : Finset (Fin n × Fin n)).filter (fun q => q.1 ≠ q.2), (h (b q.1, b q.2) - clip K h (b q.1, b q.2))) / (n * (n - 1))|
        + ENNReal.ofReal (ε / 2) ∂(Measure.pi fun _ : Fin n => P) := by
        refine lintegral_mono fun b => ?_
        rw [← ENNReal.ofReal_add (abs_nonneg _) (half_pos hε).le]
        refine ENNReal.ofReal_le_ofReal ?_
        rw [Finset.sum_sub_distrib, sub_div, ← hsum h, ← hsum (clip K h)]
        have h2 := abs_sub (cross h b - cross (clip K h) b) (∫ p, h p ∂(P.prod P) - ∫ p, clip K h p ∂(P.prod P))
        calc _ = |(cross h b - cross (clip K h) b) - (∫ p, h p ∂(P.prod P) - ∫ p, clip K h p ∂(P.prod P))| := by congr 1; ring
          _ ≤ _ := h2
          _ ≤ _ := add_le_add le_rfl hint
    _ = _ := lintegral_add_right _ measurable_const
    _ ≤ ENNReal.ofReal (ε / 2) + ENNReal.ofReal (ε / 2) := add_le_add h1 (by simp)
    _ = ENNReal.ofReal ε := by rw [← ENNReal.ofReal_add (half_pos hε).le (half_pos hε).le, add_halves]

end BMI.Batch
