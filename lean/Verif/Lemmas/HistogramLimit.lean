import Verif.Lemmas.Consistency
import Verif.Lemmas.Extremes
import Verif.Lemmas.PlugIn
import Mathlib.Analysis.SpecialFunctions.Log.NegMulLog

/-! Tools for the histogram estimator with many points. -/

namespace BMI.Consistency

open MeasureTheory ProbabilityTheory Filter BMI.Samplers BMI.PlugIn Topology

/-- Another way to prove that estimates converge: the probability of the bad samples tends to zero. -/
theorem converges_of_small {Key : Type} [MeasurableSpace Key] {κ : Measure Key} {s : Sampler Key} {dx dy : ℕ}
    {Q : Measure ((Fin dx → ℝ) × (Fin dy → ℝ))} (hs : Draws κ s Q)
    {gives : (n : ℕ) → (Fin n → Fin dx → ℝ) → (Fin n → Fin dy → ℝ) → ℝ → Prop} {c : ℝ}
    (H : ∀ δ > 0, ∃ B : (n : ℕ) → Set (Fin n → (Fin dx → ℝ) × (Fin dy → ℝ)),
      Tendsto (fun n => (Measure.pi fun _ : Fin n => Q) (B n)) atTop (𝓝 0) ∧
      ∀ᶠ n in atTop, ∀ z, z ∉ B n → ∃ t, gives n (fun i => (z i).1) (fun i => (z i).2) t ∧ |t - c| < δ) :
    ConvergesTo κ s gives c := by
  intro δ hδ
  obtain ⟨B, hB, hg⟩ := H δ hδ
  refine tendsto_of_tendsto_of_tendsto_of_le_of_le' tendsto_const_nhds hB (.of_forall fun _ => bot_le) ?_
  filter_upwards [hg, eventually_ge_atTop 2] with n hn h2
  obtain ⟨draw, hm, hsmp, hlaw⟩ := hs n (by omega)
  rw [← hlaw]
  refine le_trans (measure_mono fun k hk => ?_) (Measure.le_map_apply hm.aemeasurable (B n))
  by_contra hcon
  obtain ⟨t, h1, h2⟩ := hn (draw k) hcon
  exact hk ⟨_, _, t, hsmp k, h1, h2⟩

/-- The plug-in information is at most the entropy of one of the variables. -/
theorem info_le_entropy {n : ℕ} {α β : Type} (A : Fin n → α) (B : Fin n → β) (S : Finset α) (hS : ∀ i, A i ∈ S) :
    info A B ≤ ∑ a ∈ S, Real.negMulLog (freq1 A a) := by
  classical
  have hT : ∀ i, B i ∈ Finset.univ.image B := fun i => Finset.mem_image_of_mem _ (Finset.mem_univ i)
  rw [info_eq A B S _ hS hT]
  refine Finset.sum_le_sum fun a _ => ?_
  calc ∑ b ∈ Finset.univ.image B, freq A B a b * Real.log (freq A B a b / (freq1 A a * freq1 B b))
      ≤ ∑ b ∈ Finset.univ.image B, freq A B a b * -Real.log (freq1 A a) := Finset.sum_le_sum fun b _ => by
        have hp := freq_nonneg A B a b
        rcases hp.lt_or_eq with hp | hp
        · refine mul_le_mul_of_nonneg_left ?_ hp.le
          have ha : 0 < freq1 A a := hp.trans_le (freq_le_left A B a b)
          have hb : 0 < freq1 B b := hp.trans_le (freq_le_right A B a b)
          rw [← Real.log_inv]
          refine Real.log_le_log (by positivity) ?_
          rw [div_le_iff₀ (by positivity), inv_mul_cancel_left₀ ha.ne']
          exact freq_le_right A B a b
        · rw [← hp]; simp
    _ = Real.negMulLog (freq1 A a) := by
        rw [← Finset.sum_mul, sum_freq A B a _ hT, Real.negMulLog]
        ring

/-- If nearly all values are equal, the entropy is small. -/
theorem entropy_small (K : ℕ) {η : ℝ} (hη : 0 < η) : ∃ δ > 0, ∀ {n : ℕ} {α : Type} (A : Fin n → α) (S : Finset α) (a₀ : α), 0 < n →
    S.card ≤ K → (∀ i, A i ∈ S) → 1 - δ ≤ freq1 A a₀ → ∑ a ∈ S, Real.negMulLog (freq1 A a) < η := by
  have hK : 0 < η / (K + 1) := by positivity
  have c0 := Metric.continuousAt_iff.1 (Real.continuous_negMulLog.continuousAt (x := 0)) (η / (K + 1)) hK
  have c1 := Metric.continuousAt_iff.1 (Real.continuous_negMulLog.continuousAt (x := 1)) (η / (K + 1)) hK
  obtain ⟨δ0, hδ0, h0⟩ := c0
  obtain ⟨δ1, hδ1, h1⟩ := c1
  refine ⟨min δ0 δ1 / 2, by positivity, fun {n α} A S a₀ hn hcard hS ha => ?_⟩
  classical
  have hsum := sum_freq1 hn A S hS
  have hterm : ∀ a ∈ S, Real.negMulLog (freq1 A a) ≤ η / (K + 1) := by
    intro a haS
    have hle : freq1 A a ≤ 1 := by
      rw [← hsum]
      exact Finset.single_le_sum (fun a _ => freq1_nonneg A a) haS
    have hd0 : min δ0 δ1 / 2 < δ0 := by have := min_le_left δ0 δ1; linarith
    have hd1 : min δ0 δ1 / 2 < δ1 := by have := min_le_right δ0 δ1; linarith
    by_cases h : a = a₀
    · have := @h1 (freq1 A a) (by
        rw [Real.dist_eq, abs_lt]
        rw [h] at hle ⊢
        constructor <;> linarith)
      rw [Real.dist_eq, Real.negMulLog_one, sub_zero] at this
      exact (le_abs_self _).trans this.le
    · by_cases ha₀ : a₀ ∈ S
      · have h2 : freq1 A a + freq1 A a₀ ≤ 1 := by
          rw [← hsum, ← Finset.sum_pair h]
          refine Finset.sum_le_sum_of_subset_of_nonneg (fun x hx => ?_) fun x _ _ => freq1_nonneg A x
          rcases Finset.mem_insert.1 hx with rfl | hx
          · exact haS
          · rw [Finset.mem_singleton.1 hx]; exact ha₀
        have := @h0 (freq1 A a) (by
          rw [Real.dist_eq, sub_zero, abs_of_nonneg (freq1_nonneg A a)]
          linarith)
        rw [Real.dist_eq, Real.negMulLog_zero, sub_zero] at this
        exact (le_abs_self _).trans this.le
      · have h2 : freq1 A a₀ = 0 := by
          unfold freq1
          rw [Finset.filter_false_of_mem (p := fun i => A i = a₀) fun i _ hi => ha₀ (by rw [← hi]; exact hS i)]
          simp
        have := @h0 (freq1 A a) (by
          rw [Real.dist_eq, sub_zero, abs_of_nonneg (freq1_nonneg A a)]
          linarith)
        rw [Real.dist_eq, Real.negMulLog_zero, sub_zero] at this
        exact (le_abs_self _).trans this.le
  calc ∑ a ∈ S, Real.negMulLog (freq1 A a) ≤ ∑ _a ∈ S, η / (K + 1) := Finset.sum_le_sum hterm
    _ = S.card * (η / (K + 1)) := by rw [Finset.sum_const, nsmul_eq_mul]
    _ ≤ K * (η / (K + 1)) := by gcongr
    _ < η := by
        rw [mul_div_assoc', div_lt_iff₀ (by positivity)]
        nlinarith

/-- With an odd number of cells, the numbers far from the extremes are in the cell in the middle. -/
theorem middle_cell {n k : ℕ} {c : Fin n → ℝ} {lo hi m σ L : ℝ} (hσ : 0 < σ) (hr : IsRange c lo hi)
    (h1 : ∀ i, |(c i - m) / σ| < (1 + 1 / (2 * (2 * k + 1))) * L) (h2 : ∃ i, (1 - 1 / (2 * (2 * k + 1))) * L ≤ (c i - m) / σ)
    (h3 : ∃ i, (c i - m) / σ ≤ -((1 - 1 / (2 * (2 * k + 1))) * L)) {i : Fin n} (hi' : |(c i - m) / σ| < 1 / (2 * (2 * k + 1)) * L) :
    IsCell lo hi (2 * k + 1) (c i) k := by
  set e : ℝ := 1 / (2 * (2 * k + 1)) with he
  have hk : (0 : ℝ) ≤ k := Nat.cast_nonneg k
  have hek : e * (2 * (2 * k + 1)) = 1 := by rw [he]; field_simp
  have he0 : 0 < e := by rw [he]; positivity
  have hL : 0 < L := by
    have := (abs_nonneg _).trans_lt hi'
    exact pos_of_mul_pos_right this he0.le
  have he1 : e < 1 := by nlinarith
  obtain ⟨a, b, hab, hcase⟩ := hr
  set g : Fin n → ℝ := fun i => (c i - m) / σ with hg
  have hc : ∀ i, c i = m + σ * g i := fun i => by rw [hg]; field_simp; ring
  have hmono : ∀ i j, c i ≤ c j → g i ≤ g j := fun i j h => div_le_div_of_nonneg_right (by linarith) hσ.le
  obtain ⟨p, hp⟩ := h2
  obtain ⟨q, hq⟩ := h3
  have hgb : (1 - e) * L ≤ g b := hp.trans (hmono _ _ (hab p).2)
  have hga : g a ≤ -((1 - e) * L) := (hmono _ _ (hab q).1).trans hq
  have hpos : 0 < (1 - e) * L := mul_pos (by linarith) hL
  rcases hcase with ⟨-, rfl, rfl⟩ | ⟨hEq, -, -⟩
  · have ha1 := (abs_lt.1 (h1 a)).1
    have hb1 := (abs_lt.1 (h1 b)).2
    change -((1 + e) * L) < g a at ha1
    change g b < (1 + e) * L at hb1
    have hi1 := abs_lt.1 hi'
    change -(e * L) < g i ∧ g i < e * L at hi1
    have hd : (0 : ℝ) < 2 * k + 1 := by positivity
    refine ⟨by omega, ?_, .inl ?_⟩
    · have key : (g b - g a) * k ≤ (g i - g a) * (2 * k + 1) := by nlinarith
      have : (c b - c a) * k / ((2 * k + 1 : ℕ) : ℝ) ≤ σ * (g i - g a) := by
        push_cast
        rw [div_le_iff₀ hd, hc b, hc a]
        nlinarith
      rw [hc i]
      have h5 := hc a
      linarith
    · have key : (g i - g a) * (2 * k + 1) < (g b - g a) * (k + 1) := by nlinarith
      have : σ * (g i - g a) < (c b - c a) * (k + 1) / ((2 * k + 1 : ℕ) : ℝ) := by
        push_cast
        rw [lt_div_iff₀ hd, hc b, hc a]
        nlinarith
      rw [hc i]
      have h5 := hc a
      linarith
  · have := hmono b a hEq.ge
    linarith

end BMI.Consistency
