import Verif.Lemmas.HistogramLimit
import Verif.Lemmas.Density
import Mathlib.MeasureTheory.Measure.Dirac
import Mathlib.MeasureTheory.Integral.Bochner.SumMeasure

/-! Mutual information of variables with finitely many values, and its estimation from frequencies. -/

namespace BMI.Consistency

open MeasureTheory ProbabilityTheory Filter BMI.Samplers BMI.PlugIn Topology

section table

variable {α β : Type} [Fintype α] [Fintype β]

/-- The information of a table of probabilities: the entropies of the rows and columns without the entropy of the table. -/
noncomputable def tableInfo (q : α → β → ℝ) : ℝ :=
  ∑ a, Real.negMulLog (∑ b, q a b) + ∑ b, Real.negMulLog (∑ a, q a b) - ∑ a, ∑ b, Real.negMulLog (q a b)

theorem tableInfo_eq {q : α → β → ℝ} (h : ∀ a b, 0 ≤ q a b) :
    ∑ a, ∑ b, q a b * Real.log (q a b / ((∑ b, q a b) * ∑ a, q a b)) = tableInfo q := by
  have h1 : ∀ a b, q a b * Real.log (q a b / ((∑ b, q a b) * ∑ a, q a b)) =
      -Real.negMulLog (q a b) - q a b * Real.log (∑ b, q a b) - q a b * Real.log (∑ a, q a b) := by
    intro a b
    rcases (h a b).lt_or_eq with hp | hp
    · have h2 : 0 < ∑ b, q a b := hp.trans_le (Finset.single_le_sum (fun b _ => h a b) (Finset.mem_univ b))
      have h3 : 0 < ∑ a, q a b := hp.trans_le (Finset.single_le_sum (f := fun a => q a b) (fun a _ => h a b) (Finset.mem_univ a))
      rw [Real.log_div hp.ne' (by positivity), Real.log_mul h2.ne' h3.ne', Real.negMulLog]
      ring
    · simp [← hp]
  simp only [h1, Finset.sum_sub_distrib, tableInfo]
  have h2 : ∑ a, ∑ b, q a b * Real.log (∑ b, q a b) = -∑ a, Real.negMulLog (∑ b, q a b) := by
    rw [← Finset.sum_neg_distrib]
    refine Finset.sum_congr rfl fun a _ => ?_
    rw [← Finset.sum_mul, Real.negMulLog]
    ring
  have h3 : ∑ a, ∑ b, q a b * Real.log (∑ a, q a b) = -∑ b, Real.negMulLog (∑ a, q a b) := by
    rw [Finset.sum_comm, ← Finset.sum_neg_distrib]
    refine Finset.sum_congr rfl fun b _ => ?_
    rw [← Finset.sum_mul, Real.negMulLog]
    ring
  rw [h2, h3]
  simp only [Finset.sum_neg_distrib]
  ring

theorem continuous_tableInfo : Continuous (tableInfo : (α → β → ℝ) → ℝ) := by
  unfold tableInfo
  refine ((continuous_finset_sum _ fun a _ => ?_).add (continuous_finset_sum _ fun b _ => ?_)).sub
    (continuous_finset_sum _ fun a _ => continuous_finset_sum _ fun b _ => ?_)
  · exact Real.continuous_negMulLog.comp (by fun_prop)
  · exact Real.continuous_negMulLog.comp (by fun_prop)
  · exact Real.continuous_negMulLog.comp (by fun_prop)

theorem tableInfo_close (q : α → β → ℝ) {η : ℝ} (hη : 0 < η) :
    ∃ δ > 0, ∀ q' : α → β → ℝ, (∀ a b, |q' a b - q a b| < δ) → |tableInfo q' - tableInfo q| < η := by
  obtain ⟨δ, hδ, H⟩ := Metric.continuousAt_iff.1 (continuous_tableInfo.continuousAt (x := q)) η hη
  refine ⟨δ, hδ, fun q' hq => ?_⟩
  refine H ?_
  rw [dist_pi_lt_iff hδ]
  intro a
  rw [dist_pi_lt_iff hδ]
  exact hq a

theorem info_eq_tableInfo {n : ℕ} (A : Fin n → α) (B : Fin n → β) : info A B = tableInfo (freq A B) := by
  rw [info_eq A B Finset.univ Finset.univ (fun _ => Finset.mem_univ _) (fun _ => Finset.mem_univ _), ← tableInfo_eq (freq_nonneg A B)]
  refine Finset.sum_congr rfl fun a _ => Finset.sum_congr rfl fun b _ => ?_
  rw [sum_freq A B a Finset.univ fun _ => Finset.mem_univ _]
  have : ∑ a, freq A B a b = freq1 B b := by
    rw [← sum_freq B A b Finset.univ fun _ => Finset.mem_univ _]
    exact Finset.sum_congr rfl fun a _ => (freq_swap A B a b).symm
  rw [this]

variable [MeasurableSpace α] [MeasurableSpace β] [MeasurableSingletonClass α] [MeasurableSingletonClass β]

/-- The mutual information of variables with finitely many values. -/
theorem mutualInfo_table (Q : Measure (α × β)) [IsProbabilityMeasure Q] :
    mutualInfo Q ≠ ⊤ ∧ (mutualInfo Q).toReal = tableInfo fun a b => Q.real {(a, b)} := by
  set q : α → β → ℝ := fun a b => Q.real {(a, b)} with hq
  have hq0 : ∀ a b, 0 ≤ q a b := fun a b => measureReal_nonneg
  have hfst : ∀ a, Q.fst.real {a} = ∑ b, q a b := fun a => by
    classical
    rw [measureReal_def, Measure.fst_apply (measurableSet_singleton a), ← measureReal_def]
    have : (Prod.fst ⁻¹' {a} : Set (α × β)) = ⋃ b ∈ (Finset.univ : Finset β), {(a, b)} := by ext ⟨x, y⟩; simp [eq_comm]
    rw [this, measureReal_biUnion_finset (fun x _ y _ hxy => by simp [hxy]) (fun b _ => measurableSet_singleton _)]
  have hsnd : ∀ b, Q.snd.real {b} = ∑ a, q a b := fun b => by
    classical
    rw [measureReal_def, Measure.snd_apply (measurableSet_singleton b), ← measureReal_def]
    have : (Prod.snd ⁻¹' {b} : Set (α × β)) = ⋃ a ∈ (Finset.univ : Finset α), {(a, b)} := by ext ⟨x, y⟩; simp [eq_comm]
    rw [this, measureReal_biUnion_finset (fun x _ y _ hxy => by simp [hxy]) (fun b _ => measurableSet_singleton _)]
  set r : α × β → ℝ := fun z => q z.1 z.2 / ((∑ b, q z.1 b) * ∑ a, q a z.2) with hr
  have hr0 : ∀ z, 0 ≤ r z := fun z => div_nonneg (hq0 _ _) (mul_nonneg (Finset.sum_nonneg fun _ _ => hq0 _ _) (Finset.sum_nonneg fun _ _ => hq0 _ _))
  have hmeas : ∀ f : α × β → ℝ, Measurable f := fun f => measurable_of_countable f
  have hden : Q = (Q.fst.prod Q.snd).withDensity fun z => ENNReal.ofReal (r z) := by
    refine Measure.ext_of_singleton fun z => ?_
    obtain ⟨a, b⟩ := z
    rw [withDensity_apply _ (measurableSet_singleton _), lintegral_singleton, ← Set.singleton_prod_singleton, Measure.prod_prod,
      Set.singleton_prod_singleton, ← ofReal_measureReal (μ := Q), ← ofReal_measureReal (μ := Q.fst), ← ofReal_measureReal (μ := Q.snd),
      hfst, hsnd, ← ENNReal.ofReal_mul (Finset.sum_nonneg fun _ _ => hq0 _ _), ← ENNReal.ofReal_mul (hr0 _)]
    congr 1
    change q a b = q a b / ((∑ b, q a b) * ∑ a, q a b) * ((∑ b, q a b) * ∑ a, q a b)
    rcases (hq0 a b).lt_or_eq with hp | hp
    · have h2 : 0 < ∑ b, q a b := hp.trans_le (Finset.single_le_sum (fun b _ => hq0 a b) (Finset.mem_univ b))
      have h3 : 0 < ∑ a, q a b := hp.trans_le (Finset.single_le_sum (f := fun a => q a b) (fun a _ => hq0 a b) (Finset.mem_univ a))
      rw [div_mul_cancel₀ _ (by positivity)]
    · simp [← hp]
  have hint : Integrable (fun z => Real.log (r z)) Q := Integrable.of_finite
  obtain ⟨h1, h2⟩ := mutualInfo_of_ratio Q r (hmeas r) hr0 hden hint
  refine ⟨by rw [h1]; exact ENNReal.ofReal_ne_top, ?_⟩
  rw [h1, ENNReal.toReal_ofReal h2, ← tableInfo_eq hq0, integral_fintype hint, Fintype.sum_prod_type]
  rfl

end table

section sample

variable {E : Type} [MeasurableSpace E] {P : Measure E} [IsProbabilityMeasure P]

open Classical in
/-- Frequencies converge to probabilities. -/
theorem frequency_tendsto {S : Set E} (hS : MeasurableSet S) {δ : ℝ} (hδ : 0 < δ) :
    Tendsto (fun n => (Measure.pi fun _ : Fin n => P) {w | δ ≤ |((Finset.univ.filter fun i => w i ∈ S).card : ℝ) / n - P.real S|})
      atTop (𝓝 0) := by
  have hf : Measurable (S.indicator fun _ => (1 : ℝ)) := measurable_const.indicator hS
  have hc : ∀ n (w : Fin n → E), ((Finset.univ.filter fun i => w i ∈ S).card : ℝ) = ∑ i, S.indicator (fun _ => (1 : ℝ)) (w i) := by
    intro n w
    rw [Finset.card_filter]
    push_cast
    exact Finset.sum_congr rfl fun i _ => by simp [Set.indicator_apply]
  refine bad_tendsto (fun n => ?_) ?_
  · simp only [hc]
    refine measurableSet_le measurable_const (Measurable.abs (Measurable.sub_const (Measurable.div_const ?_ _) _))
    exact Finset.measurable_sum _ fun i _ => hf.comp (measurable_pi_apply i)
  · have hi : Integrable (S.indicator fun _ => (1 : ℝ)) P := (integrable_const (1 : ℝ)).indicator hS
    filter_upwards [averages _ hf hi] with ω hω
    rw [integral_indicator_const _ hS, smul_eq_mul, mul_one] at hω
    filter_upwards [Metric.tendsto_nhds.1 hω δ hδ] with n hn
    simp only [Set.mem_setOf_eq, hc, not_le]
    exact hn

/-- The points at most `η` away from an edge between cells. -/
def nearEdge (b : ℕ) (L H η : ℝ) : Set ℝ := {x | ∃ k, 0 < k ∧ k < b ∧ |x - (L + (H - L) * k / b)| ≤ η}

theorem measurableSet_nearEdge (b : ℕ) (L H η : ℝ) : MeasurableSet (nearEdge b L H η) := by
  have : nearEdge b L H η = ⋃ k : ℕ, {x | 0 < k ∧ k < b ∧ |x - (L + (H - L) * k / b)| ≤ η} := by ext x; simp [nearEdge]
  rw [this]
  refine MeasurableSet.iUnion fun k => ?_
  by_cases hk : 0 < k ∧ k < b
  · simp only [hk, true_and]
    exact measurableSet_le (by fun_prop) measurable_const
  · have : {x : ℝ | 0 < k ∧ k < b ∧ |x - (L + (H - L) * k / b)| ≤ η} = ∅ := by
      ext x
      simp only [Set.mem_setOf_eq, Set.mem_empty_iff_false, iff_false]
      exact fun h => hk ⟨h.1, h.2.1⟩
    rw [this]
    exact MeasurableSet.empty

/-- Few points are near the edges. -/
theorem nearEdge_small {μ : Measure ℝ} [IsProbabilityMeasure μ] {b : ℕ} {L H : ℝ} (h : Fills μ b L H) {δ : ℝ} (hδ : 0 < δ) :
    ∃ η > 0, 2 * η ≤ H - L ∧ μ.real (nearEdge b L H η) < δ := by
  have hanti : Antitone fun m : ℕ => nearEdge b L H ((H - L) / 2 / (m + 1)) := by
    intro m m' hm x hx
    obtain ⟨k, h1, h2, h3⟩ := hx
    refine ⟨k, h1, h2, h3.trans ?_⟩
    have : 0 < H - L := sub_pos.2 h.lt
    have hm' : (m : ℝ) ≤ m' := by exact_mod_cast hm
    gcongr
  have hinter : μ (⋂ m : ℕ, nearEdge b L H ((H - L) / 2 / (m + 1))) = 0 := by
    have hsub : (⋂ m : ℕ, nearEdge b L H ((H - L) / 2 / (m + 1))) ⊆ ⋃ k ∈ (Finset.range b).filter (0 < ·), {L + (H - L) * k / b} := by
      intro x hx
      by_contra hcon
      simp only [Set.mem_iUnion, Finset.mem_filter, Finset.mem_range, Set.mem_singleton_iff, not_exists] at hcon
      have hlim : Tendsto (fun m : ℕ => (H - L) / 2 / ((m : ℝ) + 1)) atTop (𝓝 0) := by
        have := (tendsto_one_div_add_atTop_nhds_zero_nat (𝕜 := ℝ)).const_mul ((H - L) / 2)
        rw [mul_zero] at this
        exact this.congr fun m => by ring
      have hall : ∀ k ∈ (Finset.range b).filter (0 < ·), ∀ᶠ m : ℕ in atTop, (H - L) / 2 / ((m : ℝ) + 1) < |x - (L + (H - L) * k / b)| := by
        intro k hk
        refine hlim.eventually (gt_mem_nhds (abs_pos.2 (sub_ne_zero.2 (hcon k ?_))))
        simpa using hk
      obtain ⟨m, hm⟩ := ((Finset.eventually_all _).2 hall).exists
      obtain ⟨k, h1, h2, h3⟩ := Set.mem_iInter.1 hx m
      exact absurd (hm k (by simp [h1, h2])) (not_lt.2 h3)
    refine measure_mono_null hsub ((measure_biUnion_null_iff (Finset.countable_toSet _)).2 fun k hk => ?_)
    simp only [Finset.coe_filter, Finset.mem_range, Set.mem_setOf_eq] at hk
    exact h.edges k hk.2 hk.1
  have hlim := tendsto_measure_iInter_atTop (μ := μ) (fun m => (measurableSet_nearEdge b L H ((H - L) / 2 / ((m : ℕ) + 1))).nullMeasurableSet)
    hanti ⟨0, measure_ne_top _ _⟩
  rw [hinter] at hlim
  obtain ⟨m, hm⟩ := (hlim.eventually (gt_mem_nhds (ENNReal.ofReal_pos.2 hδ))).exists
  have hHL : 0 < H - L := sub_pos.2 h.lt
  refine ⟨(H - L) / 2 / (m + 1), by positivity, ?_, ?_⟩
  · have : (H - L) / 2 / ((m : ℝ) + 1) ≤ (H - L) / 2 := div_le_self (by positivity) (by linarith [(Nat.cast_nonneg m : (0 : ℝ) ≤ m)])
    linarith
  · rw [measureReal_def]
    exact (ENNReal.lt_ofReal_iff_toReal_lt (measure_ne_top _ _)).1 hm

open Classical in
/-- A column fills its range: all its points are inside, some are near each of the ends, and few are near an edge between cells. -/
def Filled {n : ℕ} (c : E → ℝ) (b : ℕ) (L H η δ : ℝ) (w : Fin n → E) : Prop :=
  (∀ i, L ≤ c (w i) ∧ c (w i) ≤ H) ∧ (∃ i, c (w i) < L + η) ∧ (∃ i, H - η < c (w i)) ∧
    ((Finset.univ.filter fun i => c (w i) ∈ nearEdge b L H η).card : ℝ) < δ * n

theorem filled_tendsto {c : E → ℝ} (hc : Measurable c) {b : ℕ} {L H : ℝ} (h : Fills (P.map c) b L H) {δ : ℝ} (hδ : 0 < δ) :
    ∃ η > 0, 2 * η ≤ H - L ∧ Tendsto (fun n => (Measure.pi fun _ : Fin n => P) {w | ¬ Filled c b L H η δ w}) atTop (𝓝 0) := by
  classical
  haveI : IsProbabilityMeasure (P.map c) := Measure.isProbabilityMeasure_map hc.aemeasurable
  obtain ⟨η, hη, hη2, hsmall⟩ := nearEdge_small h (half_pos hδ)
  refine ⟨η, hη, hη2, ?_⟩
  set S : Set E := c ⁻¹' nearEdge b L H η with hSdef
  have hS : MeasurableSet S := hc (measurableSet_nearEdge b L H η)
  have hPS : P.real S < δ / 2 := by rwa [measureReal_def, Measure.map_apply hc (measurableSet_nearEdge b L H η)] at hsmall
  have hout : P {z | ¬ (L ≤ c z ∧ c z ≤ H)} = 0 := ae_iff.1 (ae_of_ae_map hc.aemeasurable h.inside)
  have hpow : ∀ T : Set ℝ, MeasurableSet T → P.map c T ≠ 0 → Tendsto (fun n : ℕ => P {z | c z ∉ T} ^ n) atTop (𝓝 0) := by
    intro T hT hpos
    refine ENNReal.tendsto_pow_atTop_nhds_zero_of_lt_one ?_
    have h1 : {z | c z ∉ T} = (c ⁻¹' T)ᶜ := rfl
    rw [h1, prob_compl_eq_one_sub (hc hT)]
    rw [Measure.map_apply hc hT] at hpos
    exact ENNReal.sub_lt_self ENNReal.one_ne_top one_ne_zero hpos
  have hlow := hpow _ measurableSet_Iio (h.low η hη)
  have hhigh := hpow _ measurableSet_Ioi (h.high η hη)
  have hfreq := frequency_tendsto (P := P) hS (half_pos hδ)
  have hsum := (hlow.add hhigh).add hfreq
  rw [add_zero, add_zero] at hsum
  refine tendsto_of_tendsto_of_tendsto_of_le_of_le' tendsto_const_nhds hsum (.of_forall fun _ => bot_le) ?_
  filter_upwards [eventually_gt_atTop 0] with n hn
  have hn' : (0 : ℝ) < n := by exact_mod_cast hn
  have hsub : {w : Fin n → E | ¬ Filled c b L H η δ w} ⊆ (({w | ∃ i, w i ∈ {z | ¬ (L ≤ c z ∧ c z ≤ H)}} ∪ {w | ∀ i, w i ∈ {z | c z ∉ Set.Iio (L + η)}}) ∪
      {w | ∀ i, w i ∈ {z | c z ∉ Set.Ioi (H - η)}}) ∪ {w | δ / 2 ≤ |((Finset.univ.filter fun i => w i ∈ S).card : ℝ) / n - P.real S|} := by
    intro w hw
    by_contra hcon
    simp only [Set.mem_union, not_or, Set.mem_setOf_eq, not_exists, not_forall, not_not, not_le] at hcon
    obtain ⟨⟨⟨h1, i, h2⟩, j, h3⟩, h4⟩ := hcon
    refine hw ⟨h1, ⟨i, h2⟩, ⟨j, h3⟩, ?_⟩
    have h5 := (abs_lt.1 h4).2
    have h6 : ((Finset.univ.filter fun i => w i ∈ S).card : ℝ) / n < δ := by linarith
    rw [div_lt_iff₀ hn'] at h6
    exact h6
  refine (measure_mono hsub).trans ((measure_union_le _ _).trans ?_)
  refine add_le_add ((measure_union_le _ _).trans (add_le_add ((measure_union_le _ _).trans ?_) (Extremes.all_eq n _).le)) le_rfl
  refine (add_le_add (Extremes.some_le n _) (Extremes.all_eq n _).le).trans ?_
  rw [hout, mul_zero, zero_add]

end sample

/-- Away from the edges the cell is the same for a slightly smaller range. -/
theorem same_cell {b c c' : ℕ} {L H lo hi x η : ℝ} (h1 : L ≤ lo) (h2 : lo ≤ L + η) (h3 : hi ≤ H) (h4 : H - η ≤ hi) (hlt : lo < hi)
    (hx : x ∉ nearEdge b L H η) (hc : IsCell lo hi b x c) (hc' : IsCell L H b x c') : c = c' := by
  have hb : (0 : ℝ) < b := by exact_mod_cast (Nat.zero_le c).trans_lt hc.1
  have hLH : L < H := by linarith
  have hedge : ∀ k : ℕ, k ≤ b → |lo + (hi - lo) * k / b - (L + (H - L) * k / b)| ≤ η := by
    intro k hk
    have hk0 : (0 : ℝ) ≤ k / b := by positivity
    have hk1 : (k : ℝ) / b ≤ 1 := by rw [div_le_one hb]; exact_mod_cast hk
    rw [mul_div_assoc, mul_div_assoc, abs_le]
    generalize (k : ℝ) / b = t at hk0 hk1
    constructor <;> nlinarith
  have hmono : ∀ (l h : ℝ) (k k' : ℕ), l < h → k ≤ k' → l + (h - l) * k / b ≤ l + (h - l) * k' / b := by
    intro l h k k' hlh hk
    have : (k : ℝ) ≤ k' := by exact_mod_cast hk
    have : 0 < h - l := by linarith
    gcongr
  obtain ⟨c1, c2, c3⟩ := hc
  obtain ⟨d1, d2, d3⟩ := hc'
  rcases lt_trichotomy c c' with hlt' | heq | hlt'
  · exfalso
    refine hx ⟨c + 1, by omega, by omega, ?_⟩
    have e1 := hmono L H (c + 1) c' hLH hlt'
    have e2 := abs_le.1 (hedge (c + 1) (by omega))
    have e3 : x < lo + (hi - lo) * (c + 1) / b := by
      rcases c3 with h | ⟨h, -⟩
      · exact h
      · omega
    push_cast at e1 e2 ⊢
    rw [abs_le]
    constructor <;> linarith [e2.1, e2.2]
  · exact heq
  · exfalso
    refine hx ⟨c' + 1, by omega, by omega, ?_⟩
    have e1 := hmono lo hi (c' + 1) c hlt hlt'
    have e2 := abs_le.1 (hedge (c' + 1) (by omega))
    have e3 : x < L + (H - L) * (c' + 1) / b := by
      rcases d3 with h | ⟨h, -⟩
      · exact h
      · omega
    push_cast at e1 e2 ⊢
    rw [abs_le]
    constructor <;> linarith [e2.1, e2.2]

open Classical in
/-- Frequencies of sequences which differ rarely. -/
theorem freq_close {n : ℕ} {α β : Type} (A A' : Fin n → α) (B B' : Fin n → β) (a : α) (b : β) :
    |freq A B a b - freq A' B' a b| ≤ ((Finset.univ.filter fun i => A i ≠ A' i ∨ B i ≠ B' i).card : ℝ) / n := by
  have key : ∀ (A A' : Fin n → α) (B B' : Fin n → β), (Finset.univ.filter fun i => A i = a ∧ B i = b).card ≤
      (Finset.univ.filter fun i => A' i = a ∧ B' i = b).card + (Finset.univ.filter fun i => A i ≠ A' i ∨ B i ≠ B' i).card := by
    intro A A' B B'
    refine le_trans (Finset.card_le_card fun i hi => ?_) (Finset.card_union_le _ _)
    simp only [Finset.mem_union, Finset.mem_filter, Finset.mem_univ, true_and] at hi ⊢
    by_cases h : A i = A' i ∧ B i = B' i
    · exact .inl ⟨h.1 ▸ hi.1, h.2 ▸ hi.2⟩
    · right
      tauto
  have h1 := key A A' B B'
  have h2 := key A' A B' B
  have h3 : (Finset.univ.filter fun i => A' i ≠ A i ∨ B' i ≠ B i) = Finset.univ.filter fun i => A i ≠ A' i ∨ B i ≠ B' i := by
    ext i; simp [eq_comm]
  rw [h3] at h2
  unfold freq
  rw [← sub_div, abs_div, Nat.abs_cast]
  refine div_le_div_of_nonneg_right ?_ (Nat.cast_nonneg n)
  have h1' : (((Finset.univ.filter fun i => A i = a ∧ B i = b).card : ℕ) : ℝ) ≤
      ((Finset.univ.filter fun i => A' i = a ∧ B' i = b).card : ℝ) + (Finset.univ.filter fun i => A i ≠ A' i ∨ B i ≠ B' i).card := by exact_mod_cast h1
  have h2' : (((Finset.univ.filter fun i => A' i = a ∧ B' i = b).card : ℕ) : ℝ) ≤
      ((Finset.univ.filter fun i => A i = a ∧ B i = b).card : ℝ) + (Finset.univ.filter fun i => A i ≠ A' i ∨ B i ≠ B' i).card := by exact_mod_cast h2
  rw [abs_le]
  constructor <;> linarith

end BMI.Consistency
