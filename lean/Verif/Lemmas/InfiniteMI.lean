import Verif.Lemmas.Consistency
import Verif.Props.BmmPmi
import Mathlib.Analysis.SpecialFunctions.Log.Deriv
import Mathlib.MeasureTheory.Function.Floor
import Mathlib.MeasureTheory.Integral.Lebesgue.Countable

/-! A joint distribution with an infinite mutual information: two equal numbers with heavy tails. -/

namespace BMI.Bmm

open MeasureTheory ProbabilityTheory Filter Topology BMI.Consistency

/-- The tails of the probabilities. -/
noncomputable def heavyTail (n : ℕ) : ℝ := Real.log 2 / Real.log (n + 2)

/-- The probability of the number `n`. -/
noncomputable def heavy (n : ℕ) : ℝ := heavyTail n - heavyTail (n + 1)

theorem log_add_pos (n : ℕ) : 0 < Real.log ((n : ℝ) + 2) := Real.log_pos (by have : (0 : ℝ) ≤ n := Nat.cast_nonneg n; linarith)

theorem heavy_pos (n : ℕ) : 0 < heavy n := by
  unfold heavy heavyTail
  have h0 := log_add_pos n
  have h2 : 0 < Real.log 2 := Real.log_pos one_lt_two
  have h1 : Real.log ((n : ℝ) + 2) < Real.log (((n + 1 : ℕ) : ℝ) + 2) := by
    refine Real.log_lt_log (by positivity) ?_
    push_cast; linarith
  have := div_lt_div_of_pos_left h2 h0 h1
  linarith

theorem heavyTail_tendsto : Tendsto heavyTail atTop (𝓝 0) := by
  unfold heavyTail
  refine Tendsto.div_atTop tendsto_const_nhds (Real.tendsto_log_atTop.comp ?_)
  exact tendsto_atTop_add_const_right _ _ tendsto_natCast_atTop_atTop

theorem heavy_sums (N : ℕ) : HasSum (fun n => heavy (n + N)) (heavyTail N) := by
  rw [hasSum_iff_tendsto_nat_of_nonneg fun n => (heavy_pos _).le]
  have h1 : ∀ m, ∑ n ∈ Finset.range m, heavy (n + N) = heavyTail N - heavyTail (m + N) := by
    intro m
    induction m with
    | zero => simp
    | succ m ih =>
      rw [Finset.sum_range_succ, ih, heavy, Nat.add_right_comm m 1 N]
      ring
  simp only [h1]
  have := (heavyTail_tendsto.comp (tendsto_add_atTop_nat N)).const_sub (heavyTail N)
  simpa using this

theorem heavyTail_zero : heavyTail 0 = 1 := by
  unfold heavyTail
  rw [Nat.cast_zero, zero_add]
  exact div_self (Real.log_pos one_lt_two).ne'

theorem heavy_le (n : ℕ) : heavy n ≤ 1 / (n + 2) := by
  have h0 := log_add_pos n
  have h1 := log_add_pos (n + 1)
  have hn : (0 : ℝ) < (n : ℝ) + 2 := by positivity
  have h2 : 0 < Real.log 2 := Real.log_pos one_lt_two
  have e1 : heavy n = Real.log 2 / Real.log (n + 2) * ((Real.log (((n + 1 : ℕ) : ℝ) + 2) - Real.log (n + 2)) / Real.log (((n + 1 : ℕ) : ℝ) + 2)) := by
    unfold heavy heavyTail
    field_simp
  have e2 : Real.log (((n + 1 : ℕ) : ℝ) + 2) - Real.log (n + 2) ≤ 1 / (n + 2) := by
    rw [← Real.log_div (by positivity) hn.ne']
    have : (((n + 1 : ℕ) : ℝ) + 2) / (n + 2) = 1 / (n + 2) + 1 := by push_cast; field_simp; ring
    rw [this]
    have := Real.log_le_sub_one_of_pos (show 0 < 1 / ((n : ℝ) + 2) + 1 by positivity)
    linarith
  have e3 : Real.log 2 / Real.log (n + 2) ≤ 1 := by
    rw [div_le_one h0]
    exact Real.log_le_log two_pos (by have : (0 : ℝ) ≤ n := Nat.cast_nonneg n; linarith)
  have e4 : 1 ≤ Real.log (((n + 1 : ℕ) : ℝ) + 2) := by
    rw [Real.le_log_iff_exp_le (by positivity)]
    have := Real.exp_one_lt_d9
    have : (0 : ℝ) ≤ n := Nat.cast_nonneg n
    push_cast
    linarith
  have e5 : (Real.log (((n + 1 : ℕ) : ℝ) + 2) - Real.log (n + 2)) / Real.log (((n + 1 : ℕ) : ℝ) + 2) ≤ 1 / (n + 2) := by
    rw [div_le_iff₀ h1]
    calc _ ≤ 1 / ((n : ℝ) + 2) := e2
      _ ≤ _ := le_mul_of_one_le_right (by positivity) e4
  rw [e1]
  calc _ ≤ 1 * (1 / ((n : ℝ) + 2)) := mul_le_mul e3 e5 (div_nonneg (by
        have : Real.log ((n : ℝ) + 2) ≤ Real.log (((n + 1 : ℕ) : ℝ) + 2) := Real.log_le_log hn (by push_cast; linarith)
        linarith) h1.le) zero_le_one
    _ = _ := one_mul _

theorem neg_log_heavy (n : ℕ) : Real.log (n + 2) ≤ -Real.log (heavy n) := by
  have h := Real.log_le_log (heavy_pos n) (heavy_le n)
  rw [one_div, Real.log_inv] at h
  linarith

/-- The entropy is infinite. -/
theorem heavy_entropy : ¬ Summable fun n => heavy n * -Real.log (heavy n) := by
  intro h
  have h1 : Summable fun n => heavy n * Real.log (n + 2) :=
    Summable.of_nonneg_of_le (fun n => mul_nonneg (heavy_pos n).le (log_add_pos n).le)
      (fun n => mul_le_mul_of_nonneg_left (neg_log_heavy n) (heavy_pos n).le) h
  have h2 := tendsto_sum_nat_add fun n => heavy n * Real.log (n + 2)
  have h3 : ∀ N : ℕ, Real.log 2 ≤ ∑' n, heavy (n + N) * Real.log (((n + N : ℕ) : ℝ) + 2) := by
    intro N
    have e1 : HasSum (fun n => heavy (n + N) * Real.log (N + 2)) (Real.log 2) := by
      have := (heavy_sums N).mul_right (Real.log (N + 2))
      rwa [heavyTail, div_mul_cancel₀ _ (log_add_pos N).ne'] at this
    rw [← e1.tsum_eq]
    refine e1.summable.tsum_le_tsum (fun n => mul_le_mul_of_nonneg_left ?_ (heavy_pos _).le) ((summable_nat_add_iff N).2 h1)
    refine Real.log_le_log (by positivity) ?_
    push_cast
    have : (0 : ℝ) ≤ n := Nat.cast_nonneg n
    linarith
  have h4 := ge_of_tendsto' h2 h3
  exact absurd h4 (not_le.2 (Real.log_pos one_lt_two))

/-- The law of a number. -/
noncomputable def heavyLaw : Measure ℕ := Measure.count.withDensity fun n => ENNReal.ofReal (heavy n)

theorem lintegral_heavy (f : ℕ → ENNReal) : ∫⁻ n, f n ∂heavyLaw = ∑' n, ENNReal.ofReal (heavy n) * f n := by
  unfold heavyLaw
  rw [lintegral_withDensity_eq_lintegral_mul _ measurable_from_nat measurable_from_nat, lintegral_count]
  rfl

instance : IsProbabilityMeasure heavyLaw := ⟨by
  rw [← lintegral_one, lintegral_heavy]
  simp only [mul_one]
  have h := heavy_sums 0
  simp only [add_zero] at h
  rw [← ENNReal.ofReal_tsum_of_nonneg (fun n => (heavy_pos n).le) h.summable, h.tsum_eq, heavyTail_zero, ENNReal.ofReal_one]⟩

/-- A number as a point. -/
def asPoint (n : ℕ) : Fin 1 → ℝ := fun _ => n

/-- The joint law of two equal numbers. -/
noncomputable def equalLaw : Measure ((Fin 1 → ℝ) × (Fin 1 → ℝ)) := heavyLaw.map fun n => (asPoint n, asPoint n)

instance : IsProbabilityMeasure equalLaw := Measure.isProbabilityMeasure_map measurable_from_nat.aemeasurable

/-- The law of one point. -/
noncomputable def pointLaw : Measure (Fin 1 → ℝ) := heavyLaw.map asPoint

instance : IsProbabilityMeasure pointLaw := Measure.isProbabilityMeasure_map measurable_from_nat.aemeasurable

/-- A distribution whose densities are with respect to its own law. -/
noncomputable def pointDist : Dist (ℕ → ℕ) where
  eventShape := [1]
  sample k n := List.ofFn fun i : Fin n => List.ofFn (asPoint (k i))
  logProb _ := 0

/-- Two equal numbers. -/
noncomputable def equalDist : Dist (ℕ → ℕ) where
  eventShape := [2]
  sample k n := List.ofFn fun i : Fin n => pairList (asPoint (k i), asPoint (k i))
  logProb l := if l.getD 0 0 = l.getD 1 0 then ((-Real.log (heavy ⌊l.getD 0 0⌋₊) : ℝ) : EReal) else ⊥

/-- Two equal numbers as a joint distribution. -/
noncomputable def equalJoint : JointDistribution (ℕ → ℕ) := ⟨equalDist, pointDist, pointDist, 1, 1, none⟩

theorem equal_logProb (z : (Fin 1 → ℝ) × (Fin 1 → ℝ)) :
    equalDist.logProb (pairList z) = if z.1 0 = z.2 0 then ((-Real.log (heavy ⌊z.1 0⌋₊) : ℝ) : EReal) else ⊥ := by
  simp [equalDist, pairList]

theorem equal_measurable : Measurable fun z : (Fin 1 → ℝ) × (Fin 1 → ℝ) => equalDist.logProb (pairList z) := by
  simp only [equal_logProb]
  have h1 : Measurable fun z : (Fin 1 → ℝ) × (Fin 1 → ℝ) => z.1 0 := (measurable_pi_apply 0).comp measurable_fst
  have h2 : Measurable fun z : (Fin 1 → ℝ) × (Fin 1 → ℝ) => z.2 0 := (measurable_pi_apply 0).comp measurable_snd
  refine Measurable.ite (measurableSet_eq_fun h1 h2) ?_ measurable_const
  exact measurable_coe_real_ereal.comp ((measurable_from_nat (f := fun n => -Real.log (heavy n))).comp (Nat.measurable_floor.comp h1))

theorem draws_of_map {Ω : Type} [MeasurableSpace Ω] (f : ℕ → Ω) (n : ℕ) :
    Measurable (fun (k : ℕ → ℕ) (i : Fin n) => f (k i)) ∧
    (Measure.infinitePi fun _ : ℕ => heavyLaw).map (fun (k : ℕ → ℕ) (i : Fin n) => f (k i)) = Measure.pi fun _ => heavyLaw.map f := by
  have hf : Measurable f := measurable_from_nat
  have h1 := map_firstPoints (P := heavyLaw) n
  have h2 : (fun (k : ℕ → ℕ) (i : Fin n) => f (k i)) = (fun (w : Fin n → ℕ) i => f (w i)) ∘ firstPoints n := rfl
  have m1 : Measurable fun (w : Fin n → ℕ) i => f (w i) := measurable_pi_lambda _ fun i => hf.comp (measurable_pi_apply i)
  have m2 : Measurable (firstPoints n : (ℕ → ℕ) → Fin n → ℕ) := measurable_pi_lambda _ fun i => measurable_pi_apply _
  haveI := Measure.isProbabilityMeasure_map (μ := heavyLaw) hf.aemeasurable
  refine ⟨m1.comp m2, ?_⟩
  rw [h2, ← Measure.map_map m1 m2, h1, Measure.pi_map_pi fun _ => hf.aemeasurable]

theorem equal_consistent : ConsistentOn (Measure.infinitePi fun _ : ℕ => heavyLaw) equalJoint pointLaw pointLaw equalLaw := by
  have hpoint : Represents (Measure.infinitePi fun _ : ℕ => heavyLaw) pointDist 1 List.ofFn pointLaw pointLaw := by
    refine ⟨rfl, fun n => ⟨fun k i => asPoint (k i), (draws_of_map asPoint n).1, fun k => rfl, (draws_of_map asPoint n).2⟩,
      aemeasurable_const, ?_⟩
    · simp only [pointDist, EReal.exp_zero]
      exact withDensity_one.symm
  refine ⟨rfl, rfl, inferInstance, ⟨rfl, fun n => ⟨fun k i => (asPoint (k i), asPoint (k i)),
    (draws_of_map (fun m => (asPoint m, asPoint m)) n).1, fun k => rfl, (draws_of_map (fun m => (asPoint m, asPoint m)) n).2⟩,
    equal_measurable.aemeasurable, ?_⟩, ?_, ?_⟩
  · have hw : Measurable fun z : (Fin 1 → ℝ) × (Fin 1 → ℝ) => (equalJoint.distJoint.logProb (pairList z)).exp :=
      EReal.measurable_exp.comp equal_measurable
    ext s hs
    rw [withDensity_apply _ hs, ← lintegral_indicator hs, lintegral_prod _ (hw.indicator hs).aemeasurable, pointLaw,
      lintegral_map ((hw.indicator hs).lintegral_prod_right') measurable_from_nat, lintegral_heavy, equalLaw,
      ← lintegral_indicator_one hs, lintegral_map (measurable_one.indicator hs) measurable_from_nat, lintegral_heavy]
    refine tsum_congr fun n => ?_
    congr 1
    have hm : Measurable fun y => s.indicator (fun z => (equalJoint.distJoint.logProb (pairList z)).exp) (asPoint n, y) :=
      (hw.indicator hs).comp measurable_prodMk_left
    rw [lintegral_map hm measurable_from_nat, lintegral_heavy, tsum_eq_single n]
    · by_cases hn : (asPoint n, asPoint n) ∈ s
      · rw [Set.indicator_of_mem hn, Set.indicator_of_mem hn]
        show _ = _ * (equalDist.logProb (pairList (asPoint n, asPoint n))).exp
        rw [equal_logProb, if_pos rfl, EReal.exp_coe, ← ENNReal.ofReal_mul (heavy_pos n).le, Real.exp_neg]
        simp only [asPoint, Nat.floor_natCast]
        rw [Real.exp_log (heavy_pos n), mul_inv_cancel₀ (heavy_pos n).ne', ENNReal.ofReal_one]
        rfl
      · rw [Set.indicator_of_notMem hn, Set.indicator_of_notMem hn, mul_zero]
    · intro m hm
      have : (equalJoint.distJoint.logProb (pairList (asPoint n, asPoint m))).exp = 0 := by
        show (equalDist.logProb (pairList (asPoint n, asPoint m))).exp = 0
        rw [equal_logProb, if_neg (by simp only [asPoint]; exact fun h => hm (Nat.cast_injective h.symm)), EReal.exp_bot]
      by_cases hmem : (asPoint n, asPoint m) ∈ s
      · rw [Set.indicator_of_mem hmem, this, mul_zero]
      · rw [Set.indicator_of_notMem hmem, mul_zero]
  · have : equalLaw.fst = pointLaw := by
      unfold equalLaw pointLaw Measure.fst
      rw [Measure.map_map measurable_fst measurable_from_nat]
      rfl
    rw [this]; exact hpoint
  · have : equalLaw.snd = pointLaw := by
      unfold equalLaw pointLaw Measure.snd
      rw [Measure.map_map measurable_snd measurable_from_nat]
      rfl
    rw [this]; exact hpoint

theorem equal_infinite : mutualInfo equalLaw = ⊤ := by
  by_contra hne
  have h1 := (pmi_density_on equal_consistent).2.2.2.1.1 hne
  unfold equalLaw at h1
  have h2 := h1.comp_measurable (measurable_from_nat (f := fun m => (asPoint m, asPoint m)))
  have h3 : ∀ n, (equalJoint.pmiAt (List.ofFn (asPoint n)) (List.ofFn (asPoint n))).toReal = -Real.log (heavy n) := by
    intro n
    have : equalJoint.pmiAt (List.ofFn (asPoint n)) (List.ofFn (asPoint n)) = equalDist.logProb (pairList (asPoint n, asPoint n)) := by
      simp [JointDistribution.pmiAt, equalJoint, pointDist, pairList]
    rw [this, equal_logProb, if_pos rfl, EReal.toReal_coe]
    simp only [asPoint, Nat.floor_natCast]
  refine heavy_entropy ?_
  have h4 := h2.2
  have h0 : 0 ≤ᵐ[heavyLaw] fun n => -Real.log (heavy n) := .of_forall fun n => (log_add_pos n).le.trans (neg_log_heavy n)
  have h5 : HasFiniteIntegral (fun n => -Real.log (heavy n)) heavyLaw := by
    refine h4.congr (.of_forall fun n => ?_)
    exact h3 n
  rw [hasFiniteIntegral_iff_ofReal h0, lintegral_heavy] at h5
  have h6 : ∀ n, ENNReal.ofReal (heavy n) * ENNReal.ofReal (-Real.log (heavy n)) = ENNReal.ofReal (heavy n * -Real.log (heavy n)) :=
    fun n => (ENNReal.ofReal_mul (heavy_pos n).le).symm
  simp only [h6] at h5
  have h7 := ENNReal.summable_toReal h5.ne
  refine h7.congr fun n => ?_
  exact ENNReal.toReal_ofReal (mul_nonneg (heavy_pos n).le ((log_add_pos n).le.trans (neg_log_heavy n)))

end BMI.Bmm
