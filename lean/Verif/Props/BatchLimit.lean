import Verif.Lemmas.BatchLog
import Verif.Lemmas.HistogramLimit
import Verif.Props.OptimalCritic
import Verif.Spec.BatchLimit
import Verif.Props.CcaConsistent

/-! Property C101: the objectives of the neural estimators on growing batches
(/repo/src/bmi/estimators/neural/_backend_linear_memory.py, _backend_quadratic_memory.py). -/

namespace BMI.Batch

open MeasureTheory ProbabilityTheory Filter Topology BMI.Neural BMI.Integration BMI.Consistency BMI.Samplers

section General

variable {X Y : Type} [MeasurableSpace X] [MeasurableSpace Y] {P : Measure (X × Y)} [IsProbabilityMeasure P]

/-! ## What mean convergence implies -/

/-- The expected value converges. -/
theorem MeanConverges.expectation {q : List X → List Y → EReal} {c : ℝ} (h : MeanConverges P q c) :
    Tendsto (fun n => ∫ b : Fin n → X × Y, (q (List.ofFn fun i => (b i).1) (List.ofFn fun i => (b i).2)).toReal ∂(Measure.pi fun _ : Fin n => P))
      atTop (𝓝 c) := by
  obtain ⟨-, hm, hl⟩ := h
  rw [tendsto_iff_norm_sub_tendsto_zero]
  have h1 : ∀ᶠ n in atTop, ∫⁻ b : Fin n → X × Y, ENNReal.ofReal |(q (List.ofFn fun i => (b i).1) (List.ofFn fun i => (b i).2)).toReal - c|
      ∂(Measure.pi fun _ : Fin n => P) < ⊤ := (hl.eventually (gt_mem_nhds ENNReal.zero_lt_top))
  have h2 := (ENNReal.tendsto_toReal ENNReal.zero_ne_top).comp hl
  rw [ENNReal.toReal_zero] at h2
  refine squeeze_zero' (.of_forall fun n => norm_nonneg _) ?_ h2
  filter_upwards [h1, eventually_ge_atTop 2] with n hn hn2
  have hmm := (hm n hn2).sub (measurable_const (a := c))
  have hi : Integrable (fun b : Fin n → X × Y => (q (List.ofFn fun i => (b i).1) (List.ofFn fun i => (b i).2)).toReal - c)
      (Measure.pi fun _ : Fin n => P) := by
    refine ⟨hmm.aestronglyMeasurable, ?_⟩
    rw [hasFiniteIntegral_iff_norm]
    exact hn
  have hi' : Integrable (fun b : Fin n → X × Y => (q (List.ofFn fun i => (b i).1) (List.ofFn fun i => (b i).2)).toReal)
      (Measure.pi fun _ : Fin n => P) := by
    refine (hi.add (integrable_const c)).congr (.of_forall fun b => ?_)
    simp
  have e : ∫ b : Fin n → X × Y, (q (List.ofFn fun i => (b i).1) (List.ofFn fun i => (b i).2)).toReal ∂(Measure.pi fun _ : Fin n => P) - c
      = ∫ b : Fin n → X × Y, ((q (List.ofFn fun i => (b i).1) (List.ofFn fun i => (b i).2)).toReal - c) ∂(Measure.pi fun _ : Fin n => P) := by
    rw [integral_sub hi' (integrable_const _)]
    simp
  rw [e]
  refine (norm_integral_le_lintegral_norm _).trans (le_of_eq ?_)
  rfl

/-- The probability of a value far from the limit tends to zero. -/
theorem MeanConverges.probability {q : List X → List Y → EReal} {c : ℝ} (h : MeanConverges P q c) {δ : ℝ} (hδ : 0 < δ) :
    Tendsto (fun n => (Measure.pi fun _ : Fin n => P) {b | ¬ ∃ v : ℝ, q (List.ofFn fun i => (b i).1) (List.ofFn fun i => (b i).2) = v ∧ |v - c| < δ})
      atTop (𝓝 0) := by
  obtain ⟨hv, hm, hl⟩ := h
  have h1 := ENNReal.Tendsto.div_const hl (b := ENNReal.ofReal δ) (.inr (by simpa using hδ))
  rw [ENNReal.zero_div] at h1
  refine tendsto_of_tendsto_of_tendsto_of_le_of_le' tendsto_const_nhds h1 (.of_forall fun _ => bot_le) ?_
  filter_upwards [eventually_ge_atTop 2] with n hn
  refine le_trans (measure_mono ?_) (meas_ge_le_lintegral_div (measurable_ofReal_abs ((hm n hn).sub (measurable_const (a := c)))).aemeasurable
    (by simpa using hδ) ENNReal.ofReal_ne_top)
  intro b hb
  obtain ⟨v, hv'⟩ := hv n hn (fun i => (b i).1) (fun i => (b i).2)
  simp only [Set.mem_setOf_eq, Pi.sub_apply] at hb ⊢
  rw [hv', EReal.toReal_coe]
  refine ENNReal.ofReal_le_ofReal (not_lt.1 fun h => hb ⟨v, hv', h⟩)

theorem meanConverges_of {q : List X → List Y → EReal} {c : ℝ} (φ : (n : ℕ) → (Fin n → X) → (Fin n → Y) → ℝ)
    (hq : ∀ n, 2 ≤ n → ∀ x y, q (List.ofFn x) (List.ofFn y) = ((φ n x y : ℝ) : EReal))
    (hm : ∀ n, Measurable fun b : Fin n → X × Y => φ n (fun i => (b i).1) (fun i => (b i).2))
    (hs : Small P fun n b => φ n (fun i => (b i).1) (fun i => (b i).2) - c) : MeanConverges P q c := by
  refine ⟨fun n hn x y => ⟨_, hq n hn x y⟩, fun n hn => ?_, ?_⟩
  · simp only [hq n hn, EReal.toReal_coe]
    exact hm n
  · refine hs.congr' ?_
    filter_upwards [eventually_ge_atTop 2] with n hn
    simp only [hq n hn, EReal.toReal_coe]

theorem MeanConverges.congr {q q' : List X → List Y → EReal} {c : ℝ} (h : MeanConverges P q c)
    (hq : ∀ n, 2 ≤ n → ∀ (x : Fin n → X) (y : Fin n → Y), q' (List.ofFn x) (List.ofFn y) = q (List.ofFn x) (List.ofFn y)) :
    MeanConverges P q' c := by
  refine ⟨fun n hn x y => hq n hn x y ▸ h.1 n hn x y, fun n hn => ?_, ?_⟩
  · simp only [hq n hn]
    exact h.2.1 n hn
  · refine h.2.2.congr' ?_
    filter_upwards [eventually_ge_atTop 2] with n hn
    simp only [hq n hn]

/-! ## The objectives -/

theorem swap_map : (P.prod P).map (fun p : (X × Y) × (X × Y) => (p.1.1, p.2.2)) = P.fst.prod P.snd :=
  (Measure.map_prod_map P P measurable_fst measurable_snd).symm

theorem measurable_swap : Measurable fun p : (X × Y) × (X × Y) => (p.1.1, p.2.2) := by fun_prop

theorem integrable_swap {g : X × Y → ℝ} (hg : Integrable g (P.fst.prod P.snd)) :
    Integrable (fun p : (X × Y) × (X × Y) => g (p.1.1, p.2.2)) (P.prod P) := by
  rw [← swap_map] at hg
  exact hg.comp_measurable measurable_swap

theorem integral_swap {g : X × Y → ℝ} (hg : Integrable g (P.fst.prod P.snd)) :
    ∫ p : (X × Y) × (X × Y), g (p.1.1, p.2.2) ∂(P.prod P) = ∫ p, g p ∂(P.fst.prod P.snd) := by
  rw [← swap_map] at hg
  rw [← swap_map, integral_map measurable_swap.aemeasurable hg.1]

variable {f : X → Y → ℝ}

theorem measurable_exp_swap (hf : Measurable fun p : X × Y => f p.1 p.2) :
    Measurable fun p : (X × Y) × (X × Y) => Real.exp (f p.1.1 p.2.2) :=
  Real.measurable_exp.comp (hf.comp measurable_swap)

theorem measurable_positive (hf : Measurable fun p : X × Y => f p.1 p.2) (n : ℕ) :
    Measurable fun b : Fin n → X × Y => Spec.positive f (fun i => (b i).1) (fun i => (b i).2) :=
  Measurable.div_const (Finset.measurable_sum _ fun i _ => hf.comp (measurable_pi_apply i)) _

theorem positive_small (hf : Measurable fun p : X × Y => f p.1 p.2) (hP : Integrable (fun p : X × Y => f p.1 p.2) P) :
    Small P fun n b => Spec.positive f (fun i => (b i).1) (fun i => (b i).2) - ∫ p, f p.1 p.2 ∂P := by
  have h := average_small (P := P) hf hP
  unfold Spec.positive
  exact h

theorem Small.neg {E : Type} [MeasurableSpace E] {P : Measure E} [IsProbabilityMeasure P] {φ : (n : ℕ) → (Fin n → E) → ℝ} (h : Small P φ) :
    Small P fun n b => -φ n b :=
  h.mono (.of_forall fun n b => by rw [abs_neg])

theorem measurable_negative (hf : Measurable fun p : X × Y => f p.1 p.2) (n : ℕ) :
    Measurable fun b : Fin n → X × Y => Spec.negative f (fun i => (b i).1) (fun i => (b i).2) := by
  have h := measurable_cross (n := n) (measurable_exp_swap hf)
  unfold cross at h
  unfold Spec.negative
  exact h

/-- **C101**, NWJ: the objective of a fixed critic on growing batches. -/
theorem nwj_limit (hf : Measurable fun p : X × Y => f p.1 p.2) (hP : Integrable (fun p : X × Y => f p.1 p.2) P)
    (hE : Integrable (fun p : X × Y => Real.exp (f p.1 p.2)) (P.fst.prod P.snd)) :
    MeanConverges P (Linear.nwj f) (∫ p, f p.1 p.2 ∂P - Real.exp (-1) * ∫ p, Real.exp (f p.1 p.2) ∂(P.fst.prod P.snd)) ∧
    MeanConverges P (Quadratic.nwj f) (∫ p, f p.1 p.2 ∂P - Real.exp (-1) * ∫ p, Real.exp (f p.1 p.2) ∂(P.fst.prod P.snd)) := by
  have hxm := measurable_exp_swap hf
  have hc := cross_small (P := P) hxm (integrable_swap hE)
  rw [integral_swap hE] at hc
  have h1 : MeanConverges P (Linear.nwj f) (∫ p, f p.1 p.2 ∂P - Real.exp (-1) * ∫ p, Real.exp (f p.1 p.2) ∂(P.fst.prod P.snd)) := by
    refine meanConverges_of (fun n x y => Spec.nwj f x y) (fun n hn x y => Linear.nwj_eq hn f x y)
      (fun n => (measurable_positive hf n).sub (measurable_const.mul (measurable_negative hf n))) ?_
    have hs : Small P fun n b => -Real.exp (-1) * (cross (fun p : (X × Y) × (X × Y) => Real.exp (f p.1.1 p.2.2)) b
        - ∫ p, Real.exp (f p.1 p.2) ∂(P.fst.prod P.snd)) :=
      hc.mono (.of_forall fun n b => by
        rw [abs_mul, abs_neg, abs_of_pos (Real.exp_pos _)]
        exact mul_le_of_le_one_left (abs_nonneg _) (Real.exp_le_one_iff.2 (by norm_num)))
    refine ((positive_small hf hP).add hs fun n => (measurable_positive hf n).sub measurable_const).congr ?_
    refine .of_forall fun n b => ?_
    unfold Spec.nwj Spec.negative cross
    ring
  exact ⟨h1, h1.congr fun n hn x y => (nwj_backends f _ _ (by simp) (by simpa using hn)).symm⟩

/-- **C101**, Donsker-Varadhan: the objective of a fixed critic on growing batches. -/
theorem donskerVaradhan_limit (hf : Measurable fun p : X × Y => f p.1 p.2) (hP : Integrable (fun p : X × Y => f p.1 p.2) P)
    (hQ : Integrable (fun p : X × Y => f p.1 p.2) (P.fst.prod P.snd))
    (hE : Integrable (fun p : X × Y => Real.exp (f p.1 p.2)) (P.fst.prod P.snd)) :
    MeanConverges P (Linear.donskerVaradhan f) (∫ p, f p.1 p.2 ∂P - Real.log (∫ p, Real.exp (f p.1 p.2) ∂(P.fst.prod P.snd))) ∧
    MeanConverges P (Quadratic.donskerVaradhan f) (∫ p, f p.1 p.2 ∂P - Real.log (∫ p, Real.exp (f p.1 p.2) ∂(P.fst.prod P.snd))) := by
  have hxm := measurable_exp_swap hf
  have hc := cross_log_small (P := P) hxm (fun p => Real.exp_pos _) (integrable_swap hE) (by
    simp only [Real.log_exp]
    exact integrable_swap hQ)
  rw [integral_swap hE] at hc
  have h1 : MeanConverges P (Linear.donskerVaradhan f) (∫ p, f p.1 p.2 ∂P - Real.log (∫ p, Real.exp (f p.1 p.2) ∂(P.fst.prod P.snd))) := by
    refine meanConverges_of (fun n x y => Spec.donskerVaradhan f x y) (fun n hn x y => Linear.donskerVaradhan_eq hn f x y)
      (fun n => (measurable_positive hf n).sub (measurable_negative hf n).log) ?_
    refine ((positive_small hf hP).add hc.neg fun n => (measurable_positive hf n).sub measurable_const).congr ?_
    refine .of_forall fun n b => ?_
    unfold Spec.donskerVaradhan Spec.negative cross
    ring
  exact ⟨h1, h1.congr fun n hn x y => (donskerVaradhan_backends f _ _ (by simp) (by simpa using hn)).symm⟩

/-- The average of the exponentiated scores over all partners. -/
noncomputable def partner (P : Measure (X × Y)) (f : X → Y → ℝ) (x : X) : ℝ := ∫ y, Real.exp (f x y) ∂P.snd

theorem partner_facts (hf : Measurable fun p : X × Y => f p.1 p.2) (hQ : Integrable (fun p : X × Y => f p.1 p.2) (P.fst.prod P.snd))
    (hE : Integrable (fun p : X × Y => Real.exp (f p.1 p.2)) (P.fst.prod P.snd)) :
    Measurable (partner P f) ∧ (∀ᵐ x ∂P.fst, 0 < partner P f x) ∧ Integrable (fun x => Real.log (partner P f x)) P.fst := by
  have hm : Measurable (partner P f) := ((Real.measurable_exp.comp hf).stronglyMeasurable.integral_prod_right' (ν := P.snd)).measurable
  have hpos : ∀ᵐ x ∂P.fst, 0 < partner P f x := by
    filter_upwards [hE.prod_right_ae] with x hx
    exact integral_exp_pos hx
  refine ⟨hm, hpos, ?_⟩
  refine Integrable.mono' (hE.integral_prod_left.add hQ.integral_norm_prod_left) hm.log.aestronglyMeasurable ?_
  filter_upwards [hE.prod_right_ae, hQ.prod_right_ae, hpos] with x hx hx' h0
  simp only [Pi.add_apply]
  have hlow : ∫ y, f x y ∂P.snd ≤ Real.log (partner P f x) := by
    set m := ∫ y, f x y ∂P.snd with hm
    rw [Real.le_log_iff_exp_le h0]
    have h1 : ∫ y, Real.exp m * (1 + (f x y - m)) ∂P.snd ≤ ∫ y, Real.exp (f x y) ∂P.snd := by
      refine integral_mono (((integrable_const _).add (hx'.sub (integrable_const _))).const_mul _) hx fun y => ?_
      have := Real.add_one_le_exp (f x y - m)
      have e : Real.exp (f x y) = Real.exp m * Real.exp (f x y - m) := by rw [← Real.exp_add]; ring_nf
      simp only [e]
      gcongr
      linarith
    have h2 : ∫ y, Real.exp m * (1 + (f x y - m)) ∂P.snd = Real.exp m := by
      have hs : Integrable (fun y => f x y - m) P.snd := hx'.sub (integrable_const _)
      rw [integral_const_mul, integral_add (integrable_const _) hs, integral_sub hx' (integrable_const _), ← hm]
      simp
    rw [h2] at h1
    exact h1
  have hup := Real.log_le_sub_one_of_pos h0
  have habs : |∫ y, f x y ∂P.snd| ≤ ∫ y, ‖f x y‖ ∂P.snd := abs_integral_le_integral_abs
  have hn : 0 ≤ ∫ y, ‖f x y‖ ∂P.snd := integral_nonneg fun y => norm_nonneg _
  have := abs_le.1 habs
  have e : ∫ y, Real.exp (f x y) ∂P.snd = partner P f x := rfl
  rw [e, Real.norm_eq_abs, abs_le]
  constructor <;> linarith

/-- The scores after the subtraction of the logarithm of the average over the partners: the exponentials average to one. -/
theorem shifted_facts (hf : Measurable fun p : X × Y => f p.1 p.2) (hQ : Integrable (fun p : X × Y => f p.1 p.2) (P.fst.prod P.snd))
    (hE : Integrable (fun p : X × Y => Real.exp (f p.1 p.2)) (P.fst.prod P.snd)) :
    (∀ᵐ x ∂P.fst, ∫ y, Real.exp (f x y - Real.log (partner P f x)) ∂P.snd = 1) ∧
    Integrable (fun p : X × Y => Real.exp (f p.1 p.2 - Real.log (partner P f p.1))) (P.fst.prod P.snd) ∧
    ∫ p, Real.exp (f p.1 p.2 - Real.log (partner P f p.1)) ∂(P.fst.prod P.snd) = 1 := by
  obtain ⟨hm, hpos, -⟩ := partner_facts hf hQ hE
  have h1 : ∀ᵐ x ∂P.fst, ∫ y, Real.exp (f x y - Real.log (partner P f x)) ∂P.snd = 1 := by
    filter_upwards [hpos] with x hx
    simp only [Real.exp_sub, Real.exp_log hx]
    rw [integral_div]
    exact div_self hx.ne'
  have h2 : Integrable (fun p : X × Y => Real.exp (f p.1 p.2 - Real.log (partner P f p.1))) (P.fst.prod P.snd) := by
    have hmm : Measurable fun p : X × Y => Real.exp (f p.1 p.2 - Real.log (partner P f p.1)) :=
      Real.measurable_exp.comp (hf.sub (hm.log.comp measurable_fst))
    rw [integrable_prod_iff hmm.aestronglyMeasurable]
    constructor
    · filter_upwards [hE.prod_right_ae] with x hx
      simp only [Real.exp_sub]
      exact hx.div_const _
    · refine (integrable_const (1 : ℝ)).congr ?_
      filter_upwards [h1] with x hx
      simp only [Real.norm_eq_abs, Real.abs_exp]
      exact hx.symm
  refine ⟨h1, h2, ?_⟩
  rw [integral_prod _ h2]
  rw [integral_congr_ae h1]
  simp

/-- **C101**, InfoNCE: the objective of a fixed critic on growing batches. -/
theorem infonce_limit (hf : Measurable fun p : X × Y => f p.1 p.2) (hP : Integrable (fun p : X × Y => f p.1 p.2) P)
    (hQ : Integrable (fun p : X × Y => f p.1 p.2) (P.fst.prod P.snd))
    (hE : Integrable (fun p : X × Y => Real.exp (f p.1 p.2)) (P.fst.prod P.snd)) :
    MeanConverges P (Linear.infonce f) (∫ p, f p.1 p.2 ∂P - ∫ x, Real.log (∫ y, Real.exp (f x y) ∂P.snd) ∂P.fst) ∧
    MeanConverges P (Quadratic.infonce f) (∫ p, f p.1 p.2 ∂P - ∫ x, Real.log (∫ y, Real.exp (f x y) ∂P.snd) ∂P.fst) := by
  obtain ⟨hm, hpos, hli⟩ := partner_facts hf hQ hE
  obtain ⟨s1, s2, -⟩ := shifted_facts hf hQ hE
  have hl1 : Integrable (fun u : X × Y => Real.log (partner P f u.1)) P := by
    have : Integrable (fun x => Real.log (partner P f x)) (P.map Prod.fst) := hli
    exact this.comp_measurable measurable_fst
  have hl2 : ∫ u, Real.log (partner P f u.1) ∂P = ∫ x, Real.log (partner P f x) ∂P.fst :=
    (integral_map (μ := P) measurable_fst.aemeasurable (f := fun x => Real.log (partner P f x)) hm.log.aestronglyMeasurable).symm
  have hl3 : Integrable (fun p : X × Y => Real.log (partner P f p.1)) (P.fst.prod P.snd) := hli.comp_fst _
  set h : (X × Y) × (X × Y) → ℝ := fun p => Real.exp (f p.1.1 p.2.2 - Real.log (partner P f p.1.1)) with hh
  have hhm : Measurable h := Real.measurable_exp.comp ((hf.comp measurable_swap).sub (hm.log.comp (measurable_fst.comp measurable_fst)))
  have hrow : ∀ᵐ u ∂P, rowMean P h u = 1 := by
    have := ae_of_ae_map (μ := P) measurable_fst.aemeasurable s1
    filter_upwards [this] with u hu
    have hmy : Measurable fun y => Real.exp (f u.1 y - Real.log (partner P f u.1)) :=
      Real.measurable_exp.comp ((hf.comp measurable_prodMk_left).sub measurable_const)
    rw [← hu]
    exact (integral_map (μ := P) measurable_snd.aemeasurable hmy.aestronglyMeasurable).symm
  have hs := rows_log_small (P := P) hhm (fun p => Real.exp_pos _) (integrable_swap s2)
    (by simp only [hh, Real.log_exp]; exact integrable_swap (hQ.sub hl3)) (by simp only [hh, Real.log_exp]; exact hP.sub hl1) hrow
  have hfm : Measurable fun u : X × Y => f u.1 u.2 - Real.log (partner P f u.1) := hf.sub (hm.log.comp measurable_fst)
  have ha := average_small (P := P) hfm (hP.sub hl1)
  have h1 : MeanConverges P (Linear.infonce f) (∫ p, f p.1 p.2 ∂P - ∫ x, Real.log (∫ y, Real.exp (f x y) ∂P.snd) ∂P.fst) := by
    refine meanConverges_of (fun n x y => Spec.infonce f x y) (fun n hn x y => Linear.infonce_eq (by omega) f x y) (fun n => ?_) ?_
    · refine Measurable.div_const (Finset.measurable_sum _ fun i _ => Measurable.log (Measurable.div ?_ (Measurable.div_const
        (Finset.measurable_sum _ fun j _ => ?_) _))) _
      · exact measurable_entry (measurable_exp_swap hf) i i
      · exact measurable_entry (measurable_exp_swap hf) i j
    · refine (ha.add hs.neg fun n => ?_).congr ?_
      · exact ((Finset.measurable_sum _ fun i _ => hfm.comp (measurable_pi_apply i)).div_const _).sub
          measurable_const
      · filter_upwards [eventually_ge_atTop 1] with n hn b
        have hn' : (0 : ℝ) < n := by exact_mod_cast hn
        haveI : Nonempty (Fin n) := ⟨⟨0, hn⟩⟩
        have e1 : ∫ u : X × Y, (f u.1 u.2 - Real.log (partner P f u.1)) ∂P
            = ∫ p, f p.1 p.2 ∂P - ∫ x, Real.log (∫ y, Real.exp (f x y) ∂P.snd) ∂P.fst := by
          rw [integral_sub hP hl1, hl2]
          rfl
        have e2 : Spec.infonce f (fun i => (b i).1) (fun i => (b i).2)
            = (∑ i, (f (b i).1 (b i).2 - Real.log (partner P f (b i).1))) / n - (∑ i, Real.log ((∑ j, h (b i, b j)) / n)) / n := by
          unfold Spec.infonce
          rw [← sub_div, ← Finset.sum_sub_distrib]
          congr 1
          refine Finset.sum_congr rfl fun i _ => ?_
          have hS : 0 < (∑ j, Real.exp (f (b i).1 (b j).2)) / n := div_pos (Finset.sum_pos (fun j _ => Real.exp_pos _) Finset.univ_nonempty) hn'
          have e3 : (∑ j, h (b i, b j)) / n = (∑ j, Real.exp (f (b i).1 (b j).2)) / n * Real.exp (-Real.log (partner P f (b i).1)) := by
            rw [hh]
            simp only [sub_eq_add_neg, Real.exp_add]
            rw [← Finset.sum_mul]
            ring
          rw [e3, Real.log_mul hS.ne' (Real.exp_ne_zero _), Real.log_exp, Real.log_div (Real.exp_ne_zero _) hS.ne', Real.log_exp]
          ring
        rw [e1, e2]
        ring
  exact ⟨h1, h1.congr fun n hn x y => (infonce_backends f _ _ (by simp) (by simp; omega)).symm⟩

/-- The limit of InfoNCE is a Donsker-Varadhan bound for a shifted critic. -/
theorem infonce_value_eq (hf : Measurable fun p : X × Y => f p.1 p.2) (hP : Integrable (fun p : X × Y => f p.1 p.2) P)
    (hQ : Integrable (fun p : X × Y => f p.1 p.2) (P.fst.prod P.snd))
    (hE : Integrable (fun p : X × Y => Real.exp (f p.1 p.2)) (P.fst.prod P.snd)) :
    Integrable (fun p : X × Y => f p.1 p.2 - Real.log (partner P f p.1)) P ∧
    ∫ p, f p.1 p.2 ∂P - ∫ x, Real.log (∫ y, Real.exp (f x y) ∂P.snd) ∂P.fst
      = ∫ p, (f p.1 p.2 - Real.log (partner P f p.1)) ∂P - Real.log (∫ p, Real.exp (f p.1 p.2 - Real.log (partner P f p.1)) ∂(P.fst.prod P.snd)) := by
  obtain ⟨hm, hpos, hli⟩ := partner_facts hf hQ hE
  obtain ⟨s1, s2, s3⟩ := shifted_facts hf hQ hE
  have hl1 : Integrable (fun u : X × Y => Real.log (partner P f u.1)) P := by
    have : Integrable (fun x => Real.log (partner P f x)) (P.map Prod.fst) := hli
    exact this.comp_measurable measurable_fst
  have hl2 : ∫ u, Real.log (partner P f u.1) ∂P = ∫ x, Real.log (partner P f x) ∂P.fst :=
    (integral_map (μ := P) measurable_fst.aemeasurable (f := fun x => Real.log (partner P f x)) hm.log.aestronglyMeasurable).symm
  refine ⟨hP.sub hl1, ?_⟩
  rw [s3, Real.log_one, sub_zero, integral_sub hP hl1, hl2]
  rfl

/-- **C101** None of the limits exceeds the mutual information. -/
theorem limits_le_mi (hf : Measurable fun p : X × Y => f p.1 p.2) (hP : Integrable (fun p : X × Y => f p.1 p.2) P)
    (hQ : Integrable (fun p : X × Y => f p.1 p.2) (P.fst.prod P.snd))
    (hE : Integrable (fun p : X × Y => Real.exp (f p.1 p.2)) (P.fst.prod P.snd)) :
    ENNReal.ofReal (∫ p, f p.1 p.2 ∂P - Real.exp (-1) * ∫ p, Real.exp (f p.1 p.2) ∂(P.fst.prod P.snd)) ≤ mutualInfo P ∧
    ENNReal.ofReal (∫ p, f p.1 p.2 ∂P - Real.log (∫ p, Real.exp (f p.1 p.2) ∂(P.fst.prod P.snd))) ≤ mutualInfo P ∧
    ENNReal.ofReal (∫ p, f p.1 p.2 ∂P - ∫ x, Real.log (∫ y, Real.exp (f x y) ∂P.snd) ∂P.fst) ≤ mutualInfo P := by
  have hdv := donskerVaradhan_le_mi P f hP hE
  refine ⟨le_trans (ENNReal.ofReal_le_ofReal ?_) hdv, hdv, ?_⟩
  · have h0 : 0 < ∫ p, Real.exp (f p.1 p.2) ∂(P.fst.prod P.snd) := integral_exp_pos hE
    have h1 := Real.log_le_sub_one_of_pos (mul_pos (Real.exp_pos (-1)) h0)
    rw [Real.log_mul (Real.exp_ne_zero _) h0.ne', Real.log_exp] at h1
    linarith
  · obtain ⟨h1, h2⟩ := infonce_value_eq hf hP hQ hE
    rw [h2]
    exact donskerVaradhan_le_mi P (fun x y => f x y - Real.log (partner P f x)) h1 (shifted_facts hf hQ hE).2.1

variable {t : X → Y → ℝ}

theorem pmi_exp_integrable (h : IsPmi P t) : Integrable (fun p : X × Y => Real.exp (t p.1 p.2)) (P.fst.prod P.snd) := by
  have := ((pmi_weight_iff h (u := fun _ => (1 : ℝ))).1).1 (integrable_const _)
  simpa using this

/-- Given the first variable, the exponential of the pointwise mutual information averages to one. -/
theorem pmi_partner (h : IsPmi P t) (ht : Measurable fun p : X × Y => t p.1 p.2) : ∀ᵐ x ∂P.fst, partner P t x = 1 := by
  have hw : Measurable fun p : X × Y => ENNReal.ofReal (Real.exp (t p.1 p.2)) := (Real.measurable_exp.comp ht).ennreal_ofReal
  have h1 : (fun x => ∫⁻ y, ENNReal.ofReal (Real.exp (t x y)) ∂P.snd) =ᵐ[P.fst] fun _ => 1 := by
    refine ae_eq_of_forall_setLIntegral_eq_of_sigmaFinite hw.lintegral_prod_right' measurable_const fun A hA _ => ?_
    have h2 : P.fst A = P (A ×ˢ Set.univ) := by
      rw [Measure.fst_apply hA]
      congr 1
      ext z
      simp
    rw [setLIntegral_const, one_mul, h2]
    conv_rhs => rw [h.density]
    rw [withDensity_apply _ (hA.prod .univ), ← Measure.prod_restrict, Measure.restrict_univ, lintegral_prod _ hw.aemeasurable]
  filter_upwards [h1] with x hx
  unfold partner
  rw [integral_eq_lintegral_of_nonneg_ae (f := fun y => Real.exp (t x y)) (.of_forall fun y => (Real.exp_pos _).le)
    (Real.measurable_exp.comp (ht.comp measurable_prodMk_left)).aestronglyMeasurable, hx, ENNReal.toReal_one]

/-- **C101** The critics whose limits are the mutual information: `1 + pmi` for NWJ, `pmi` plus a constant for Donsker-Varadhan, and `pmi` plus
a function of the first variable for InfoNCE. -/
theorem limits_optimal (h : IsPmi P t) (ht : Measurable fun p : X × Y => t p.1 p.2) (hf : Measurable fun p : X × Y => f p.1 p.2)
    (hP : Integrable (fun p : X × Y => f p.1 p.2) P) (hQ : Integrable (fun p : X × Y => f p.1 p.2) (P.fst.prod P.snd))
    (hE : Integrable (fun p : X × Y => Real.exp (f p.1 p.2)) (P.fst.prod P.snd)) :
    (MeanConverges P (Linear.nwj f) (mutualInfo P).toReal ↔ ∀ᵐ p ∂(P.fst.prod P.snd), f p.1 p.2 = 1 + t p.1 p.2) ∧
    (MeanConverges P (Linear.donskerVaradhan f) (mutualInfo P).toReal ↔ ∃ c : ℝ, ∀ᵐ p ∂(P.fst.prod P.snd), f p.1 p.2 = t p.1 p.2 + c) ∧
    (MeanConverges P (Linear.infonce f) (mutualInfo P).toReal ↔
      ∃ c : X → ℝ, Measurable c ∧ ∀ᵐ p ∂(P.fst.prod P.snd), f p.1 p.2 = t p.1 p.2 + c p.1) := by
  have huniq : ∀ {q : List X → List Y → EReal} {a b : ℝ}, MeanConverges P q a → (MeanConverges P q b ↔ a = b) := fun {q a b} ha =>
    ⟨fun hb => tendsto_nhds_unique ha.expectation hb.expectation, fun e => e ▸ ha⟩
  refine ⟨(huniq (nwj_limit hf hP hE).1).trans (nwj_value_iff h hP hE),
    (huniq (donskerVaradhan_limit hf hP hQ hE).1).trans (dv_value_iff h hP hE), (huniq (infonce_limit hf hP hQ hE).1).trans ?_⟩
  obtain ⟨hm, hpos, -⟩ := partner_facts hf hQ hE
  obtain ⟨h1, h2⟩ := infonce_value_eq hf hP hQ hE
  rw [h2, dv_value_iff (f := fun x y => f x y - Real.log (partner P f x)) h h1 (shifted_facts hf hQ hE).2.1]
  constructor
  · rintro ⟨c, hc⟩
    refine ⟨fun x => Real.log (partner P f x) + c, hm.log.add measurable_const, ?_⟩
    filter_upwards [hc] with p hp
    linarith
  · rintro ⟨c, hcm, hc⟩
    refine ⟨0, ?_⟩
    have h3 : ∀ᵐ x ∂P.fst, Real.log (partner P f x) = c x := by
      filter_upwards [Measure.ae_ae_of_ae_prod hc, pmi_partner h ht] with x hx hx1
      have e : partner P f x = Real.exp (c x) * partner P t x := by
        unfold partner
        rw [← integral_const_mul]
        refine integral_congr_ae ?_
        filter_upwards [hx] with y hy
        rw [hy, Real.exp_add, mul_comm]
      rw [e, hx1, mul_one, Real.log_exp]
    have h4 : ∀ᵐ p ∂(P.fst.prod P.snd), Real.log (partner P f p.1) = c p.1 := Measure.quasiMeasurePreserving_fst.ae h3
    filter_upwards [hc, h4] with p hp hp'
    rw [hp, hp']
    ring

end General

/-- **C101** The same for the samples of a task: with a random key, the objective on `n` sampled pairs converges in probability. -/
theorem MeanConverges.sampler {Key : Type} [MeasurableSpace Key] {κ : Measure Key} {s : Sampler Key} {dx dy : ℕ}
    {P : Measure ((Fin dx → ℝ) × (Fin dy → ℝ))} [IsProbabilityMeasure P] (hs : Consistency.Draws κ s P)
    {q : List (Fin dx → ℝ) → List (Fin dy → ℝ) → EReal} {c : ℝ} (h : MeanConverges P q c) :
    ConvergesTo κ s (dx := dx) (dy := dy) (fun n x y v => q (List.ofFn x) (List.ofFn y) = ((v : ℝ) : EReal)) c := by
  refine converges_of_small hs fun δ hδ => ⟨_, h.probability hδ, .of_forall fun n z hz => ?_⟩
  simpa using hz

/-- Pairs of bits: on large batches the three objectives are close to the mutual information for the critics `1 + pmi`, `pmi + 7` and
`pmi` plus any function of the first bit. -/
example (c : Bool → ℝ) : MeanConverges agreeing (Linear.nwj fun x y => 1 + agreePmi x y) (mutualInfo agreeing).toReal ∧
    MeanConverges agreeing (Linear.donskerVaradhan fun x y => agreePmi x y + 7) (mutualInfo agreeing).toReal ∧
    MeanConverges agreeing (Linear.infonce fun x y => agreePmi x y + c x) (mutualInfo agreeing).toReal := by
  have h := fun f : Bool → Bool → ℝ => limits_optimal agreeing_pmi (f := f) (measurable_of_finite _) (measurable_of_finite _) .of_finite .of_finite
    .of_finite
  exact ⟨(h _).1.2 (.of_forall fun _ => rfl), (h _).2.1.2 ⟨7, .of_forall fun _ => rfl⟩,
    (h _).2.2.2 ⟨c, measurable_of_finite _, .of_forall fun _ => rfl⟩⟩

/-- A bounded critic on samples from a normal task. -/
example : ∃ s c, splitMultinormal tree 2 3 (rowsOf (1 : Matrix (Fin (2 + 3)) (Fin (2 + 3)) ℝ)) (some (List.ofFn fun _ : Fin (2 + 3) => 7)) = .ok s ∧
    ConvergesTo treeLaw s (dx := 2) (dy := 3) (fun n x y v =>
      Linear.infonce (fun a b => Real.sin (a 0 * b 1)) (List.ofFn x) (List.ofFn y) = ((v : ℝ) : EReal)) c := by
  obtain ⟨s, hs, hc⟩ := splitMultinormal_correct tree treeLaw tree_ideal 2 3 (by norm_num) (by norm_num) (fun _ => 7)
    (1 : Matrix (Fin (2 + 3)) (Fin (2 + 3)) ℝ) Matrix.PosDef.one
  haveI := hc.prob
  obtain ⟨h1, h2, h3⟩ := bounded_critic (splitNormal 2 3 (fun _ => 7) 1) (fun a b => Real.sin (a 0 * b 1)) (by fun_prop) 1
    (fun x y => Real.abs_sin_le_one _)
  exact ⟨s, _, hs, MeanConverges.sampler (fun n _ => hc.law n) (infonce_limit (by fun_prop) h1 h2 h3).1⟩

end BMI.Batch
