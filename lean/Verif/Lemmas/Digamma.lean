import Verif.Lemmas.StudentMI
import Mathlib.Analysis.SpecialFunctions.Gamma.BohrMollerup
import Mathlib.Analysis.SpecialFunctions.Gamma.Deriv

/-! The digamma function on the positive reals, and the entropy of Student-t laws with many degrees of freedom. -/

namespace BMI.Samplers

open Filter Topology

private noncomputable abbrev L (x : ℝ) : ℝ := Real.log (Real.Gamma x)

private noncomputable abbrev ψ (x : ℝ) : ℝ := logDeriv Real.Gamma x

theorem hasDerivAt_logGamma {x : ℝ} (hx : 0 < x) :
    HasDerivAt (fun x => Real.log (Real.Gamma x)) (logDeriv Real.Gamma x) x := by
  have hd := (Real.differentiableAt_Gamma (s := x) fun m => by
    have : (0 : ℝ) ≤ m := Nat.cast_nonneg m
    linarith).hasDerivAt
  have := hd.log (Real.Gamma_pos_of_pos hx).ne'
  rwa [← logDeriv_apply] at this

theorem logGamma_add_one {x : ℝ} (hx : 0 < x) : L (x + 1) = L x + Real.log x := by
  show Real.log _ = Real.log _ + _
  rw [Real.Gamma_add_one hx.ne', Real.log_mul hx.ne' (Real.Gamma_pos_of_pos hx).ne', add_comm]

theorem digamma_add_one {x : ℝ} (hx : 0 < x) : ψ (x + 1) = ψ x + 1 / x := by
  have h1 : HasDerivAt (fun y : ℝ => L (y + 1)) (ψ (x + 1)) x :=
    (hasDerivAt_logGamma (x := x + 1) (by linarith)).comp_add_const x 1
  have h2 : HasDerivAt (fun y : ℝ => L y + Real.log y) (ψ x + x⁻¹) x :=
    (hasDerivAt_logGamma hx).add (Real.hasDerivAt_log hx.ne')
  have h3 : (fun y : ℝ => L (y + 1)) =ᶠ[𝓝 x] fun y => L y + Real.log y := by
    filter_upwards [lt_mem_nhds hx] with y hy using logGamma_add_one hy
  rw [one_div]
  exact h1.unique (h2.congr_of_eventuallyEq h3)

/-- Convexity of `log Γ`. -/
theorem logGamma_bounds {a s : ℝ} (ha : 0 < a) (hs : 0 ≤ s) : s * ψ a ≤ L (a + s) - L a ∧ L (a + s) - L a ≤ s * ψ (a + s) := by
  rcases hs.eq_or_lt with rfl | hs
  · simp
  have hc := Real.convexOn_log_Gamma
  have hlt : a < a + s := by linarith
  have h1 := hc.le_slope_of_hasDerivAt (x := a) (y := a + s) ha (by show 0 < a + s; linarith) hlt (hasDerivAt_logGamma ha)
  have h2 := hc.slope_le_of_hasDerivAt (x := a) (y := a + s) ha (by show 0 < a + s; linarith) hlt
    (hasDerivAt_logGamma (by linarith))
  rw [slope_def_field, show a + s - a = s by ring] at h1 h2
  rw [le_div_iff₀ hs] at h1
  rw [div_le_iff₀ hs] at h2
  simp only [Function.comp_apply] at h1 h2
  constructor
  · rw [mul_comm]; exact h1
  · rw [mul_comm]; exact h2

theorem digamma_le_log {x : ℝ} (hx : 0 < x) : ψ x ≤ Real.log x := by
  have := (logGamma_bounds hx zero_le_one).1
  rw [logGamma_add_one hx] at this
  linarith

theorem log_le_digamma {x : ℝ} (hx : 1 < x) : Real.log (x - 1) ≤ ψ x := by
  have := (logGamma_bounds (a := x - 1) (by linarith) zero_le_one).2
  rw [logGamma_add_one (by linarith), sub_add_cancel] at this
  linarith

theorem digamma_mono {a s : ℝ} (ha : 0 < a) (hs : 0 ≤ s) : ψ a ≤ ψ (a + s) := by
  rcases hs.eq_or_lt with rfl | hs
  · simp
  have := logGamma_bounds ha hs.le
  exact le_of_mul_le_mul_left (this.1.trans this.2) hs

theorem tendsto_log_ratio (b c : ℝ) : Tendsto (fun x : ℝ => Real.log (x + b) - Real.log (x + c)) atTop (𝓝 0) := by
  have h : Tendsto (fun x : ℝ => (x + b) / (x + c)) atTop (𝓝 1) := by
    have h1 : Tendsto (fun x : ℝ => 1 + (b - c) / (x + c)) atTop (𝓝 (1 + 0)) :=
      tendsto_const_nhds.add (tendsto_const_nhds.div_atTop (tendsto_atTop_add_const_right _ c tendsto_id))
    rw [add_zero] at h1
    refine h1.congr' ?_
    filter_upwards [eventually_gt_atTop (-c)] with x hx
    have : x + c ≠ 0 := by linarith
    field_simp
    ring
  have h2 := h.log one_ne_zero
  rw [Real.log_one] at h2
  refine h2.congr' ?_
  filter_upwards [eventually_gt_atTop (-c), eventually_gt_atTop (-b)] with x h3 h4
  rw [Real.log_div (by linarith) (by linarith)]

theorem tendsto_digamma_diff {s : ℝ} (hs : 0 ≤ s) : Tendsto (fun x => ψ (x + s) - ψ x) atTop (𝓝 0) := by
  refine tendsto_of_tendsto_of_tendsto_of_le_of_le' tendsto_const_nhds (tendsto_log_ratio s (-1)) ?_ ?_
  · filter_upwards [eventually_gt_atTop 0] with x hx
    have := digamma_mono hx hs
    linarith
  · filter_upwards [eventually_gt_atTop 1] with x hx
    have h1 := digamma_le_log (x := x + s) (by linarith)
    have h2 := log_le_digamma hx
    rw [← sub_eq_add_neg]
    linarith

/-- A function that decreases along `a, a + 1, ...` to zero is non-negative. -/
theorem nonneg_of_step {E : ℝ → ℝ} {a : ℝ} (hstep : ∀ x, a ≤ x → E (x + 1) ≤ E x) (h0 : Tendsto E atTop (𝓝 0)) :
    0 ≤ E a := by
  have hn : ∀ n : ℕ, E (a + n) ≤ E a := by
    intro n
    induction n with
    | zero => simp
    | succ n ih =>
      have := hstep (a + n) (by have : (0 : ℝ) ≤ n := Nat.cast_nonneg n
                                linarith)
      push_cast
      rw [← add_assoc]
      linarith
  have ht : Tendsto (fun n : ℕ => E (a + n)) atTop (𝓝 0) :=
    h0.comp (tendsto_atTop_add_const_left _ a tendsto_natCast_atTop_atTop)
  exact le_of_tendsto ht (.of_forall hn)

theorem digamma_diff_lower {a s : ℝ} (ha : 0 < a) (hs : 0 ≤ s) : s / (a + s) ≤ ψ (a + s) - ψ a := by
  have := nonneg_of_step (E := fun x => ψ (x + s) - ψ x - s / (x + s)) (a := a) (fun x hx => ?_) ?_
  · simpa using this
  · have hx0 : 0 < x := by linarith
    have e1 := digamma_add_one hx0
    have e2 := digamma_add_one (x := x + s) (by linarith)
    rw [show x + s + 1 = x + 1 + s by ring] at e2
    simp only [e1, e2]
    have : s / (x + s) ≤ s / (x + 1 + s) + (1 / x - 1 / (x + s)) := by
      have k : s / (x + 1 + s) + (1 / x - 1 / (x + s)) - s / (x + s)
          = s * (1 + s) / (x * (x + s) * (x + 1 + s)) := by
        field_simp
        ring
      have : 0 ≤ s * (1 + s) / (x * (x + s) * (x + 1 + s)) := by positivity
      linarith
    linarith
  · have := (tendsto_digamma_diff hs).sub
      ((tendsto_const_nhds (x := s)).div_atTop (tendsto_atTop_add_const_right _ s tendsto_id))
    simpa using this

theorem digamma_diff_upper {a s : ℝ} (ha : 1 < a) (hs : 0 ≤ s) : ψ (a + s) - ψ a ≤ s / (a - 1) := by
  have := nonneg_of_step (E := fun x => s / (x - 1) - (ψ (x + s) - ψ x)) (a := a) (fun x hx => ?_) ?_
  · simpa using this
  · have hx0 : 0 < x - 1 := by linarith
    have hx1 : 0 < x := by linarith
    have e1 := digamma_add_one hx1
    have e2 := digamma_add_one (x := x + s) (by linarith)
    rw [show x + s + 1 = x + 1 + s by ring] at e2
    simp only [e1, e2, add_sub_cancel_right]
    have k : s / (x - 1) - s / x - (1 / x - 1 / (x + s)) = s * (1 + s) / ((x - 1) * x * (x + s)) := by
      field_simp
      ring
    have : 0 ≤ s * (1 + s) / ((x - 1) * x * (x + s)) := by positivity
    linarith
  · have := ((tendsto_const_nhds (x := s)).div_atTop (tendsto_atTop_add_const_right _ (-1 : ℝ) tendsto_id)).sub
      (tendsto_digamma_diff hs)
    simpa [← sub_eq_add_neg] using this

/-- The entropy of a standard Student-t law tends to that of a standard normal law. -/
theorem tendsto_studentEntropy (k : ℕ) :
    Tendsto (studentEntropy k) atTop (𝓝 (k / 2 * (1 + Real.log (2 * Real.pi)))) := by
  let s : ℝ := k / 2
  have hs : 0 ≤ s := by positivity
  have t1 : Tendsto (fun a => L (a + s) - L a - s * Real.log a) atTop (𝓝 0) := by
    have l := (tendsto_log_ratio (-1) 0).const_mul s
    have u := (tendsto_log_ratio s 0).const_mul s
    simp only [mul_zero, add_zero] at l u
    refine tendsto_of_tendsto_of_tendsto_of_le_of_le' l u ?_ ?_
    · filter_upwards [eventually_gt_atTop 1] with a ha
      have h1 := (logGamma_bounds (a := a) (by linarith) hs).1
      have h2 := mul_le_mul_of_nonneg_left (log_le_digamma ha) hs
      rw [← sub_eq_add_neg]
      linarith
    · filter_upwards [eventually_gt_atTop 0] with a ha
      have h1 := (logGamma_bounds ha hs).2
      have h2 := mul_le_mul_of_nonneg_left (digamma_le_log (x := a + s) (by linarith)) hs
      linarith
  have t2 : Tendsto (fun a => (a + s) * (ψ (a + s) - ψ a)) atTop (𝓝 s) := by
    have u : Tendsto (fun a : ℝ => s + s * (s + 1) / (a - 1)) atTop (𝓝 (s + 0)) :=
      tendsto_const_nhds.add (tendsto_const_nhds.div_atTop (tendsto_atTop_add_const_right _ (-1 : ℝ) tendsto_id))
    rw [add_zero] at u
    refine tendsto_of_tendsto_of_tendsto_of_le_of_le' tendsto_const_nhds u ?_ ?_
    · filter_upwards [eventually_gt_atTop 0] with a ha
      have := digamma_diff_lower ha hs
      have hp : 0 < a + s := by linarith
      rwa [div_le_iff₀ hp, mul_comm] at this
    · filter_upwards [eventually_gt_atTop 1] with a ha
      have := mul_le_mul_of_nonneg_left (digamma_diff_upper ha hs) (show 0 ≤ a + s by linarith)
      refine this.trans (le_of_eq ?_)
      have : a - 1 ≠ 0 := by linarith
      field_simp
      ring
  have t3 : Tendsto (fun a => -(L (a + s) - L a - s * Real.log a) + s * Real.log (2 * Real.pi)
      + (a + s) * (ψ (a + s) - ψ a)) atTop (𝓝 (-0 + s * Real.log (2 * Real.pi) + s)) :=
    (t1.neg.add tendsto_const_nhds).add t2
  have t4 := t3.comp (tendsto_id.atTop_div_const (show (0 : ℝ) < 2 by norm_num))
  have e : -0 + s * Real.log (2 * Real.pi) + s = k / 2 * (1 + Real.log (2 * Real.pi)) := by
    simp only [s]
    ring
  rw [e] at t4
  refine t4.congr' ?_
  filter_upwards [eventually_gt_atTop 0] with ν hν
  have e1 : ν / 2 + s = (ν + k) / 2 := by
    simp only [s]
    ring
  have e2 : Real.log (ν * Real.pi) = Real.log (ν / 2) + Real.log (2 * Real.pi) := by
    rw [← Real.log_mul (by positivity) (by positivity)]
    congr 1
    ring
  simp only [Function.comp_apply, id, e1, studentEntropy, e2, s]
  ring

/-- The correction vanishes in the limit. -/
theorem tendsto_correction (dx dy : ℕ) :
    Tendsto (fun ν => studentEntropy dx ν + studentEntropy dy ν - studentEntropy (dx + dy) ν) atTop (𝓝 0) := by
  have := ((tendsto_studentEntropy dx).add (tendsto_studentEntropy dy)).sub (tendsto_studentEntropy (dx + dy))
  convert this using 2
  push_cast
  ring

end BMI.Samplers
