import Verif.Spec.Registry
import Mathlib.Analysis.Complex.ExponentialBounds
import Mathlib.Analysis.Real.Pi.Bounds

/-! The mutual information of each task of the benchmark is positive. -/

namespace BMI.Registry

theorem lt_log_of_exp {x y : ℝ} (hy : 0 < y) (h : Real.exp x < y) : 0 < Real.log y - x :=
  sub_pos.2 ((Real.lt_log_iff_exp_lt hy).2 h)

theorem log_lt_of_exp {x y : ℝ} (hy : 0 < y) (h : y < Real.exp x) : 0 < x - Real.log y :=
  sub_pos.2 ((Real.log_lt_iff_lt_exp hy).2 h)

theorem exp_nat_lt (n : ℕ) (hn : n ≠ 0) : Real.exp n < 2.7182818286 ^ n := by
  rw [← mul_one (n : ℝ), Real.exp_nat_mul]
  exact pow_lt_pow_left₀ Real.exp_one_lt_d9 (Real.exp_pos 1).le hn

theorem lt_exp_nat (n : ℕ) (hn : n ≠ 0) : 2.7182818283 ^ n < Real.exp n := by
  rw [← mul_one (n : ℝ), Real.exp_nat_mul]
  exact pow_lt_pow_left₀ Real.exp_one_gt_d9 (by norm_num) hn

theorem student11_pos : 0 < Real.log (8 * Real.pi) - 3 := by
  refine lt_log_of_exp (by positivity) ?_
  have h := exp_nat_lt 3 (by norm_num)
  push_cast at h
  have : (2.7182818286 : ℝ) ^ 3 < 8 * 3.14 := by norm_num
  linarith [Real.pi_gt_d2]

theorem student21_pos : 0 < Real.log 3 - 2 / 3 := by
  refine lt_log_of_exp (by positivity) ?_
  have h := Real.exp_one_lt_d9
  have : Real.exp (2 / 3) ≤ Real.exp 1 := Real.exp_le_exp.2 (by norm_num)
  linarith

theorem student22_pos : 0 < Real.log 2 - 1 / 2 := by
  linarith [Real.log_two_gt_d9]

theorem student32_pos : 0 < 6 - Real.log (96 * Real.pi) := by
  refine log_lt_of_exp (by positivity) ?_
  have h := lt_exp_nat 6 (by norm_num)
  push_cast at h
  have : (96 * 3.15 : ℝ) < 2.7182818283 ^ 6 := by norm_num
  linarith [Real.pi_lt_d2]

theorem student33_pos : 0 < Real.log (3360 * Real.pi) - 318 / 35 := by
  refine lt_log_of_exp (by positivity) ?_
  have h := exp_nat_lt 9 (by norm_num)
  push_cast at h
  have h1 : Real.exp (318 / 35) ≤ Real.exp 9 * (10 / 9) := by
    have : Real.exp (318 / 35) ≤ Real.exp (9 + 1 / 10) := Real.exp_le_exp.2 (by norm_num)
    rw [Real.exp_add] at this
    refine this.trans (mul_le_mul_of_nonneg_left ?_ (Real.exp_pos 9).le)
    have h2 := Real.add_one_le_exp (-(1 / 10) : ℝ)
    rw [Real.exp_neg] at h2
    have h3 : (Real.exp (1 / 10))⁻¹ ≥ 9 / 10 := by linarith
    have h4 := Real.exp_pos (1 / 10 : ℝ)
    rw [ge_iff_le, le_inv_comm₀ (by norm_num) h4] at h3
    linarith [show (9 / 10 : ℝ)⁻¹ = 10 / 9 by norm_num]
  have : (2.7182818286 : ℝ) ^ 9 * (10 / 9) < 3360 * 3.14 := by norm_num
  nlinarith [Real.pi_gt_d2]

theorem student52_pos : 0 < 233 / 30 - Real.log (480 * Real.pi) := by
  refine log_lt_of_exp (by positivity) ?_
  have h := lt_exp_nat 7 (by norm_num)
  push_cast at h
  have h1 : Real.exp 7 * (53 / 30) ≤ Real.exp (233 / 30) := by
    rw [show (233 / 30 : ℝ) = 7 + 23 / 30 by norm_num, Real.exp_add]
    refine mul_le_mul_of_nonneg_left ?_ (Real.exp_pos 7).le
    linarith [Real.add_one_le_exp (23 / 30 : ℝ)]
  have : (480 * 3.15 : ℝ) < 2.7182818283 ^ 7 * (53 / 30) := by norm_num
  nlinarith [Real.pi_lt_d2]

theorem student53_pos : 0 < Real.log (147840 * Real.pi) - 44179 / 3465 := by
  refine lt_log_of_exp (by positivity) ?_
  have h := exp_nat_lt 13 (by norm_num)
  push_cast at h
  have h1 : Real.exp (44179 / 3465) ≤ Real.exp 13 := Real.exp_le_exp.2 (by norm_num)
  have : (2.7182818286 : ℝ) ^ 13 < 147840 * 3.14 := by norm_num
  linarith [Real.pi_gt_d2]

theorem facts_pos : ∀ f ∈ facts, 0 < f.1 ∧ 0 < f.2.1 ∧ 0 < f.2.2 := by
  have hl : ∀ x : ℝ, 1 < x → 0 < Real.log x := fun x => Real.log_pos
  have hh : ∀ x : ℝ, 1 < x → 0 < 1 / 2 * Real.log x := fun x hx => by have := hl x hx; positivity
  have h5 := hl 5 (by norm_num)
  simp only [facts, List.forall_mem_cons, List.not_mem_nil, false_imp_iff, implies_true, and_true]
  refine ⟨?_, ?_, ?_, ?_, ?_, ?_, ?_, ?_, ?_, ?_, ?_, ?_, ?_, ?_, ?_, ?_, ?_, ?_, ?_, ?_, ?_, ?_, ?_, ?_, ?_, ?_, ?_, ?_, ?_, ?_,
    ?_, ?_, ?_, ?_, ?_, ?_, ?_, ?_, ?_, ?_⟩
  all_goals
    refine ⟨by norm_num, by norm_num, ?_⟩
    first
    | exact student11_pos
    | exact student21_pos
    | exact student22_pos
    | exact student32_pos
    | exact student33_pos
    | exact student52_pos
    | exact student53_pos
    | exact hh _ (by norm_num)
    | exact hl _ (by norm_num)
    | positivity
    | linarith

end BMI.Registry
