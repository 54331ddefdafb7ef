import Verif.Lemmas.StudentMI
import Verif.Lemmas.Digamma
import Mathlib.NumberTheory.Harmonic.GammaDeriv

/-! Closed forms of the mutual information of Student-t vectors with the identity dispersion. -/

namespace BMI.Samplers

open Real

/-- The logarithmic derivative of the Gamma function. -/
private noncomputable abbrev ψ (x : ℝ) : ℝ := logDeriv Real.Gamma x

private theorem ψ_one : ψ 1 = -eulerMascheroniConstant := by
  have h := hasDerivAt_Gamma_one.deriv
  simp only [ψ, logDeriv_apply, h, Gamma_one, div_one]

private theorem ψ_half : ψ (1 / 2) = -eulerMascheroniConstant - 2 * log 2 := by
  have h := hasDerivAt_Gamma_one_half.deriv
  have hp : √π ≠ 0 := by positivity
  simp only [ψ, logDeriv_apply, h, Gamma_one_half_eq]
  field_simp
  ring

private theorem lg_succ {x y : ℝ} (hx : 0 < x) (h : y = x + 1) : log (Gamma y) = log x + log (Gamma x) := by
  rw [h, Gamma_add_one hx.ne', log_mul hx.ne' (Gamma_pos_of_pos hx).ne']

private theorem ψ_succ {x y : ℝ} (hx : 0 < x) (h : y = x + 1) : ψ y = ψ x + 1 / x := by
  rw [h]
  exact digamma_add_one hx

private theorem lg_one : log (Gamma 1) = 0 := by rw [Gamma_one, log_one]

private theorem lg_half : log (Gamma (1 / 2)) = log π / 2 := by rw [Gamma_one_half_eq, log_sqrt pi_pos.le]

private theorem l3 : log (3 / 2) = (-1) * log 2 + (1) * log 3 := by
  rw [log_div (by norm_num) (by norm_num)]
  ring

private theorem l5 : log (5 / 2) = (-1) * log 2 + (1) * log 5 := by
  rw [log_div (by norm_num) (by norm_num)]
  ring

private theorem l7 : log (7 / 2) = (-1) * log 2 + (1) * log 7 := by
  rw [log_div (by norm_num) (by norm_num)]
  ring

private theorem l8 : log 4 = (2) * log 2 := by
  rw [show (4 : ℝ) = 2 * 2 by norm_num, log_mul (by norm_num) (by norm_num)]
  ring

private theorem l9 : log (9 / 2) = (-1) * log 2 + (2) * log 3 := by
  rw [log_div (by norm_num) (by norm_num), show (9 : ℝ) = 3 * 3 by norm_num, log_mul (by norm_num) (by norm_num)]
  ring

private theorem l11 : log (11 / 2) = (-1) * log 2 + (1) * log 11 := by
  rw [log_div (by norm_num) (by norm_num)]
  ring

private theorem lg_3 : log (Gamma (3 / 2)) = (-1) * log 2 + log π / 2 := by
  rw [lg_succ (x := (1 / 2)) (by norm_num) (by norm_num), show log (1 / 2 : ℝ) = -log 2 by rw [one_div, log_inv], lg_half]
  ring

private theorem ψ_3 : ψ (3 / 2) = -eulerMascheroniConstant + 2 - 2 * log 2 := by
  rw [ψ_succ (x := (1 / 2)) (by norm_num) (by norm_num), ψ_half]
  ring

private theorem lg_4 : log (Gamma 2) = 0 := by
  rw [lg_succ (x := 1) (by norm_num) (by norm_num), log_one, lg_one]
  ring

private theorem ψ_4 : ψ 2 = -eulerMascheroniConstant + 1 := by
  rw [ψ_succ (x := 1) (by norm_num) (by norm_num), ψ_one]
  ring

private theorem lg_5 : log (Gamma (5 / 2)) = (-2) * log 2 + (1) * log 3 + log π / 2 := by
  rw [lg_succ (x := (3 / 2)) (by norm_num) (by norm_num), l3, lg_3]
  ring

private theorem ψ_5 : ψ (5 / 2) = -eulerMascheroniConstant + 8/3 - 2 * log 2 := by
  rw [ψ_succ (x := (3 / 2)) (by norm_num) (by norm_num), ψ_3]
  ring

private theorem lg_6 : log (Gamma 3) = (1) * log 2 := by
  rw [lg_succ (x := 2) (by norm_num) (by norm_num), lg_4]
  ring

private theorem ψ_6 : ψ 3 = -eulerMascheroniConstant + 3/2 := by
  rw [ψ_succ (x := 2) (by norm_num) (by norm_num), ψ_4]
  ring

private theorem lg_7 : log (Gamma (7 / 2)) = (-3) * log 2 + (1) * log 3 + (1) * log 5 + log π / 2 := by
  rw [lg_succ (x := (5 / 2)) (by norm_num) (by norm_num), l5, lg_5]
  ring

private theorem ψ_7 : ψ (7 / 2) = -eulerMascheroniConstant + 46/15 - 2 * log 2 := by
  rw [ψ_succ (x := (5 / 2)) (by norm_num) (by norm_num), ψ_5]
  ring

private theorem lg_8 : log (Gamma 4) = (1) * log 2 + (1) * log 3 := by
  rw [lg_succ (x := 3) (by norm_num) (by norm_num), lg_6]
  ring

private theorem ψ_8 : ψ 4 = -eulerMascheroniConstant + 11/6 := by
  rw [ψ_succ (x := 3) (by norm_num) (by norm_num), ψ_6]
  ring

private theorem lg_9 : log (Gamma (9 / 2)) = (-4) * log 2 + (1) * log 3 + (1) * log 5 + (1) * log 7 + log π / 2 := by
  rw [lg_succ (x := (7 / 2)) (by norm_num) (by norm_num), l7, lg_7]
  ring

private theorem ψ_9 : ψ (9 / 2) = -eulerMascheroniConstant + 352/105 - 2 * log 2 := by
  rw [ψ_succ (x := (7 / 2)) (by norm_num) (by norm_num), ψ_7]
  ring

private theorem lg_10 : log (Gamma 5) = (3) * log 2 + (1) * log 3 := by
  rw [lg_succ (x := 4) (by norm_num) (by norm_num), l8, lg_8]
  ring

private theorem ψ_10 : ψ 5 = -eulerMascheroniConstant + 25/12 := by
  rw [ψ_succ (x := 4) (by norm_num) (by norm_num), ψ_8]
  ring

private theorem lg_11 : log (Gamma (11 / 2)) = (-5) * log 2 + (3) * log 3 + (1) * log 5 + (1) * log 7 + log π / 2 := by
  rw [lg_succ (x := (9 / 2)) (by norm_num) (by norm_num), l9, lg_9]
  ring

private theorem ψ_11 : ψ (11 / 2) = -eulerMascheroniConstant + 1126/315 - 2 * log 2 := by
  rw [ψ_succ (x := (9 / 2)) (by norm_num) (by norm_num), ψ_9]
  ring

private theorem lg_12 : log (Gamma 6) = (3) * log 2 + (1) * log 3 + (1) * log 5 := by
  rw [lg_succ (x := 5) (by norm_num) (by norm_num), lg_10]
  ring

private theorem ψ_12 : ψ 6 = -eulerMascheroniConstant + 137/60 := by
  rw [ψ_succ (x := 5) (by norm_num) (by norm_num), ψ_10]
  ring

private theorem lg_13 : log (Gamma (13 / 2)) = (-6) * log 2 + (3) * log 3 + (1) * log 5 + (1) * log 7 + (1) * log 11 + log π / 2 := by
  rw [lg_succ (x := (11 / 2)) (by norm_num) (by norm_num), l11, lg_11]
  ring

private theorem ψ_13 : ψ (13 / 2) = -eulerMascheroniConstant + 13016/3465 - 2 * log 2 := by
  rw [ψ_succ (x := (11 / 2)) (by norm_num) (by norm_num), ψ_11]
  ring

/-- The mutual information between the first `d` and the last `d` coordinates of a Student-t vector with the identity dispersion
and `ν` degrees of freedom. -/
noncomputable def studentNumber (d : ℕ) (ν : ℝ) : ℝ := studentEntropy d ν + studentEntropy d ν - studentEntropy (d + d) ν

private theorem number_eq (d n : ℕ) {a b c : ℝ} (hn : 0 < n) (ha : a = n / 2) (hb : b = (n + d : ℝ) / 2) (hc : c = (n + 2 * d : ℝ) / 2) :
    studentNumber d n = log (Gamma a) - 2 * log (Gamma b) + log (Gamma c) + 2 * b * ψ b - c * ψ c - a * ψ a := by
  subst ha hb hc
  unfold studentNumber studentEntropy
  push_cast
  rw [show (n + (d + d) : ℝ) / 2 = (n + 2 * d) / 2 by ring]
  ring

theorem studentNumber_1_1 : studentNumber 1 1 = log (8 * π) - 3 := by
  have h := number_eq 1 1 (a := (1 / 2)) (b := 1) (c := (3 / 2)) (by norm_num) (by norm_num) (by norm_num) (by norm_num)
  rw [lg_half, lg_one, lg_3, ψ_half, ψ_one, ψ_3] at h
  rw [show studentNumber 1 1 = studentNumber 1 ((1 : ℕ) : ℝ) by norm_num, h]
  have e : log (8 * π) = (3) * log 2 + log π := by
    rw [log_mul (by norm_num) pi_ne_zero, show (8 : ℝ) = 2 ^ 3 by norm_num]
    simp only [log_pow]
    push_cast
    ring
  rw [e]
  ring

theorem studentNumber_2_1 : studentNumber 2 1 = log 3 - 2 / 3 := by
  have h := number_eq 2 1 (a := (1 / 2)) (b := (3 / 2)) (c := (5 / 2)) (by norm_num) (by norm_num) (by norm_num) (by norm_num)
  rw [lg_half, lg_3, lg_5, ψ_half, ψ_3, ψ_5] at h
  rw [show studentNumber 2 1 = studentNumber 2 ((1 : ℕ) : ℝ) by norm_num, h]
  ring

theorem studentNumber_2_2 : studentNumber 2 2 = log 2 - 1 / 2 := by
  have h := number_eq 2 2 (a := 1) (b := 2) (c := 3) (by norm_num) (by norm_num) (by norm_num) (by norm_num)
  rw [lg_one, lg_4, lg_6, ψ_one, ψ_4, ψ_6] at h
  rw [show studentNumber 2 2 = studentNumber 2 ((2 : ℕ) : ℝ) by norm_num, h]
  ring

theorem studentNumber_3_2 : studentNumber 3 2 = 6 - log (96 * π) := by
  have h := number_eq 3 2 (a := 1) (b := (5 / 2)) (c := 4) (by norm_num) (by norm_num) (by norm_num) (by norm_num)
  rw [lg_one, lg_5, lg_8, ψ_one, ψ_5, ψ_8] at h
  rw [show studentNumber 3 2 = studentNumber 3 ((2 : ℕ) : ℝ) by norm_num, h]
  have e : log (96 * π) = (5) * log 2 + (1) * log 3 + log π := by
    rw [log_mul (by norm_num) pi_ne_zero, show (96 : ℝ) = 2 ^ 5 * 3 ^ 1 by norm_num, log_mul (by norm_num) (by norm_num)]
    simp only [log_pow]
    push_cast
    ring
  rw [e]
  ring

theorem studentNumber_3_3 : studentNumber 3 3 = log (3360 * π) - 318 / 35 := by
  have h := number_eq 3 3 (a := (3 / 2)) (b := 3) (c := (9 / 2)) (by norm_num) (by norm_num) (by norm_num) (by norm_num)
  rw [lg_3, lg_6, lg_9, ψ_3, ψ_6, ψ_9] at h
  rw [show studentNumber 3 3 = studentNumber 3 ((3 : ℕ) : ℝ) by norm_num, h]
  have e : log (3360 * π) = (5) * log 2 + (1) * log 3 + (1) * log 5 + (1) * log 7 + log π := by
    rw [log_mul (by norm_num) pi_ne_zero, show (3360 : ℝ) = 2 ^ 5 * 3 ^ 1 * 5 ^ 1 * 7 ^ 1 by norm_num, log_mul (by norm_num) (by norm_num), log_mul (by norm_num) (by norm_num), log_mul (by norm_num) (by norm_num)]
    simp only [log_pow]
    push_cast
    ring
  rw [e]
  ring

theorem studentNumber_5_2 : studentNumber 5 2 = 233 / 30 - log (480 * π) := by
  have h := number_eq 5 2 (a := 1) (b := (7 / 2)) (c := 6) (by norm_num) (by norm_num) (by norm_num) (by norm_num)
  rw [lg_one, lg_7, lg_12, ψ_one, ψ_7, ψ_12] at h
  rw [show studentNumber 5 2 = studentNumber 5 ((2 : ℕ) : ℝ) by norm_num, h]
  have e : log (480 * π) = (5) * log 2 + (1) * log 3 + (1) * log 5 + log π := by
    rw [log_mul (by norm_num) pi_ne_zero, show (480 : ℝ) = 2 ^ 5 * 3 ^ 1 * 5 ^ 1 by norm_num, log_mul (by norm_num) (by norm_num), log_mul (by norm_num) (by norm_num)]
    simp only [log_pow]
    push_cast
    ring
  rw [e]
  ring

theorem studentNumber_5_3 : studentNumber 5 3 = log (147840 * π) - 44179 / 3465 := by
  have h := number_eq 5 3 (a := (3 / 2)) (b := 4) (c := (13 / 2)) (by norm_num) (by norm_num) (by norm_num) (by norm_num)
  rw [lg_3, lg_8, lg_13, ψ_3, ψ_8, ψ_13] at h
  rw [show studentNumber 5 3 = studentNumber 5 ((3 : ℕ) : ℝ) by norm_num, h]
  have e : log (147840 * π) = (7) * log 2 + (1) * log 3 + (1) * log 5 + (1) * log 7 + (1) * log 11 + log π := by
    rw [log_mul (by norm_num) pi_ne_zero, show (147840 : ℝ) = 2 ^ 7 * 3 ^ 1 * 5 ^ 1 * 7 ^ 1 * 11 ^ 1 by norm_num, log_mul (by norm_num) (by norm_num), log_mul (by norm_num) (by norm_num), log_mul (by norm_num) (by norm_num), log_mul (by norm_num) (by norm_num)]
    simp only [log_pow]
    push_cast
    ring
  rw [e]
  ring

end BMI.Samplers
