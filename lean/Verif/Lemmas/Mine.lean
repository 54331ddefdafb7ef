import Verif.Model.Mine
import Verif.Spec.Mine
import Mathlib.Analysis.SpecialFunctions.Log.ENNRealLogExp
import Mathlib.Analysis.SpecialFunctions.Log.Deriv
import Mathlib.Analysis.SpecialFunctions.ExpDeriv
import Mathlib.Analysis.Calculus.FDeriv.Add
import Mathlib.Analysis.Calculus.FDeriv.Mul
import Mathlib.Tactic.Ring
import Mathlib.Tactic.FieldSimp
import Mathlib.Tactic.Positivity

/-! Lemmas for MINE. -/

namespace BMI.Mine

open BMI.NeuralData BMI.Training BMI.Mine.Spec

variable {Θ X Y Key O S : Type} [NormedAddCommGroup Θ] [NormedSpace ℝ Θ]

theorem scores_eq (T : X → Y → ℝ) (xs : List X) (ys : List Y) :
    scores T xs ys = (xs.zip ys).map fun p => T p.1 p.2 := by
  rw [scores, List.zip, List.map_zipWith]

theorem mean_scores (T : X → Y → ℝ) (xs : List X) (ys : List Y) : mean (scores T xs ys) = avgPairs T xs ys := by
  rw [mean, scores_eq, avgPairs, List.length_map]

theorem sum_exp_pos {vs : List ℝ} (h : vs ≠ []) : 0 < (vs.map Real.exp).sum := by
  refine List.sum_pos _ (fun x hx => ?_) (by simpa using h)
  obtain ⟨y, -, rfl⟩ := List.mem_map.1 hx
  exact Real.exp_pos y

theorem batchDenom_pos (T : X → Y → ℝ) {xs : List X} {ys : List Y} (h : xs.zip ys ≠ []) :
    0 < batchDenom T xs ys := by
  unfold batchDenom avgPairs
  have h1 : (0 : ℝ) < ((xs.zip ys).length : ℝ) := by
    have := List.length_pos_iff.2 h
    exact_mod_cast this
  have h2 := sum_exp_pos (vs := scores T xs ys) (by rw [scores_eq]; simpa using h)
  rw [scores_eq, List.map_map] at h2
  exact div_pos h2 h1

theorem logmeanexp_eq (T : X → Y → ℝ) {xs : List X} {ys : List Y} (h : xs.zip ys ≠ []) :
    logmeanexp (scores T xs ys) = Real.log (batchDenom T xs ys) := by
  have h1 : (0 : ℝ) < ((xs.zip ys).length : ℝ) := by
    have := List.length_pos_iff.2 h
    exact_mod_cast this
  have h2 := sum_exp_pos (vs := scores T xs ys) (by rw [scores_eq]; simpa using h)
  unfold logmeanexp batchDenom avgPairs
  rw [scores_eq] at h2 ⊢
  rw [List.map_map] at h2 ⊢
  rw [List.length_map, ← Real.log_div h2.ne' h1.ne']
  rfl

theorem exp_jnpLog_add (a : ℝ) (c : EReal) : EReal.exp (jnpLog a + c) = ENNReal.ofReal a * EReal.exp c := by
  rw [jnpLog, EReal.exp_add, ENNReal.exp_log]

theorem exp_logaddexp (a b : EReal) : EReal.exp (logaddexp a b) = EReal.exp a + EReal.exp b := by
  rw [logaddexp, ENNReal.exp_log]

/-- The three outputs, with the denominators written out. -/
theorem valueNegGradLogDenom_eq (f : Θ → X → Y → ℝ) (θ : Θ) (xs : List X) (yp yu : List Y) (c : EReal) (α : ℝ) :
    valueNegGradLogDenom f θ xs yp yu c α =
      (mineValue (f θ) xs yp yu,
       (EReal.exp ((logmeanexp (scores (f θ) xs yu) : ℝ) - (valueNegGradLogDenom f θ xs yp yu c α).2.2)).toReal •
          fderiv ℝ (fun t => logmeanexp (scores (f t) xs yu)) θ - fderiv ℝ (fun t => mean (scores (f t) xs yp)) θ,
       logaddexp (jnpLog α + c) (jnpLog (1 - α) + (logmeanexp (scores (f θ) xs yu) : ℝ))) := rfl

theorem logDenom_exp (f : Θ → X → Y → ℝ) (θ : Θ) (xs : List X) (yp yu : List Y) (c : EReal) (α : ℝ)
    (h : xs.zip yu ≠ []) :
    EReal.exp (valueNegGradLogDenom f θ xs yp yu c α).2.2 =
      ENNReal.ofReal α * EReal.exp c + ENNReal.ofReal (1 - α) * ENNReal.ofReal (batchDenom (f θ) xs yu) := by
  rw [valueNegGradLogDenom_eq]
  simp only
  rw [exp_logaddexp, exp_jnpLog_add, exp_jnpLog_add, EReal.exp_coe, logmeanexp_eq _ h,
    Real.exp_log (batchDenom_pos _ h)]

theorem ema_append (α : ℝ) (bs : List ℝ) (b : ℝ) : ema α (bs ++ [b]) = α * ema α bs + (1 - α) * b := by
  unfold ema
  have hl : (bs ++ [b]).length = bs.length + 1 := by simp
  rw [← Fintype.sum_equiv (finCongr hl.symm) (fun i : Fin (bs.length + 1) =>
    (1 - α) * α ^ (bs.length + 1 - 1 - i.val) * (bs ++ [b])[i.val]'(by omega)) _ (by intro i; simp)]
  rw [Fin.sum_univ_castSucc]
  simp only [Fin.val_castSucc, Fin.val_last, Nat.add_sub_cancel, Nat.sub_self, pow_zero, mul_one]
  congr 1
  · rw [Finset.mul_sum]
    refine Finset.sum_congr rfl fun i _ => ?_
    rw [List.getElem_append_left i.2, show bs.length - i.val = (bs.length - 1 - i.val) + 1 by omega, pow_succ]
    simp only [Fin.getElem_fin]
    ring
  · simp

theorem ema_nonneg {α : ℝ} (h0 : 0 ≤ α) (h1 : α ≤ 1) {bs : List ℝ} (hb : ∀ b ∈ bs, 0 ≤ b) : 0 ≤ ema α bs := by
  unfold ema
  refine Finset.sum_nonneg fun i _ => ?_
  have := hb bs[i] (List.getElem_mem _)
  have : 0 ≤ 1 - α := by linarith
  positivity

theorem ema_pos {α : ℝ} (h0 : 0 ≤ α) (h1 : α < 1) {bs : List ℝ} (hb : ∀ b ∈ bs, 0 < b) (hne : bs ≠ []) :
    0 < ema α bs := by
  rw [← List.dropLast_append_getLast hne, ema_append]
  have h2 := ema_nonneg h0 h1.le (bs := bs.dropLast) fun b h => (hb b (List.dropLast_subset _ h)).le
  have h3 := hb _ (List.getLast_mem hne)
  have : 0 < 1 - α := by linarith
  positivity

/-- Derivative of the denominators. -/
theorem differentiableAt_avgPairs {g : Θ → X → Y → ℝ} {θ : Θ} {xs : List X} {ys : List Y}
    (hg : ∀ p ∈ xs.zip ys, DifferentiableAt ℝ (fun t => g t p.1 p.2) θ) :
    DifferentiableAt ℝ (fun t => avgPairs (g t) xs ys) θ := by
  have hs : ∀ l : List (X × Y), (∀ p ∈ l, DifferentiableAt ℝ (fun t => g t p.1 p.2) θ) →
      DifferentiableAt ℝ (fun t => (l.map fun p => g t p.1 p.2).sum) θ := by
    intro l hl
    induction l with
    | nil => simp
    | cons p l ih =>
      simp only [List.map_cons, List.sum_cons]
      exact (hl p (by simp)).add (ih fun q hq => hl q (by simp [hq]))
  unfold avgPairs
  simp only [div_eq_mul_inv]
  exact (hs _ hg).mul_const _

theorem fderiv_lme {f : Θ → X → Y → ℝ} {θ : Θ} {xs : List X} {ys : List Y} (h : xs.zip ys ≠ [])
    (hf : ∀ p ∈ xs.zip ys, DifferentiableAt ℝ (fun t => f t p.1 p.2) θ) :
    fderiv ℝ (fun t => logmeanexp (scores (f t) xs ys)) θ =
      (batchDenom (f θ) xs ys)⁻¹ • fderiv ℝ (fun t => batchDenom (f t) xs ys) θ := by
  have h1 : (fun t => logmeanexp (scores (f t) xs ys)) = fun t => Real.log (batchDenom (f t) xs ys) := by
    funext t; exact logmeanexp_eq _ h
  rw [h1, fderiv.log (f := fun t => batchDenom (f t) xs ys) ?_ (batchDenom_pos _ h).ne']
  exact differentiableAt_avgPairs (g := fun t x y => Real.exp (f t x y)) fun p hp => (hf p hp).exp

end BMI.Mine
