import Verif.Lemmas.BatchLog
import Verif.Spec.Kde

/-! Kernel averages at the points of a growing sample. -/

namespace BMI.Batch

open MeasureTheory ProbabilityTheory Filter Topology

variable {E : Type} [MeasurableSpace E] {P : Measure E} [IsProbabilityMeasure P]

section
variable {k : E × E → ℝ} (hk : Measurable k) (h0 : ∀ p, 0 < k p) (h1 : ∀ p, k p ≤ 1)
include hk h0 h1

theorem kernel_integrable (u : E) : Integrable (fun v => k (u, v)) P :=
  integrable_bdd (hk.comp (measurable_const.prodMk measurable_id)) (D := 1) fun v => by rw [abs_of_pos (h0 _)]; exact h1 _

theorem rowMean_pos (u : E) : 0 < rowMean P k u := by
  unfold rowMean
  rw [integral_pos_iff_support_of_nonneg (fun v => (h0 _).le) (kernel_integrable hk h0 h1 u)]
  have : Function.support (fun v => k (u, v)) = Set.univ := Set.eq_univ_of_forall fun v => (h0 _).ne'
  rw [this]
  simp

theorem rowMean_le_one (u : E) : rowMean P k u ≤ 1 := by
  have := integral_mono (kernel_integrable (P := P) hk h0 h1 u) (integrable_const (1 : ℝ)) fun v => h1 (u, v)
  simpa [rowMean] using this

/-- The mean of the kernel has an integrable logarithm if the kernel has. -/
theorem log_rowMean_integrable (hl : Integrable (fun p => Real.log (k p)) (P.prod P)) :
    Integrable (fun u => Real.log (rowMean P k u)) P := by
  have hr := hl.integral_prod_left
  refine Integrable.mono' hr.neg (measurable_rowMean hk).log.aestronglyMeasurable ?_
  filter_upwards [hl.prod_right_ae] with u hu
  have hj := ConvexOn.map_integral_le (μ := P) (g := Real.exp) (s := Set.univ) (f := fun v => Real.log (k (u, v))) convexOn_exp
    Real.continuous_exp.continuousOn isClosed_univ (by simp) hu (by
      refine (kernel_integrable (P := P) hk h0 h1 u).congr (.of_forall fun v => ?_)
      simp [Real.exp_log (h0 _)])
  simp only [Real.exp_log (h0 _)] at hj
  have hj' := Real.log_le_log (Real.exp_pos _) hj
  rw [Real.log_exp] at hj'
  have hn : Real.log (rowMean P k u) ≤ 0 := Real.log_nonpos (rowMean_pos hk h0 h1 u).le (rowMean_le_one hk h0 h1 u)
  rw [Real.norm_eq_abs, abs_of_nonpos hn]
  exact neg_le_neg hj'

/-- The average logarithm of the averages of a positive kernel tends to the mean logarithm of the mean of the kernel. -/
theorem rows_log_limit (hl : Integrable (fun p => Real.log (k p)) (P.prod P)) (hd : Integrable (fun u => Real.log (k (u, u))) P) :
    Small P fun n b => (∑ i, Real.log ((∑ j, k (b i, b j)) / n)) / n - ∫ u, Real.log (rowMean P k u) ∂P := by
  have hm := measurable_rowMean (P := P) hk
  have hp := rowMean_pos (P := P) hk h0 h1
  have hli := log_rowMean_integrable hk h0 h1 hl
  set h : E × E → ℝ := fun p => k p / rowMean P k p.1 with hh
  have hhm : Measurable h := hk.div (hm.comp measurable_fst)
  have hh0 : ∀ p, 0 < h p := fun p => div_pos (h0 p) (hp _)
  have hone : ∀ u, rowMean P h u = 1 := by
    intro u
    simp only [rowMean, hh]
    rw [integral_div]
    exact div_self (hp u).ne'
  have hi : Integrable h (P.prod P) := by
    refine (integrable_prod_iff hhm.aestronglyMeasurable).2 ⟨.of_forall fun u => ?_, ?_⟩
    · exact (kernel_integrable (P := P) hk h0 h1 u).div_const (rowMean P k u)
    · refine (integrable_const (1 : ℝ)).congr (.of_forall fun u => ?_)
      have := hone u
      simp only [rowMean] at this
      simp only [Real.norm_eq_abs, abs_of_pos (hh0 _)]
      exact this.symm
  have hlog : ∀ p, Real.log (h p) = Real.log (k p) - Real.log (rowMean P k p.1) := fun p =>
    Real.log_div (h0 p).ne' (hp _).ne'
  have hl' : Integrable (fun p => Real.log (h p)) (P.prod P) := by
    simp only [hlog]
    exact hl.sub (hli.comp_fst P)
  have hd' : Integrable (fun u => Real.log (h (u, u))) P := by
    simp only [hlog]
    exact hd.sub hli
  have s1 := rows_log_small hhm hh0 hi hl' hd' (.of_forall hone)
  have s2 := average_small hm.log hli
  refine (s1.add s2 fun n => ?_).congr ?_
  · exact (Finset.measurable_sum _ fun i _ => (measurable_row hhm i).log).div_const _
  · filter_upwards [eventually_gt_atTop 0] with n hn b
    have hn' : (0 : ℝ) < n := by exact_mod_cast hn
    rw [← add_sub_assoc, ← add_div, ← Finset.sum_add_distrib]
    congr 3
    funext i
    haveI : Nonempty (Fin n) := ⟨i⟩
    have hs : 0 < ∑ j, k (b i, b j) := Finset.sum_pos (fun j _ => h0 _) Finset.univ_nonempty
    simp only [hh]
    rw [← Finset.sum_div, div_right_comm, Real.log_div (by positivity) (hp _).ne']
    ring

end

end BMI.Batch
