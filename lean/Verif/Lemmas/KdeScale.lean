import Verif.Lemmas.BatchLimit
import Verif.Model.ProductSpace
import Mathlib.Probability.Moments.Variance

/-! Standard deviations of the columns of a growing sample. -/

namespace BMI.Batch

open MeasureTheory ProbabilityTheory Filter Topology BMI.PSpace

variable {E : Type} [MeasurableSpace E] {P : Measure E} [IsProbabilityMeasure P]

/-- Sets of samples whose probability vanishes as the samples grow. -/
def Rare (P : Measure E) (B : (n : ℕ) → Set (Fin n → E)) : Prop := Tendsto (fun n => (Measure.pi fun _ : Fin n => P) (B n)) atTop (𝓝 0)

theorem Rare.mono {B C : (n : ℕ) → Set (Fin n → E)} (h : Rare P B) (hle : ∀ᶠ n in atTop, C n ⊆ B n) : Rare P C :=
  tendsto_of_tendsto_of_tendsto_of_le_of_le' tendsto_const_nhds h (.of_forall fun _ => bot_le) (hle.mono fun n hn => measure_mono hn)

theorem Rare.union {B C : (n : ℕ) → Set (Fin n → E)} (h : Rare P B) (h' : Rare P C) : Rare P fun n => B n ∪ C n := by
  have := Tendsto.add h h'
  rw [add_zero] at this
  exact tendsto_of_tendsto_of_tendsto_of_le_of_le tendsto_const_nhds this (fun _ => bot_le) fun n => measure_union_le _ _

theorem Rare.iUnion {ι : Type} [Fintype ι] {B : ι → (n : ℕ) → Set (Fin n → E)} (h : ∀ c, Rare P (B c)) : Rare P fun n => ⋃ c, B c n := by
  have := tendsto_finsetSum (Finset.univ : Finset ι) fun c _ => h c
  simp only [Finset.sum_const_zero] at this
  refine tendsto_of_tendsto_of_tendsto_of_le_of_le tendsto_const_nhds this (fun _ => bot_le) fun n => ?_
  exact (measure_iUnion_le _).trans (by rw [tsum_fintype])

theorem colVar_eq {n : ℕ} (hn : 0 < n) (c : Fin n → ℝ) : colVar c = (∑ i, c i ^ 2) / n - ((∑ i, c i) / n) ^ 2 := by
  have hn' : (n : ℝ) ≠ 0 := by exact_mod_cast hn.ne'
  unfold colVar colMean
  set M := (∑ i, c i) / n with hM
  have hs : ∑ i, c i = n * M := by rw [hM]; field_simp
  have : ∑ i, (c i - M) ^ 2 = ∑ i, c i ^ 2 - n * M ^ 2 := by
    simp only [sub_sq, Finset.sum_add_distrib, Finset.sum_sub_distrib, Finset.sum_const, Finset.card_univ, Fintype.card_fin, nsmul_eq_mul]
    rw [← Finset.sum_mul, ← Finset.mul_sum, hs]
    ring
  rw [this]
  field_simp

/-- The variance of a column tends to the variance of the law. -/
theorem var_rare {f : E → ℝ} (hf : Measurable f) (hL : MemLp f 2 P) {η : ℝ} (hη : 0 < η) :
    Rare P fun n => {b | ¬ |colVar (fun i => f (b i)) - Var[f; P]| < η} := by
  have i1 : Integrable f P := hL.integrable one_le_two
  have i2 : Integrable (fun x => f x ^ 2) P := hL.integrable_sq
  set A := ∫ x, f x ^ 2 ∂P with hA
  set M := ∫ x, f x ∂P with hM
  have hv : Var[f; P] = A - M ^ 2 := by rw [variance_eq_sub hL]; rfl
  have hc : ContinuousAt (fun p : ℝ × ℝ => p.1 - p.2 ^ 2) (A, M) := by fun_prop
  obtain ⟨ρ, hρ, hb⟩ := Metric.continuousAt_iff.1 hc η hη
  have s1 := (average_small (P := P) (hf.pow_const 2) i2).prob (fun n => ((Finset.measurable_sum _ fun i _ =>
    (hf.pow_const 2).comp (measurable_pi_apply i)).div_const _).sub_const _) hρ
  have s2 := (average_small (P := P) hf i1).prob (fun n => ((Finset.measurable_sum _ fun i _ =>
    hf.comp (measurable_pi_apply i)).div_const _).sub_const _) hρ
  refine (Rare.union (P := P) s1 s2).mono ?_
  filter_upwards [eventually_gt_atTop 0] with n hn b hb'
  by_contra hcon
  simp only [Set.mem_union, Set.mem_setOf_eq, not_or, not_not] at hcon
  refine hb' ?_
  rw [colVar_eq hn, hv]
  have := @hb ((∑ i, f (b i) ^ 2) / n, (∑ i, f (b i)) / n) (by
    rw [Prod.dist_eq, max_lt_iff, Real.dist_eq, Real.dist_eq]
    exact ⟨hcon.1, hcon.2⟩)
  rwa [Real.dist_eq] at this

/-- So do the standard deviations, and columns of positive variance are finally not taken to be constant. -/
theorem std_rare {f : E → ℝ} (hf : Measurable f) (hL : MemLp f 2 P) (hv : 0 < Var[f; P]) {η : ℝ} (hη : 0 < η) :
    Rare P fun n => {b | ¬ (¬ flagged 0 (fun i => f (b i)) ∧ √Var[f; P] * (1 - η) ≤ √(colVar fun i => f (b i)) ∧
      √(colVar fun i => f (b i)) ≤ √Var[f; P] * (1 + η))} := by
  have hs : 0 < √Var[f; P] := Real.sqrt_pos.2 hv
  obtain ⟨ρ, hρ, hb⟩ := Metric.continuousAt_iff.1 (Real.continuous_sqrt.continuousAt (x := Var[f; P])) (√Var[f; P] * η) (by positivity)
  refine (var_rare hf hL (lt_min hρ hv)).mono (.of_forall fun n b hb' => ?_)
  by_contra hcon
  simp only [Set.mem_setOf_eq, not_not] at hcon
  obtain ⟨h1, h2⟩ := lt_min_iff.1 hcon
  have h3 := @hb (colVar fun i => f (b i)) (by rwa [Real.dist_eq])
  rw [Real.dist_eq, abs_lt] at h3
  refine hb' ⟨?_, by linarith [h3.1], by linarith [h3.2]⟩
  unfold flagged
  simp only [mul_zero, zero_mul]
  rw [abs_lt] at h2
  norm_num
  linarith [h2.1]

end BMI.Batch
