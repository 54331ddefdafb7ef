import Verif.Lemmas.Maxcor

/-! Gebelein's inequality is strict for continuous functions which are not affine. -/

namespace BMI.Cca

open MeasureTheory ProbabilityTheory Filter Topology BMI.Gebelein BMI.Consistency BMI.Samplers BMI.Student BMI.Bmm Matrix

variable {f g : ℝ → ℝ} {a s t : ℝ}

/-! ## Bounded functions -/

/-- The mean of `f` at a normal variable given another one with correlation `a`. -/
noncomputable def pass (a : ℝ) (f : ℝ → ℝ) : ℝ → ℝ := blur a (√(1 - a ^ 2)) f

theorem unit_sqrt (ha : a ^ 2 ≤ 1) : a ^ 2 + √(1 - a ^ 2) ^ 2 = 1 := by rw [Real.sq_sqrt (by linarith)]; ring

theorem tame_pass (hf : Tame f) : Tame (pass a f) := by
  obtain ⟨M, hM⟩ := hf.2
  exact ⟨measurable_blur _ _ hf.1, M, abs_blur _ _ hM⟩

theorem pass_mean (ha : a ^ 2 ≤ 1) (hf : Tame f) : ∫ x, pass a f x ∂γ = ∫ x, f x ∂γ := by
  obtain ⟨M, hM⟩ := hf.2
  have h := integral_pair (a := a) (b := √(1 - a ^ 2)) (g := fun _ => 1) hf.1 hM measurable_const (integrable_const 1)
  simp only [one_mul] at h
  rw [mean_second (unit_sqrt ha) hf.1] at h
  exact h.symm

theorem cross_pass (ha : a ^ 2 ≤ 1) (hf : Tame f) (hg : Tame g) : cross f g a = cv γ f (pass a g) := by
  obtain ⟨M, hM⟩ := hg.2
  unfold cross
  rw [covariance_eq_sub (memLp_first hf.memLp) (memLp_second (unit_sqrt ha) hg.memLp), mean_first hf.1, mean_second (unit_sqrt ha) hg.1]
  have h := integral_pair (a := a) (b := √(1 - a ^ 2)) hg.1 hM hf.1 hf.integrable
  unfold cv
  rw [pass_mean ha hg]
  exact congrArg (fun c => c - (∫ x, f x ∂γ) * ∫ x, g x ∂γ) h

theorem var_pass_le (ha : a ^ 2 ≤ 1) (hg : Tame g) : cv γ (pass a g) (pass a g) ≤ a ^ 2 * cv γ g g := by
  have tp := tame_pass (a := a) hg
  have h := abs_cross_le ha tp.1 tp.memLp hg.1 hg.memLp
  rw [cross_pass ha tp hg, ← cv_self tp.memLp, ← cv_self hg.memLp] at h
  have n1 := cv_self_nonneg (μ := γ) tp
  have n2 := cv_self_nonneg (μ := γ) hg
  set V := cv γ (pass a g) (pass a g)
  set W := cv γ g g
  rw [abs_of_nonneg n1] at h
  have s1 := Real.sq_sqrt n1
  have s2 := Real.sq_sqrt n2
  rcases n1.eq_or_lt with e | e
  · rw [← e]; positivity
  · have r1 : √V ≤ |a| * √W := by
      have h1 : √V * √V ≤ |a| * √W * √V := by nlinarith
      exact le_of_mul_le_mul_right h1 (Real.sqrt_pos.2 e)
    have := pow_le_pow_left₀ (Real.sqrt_nonneg V) r1 2
    rw [mul_pow, sq_abs, s1, s2] at this
    exact this

theorem cross_turn (ha : a ^ 2 ≤ 1) (hf : Tame f) : cross f f (a ^ 2) = cv γ (pass a f) (pass a f) := by
  obtain ⟨M, hM⟩ := hf.2
  have h4 : (a ^ 2) ^ 2 ≤ 1 := pow_le_one₀ (sq_nonneg a) ha
  have e : √(1 - a ^ 2) * √(1 + a ^ 2) = √(1 - (a ^ 2) ^ 2) := by
    rw [← Real.sqrt_mul (by linarith)]
    congr 1
    ring
  have h := integral_blur_sq (unit_sqrt ha) hf.1 hM
  rw [e] at h
  rw [cross_pass h4 hf hf]
  unfold cv
  rw [pass_mean h4 hf, pass_mean ha hf]
  have h2 : ∫ x, pass a f x * pass a f x ∂γ = ∫ x, f x * pass (a ^ 2) f x ∂γ :=
    (integral_congr_ae (.of_forall fun x => (sq (pass a f x)).symm)).trans h
  rw [h2]

theorem pass_pass (hs : s ^ 2 ≤ 1) (ht : t ^ 2 < 1) (hf : Tame f) (x : ℝ) : pass s (pass t f) x = pass (s * t) f x := by
  obtain ⟨M, hM⟩ := hf.2
  have hs' := Real.sq_sqrt (show 0 ≤ 1 - s ^ 2 by linarith)
  have ht' := Real.sq_sqrt (show 0 ≤ 1 - t ^ 2 by linarith)
  have hst : (s * t) ^ 2 < 1 := by
    rw [mul_pow]
    nlinarith [sq_nonneg s, sq_nonneg t]
  set S := √(1 - s ^ 2)
  set U := √(1 - t ^ 2)
  unfold pass blur
  have hK2 := Real.sq_sqrt (show 0 ≤ 1 - (s * t) ^ 2 by linarith)
  have hK0 : 0 < √(1 - (s * t) ^ 2) := Real.sqrt_pos.2 (by linarith)
  set K := √(1 - (s * t) ^ 2)
  have h1 : (t * S / K) ^ 2 + (U / K) ^ 2 = 1 := by
    field_simp
    rw [hs', ht', hK2]
    ring
  conv_rhs => rw [← map_sum h1]
  have hm : Measurable fun p : ℝ × ℝ => f (t * (s * x + S * p.1) + U * p.2) := hf.1.comp (by fun_prop)
  have hm' : Measurable fun z : ℝ => f (s * t * x + K * z) := hf.1.comp (by fun_prop)
  rw [integral_map (by fun_prop) hm'.aestronglyMeasurable]
  have e : (fun p : ℝ × ℝ => f (s * t * x + K * (t * S / K * p.1 + U / K * p.2))) = fun p => f (t * (s * x + S * p.1) + U * p.2) := by
    funext p
    congr 1
    field_simp
    ring
  rw [e, integral_prod _ (.of_bound hm.aestronglyMeasurable M (.of_forall fun p => hM _))]

/-! ## Square integrable functions -/

theorem tame_clip (hf : Measurable f) (n : ℕ) : Tame fun x => clip n (f x) := ⟨(measurable_clip n).comp hf, n, fun _ => abs_clip_le n _⟩

theorem tendsto_cross (ha : a ^ 2 ≤ 1) (hf : Measurable f) (hf2 : MemLp f 2 γ) (hg : Measurable g) (hg2 : MemLp g 2 γ) :
    Tendsto (fun n => cross (fun x => clip n (f x)) (fun x => clip n (g x)) a) atTop (𝓝 (cross f g a)) := by
  have m2 : Measurable fun p : ℝ × ℝ => g (a * p.1 + √(1 - a ^ 2) * p.2) := hg.comp (by fun_prop)
  have h := tendsto_cv (hf.comp measurable_fst) m2 (memLp_first hf2) (memLp_second (unit_sqrt ha) hg2)
  unfold cross
  rw [cv_eq (memLp_first hf2) (memLp_second (unit_sqrt ha) hg2)]
  refine h.congr fun n => ?_
  exact (cv_eq (memLp_first (tame_clip hf n).memLp) (memLp_second (unit_sqrt ha) (tame_clip hg n).memLp)).symm

theorem tendsto_var (hf : Measurable f) (hf2 : MemLp f 2 γ) :
    Tendsto (fun n => Var[fun x => clip n (f x); γ]) atTop (𝓝 Var[f; γ]) := by
  have h := tendsto_cv hf hf hf2 hf2
  rw [cv_self hf2] at h
  exact h.congr fun n => cv_self (tame_clip hf n).memLp

/-- Passing through one more variable. -/
theorem cross_sq_le (ha : a ^ 2 ≤ 1) (hf : Measurable f) (hf2 : MemLp f 2 γ) (hg : Measurable g) (hg2 : MemLp g 2 γ) :
    cross f g a ^ 2 ≤ Var[f; γ] * cross g g (a ^ 2) := by
  have h4 : (a ^ 2) ^ 2 ≤ 1 := pow_le_one₀ (sq_nonneg a) ha
  refine le_of_tendsto_of_tendsto ((tendsto_cross ha hf hf2 hg hg2).pow 2) ((tendsto_var hf hf2).mul (tendsto_cross h4 hg hg2 hg hg2))
    (.of_forall fun n => ?_)
  have tf := tame_clip hf n
  have tg := tame_clip hg n
  simp only
  rw [cross_pass ha tf tg, cross_turn ha tg, cv_self (tame_pass tg).memLp, ← cv_eq tf.memLp (tame_pass tg).memLp]
  exact sq_cov_le tf.memLp (tame_pass tg).memLp

theorem cross_mul_le (hs0 : 0 ≤ s) (hs : s ≤ 1) (ht0 : 0 ≤ t) (ht : t < 1) (hf : Measurable f) (hf2 : MemLp f 2 γ) :
    cross f f (s * t) ≤ s * cross f f t := by
  have q1 : √s ^ 2 = s := Real.sq_sqrt hs0
  have q2 : √t ^ 2 = t := Real.sq_sqrt ht0
  have hst : s * t ≤ 1 := by nlinarith
  refine le_of_tendsto_of_tendsto (tendsto_cross (pow_le_one₀ (mul_nonneg hs0 ht0) hst) hf hf2 hf hf2)
    ((tendsto_cross (pow_le_one₀ ht0 ht.le) hf hf2 hf hf2).const_mul s) (.of_forall fun n => ?_)
  have tf := tame_clip hf n
  have e1 : (√s * √t) ^ 2 = s * t := by rw [mul_pow, q1, q2]
  have h1 := cross_turn (a := √s * √t) (by rw [e1]; exact hst) tf
  have h2 := cross_turn (a := √t) (by rw [q2]; exact ht.le) tf
  rw [e1] at h1
  rw [q2] at h2
  simp only
  rw [h1, h2]
  have h3 := var_pass_le (a := √s) (by rw [q1]; exact hs) (tame_pass (a := √t) tf)
  rw [q1] at h3
  have e2 : pass (√s) (pass (√t) fun x => clip n (f x)) = pass (√s * √t) fun x => clip n (f x) :=
    funext fun x => pass_pass (by rw [q1]; exact hs) (by rw [q2]; exact ht) tf x
  rw [e2] at h3
  exact h3

/-! ## Second differences -/

/-- Four sums of two out of four variables. -/
noncomputable def mixing : Matrix (Fin 4) (Fin 4) ℝ := (√(1 / 2)) • !![1, 1, 0, 0; 0, 1, 1, 0; 1, 0, 0, 1; 0, 0, 1, 1]

/-- Their covariances. -/
noncomputable def mixed : Matrix (Fin 4) (Fin 4) ℝ := !![1, 1 / 2, 1 / 2, 0; 1 / 2, 1, 0, 1 / 2; 1 / 2, 0, 1, 1 / 2; 0, 1 / 2, 1 / 2, 1]

theorem mixing_sq : mixing * mixing.transpose = mixed := by
  have h : √(1 / 2 : ℝ) * √(1 / 2) = 1 / 2 := Real.mul_self_sqrt (by norm_num)
  unfold mixing mixed
  rw [Matrix.transpose_smul, Matrix.smul_mul, Matrix.mul_smul, smul_smul, h]
  ext i j
  rw [Matrix.smul_apply, Matrix.mul_apply, Fin.sum_univ_four]
  have v2 : ∀ a b c d : ℝ, ![a, b, c, d] 2 = c := fun _ _ _ _ => rfl
  have v3 : ∀ a b c d : ℝ, ![a, b, c, d] 3 = d := fun _ _ _ _ => rfl
  fin_cases i <;> fin_cases j <;> norm_num [Matrix.transpose_apply, v2, v3]

theorem mixed_psd : mixed.PosSemidef := by
  rw [← mixing_sq]
  simpa using Matrix.posSemidef_self_mul_conjTranspose mixing

/-- The signs of the second difference. -/
def signs : Fin 4 → ℝ := ![1, -1, -1, 1]

theorem second_diff (hg : Measurable g) (hg2 : MemLp g 2 γ) :
    Var[fun w : Fin 4 → ℝ => ∑ i, signs i * g ((mixing *ᵥ w) i); stdNormal 4] = 4 * Var[g; γ] - 8 * cross g g (1 / 2) := by
  have hl := normalLaw_cholesky mixing_sq 0
  have mm : Measurable fun w : Fin 4 → ℝ => (0 : Fin 4 → ℝ) + mixing *ᵥ w := by
    have : Continuous fun w : Fin 4 → ℝ => (0 : Fin 4 → ℝ) + mixing *ᵥ w := by fun_prop
    exact this.measurable
  have hd : ∀ i, mixed i i = 1 := fun i => by fin_cases i <;> rfl
  haveI := normalLaw_prob (0 : Fin 4 → ℝ) mixed
  have hL : ∀ i, MemLp (fun z : Fin 4 → ℝ => g (z i)) 2 (normalLaw 0 mixed) := fun i => (memLp_coord mixed_psd (hd i) hg).2 hg2
  have hm : Measurable fun z : Fin 4 → ℝ => ∑ i, signs i * g (z i) :=
    Finset.measurable_sum _ fun i _ => (hg.comp (measurable_pi_apply i)).const_mul _
  have e1 : Var[fun w : Fin 4 → ℝ => ∑ i, signs i * g ((mixing *ᵥ w) i); stdNormal 4] = Var[fun z : Fin 4 → ℝ => ∑ i, signs i * g (z i); normalLaw 0 mixed] := by
    rw [← hl, variance_map hm.aemeasurable mm.aemeasurable]
    congr 1
    funext w
    simp
  have hb : ∀ i j, mixed i j ^ 2 ≤ 1 := fun i j => by
    fin_cases i <;> fin_cases j <;> norm_num [mixed]
  have e2 : (Matrix.of fun i j => cov[fun z : Fin 4 → ℝ => g (z i), fun z => g (z j); normalLaw 0 mixed]) = Matrix.of fun i j => cross g g (mixed i j) := by
    ext i j
    exact cov_coords mixed_psd (hd i) (hd j) (hb i j) hg hg
  rw [e1, var_comb hL signs, e2]
  have c1 : cross g g 1 = Var[g; γ] := by
    have h := cov_coords mixed_psd (hd 0) (hd 0) (hb 0 0) hg hg
    rw [covariance_self (hL 0).aemeasurable, var_coord mixed_psd (hd 0) hg, hd 0] at h
    exact h.symm
  have c0 : cross g g 0 = 0 := cross_zero hg hg2 hg hg2
  simp [signs, dotProduct, Matrix.mulVec, Fin.sum_univ_four, mixed, c1, c0]
  ring

theorem half_lt (hg : Continuous g) (hg2 : MemLp g 2 γ) {x y : ℝ} (hxy : g (x + y) + g 0 ≠ g x + g y) : cross g g (1 / 2) < Var[g; γ] / 2 := by
  by_contra hc
  have hv := second_diff hg.measurable hg2
  set D := fun w : Fin 4 → ℝ => ∑ i, signs i * g ((mixing *ᵥ w) i) with hD
  have h0 : Var[D; stdNormal 4] = 0 := le_antisymm (by rw [hv]; linarith [not_lt.1 hc]) (variance_nonneg _ _)
  have hcont : Continuous D := by
    rw [hD]
    refine continuous_finset_sum _ fun i _ => (hg.comp ?_).const_mul _
    have : Continuous fun w : Fin 4 → ℝ => mixing *ᵥ w := by fun_prop
    exact (continuous_apply i).comp this
  have hL : MemLp D 2 (stdNormal 4) := by
    have hl := normalLaw_cholesky mixing_sq 0
    have mm : Measurable fun w : Fin 4 → ℝ => (0 : Fin 4 → ℝ) + mixing *ᵥ w := by
      have : Continuous fun w : Fin 4 → ℝ => (0 : Fin 4 → ℝ) + mixing *ᵥ w := by fun_prop
      exact this.measurable
    have hd : ∀ i, mixed i i = 1 := fun i => by fin_cases i <;> rfl
    refine memLp_finsetSum _ fun i _ => MemLp.const_mul ?_ _
    have h := (memLp_coord mixed_psd (hd i) hg.measurable).2 hg2
    have mi : Measurable fun z : Fin 4 → ℝ => g (z i) := hg.measurable.comp (measurable_pi_apply i)
    rw [← hl, memLp_map_measure_iff mi.aestronglyMeasurable mm.aemeasurable] at h
    refine h.ae_eq (.of_forall fun w => ?_)
    simp
  haveI := γ_open
  haveI : (stdNormal 4).IsOpenPosMeasure := by unfold stdNormal; infer_instance
  have h1 := ae_eq_integral_of_variance_eq_zero hL h0
  have h2 := (Continuous.ae_eq_iff_eq (stdNormal 4) hcont (continuous_const (y := ∫ w, D w ∂(stdNormal 4)))).1 h1
  have hr : √(1 / 2 : ℝ) * √2 = 1 := by
    rw [← Real.sqrt_mul (by norm_num)]
    norm_num
  have e1 : D ![√2 * x, √2 * y, 0, 0] = g (x + y) - g y - g x + g 0 := by
    have q : (1 : ℝ) / √2 = √(1 / 2) := by rw [Real.sqrt_div (by norm_num), Real.sqrt_one]
    have k : ∀ c : ℝ, √(1 / 2 : ℝ) * (√2 * c) = c := fun c => by rw [← mul_assoc, hr, one_mul]
    have k2 : √(1 / 2 : ℝ) * (√2 * x + √2 * y) = x + y := by rw [mul_add, k, k]
    rw [hD]
    simp only [Fin.sum_univ_four, mixing, signs, Matrix.smul_mulVec, Pi.smul_apply, smul_eq_mul]
    simp [Matrix.mulVec, dotProduct, Fin.sum_univ_four, -one_div]
    rw [q, k2, k, k]
    ring
  have e2 : D 0 = 0 := by
    rw [hD]
    simp only [Fin.sum_univ_four, Matrix.mulVec_zero, Pi.zero_apply, signs]
    simp
  have h3 : D ![√2 * x, √2 * y, 0, 0] = D 0 := by rw [h2]
  rw [e1, e2] at h3
  exact hxy (by linarith)

/-! ## The inequality is strict -/

theorem cross_lt (h0 : a ≠ 0) (ha : a ^ 2 < 1) (hf : Measurable f) (hf2 : MemLp f 2 γ) (vf : 0 < Var[f; γ]) (hg : Continuous g) (hg2 : MemLp g 2 γ)
    {x y : ℝ} (hxy : g (x + y) + g 0 ≠ g x + g y) : cross f g a ^ 2 < a ^ 2 * (Var[f; γ] * Var[g; γ]) := by
  by_contra hc
  have mg := hg.measurable
  have vg : 0 < Var[g; γ] := by
    by_cases h : g (x + y) = g x
    · exact var_pos_of_continuous hg hg2 (x := 0) (y := y) fun e => hxy (by rw [h, e])
    · exact var_pos_of_continuous hg hg2 h
  have h1 := cross_sq_le ha.le hf hf2 mg hg2
  have b0 : a ^ 2 * Var[g; γ] ≤ cross g g (a ^ 2) := by
    have : a ^ 2 * Var[g; γ] * Var[f; γ] ≤ cross g g (a ^ 2) * Var[f; γ] := by linarith [not_lt.1 hc]
    exact le_of_mul_le_mul_right this vf
  have p0 : 0 < a ^ 2 := by positivity
  have bn : ∀ n : ℕ, (a ^ 2) ^ 2 ^ n * Var[g; γ] ≤ cross g g ((a ^ 2) ^ 2 ^ n) := fun n => by
    induction n with
    | zero => simpa using b0
    | succ n ih =>
      set c := (a ^ 2) ^ 2 ^ n with hc
      have c0 : 0 < c := by positivity
      have c1 : c ≤ 1 := pow_le_one₀ p0.le ha.le
      have e : (a ^ 2) ^ 2 ^ (n + 1) = c ^ 2 := by rw [hc, pow_succ 2 n, pow_mul (a ^ 2) (2 ^ n) 2]
      rw [e]
      have h2 := cross_sq_le (a := c) (pow_le_one₀ c0.le c1) mg hg2 mg hg2
      have h3 : (c * Var[g; γ]) ^ 2 ≤ cross g g c ^ 2 := pow_le_pow_left₀ (by positivity) ih 2
      have h4 : c ^ 2 * Var[g; γ] * Var[g; γ] ≤ cross g g (c ^ 2) * Var[g; γ] := by nlinarith
      exact le_of_mul_le_mul_right h4 vg
  obtain ⟨n, hn⟩ : ∃ n : ℕ, (a ^ 2) ^ 2 ^ n ≤ 1 / 2 := by
    obtain ⟨m, hm⟩ := exists_pow_lt_of_lt_one (show (0 : ℝ) < 1 / 2 by norm_num) ha
    exact ⟨m, (pow_le_pow_of_le_one p0.le ha.le Nat.lt_two_pow_self.le).trans hm.le⟩
  set c := (a ^ 2) ^ 2 ^ n with hcd
  have c0 : 0 < c := by positivity
  have h5 := cross_mul_le (s := 2 * c) (t := 1 / 2) (by positivity) (by linarith) (by norm_num) (by norm_num) mg hg2
  rw [show 2 * c * (1 / 2) = c by ring] at h5
  have h6 := half_lt hg hg2 hxy
  have h7 := bn n
  nlinarith

end BMI.Cca
