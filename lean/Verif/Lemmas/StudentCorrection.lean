import Verif.Lemmas.Digamma
import Mathlib.Analysis.Calculus.Deriv.MeanValue

/-! The correction term of a Student-t law as a function of the degrees of freedom and of the dimensions. -/

namespace BMI.Samplers

open Filter Topology Set

/-- `x ψ(x) - log Γ(x)`. -/
private noncomputable def g (x : ℝ) : ℝ := x * logDeriv Real.Gamma x - Real.log (Real.Gamma x)

/-- The second difference of `g`. -/
private noncomputable def r (x : ℝ) : ℝ := 1 / (x + 1) - (Real.log (x + 1) - Real.log x)

private theorem g_second {x : ℝ} (hx : 0 < x) : g (x + 1 + 1) - 2 * g (x + 1) + g x = r x := by
  have hx1 : 0 < x + 1 := by linarith
  have a1 : Real.log (Real.Gamma (x + 1)) = Real.log (Real.Gamma x) + Real.log x := logGamma_add_one hx
  have a2 : Real.log (Real.Gamma (x + 1 + 1)) = Real.log (Real.Gamma (x + 1)) + Real.log (x + 1) := logGamma_add_one hx1
  have b1 : logDeriv Real.Gamma (x + 1) = logDeriv Real.Gamma x + 1 / x := digamma_add_one hx
  have b2 : logDeriv Real.Gamma (x + 1 + 1) = logDeriv Real.Gamma (x + 1) + 1 / (x + 1) := digamma_add_one hx1
  simp only [g, r, a1, a2, b1, b2]
  field_simp
  ring

/-- The correction in terms of `g`. -/
private noncomputable def corr (a b x : ℝ) : ℝ := g (x + a) + g (x + b) - g (x + a + b) - g x

private theorem corr_eq (m n : ℕ) (ν : ℝ) :
    studentEntropy m ν + studentEntropy n ν - studentEntropy (m + n) ν = corr (m / 2) (n / 2) (ν / 2) := by
  have e1 : ν / 2 + (m : ℝ) / 2 = (ν + m) / 2 := by ring
  have e2 : ν / 2 + (n : ℝ) / 2 = (ν + n) / 2 := by ring
  have e3 : (ν + m) / 2 + (n : ℝ) / 2 = (ν + ((m + n : ℕ) : ℝ)) / 2 := by push_cast; ring
  simp only [studentEntropy, corr, g, e1, e2, e3]
  push_cast
  ring

/-- If the derivative increases then so do the increments. -/
private theorem strictMono_increment {f f1 : ℝ → ℝ} (hf : ∀ x, 0 < x → HasDerivAt f (f1 x) x)
    (h1 : StrictMonoOn f1 (Ioi 0)) {a : ℝ} (ha : 0 < a) : StrictMonoOn (fun x => f (x + a) - f x) (Ioi 0) := by
  have hd : ∀ x, 0 < x → HasDerivAt (fun x => f (x + a) - f x) (f1 (x + a) - f1 x) x := fun x hx =>
    ((hf (x + a) (by linarith)).comp_add_const x a).sub (hf x hx)
  refine strictMonoOn_of_deriv_pos (convex_Ioi 0) (fun x hx => (hd x hx).continuousAt.continuousWithinAt) ?_
  intro x hx
  rw [interior_Ioi] at hx
  rw [(hd x hx).deriv]
  have := h1 hx (show (0 : ℝ) < x + a by have : (0 : ℝ) < x := hx; linarith) (by linarith)
  linarith

/-- The derivative of `r`. -/
private noncomputable def r1 (x : ℝ) : ℝ := 1 / (x * (x + 1) ^ 2)

private noncomputable def r2 (x : ℝ) : ℝ := -((3 * x + 1) / (x ^ 2 * (x + 1) ^ 3))

private theorem r_deriv {x : ℝ} (hx : 0 < x) : HasDerivAt r (r1 x) x := by
  have h1 : x + 1 ≠ 0 := by linarith
  have a := (hasDerivAt_id x).add_const 1
  have b := ((hasDerivAt_const x (1 : ℝ)).div a h1).sub ((a.log h1).sub (Real.hasDerivAt_log hx.ne'))
  refine b.congr_deriv ?_
  simp only [r1, id]
  field_simp
  ring

private theorem r1_deriv {x : ℝ} (hx : 0 < x) : HasDerivAt r1 (r2 x) x := by
  have h1 : x + 1 ≠ 0 := by linarith
  have a := (hasDerivAt_id x).mul (((hasDerivAt_id x).add_const 1).pow 2)
  have b := (hasDerivAt_const x (1 : ℝ)).div a (by simp only [Pi.mul_apply, id, Pi.pow_apply]; positivity)
  refine b.congr_deriv ?_
  simp only [r2, id, Pi.mul_apply, Pi.pow_apply]
  field_simp
  ring

private theorem r2_strictMono : StrictMonoOn r2 (Ioi 0) := by
  intro x hx y hy hxy
  have hx : (0 : ℝ) < x := hx
  have hy : (0 : ℝ) < y := hy
  have e : ∀ t : ℝ, 0 < t → r2 t = -(1 / (t ^ 2 * (t + 1) ^ 2) + 2 * (1 / (t * (t + 1) ^ 3))) := by
    intro t ht
    simp only [r2]
    field_simp
    ring
  rw [e x hx, e y hy]
  have k1 : 1 / (y ^ 2 * (y + 1) ^ 2) < 1 / (x ^ 2 * (x + 1) ^ 2) := by
    apply one_div_lt_one_div_of_lt (by positivity)
    gcongr
  have k2 : 1 / (y * (y + 1) ^ 3) < 1 / (x * (x + 1) ^ 3) := by
    apply one_div_lt_one_div_of_lt (by positivity)
    gcongr
  linarith

private theorem corr_strictAnti {a b s x : ℝ} (ha : 0 < a) (hb : 0 < b) (hs : 0 < s) (hx : 0 < x)
    (h0 : Tendsto (corr a b) atTop (𝓝 0)) : corr a b (x + s) < corr a b x := by
  -- the increments of the increments of `r` increase
  have m1 := strictMono_increment (fun x hx => r1_deriv hx) r2_strictMono hb
  have m2 := strictMono_increment (f := fun x => r (x + b) - r x) (f1 := fun x => r1 (x + b) - r1 x)
    (fun x hx => ((r_deriv (x := x + b) (by linarith)).comp_add_const x b).sub (r_deriv hx)) m1 ha
  -- the decrease of the correction, and its own decrease
  let E : ℝ → ℝ := fun x => corr a b x - corr a b (x + s)
  let W : ℝ → ℝ := fun x => E x - E (x + 1)
  have hW : ∀ x, 0 < x → W (x + 1) < W x := by
    intro x hx
    have k := m2 (show (0 : ℝ) < x from hx) (show (0 : ℝ) < x + s by linarith) (by linarith)
    simp only at k
    have q := g_second hx
    have qa := g_second (x := x + a) (by linarith)
    have qb := g_second (x := x + b) (by linarith)
    have qab := g_second (x := x + a + b) (by linarith)
    have qs := g_second (x := x + s) (by linarith)
    have qas := g_second (x := x + s + a) (by linarith)
    have qbs := g_second (x := x + s + b) (by linarith)
    have qabs := g_second (x := x + s + a + b) (by linarith)
    simp only [W, E, corr]
    rw [show x + 1 + 1 + s + a + b = x + s + a + b + 1 + 1 by ring, show x + 1 + 1 + s + a = x + s + a + 1 + 1 by ring,
      show x + 1 + 1 + s + b = x + s + b + 1 + 1 by ring, show x + 1 + 1 + s = x + s + 1 + 1 by ring,
      show x + 1 + 1 + a + b = x + a + b + 1 + 1 by ring, show x + 1 + 1 + a = x + a + 1 + 1 by ring,
      show x + 1 + 1 + b = x + b + 1 + 1 by ring,
      show x + 1 + s + a + b = x + s + a + b + 1 by ring, show x + 1 + s + a = x + s + a + 1 by ring,
      show x + 1 + s + b = x + s + b + 1 by ring, show x + 1 + s = x + s + 1 by ring,
      show x + 1 + a + b = x + a + b + 1 by ring, show x + 1 + a = x + a + 1 by ring,
      show x + 1 + b = x + b + 1 by ring]
    linarith
  have tE : Tendsto E atTop (𝓝 0) := by
    have := h0.sub (h0.comp (tendsto_atTop_add_const_right _ s tendsto_id))
    simpa using this
  have tW : Tendsto W atTop (𝓝 0) := by
    have := tE.sub (tE.comp (tendsto_atTop_add_const_right _ 1 tendsto_id))
    simpa using this
  have pW : ∀ x, 0 < x → 0 ≤ W x := fun x hx => nonneg_of_step (fun y hy => (hW y (by linarith)).le) tW
  have sW : ∀ x, 0 < x → 0 < W x := fun x hx => (pW (x + 1) (by linarith)).trans_lt (hW x hx)
  have pE : ∀ x, 0 < x → 0 ≤ E x := fun x hx => nonneg_of_step (fun y hy => by
    have := pW y (by linarith)
    simp only [W] at this
    linarith) tE
  have h1 := sW x hx
  have h2 := pE (x + 1) (by linarith)
  simp only [W] at h1
  have h3 : 0 < E x := by linarith
  simp only [E] at h3
  linarith

/-- Increments of increments are between those of the second derivative. -/
private theorem increment_bounds {a b x : ℝ} (ha : 0 < a) (hb : 0 < b) (hx : 0 < x) :
    a * b * r2 x ≤ r (x + a + b) - r (x + a) - r (x + b) + r x ∧
      r (x + a + b) - r (x + a) - r (x + b) + r x ≤ a * b * r2 (x + a + b) := by
  have inc : ∀ t, 0 < t → b * r2 t ≤ r1 (t + b) - r1 t ∧ r1 (t + b) - r1 t ≤ b * r2 (t + b) := by
    intro t ht
    have hm : ∀ u ∈ Icc t (t + b), HasDerivAt r1 (r2 u) u := fun u hu => r1_deriv (ht.trans_le hu.1)
    have hc : ContinuousOn r1 (Icc t (t + b)) := fun u hu => (hm u hu).continuousAt.continuousWithinAt
    obtain ⟨c, hc1, hc2⟩ := exists_hasDerivAt_eq_slope r1 r2 (by linarith) hc fun u hu => hm u ⟨hu.1.le, hu.2.le⟩
    have e : r1 (t + b) - r1 t = b * r2 c := by
      rw [hc2, add_sub_cancel_left, mul_div_cancel₀ _ hb.ne']
    have h1 := r2_strictMono (show (0 : ℝ) < t from ht) (show (0 : ℝ) < c from ht.trans hc1.1) hc1.1
    have h2 := r2_strictMono (show (0 : ℝ) < c from ht.trans hc1.1) (show (0 : ℝ) < t + b by linarith) hc1.2
    rw [e]
    exact ⟨mul_le_mul_of_nonneg_left h1.le hb.le, mul_le_mul_of_nonneg_left h2.le hb.le⟩
  have hm : ∀ u ∈ Icc x (x + a), HasDerivAt (fun u => r (u + b) - r u) (r1 (u + b) - r1 u) u := fun u hu =>
    ((r_deriv (x := u + b) (by linarith [hu.1])).comp_add_const u b).sub (r_deriv (hx.trans_le hu.1))
  have hc : ContinuousOn (fun u => r (u + b) - r u) (Icc x (x + a)) := fun u hu => (hm u hu).continuousAt.continuousWithinAt
  obtain ⟨c, hc1, hc2⟩ := exists_hasDerivAt_eq_slope _ _ (by linarith) hc fun u hu => hm u ⟨hu.1.le, hu.2.le⟩
  have e : r (x + a + b) - r (x + a) - r (x + b) + r x = a * (r1 (c + b) - r1 c) := by
    rw [hc2, add_sub_cancel_left, mul_div_cancel₀ _ ha.ne']
    ring
  have hc0 : 0 < c := hx.trans hc1.1
  obtain ⟨i1, i2⟩ := inc c hc0
  have h1 := r2_strictMono (show (0 : ℝ) < x from hx) (show (0 : ℝ) < c from hc0) hc1.1
  have h2 := r2_strictMono (show (0 : ℝ) < c + b by linarith) (show (0 : ℝ) < x + a + b by linarith) (by linarith [hc1.2])
  rw [e, mul_assoc, mul_assoc]
  exact ⟨mul_le_mul_of_nonneg_left ((mul_le_mul_of_nonneg_left h1.le hb.le).trans i1) ha.le,
    mul_le_mul_of_nonneg_left (i2.trans (mul_le_mul_of_nonneg_left h2.le hb.le)) ha.le⟩

/-- A function which tends to zero and has second differences which are not negative is not negative. -/
private theorem nonneg_of_second {E : ℝ → ℝ} (h2 : ∀ x, 0 < x → 0 ≤ E (x + 1 + 1) - 2 * E (x + 1) + E x)
    (h0 : Tendsto E atTop (𝓝 0)) {x : ℝ} (hx : 0 < x) : 0 ≤ E x := by
  have tW : Tendsto (fun x => E x - E (x + 1)) atTop (𝓝 0) := by
    have := h0.sub (h0.comp (tendsto_atTop_add_const_right _ 1 tendsto_id))
    simpa using this
  have pW : ∀ x, 0 < x → 0 ≤ E x - E (x + 1) := fun x hx =>
    nonneg_of_step (E := fun x => E x - E (x + 1)) (fun y hy => by
      have := h2 y (by linarith)
      linarith) tW
  exact nonneg_of_step (fun y hy => by
    have := pW y (by linarith)
    linarith) h0

private theorem corr_second {a b x : ℝ} (ha : 0 < a) (hb : 0 < b) (hx : 0 < x) :
    corr a b (x + 1 + 1) - 2 * corr a b (x + 1) + corr a b x
      = -(r (x + a + b) - r (x + a) - r (x + b) + r x) := by
  have q := g_second hx
  have qa := g_second (x := x + a) (by linarith)
  have qb := g_second (x := x + b) (by linarith)
  have qab := g_second (x := x + a + b) (by linarith)
  simp only [corr]
  rw [show x + 1 + 1 + a + b = x + a + b + 1 + 1 by ring, show x + 1 + 1 + a = x + a + 1 + 1 by ring,
    show x + 1 + 1 + b = x + b + 1 + 1 by ring,
    show x + 1 + a + b = x + a + b + 1 by ring, show x + 1 + a = x + a + 1 by ring,
    show x + 1 + b = x + b + 1 by ring]
  linarith

private theorem tendsto_inv_pow (c : ℝ) (k : ℕ) (hk : k ≠ 0) : Tendsto (fun x : ℝ => ((x + c) ^ k)⁻¹) atTop (𝓝 0) :=
  ((tendsto_pow_atTop hk).comp (tendsto_atTop_add_const_right _ c tendsto_id)).inv_tendsto_atTop

private theorem corr_le {a b x : ℝ} (ha : 0 < a) (hb : 0 < b) (hx : 0 < x) (h0 : Tendsto (corr a b) atTop (𝓝 0)) :
    corr a b x ≤ a * b * (1 / (2 * x ^ 2) + 1 / (3 * x ^ 3)) := by
  have hab : 0 < a * b := mul_pos ha hb
  have := nonneg_of_second (E := fun x => a * b * (1 / (2 * x ^ 2) + 1 / (3 * x ^ 3)) - corr a b x) (fun x hx => ?_) ?_ hx
  · linarith
  · have k := corr_second ha hb hx
    have i := (increment_bounds ha hb hx).1
    have p : 0 ≤ (1 / (2 * (x + 1 + 1) ^ 2) + 1 / (3 * (x + 1 + 1) ^ 3))
        - 2 * (1 / (2 * (x + 1) ^ 2) + 1 / (3 * (x + 1) ^ 3)) + (1 / (2 * x ^ 2) + 1 / (3 * x ^ 3)) + r2 x := by
      have e : (1 / (2 * (x + 1 + 1) ^ 2) + 1 / (3 * (x + 1 + 1) ^ 3))
          - 2 * (1 / (2 * (x + 1) ^ 2) + 1 / (3 * (x + 1) ^ 3)) + (1 / (2 * x ^ 2) + 1 / (3 * x ^ 3)) + r2 x
          = (8 * x ^ 2 + 16 * x + 16 / 3) / (2 * x ^ 3 * (x + 1) ^ 3 * (x + 1 + 1) ^ 3) := by
        simp only [r2]
        field_simp
        ring
      rw [e]
      positivity
    have p' := mul_nonneg hab.le p
    linarith
  · have t1 := ((tendsto_inv_pow 0 2 (by norm_num)).const_mul (1 / 2)).add
      ((tendsto_inv_pow 0 3 (by norm_num)).const_mul (1 / 3))
    have t2 := (t1.const_mul (a * b)).sub h0
    simp only [add_zero, mul_zero, sub_zero] at t2
    refine t2.congr fun x => ?_
    rw [one_div_mul_eq_div, one_div_mul_eq_div]
    simp only [one_div, mul_inv, div_eq_mul_inv]
    ring

private theorem le_corr {a b x : ℝ} (ha : 0 < a) (hb : 0 < b) (hx : 0 < x) (h0 : Tendsto (corr a b) atTop (𝓝 0)) :
    a * b * (1 / (2 * (x + a + b) ^ 2)) ≤ corr a b x := by
  have hab : 0 < a * b := mul_pos ha hb
  have := nonneg_of_second (E := fun x => corr a b x - a * b * (1 / (2 * (x + a + b) ^ 2))) (fun x hx => ?_) ?_ hx
  · linarith
  · have k := corr_second ha hb hx
    have i := (increment_bounds ha hb hx).2
    rw [show x + 1 + 1 + a + b = x + a + b + 1 + 1 by ring, show x + 1 + a + b = x + a + b + 1 by ring]
    have hy : 0 < x + a + b := by linarith
    generalize x + a + b = y at *
    have p : 0 ≤ -(1 / (2 * (y + 1 + 1) ^ 2) - 2 * (1 / (2 * (y + 1) ^ 2)) + 1 / (2 * y ^ 2)) - r2 y := by
      have e : -(1 / (2 * (y + 1 + 1) ^ 2) - 2 * (1 / (2 * (y + 1) ^ 2)) + 1 / (2 * y ^ 2)) - r2 y
          = (8 * y ^ 2 + 16 * y + 4) / (2 * y ^ 2 * (y + 1) ^ 3 * (y + 1 + 1) ^ 2) := by
        simp only [r2]
        field_simp
        ring
      rw [e]
      positivity
    have p' := mul_nonneg hab.le p
    linarith
  · have t2 := h0.sub (((tendsto_inv_pow (a + b) 2 (by norm_num)).const_mul (1 / 2)).const_mul (a * b))
    simp only [mul_zero, sub_zero] at t2
    refine t2.congr fun x => ?_
    rw [one_div_mul_eq_div]
    simp only [one_div, mul_inv, div_eq_mul_inv, add_assoc]
    ring

private theorem tendsto_corr (m n : ℕ) : Tendsto (corr ((m : ℝ) / 2) (n / 2)) atTop (𝓝 0) := by
  have := (tendsto_correction m n).comp (tendsto_id.const_mul_atTop (show (0 : ℝ) < 2 by norm_num))
  refine this.congr fun x => ?_
  simp only [Function.comp_apply, id]
  rw [corr_eq]
  congr 1
  ring

/-- The correction is of the order of `m n / (2 ν²)`. -/
theorem correction_bounds {m n : ℕ} (hm : 0 < m) (hn : 0 < n) {ν : ℝ} (h0 : 0 < ν) :
    m * n / (2 * (ν + m + n) ^ 2) ≤ studentEntropy m ν + studentEntropy n ν - studentEntropy (m + n) ν ∧
      studentEntropy m ν + studentEntropy n ν - studentEntropy (m + n) ν ≤ m * n * (1 / (2 * ν ^ 2) + 2 / (3 * ν ^ 3)) := by
  have hm' : (0 : ℝ) < m := Nat.cast_pos.2 hm
  have hn' : (0 : ℝ) < n := Nat.cast_pos.2 hn
  have h1 := corr_le (a := (m : ℝ) / 2) (b := n / 2) (x := ν / 2) (by linarith) (by linarith) (by linarith) (tendsto_corr m n)
  have h2 := le_corr (a := (m : ℝ) / 2) (b := n / 2) (x := ν / 2) (by linarith) (by linarith) (by linarith) (tendsto_corr m n)
  rw [corr_eq]
  refine ⟨le_trans (le_of_eq ?_) h2, h1.trans (le_of_eq ?_)⟩
  · rw [show ν / 2 + (m : ℝ) / 2 + n / 2 = (ν + m + n) / 2 by ring]
    field_simp
  · field_simp

/-- The correction decreases strictly with the degrees of freedom. -/
theorem correction_strictAnti {m n : ℕ} (hm : 0 < m) (hn : 0 < n) {ν ν' : ℝ} (h0 : 0 < ν) (h : ν < ν') :
    studentEntropy m ν' + studentEntropy n ν' - studentEntropy (m + n) ν'
      < studentEntropy m ν + studentEntropy n ν - studentEntropy (m + n) ν := by
  have hm' : (0 : ℝ) < m := Nat.cast_pos.2 hm
  have hn' : (0 : ℝ) < n := Nat.cast_pos.2 hn
  have := corr_strictAnti (a := (m : ℝ) / 2) (b := n / 2) (s := (ν' - ν) / 2) (x := ν / 2) (by linarith) (by linarith)
    (by linarith) (by linarith) (tendsto_corr m n)
  rw [corr_eq, corr_eq, show ν' / 2 = ν / 2 + (ν' - ν) / 2 by ring]
  exact this

/-- Chain rule: more coordinates add the correction with more degrees of freedom. -/
theorem correction_chain (m k n : ℕ) (ν : ℝ) :
    studentEntropy (m + k) ν + studentEntropy n ν - studentEntropy (m + k + n) ν
      = (studentEntropy m ν + studentEntropy n ν - studentEntropy (m + n) ν)
        + (studentEntropy k (ν + m) + studentEntropy n (ν + m) - studentEntropy (k + n) (ν + m)) := by
  rw [corr_eq, corr_eq, corr_eq]
  simp only [corr]
  push_cast
  rw [show ν / 2 + ((m : ℝ) + k) / 2 = (ν + m) / 2 + k / 2 by ring, show ν / 2 + (m : ℝ) / 2 = (ν + m) / 2 by ring]
  ring

end BMI.Samplers
