import Verif.Model.Sparsity
import Verif.Lemmas.Sparsity
import Verif.Props.NormalTasks
import Verif.Props.Search
import Verif.Props.TaskIds
import Verif.Props.Workflow
import Mathlib.Analysis.Complex.ExponentialBounds

/-! C69: the tasks between dense and sparse interactions. -/

namespace BMI.Sparsity

open MeasureTheory BMI.Samplers BMI.MatrixUtils BMI.Search BMI.Student
open BMI.TaskIds (Call Format)

variable {Key : Type}

/-! ### The information of a task -/

/-- The mutual information of `d` pairs with a common part of variance `α²` of all variables and parts of variance `λ²` of each
pair. -/
noncomputable def denseInfo (d : ℕ) (α l : ℝ) : ℝ := (d - 1) * gain (l ^ 2) + gain (l ^ 2 + d * α ^ 2)

theorem isPaired_full {d : ℕ} {α l η : ℝ} {C : Matrix (Fin (d + d)) (Fin (d + d)) ℝ}
    (h : IsLvmCovariance d α l 0 η C) : IsPaired (1 + l ^ 2) (l ^ 2) (α ^ 2) C := by
  refine ⟨fun i j => ?_, fun i j => ?_, fun i j => ?_, fun i j => ?_⟩
  · rw [h.xx, if_pos i.2]; ring
  · rw [h.yy, if_pos i.2]; ring
  · rw [h.xy]
    simp only [i.2, and_true, Fin.ext_iff]
    ring
  · rw [h.yx]
    simp only [j.2, and_true, Fin.ext_iff, eq_comm]
    ring

theorem isPaired_empty {d : ℕ} {α : ℝ} {C : Matrix (Fin (d + d)) (Fin (d + d)) ℝ}
    (h : IsLvmCovariance 0 α 0 0 0 C) : IsPaired (1 + 0) 0 (α ^ 2) C := by
  refine ⟨fun i j => ?_, fun i j => ?_, fun i j => ?_, fun i j => ?_⟩
  · rw [h.xx]; simp; ring
  · rw [h.yy]; simp; ring
  · rw [h.xy]; simp
  · rw [h.yx]; simp

theorem mi_of_paired [MeasurableSpace Key] {d : ℕ} (hd : 0 < d) {s c : ℝ} (hs : 0 ≤ s) (hc : 0 ≤ c)
    {C : Matrix (Fin (d + d)) (Fin (d + d)) ℝ} (h : IsPaired (1 + s) s c C) (hp : C.PosDef) {t : Sampler Key}
    (h0 : 0 ≤ t.mi) (hm : mutualInfo ((normalLaw 0 C).map (halves d d)) = ENNReal.ofReal t.mi) :
    t.mi = (d - 1) * gain s + gain (s + d * c) := by
  have h6 := splitNormal_mi (0 : Fin (d + d) → ℝ) hp
  rw [h.number hd hs hc] at h6
  have h7 := hm.symm.trans h6.1
  rwa [ENNReal.ofReal_eq_ofReal_iff h0 h6.2] at h7

section

variable [MeasurableSpace Key] (R : JaxRandom Key) (κ : Measure Key) (hR : IdealRandom R κ)

include hR

/-- **C69**: the information of the latent variable model with all coordinates in pairs. -/
theorem lvm_full (d : ℕ) (hd : 0 < d) (α l : ℝ) :
    ∃ t, taskMultinormalLvm R d d d α l 0 none = .ok t ∧ t.mi = denseInfo d α l := by
  obtain ⟨t, C, h1, h2, h3, h4, h5⟩ := taskMultinormalLvm_correct R κ hR d d d hd hd le_rfl le_rfl α l 0 none
  exact ⟨t, h1, mi_of_paired hd (sq_nonneg _) (sq_nonneg _) (isPaired_full h2) h3 h4.nonneg h5⟩

/-- **C69**: the information of the model without pairs. -/
theorem lvm_empty (d : ℕ) (hd : 0 < d) (α : ℝ) :
    ∃ t, taskMultinormalLvm R d d 0 α 0 0 none = .ok t ∧ t.mi = gain (d * α ^ 2) := by
  obtain ⟨t, C, h1, h2, h3, h4, h5⟩ :=
    taskMultinormalLvm_correct R κ hR d d 0 hd hd (Nat.zero_le _) (Nat.zero_le _) α 0 0 none
  refine ⟨t, by exact_mod_cast h1, ?_⟩
  rw [mi_of_paired hd le_rfl (sq_nonneg _) (isPaired_empty h2) h3 h4.nonneg h5, gain_zero]
  simp

/-- **C69**: the information of the model with `k` pairs and nothing in common to all. -/
theorem lvm_sparse (d k : ℕ) (hd : 0 < d) (hk : k ≤ d) (l : ℝ) :
    ∃ t, taskMultinormalLvm R d d k 0 l 0 none = .ok t ∧ t.mi = k * gain (l ^ 2) := by
  obtain ⟨t, h1, -, h3⟩ := taskMultinormalSparse_correct R κ hR d d k hd hd hk hk l
  refine ⟨t, h1, ?_⟩
  have h := two_gain (sq_nonneg l)
  have hpos : 0 < 1 + l ^ 2 := by positivity
  have e : 1 - (l ^ 2 / (1 + l ^ 2)) ^ 2 = ((1 + l ^ 2) ^ 2 / (1 + 2 * l ^ 2))⁻¹ := by
    field_simp
    ring
  rw [h3, e, Real.log_inv, ← h]
  ring

end

/-! ### The search -/

/-- If the function does not raise inside of the bracket, neither does the search, and what it finds is inside. -/
theorem binsearch_inside (func : ℝ → Except Err ℝ) (f : ℝ → ℝ) (target minValue maxValue delta : ℝ) (n : ℕ)
    (uniform : ℝ → ℝ → ℕ → ℝ) (hmm : minValue < maxValue) (hf : ∀ x ∈ Set.Ioo minValue maxValue, func x = .ok (f x)) :
    ∃ r, binsearch realOps func target minValue maxValue delta n uniform = .ok r ∧
      ∀ x ∈ r, x ∈ Set.Ioo minValue maxValue := by
  have key : ∀ (k : ℕ) (s : SearchState ℝ), minValue ≤ s.minVal → s.minVal < s.maxVal → s.maxVal ≤ maxValue →
      s.mid = (s.minVal + s.maxVal) / 2 →
      ∃ r, binsearchLoop realOps func target minValue maxValue delta uniform k s = .ok r ∧
        r.mid ∈ Set.Ioo minValue maxValue := by
    intro k
    induction k with
    | zero =>
      intro s h1 h2 h3 h4
      exact ⟨s, rfl, by rw [h4]; constructor <;> linarith⟩
    | succ k ih =>
      intro s h1 h2 h3 h4
      have hm : s.mid ∈ Set.Ioo minValue maxValue := by
        rw [h4]
        constructor <;> linarith
      unfold binsearchLoop
      rw [binsearchStep_real (hf _ hm)]
      by_cases hc : |f s.mid - target| < delta
      · rw [if_pos hc]
        exact ⟨_, rfl, hm⟩
      · rw [if_neg hc]
        by_cases hv : target < f s.mid
        · rw [if_pos hv]
          exact ih _ h1 (by dsimp only; linarith) hm.2.le rfl
        · rw [if_neg hv]
          exact ih _ hm.1.le (by dsimp only; linarith) h3 rfl
  obtain ⟨r, h1, h2⟩ := key n (binsearchStart realOps minValue maxValue) le_rfl hmm le_rfl
    (by simp [binsearchStart, realOps]; ring)
  unfold binsearch
  rw [h1]
  by_cases hc : meets realOps target delta r.value = true
  · exact ⟨some r.mid, by simp [bind, Except.bind, hc], by simpa using h2⟩
  · exact ⟨none, by simp [bind, Except.bind, hc], by simp⟩

/-- A function of the strength searched by the scripts. -/
structure Searchable (D : ℝ) (f : ℝ → ℝ) : Prop where
  mono : ∀ x y, 0 ≤ x → x < y → f x < f y
  lip : ∀ x y, 0 ≤ x → x ≤ y → y ≤ 10 → f y - f x ≤ D * (y - x)

theorem Searchable.close {D : ℝ} {f : ℝ → ℝ} (h : Searchable D f) {x y : ℝ} (hx : x ∈ Set.Icc (0 : ℝ) 10)
    (hy : y ∈ Set.Icc (0 : ℝ) 10) : |f x - f y| ≤ D * |x - y| := by
  rcases lt_trichotomy x y with hxy | rfl | hxy
  · have h1 := h.lip x y hx.1 hxy.le hy.2
    have h2 := h.mono x y hx.1 hxy
    rw [abs_sub_comm, abs_of_pos (by linarith), abs_sub_comm, abs_of_pos (by linarith)]
    exact h1
  · simp
  · have h1 := h.lip y x hy.1 hxy.le hx.2
    have h2 := h.mono y x hy.1 hxy
    rw [abs_of_pos (by linarith), abs_of_pos (by linarith)]
    exact h1

/-- The search of the scripts finds a strength, if the wanted number is between the values at 0 and at 10. -/
theorem Searchable.found {D : ℝ} {f : ℝ → ℝ} (h : Searchable D f) (hD : 0 ≤ D) (hD' : D ≤ 2 ^ 4000)
    (func : ℝ → Except Err ℝ) (hf : ∀ x, func x = .ok (f x)) (uniform : ℝ → ℝ → ℕ → ℝ) (mi : ℝ)
    (h1 : f 0 ≤ mi + 1e-4 - 1e-9) (h2 : mi ≤ f 10 + 1e-4 - 1e-9) :
    ∃ x ∈ Set.Ioo (0 : ℝ) 10, binsearch realOps func mi 0 10 1e-4 5000 uniform = .ok (some x) ∧ |f x - mi| < 1e-4 := by
  have hcont : ContinuousOn f (Set.Icc 0 10) := by
    have : LipschitzOnWith ⟨D, hD⟩ f (Set.Icc 0 10) := by
      refine LipschitzOnWith.of_dist_le_mul fun x hx y hy => ?_
      rw [Real.dist_eq, Real.dist_eq]
      exact h.close hx hy
    exact this.continuousOn
  have hsmall : D * (10 / 2 ^ 5000) < 1e-9 := by
    refine (mul_le_mul_of_nonneg_right hD' (by positivity)).trans_lt ?_
    rw [show (5000 : ℕ) = 4000 + 1000 from rfl, pow_add, mul_div_assoc', mul_div_mul_left _ _ (by positivity)]
    have h64 : (2 : ℝ) ^ 64 ≤ 2 ^ 1000 := pow_le_pow_right₀ (by norm_num) (by norm_num)
    refine (div_le_div_of_nonneg_left (by norm_num) (by positivity) h64).trans_lt ?_
    norm_num
  have fin : ∀ t ∈ Set.Icc (0 : ℝ) 10, |f t - mi| ≤ 1e-4 - 1e-9 →
      ∀ x ∈ Set.Ioo (0 : ℝ) 10, |x - t| ≤ (10 - 0) / 2 ^ (4999 + 1) → |f x - mi| < 1e-4 := by
    intro t ht htm x hx hxt
    rw [sub_zero] at hxt
    have a := h.close (Set.Ioo_subset_Icc_self hx) ht
    have b := mul_le_mul_of_nonneg_left hxt hD
    have c : |f x - mi| ≤ |f x - f t| + |f t - mi| := abs_sub_le _ _ _
    linarith
  rcases lt_or_ge mi (f 0) with hlt | hge
  · refine binsearch_finds func f mi 0 10 1e-4 0 4999 uniform (by norm_num) (fun x _ => hf x) (by norm_num)
      (fun x hx hx' => absurd hx' (not_lt.2 hx.1.le)) (fun x hx _ => hlt.trans (h.mono 0 x le_rfl hx.1))
      (fin 0 (by norm_num) ?_)
    rw [abs_of_pos (by linarith)]
    linarith
  · rcases lt_or_ge (f 10) mi with hgt | hle
    · refine binsearch_finds func f mi 0 10 1e-4 10 4999 uniform (by norm_num) (fun x _ => hf x) (by norm_num)
        (fun x hx _ => ((h.mono x 10 hx.1.le hx.2).trans hgt).le) (fun x hx hx' => absurd hx' (not_lt.2 hx.2.le))
        (fin 10 (by norm_num) ?_)
      rw [abs_sub_comm, abs_of_pos (by linarith)]
      linarith
    · obtain ⟨t, ht, rfl⟩ := intermediate_value_Icc (by norm_num : (0 : ℝ) ≤ 10) hcont ⟨hge, hle⟩
      refine binsearch_finds func f (f t) 0 10 1e-4 t 4999 uniform (by norm_num) (fun x _ => hf x) ht
        (fun x hx hx' => (h.mono x t hx.1.le hx').le) (fun x hx hx' => h.mono t x ht.1 hx') (fin t ht ?_)
      norm_num

/-- The search finds nothing if the wanted number is too far outside. -/
theorem Searchable.lost {D : ℝ} {f : ℝ → ℝ} (h : Searchable D f) (func : ℝ → Except Err ℝ) (hf : ∀ x, func x = .ok (f x))
    (uniform : ℝ → ℝ → ℕ → ℝ) (mi : ℝ) (hmi : -1e8 < mi) (h1 : mi + 1e-4 ≤ f 0 ∨ f 10 + 1e-4 ≤ mi) :
    binsearch realOps func mi 0 10 1e-4 5000 uniform = .ok none := by
  obtain ⟨r, hr, hin⟩ := binsearch_inside func f mi 0 10 1e-4 5000 uniform (by norm_num) (fun x _ => hf x)
  rcases r with _ | x
  · exact hr
  · exfalso
    obtain ⟨v, hv, hm⟩ := binsearch_sound _ _ _ _ _ _ _ 5000 x (by
      rw [Bool.eq_false_iff, ne_eq, meets_real]
      have : (realOps.lit (-1000000000) : ℝ) = -1000000000 := by simp [realOps]
      rw [this, not_lt, abs_of_neg (by norm_num at hmi ⊢; linarith)]
      norm_num at hmi ⊢
      linarith) hr
    rw [hf, Except.ok.injEq] at hv
    subst hv
    have hm' := (meets_real _ _ _).1 hm
    have hx := hin x rfl
    rw [abs_lt] at hm'
    rcases h1 with h1 | h1
    · have := h.mono 0 x le_rfl hx.1
      linarith
    · have := h.mono x 10 hx.1.le hx.2
      linarith

/-! ### The functions of the scripts -/

theorem sq_bound {x y : ℝ} (hx : 0 ≤ x) (hxy : x ≤ y) (hy : y ≤ 10) : y ^ 2 - x ^ 2 ≤ 20 * (y - x) := by
  have : (y - x) * (20 - (y + x)) ≥ 0 := mul_nonneg (by linarith) (by linarith)
  nlinarith

theorem searchable_alpha (d : ℕ) (hd : 0 < d) : Searchable (20 * d) fun a => gain (d * a ^ 2) := by
  have hd' : (0 : ℝ) < d := by exact_mod_cast hd
  constructor
  · intro x y hx hxy
    exact gain_lt (by positivity) (mul_lt_mul_of_pos_left (pow_lt_pow_left₀ hxy hx two_ne_zero) hd')
  · intro x y hx hxy hy
    have h1 : x ^ 2 ≤ y ^ 2 := pow_le_pow_left₀ hx hxy 2
    have h2 := gain_lipschitz (s := d * x ^ 2) (t := d * y ^ 2) (by positivity) (mul_le_mul_of_nonneg_left h1 hd'.le)
    have h3 := mul_le_mul_of_nonneg_left (sq_bound hx hxy hy) hd'.le
    linarith

theorem searchable_dense (d : ℕ) (hd : 0 < d) (α : ℝ) : Searchable (20 * d) (denseInfo d α) := by
  have hd' : (1 : ℝ) ≤ d := by exact_mod_cast hd
  constructor
  · intro x y hx hxy
    have h1 : x ^ 2 < y ^ 2 := pow_lt_pow_left₀ hxy hx two_ne_zero
    have h2 := gain_lt (sq_nonneg x) h1
    have h3 := gain_lt (s := x ^ 2 + d * α ^ 2) (t := y ^ 2 + d * α ^ 2) (by positivity) (by linarith)
    have h4 := mul_le_mul_of_nonneg_left h2.le (sub_nonneg.2 hd')
    simp only [denseInfo]
    linarith
  · intro x y hx hxy hy
    have h1 : x ^ 2 ≤ y ^ 2 := pow_le_pow_left₀ hx hxy 2
    have h2 := gain_lipschitz (sq_nonneg x) h1
    have h3 := gain_lipschitz (s := x ^ 2 + d * α ^ 2) (t := y ^ 2 + d * α ^ 2) (by positivity) (by linarith)
    have h4 := mul_le_mul_of_nonneg_left (h2.trans (sq_bound hx hxy hy)) (sub_nonneg.2 hd')
    have h5 := sq_bound hx hxy hy
    simp only [denseInfo]
    linarith

theorem searchable_sparse (k : ℕ) (hk : 0 < k) : Searchable (20 * k) fun l => k * gain (l ^ 2) := by
  have hk' : (0 : ℝ) < k := by exact_mod_cast hk
  constructor
  · intro x y hx hxy
    exact mul_lt_mul_of_pos_left (gain_lt (sq_nonneg x) (pow_lt_pow_left₀ hxy hx two_ne_zero)) hk'
  · intro x y hx hxy hy
    have h2 := (gain_lipschitz (sq_nonneg x) (pow_le_pow_left₀ hx hxy 2)).trans (sq_bound hx hxy hy)
    have h3 := mul_le_mul_of_nonneg_left h2 hk'.le
    linarith

section

variable [MeasurableSpace Key] (R : JaxRandom Key) (κ : Measure Key) (hR : IdealRandom R κ)

include hR

theorem miOfTask_full (d : ℕ) (hd : 0 < d) (α l : ℝ) : miOfTask R d d α l = .ok (denseInfo d α l) := by
  obtain ⟨t, h1, h2⟩ := lvm_full R κ hR d hd α l
  simp only [miOfTask, h1, bind, Except.bind, h2]

theorem miOfTask_empty (d : ℕ) (hd : 0 < d) (α : ℝ) : miOfTask R d 0 α 0 = .ok (gain (d * α ^ 2)) := by
  obtain ⟨t, h1, h2⟩ := lvm_empty R κ hR d hd α
  simp only [miOfTask, h1, bind, Except.bind, h2]

theorem miOfTask_sparse (d k : ℕ) (hd : 0 < d) (hk : k ≤ d) (l : ℝ) : miOfTask R d k 0 l = .ok (k * gain (l ^ 2)) := by
  obtain ⟨t, h1, h2⟩ := lvm_sparse R κ hR d k hd hk l
  simp only [miOfTask, h1, bind, Except.bind, h2]

/-- **C69**: `get_initial_alpha` returns a positive `α` for which the dense model has the wanted information up to `1e-4`, or
raises `AssertionError`; the bounds where it succeeds and fails are those at 0 and 10. -/
theorem getInitialAlpha_spec (uniform : ℝ → ℝ → ℕ → ℝ) (d : ℕ) (hd : 0 < d) (hd' : (20 * d : ℝ) ≤ 2 ^ 4000) (mi : ℝ)
    (hmi : -1e8 < mi) :
    (0 ≤ mi + 1e-4 - 1e-9 → mi ≤ gain (d * 10 ^ 2) + 1e-4 - 1e-9 →
      ∃ α, getInitialAlpha R uniform mi d = .ok α ∧ 0 < α ∧ α < 10 ∧ |gain (d * α ^ 2) - mi| < 1e-4) ∧
    (mi + 1e-4 ≤ 0 ∨ gain (d * 10 ^ 2) + 1e-4 ≤ mi → getInitialAlpha R uniform mi d = .error .assertionError) := by
  have h := searchable_alpha d hd
  have h0 : gain ((d : ℝ) * 0 ^ 2) = 0 := by simp [gain_zero]
  have hf : ∀ a, (fun a => miOfTask R d 0 a 0) a = .ok ((fun a => gain (d * a ^ 2)) a) :=
    fun a => miOfTask_empty R κ hR d hd a
  refine ⟨fun h1 h2 => ?_, fun h1 => ?_⟩
  · obtain ⟨x, hx, hb, hc⟩ := h.found (by positivity) hd' _ hf uniform mi (by rw [h0]; exact h1) h2
    refine ⟨x, ?_, hx.1, hx.2, hc⟩
    simp only [getInitialAlpha, hb, bind, Except.bind]
    rw [if_neg hx.1.ne']
  · have hb := h.lost _ hf uniform mi hmi (by rw [h0]; exact h1)
    simp only [getInitialAlpha, hb, bind, Except.bind]

/-- The parameters of a task, the law of its samples and the number it reports. -/
structure IsLvmTask (κ : Measure Key) (d k : ℕ) (α l : ℝ) (t : Call ℝ × Sampler Key) : Prop where
  params : t.1 = .lvm d d k α l 0 l
  sampler : ∃ C : Matrix (Fin (d + d)) (Fin (d + d)) ℝ, IsLvmCovariance k α l 0 l C ∧
    Correct R κ t.2 d d ((normalLaw 0 (correlationOf C)).map (halves d d))

theorem lambdToTask_some (d k : ℕ) (hd : 0 < d) (hk : k ≤ d) (α l : ℝ) :
    ∃ t, lambdToTask R d k α (some l) = .ok t ∧ IsLvmTask R κ d k α l t ∧ miOfTask R d k α l = .ok t.2.mi := by
  obtain ⟨s, C, h1, h2, h3, h4, h5⟩ := taskMultinormalLvm_correct R κ hR d d k hd hd hk hk α l 0 none
  refine ⟨(.lvm d d k α l 0 l, s), ?_, ⟨rfl, C, h2, h4⟩, ?_⟩
  · simp only [lambdToTask, h1, bind, Except.bind, Int.toNat_natCast]
  · simp only [miOfTask, h1, bind, Except.bind]

/-- **C69**: `get_lambda_task` returns the model with the given `α`, all coordinates in pairs, and the wanted information up to
`1e-4`; this fails with `AssertionError` if `α` alone gives too much information, or the largest strength too little. -/
theorem getLambdaTask_spec (uniform : ℝ → ℝ → ℕ → ℝ) (d : ℕ) (hd : 0 < d) (hd' : (20 * d : ℝ) ≤ 2 ^ 4000) (α mi : ℝ)
    (hmi : -1e8 < mi) :
    (gain (d * α ^ 2) ≤ mi + 1e-4 - 1e-9 → mi ≤ denseInfo d α 10 + 1e-4 - 1e-9 →
      ∃ t l, getLambdaTask R uniform mi d α = .ok t ∧ 0 < l ∧ l < 10 ∧ IsLvmTask R κ d d α l t ∧ |t.2.mi - mi| < 1e-4) ∧
    (mi + 1e-4 ≤ gain (d * α ^ 2) ∨ denseInfo d α 10 + 1e-4 ≤ mi →
      getLambdaTask R uniform mi d α = .error .assertionError) := by
  have h := searchable_dense d hd α
  have h0 : denseInfo d α 0 = gain (d * α ^ 2) := by simp [denseInfo, gain_zero]
  have hf : ∀ l, (fun l => miOfTask R d d α l) l = .ok (denseInfo d α l) := fun l => miOfTask_full R κ hR d hd α l
  refine ⟨fun h1 h2 => ?_, fun h1 => ?_⟩
  · obtain ⟨x, hx, hb, hc⟩ := h.found (by positivity) hd' _ hf uniform mi (by rw [h0]; exact h1) h2
    obtain ⟨t, ht, ht', ht2⟩ := lambdToTask_some R κ hR d d hd le_rfl α x
    rw [miOfTask_full R κ hR d hd, Except.ok.injEq] at ht2
    refine ⟨t, x, ?_, hx.1, hx.2, ht', ht2 ▸ hc⟩
    simp only [getLambdaTask, findLambd, hb, bind, Except.bind, ht]
  · have hb := h.lost _ hf uniform mi hmi (by rw [h0]; exact h1)
    obtain ⟨m, hm, -⟩ := (gaussianLVM_spec d d d α 0 1 none 0 none 0 none).1 ⟨by omega, by omega, by omega⟩
    simp only [getLambdaTask, findLambd, hb, bind, Except.bind, lambdToTask, hm]

/-- **C69**: `get_n_interacting_task` returns the model with the given number of pairs and the wanted information up to `1e-4`;
this fails with `AssertionError` if the wanted number is negative or too large. -/
theorem getNInteractingTask_spec (uniform : ℝ → ℝ → ℕ → ℝ) (d k : ℕ) (hk0 : 0 < k) (hk : k ≤ d)
    (hd' : (20 * d : ℝ) ≤ 2 ^ 4000) (mi : ℝ) (hmi : -1e8 < mi) :
    (0 ≤ mi + 1e-4 - 1e-9 → mi ≤ k * gain (10 ^ 2) + 1e-4 - 1e-9 →
      ∃ t l, getNInteractingTask R uniform mi d k = .ok t ∧ 0 < l ∧ l < 10 ∧ IsLvmTask R κ d k 0 l t ∧
        |t.2.mi - mi| < 1e-4) ∧
    (mi + 1e-4 ≤ 0 ∨ k * gain (10 ^ 2) + 1e-4 ≤ mi → getNInteractingTask R uniform mi d k = .error .assertionError) := by
  have hd : 0 < d := hk0.trans_le hk
  have h := searchable_sparse k hk0
  have h0 : (k : ℝ) * gain (0 ^ 2) = 0 := by simp [gain_zero]
  have hf : ∀ l, (fun l => miOfTask R d k 0 l) l = .ok ((fun l => k * gain (l ^ 2)) l) :=
    fun l => miOfTask_sparse R κ hR d k hd hk l
  have hkd : (20 * k : ℝ) ≤ 20 * d := by
    have : (k : ℝ) ≤ d := by exact_mod_cast hk
    linarith
  refine ⟨fun h1 h2 => ?_, fun h1 => ?_⟩
  · obtain ⟨x, hx, hb, hc⟩ := h.found (by positivity) (hkd.trans hd') _ hf uniform mi (by rw [h0]; exact h1) h2
    obtain ⟨t, ht, ht', ht2⟩ := lambdToTask_some R κ hR d k hd hk 0 x
    rw [miOfTask_sparse R κ hR d k hd hk, Except.ok.injEq] at ht2
    refine ⟨t, x, ?_, hx.1, hx.2, ht', ht2 ▸ hc⟩
    simp only [getNInteractingTask, findLambd, hb, bind, Except.bind, ht]
  · have hb := h.lost _ hf uniform mi hmi (by rw [h0]; exact h1)
    obtain ⟨m, hm, -⟩ := (gaussianLVM_spec d d k 0 0 1 none 0 none 0 none).1 ⟨by omega, by omega, by omega⟩
    simp only [getNInteractingTask, findLambd, hb, bind, Except.bind, lambdToTask, hm]


end

/-! ### The figure -/

/-- The search for the first parameter of the figure. -/
def Finds (f : ℝ → ℝ) (n : ℕ) (lo hi x : ℝ) : Prop := ∀ (uniform : ℝ → ℝ → ℕ → ℝ) (v : ℝ) (dr : ℕ) (ev : List ℝ),
  ∃ r, binsearchLoop realOps (fun a => .ok (f a)) 1 0 10 1e-4 uniform n ⟨lo, hi, (lo + hi) / 2, v, dr, ev⟩ = .ok r ∧
    r.mid = x ∧ |r.value - 1| < 1e-4

theorem Finds.down {f : ℝ → ℝ} {n : ℕ} {lo hi x : ℝ} (m : ℝ) (hm : m = (lo + hi) / 2) (h : 1 + 1e-4 ≤ f m)
    (hn : Finds f n lo m x) : Finds f (n + 1) lo hi x := by
  intro uniform v dr ev
  subst hm
  unfold binsearchLoop
  rw [binsearchStep_real (v := f ((lo + hi) / 2)) rfl, if_neg (by rw [not_lt, abs_of_pos] <;> linarith),
    if_pos (by linarith)]
  exact hn _ _ _ _

theorem Finds.up {f : ℝ → ℝ} {n : ℕ} {lo hi x : ℝ} (m : ℝ) (hm : m = (lo + hi) / 2) (h : f m ≤ 1 - 1e-4)
    (hn : Finds f n m hi x) : Finds f (n + 1) lo hi x := by
  intro uniform v dr ev
  subst hm
  unfold binsearchLoop
  rw [binsearchStep_real (v := f ((lo + hi) / 2)) rfl, if_neg (by rw [not_lt, abs_of_neg] <;> linarith),
    if_neg (by linarith)]
  exact hn _ _ _ _

theorem Finds.stop {f : ℝ → ℝ} {n : ℕ} {lo hi : ℝ} (m : ℝ) (hm : m = (lo + hi) / 2) (h : |f m - 1| < 1e-4) :
    Finds f (n + 1) lo hi m := by
  intro uniform v dr ev
  subst hm
  unfold binsearchLoop
  rw [binsearchStep_real (v := f ((lo + hi) / 2)) rfl, if_pos h]
  exact ⟨_, rfl, rfl, h⟩

theorem exp_two : (2.7182818283 : ℝ) ^ 2 < Real.exp 2 ∧ Real.exp 2 < 2.7182818286 ^ 2 := by
  have e : Real.exp 2 = Real.exp 1 ^ 2 := by rw [← Real.exp_nat_mul]; norm_num
  rw [e]
  exact ⟨pow_lt_pow_left₀ Real.exp_one_gt_d9 (by norm_num) two_ne_zero,
    pow_lt_pow_left₀ Real.exp_one_lt_d9 (Real.exp_pos 1).le two_ne_zero⟩

theorem gain_large {s : ℝ} (hs : 0 ≤ s) (h : 2.7182818286 ^ 2 * (1 + 2 * s) ≤ (1 + s) ^ 2 * (1 - 2e-4)) :
    1 + 1e-4 ≤ gain s := by
  have h1 : 2 + 2e-4 ≤ Real.log ((1 + s) ^ 2 / (1 + 2 * s)) := by
    rw [Real.le_log_iff_exp_le (by positivity), Real.exp_add, le_div_iff₀ (by positivity)]
    have h2 : Real.exp 2e-4 * (1 - 2e-4) ≤ 1 := by
      have := Real.add_one_le_exp (-2e-4 : ℝ)
      have h3 : Real.exp 2e-4 * Real.exp (-2e-4) = 1 := by rw [← Real.exp_add]; simp
      have := mul_le_mul_of_nonneg_left this (Real.exp_pos (2e-4 : ℝ)).le
      linarith
    have h4 := mul_le_mul_of_nonneg_left h (Real.exp_pos (2e-4 : ℝ)).le
    have h5 : (1 + s) ^ 2 * (Real.exp 2e-4 * (1 - 2e-4)) ≤ (1 + s) ^ 2 * 1 := mul_le_mul_of_nonneg_left h2 (by positivity)
    have h6 : Real.exp 2 * (Real.exp 2e-4 * (1 + 2 * s)) ≤ 2.7182818286 ^ 2 * (Real.exp 2e-4 * (1 + 2 * s)) :=
      mul_le_mul_of_nonneg_right exp_two.2.le (by positivity)
    linarith
  rw [← two_gain hs] at h1
  linarith

theorem gain_small {s : ℝ} (hs : 0 ≤ s) (h : (1 + s) ^ 2 ≤ 2.7182818283 ^ 2 * (1 - 2e-4) * (1 + 2 * s)) :
    gain s ≤ 1 - 1e-4 := by
  have h1 : Real.log ((1 + s) ^ 2 / (1 + 2 * s)) ≤ 2 + -2e-4 := by
    rw [Real.log_le_iff_le_exp (by positivity), Real.exp_add, div_le_iff₀ (by positivity)]
    refine h.trans (mul_le_mul_of_nonneg_right ?_ (by positivity))
    have := Real.add_one_le_exp (-2e-4 : ℝ)
    exact mul_le_mul exp_two.1.le (by linarith) (by norm_num) (Real.exp_pos 2).le
  rw [← two_gain hs] at h1
  linarith

theorem gain_near {s : ℝ} (hs : 0 ≤ s) (h : (1 + s) ^ 2 ≤ 2.7182818283 ^ 2 * (1 + 2 * s))
    (h' : 2.7182818286 ^ 2 * (1 + 2 * s) ≤ (1 + s) ^ 2 * (1 + 1.9e-4)) : gain s ≤ 1 ∧ |gain s - 1| < 1e-4 := by
  have h1 : Real.log ((1 + s) ^ 2 / (1 + 2 * s)) ≤ 2 := by
    rw [Real.log_le_iff_le_exp (by positivity), div_le_iff₀ (by positivity)]
    exact h.trans (mul_le_mul_of_nonneg_right exp_two.1.le (by positivity))
  have h2 : 2 ≤ Real.log ((1 + s) ^ 2 / (1 + 2 * s)) + 1.9e-4 := by
    have e : Real.log ((1 + s) ^ 2 / (1 + 2 * s)) + 1.9e-4 = Real.log ((1 + s) ^ 2 / (1 + 2 * s) * Real.exp 1.9e-4) := by
      rw [Real.log_mul (by positivity) (Real.exp_pos _).ne', Real.log_exp]
    rw [e, Real.le_log_iff_exp_le (by positivity), div_mul_eq_mul_div, le_div_iff₀ (by positivity)]
    refine (mul_le_mul_of_nonneg_right exp_two.2.le (by positivity)).trans (h'.trans ?_)
    refine mul_le_mul_of_nonneg_left ?_ (by positivity)
    have := Real.add_one_le_exp (1.9e-4 : ℝ)
    linarith
  rw [← two_gain hs] at h1 h2
  refine ⟨by linarith, ?_⟩
  rw [abs_lt]
  constructor <;> linarith

/-- The first parameter of the figure. -/
noncomputable def alpha0 : ℝ := 18865 / 16384

theorem finds_alpha0 : Finds (fun a => gain ((10 : ℕ) * a ^ 2)) 5000 0 10 alpha0 := by
  have up : ∀ a : ℝ, (1 + (10 : ℕ) * a ^ 2) ^ 2 ≤ 2.7182818283 ^ 2 * (1 - 2e-4) * (1 + 2 * ((10 : ℕ) * a ^ 2)) →
      (fun a => gain ((10 : ℕ) * a ^ 2)) a ≤ 1 - 1e-4 := fun a h => gain_small (by positivity) h
  have down : ∀ a : ℝ, 2.7182818286 ^ 2 * (1 + 2 * ((10 : ℕ) * a ^ 2)) ≤ (1 + (10 : ℕ) * a ^ 2) ^ 2 * (1 - 2e-4) →
      1 + 1e-4 ≤ (fun a => gain ((10 : ℕ) * a ^ 2)) a := fun a h => gain_large (by positivity) h
  refine Finds.down 5 (by norm_num) (down _ (by norm_num)) ?_
  refine Finds.down (5 / 2) (by norm_num) (down _ (by norm_num)) ?_
  refine Finds.down (5 / 4) (by norm_num) (down _ (by norm_num)) ?_
  refine Finds.up (5 / 8) (by norm_num) (up _ (by norm_num)) ?_
  refine Finds.up (15 / 16) (by norm_num) (up _ (by norm_num)) ?_
  refine Finds.up (35 / 32) (by norm_num) (up _ (by norm_num)) ?_
  refine Finds.down (75 / 64) (by norm_num) (down _ (by norm_num)) ?_
  refine Finds.up (145 / 128) (by norm_num) (up _ (by norm_num)) ?_
  refine Finds.down (295 / 256) (by norm_num) (down _ (by norm_num)) ?_
  refine Finds.up (585 / 512) (by norm_num) (up _ (by norm_num)) ?_
  refine Finds.up (1175 / 1024) (by norm_num) (up _ (by norm_num)) ?_
  refine Finds.up (2355 / 2048) (by norm_num) (up _ (by norm_num)) ?_
  refine Finds.up (4715 / 4096) (by norm_num) (up _ (by norm_num)) ?_
  refine Finds.down (9435 / 8192) (by norm_num) (down _ (by norm_num)) ?_
  exact Finds.stop alpha0 (by norm_num [alpha0]) (gain_near (by positivity) (by norm_num [alpha0]) (by norm_num [alpha0])).2

theorem gain_alpha0 : gain ((10 : ℕ) * alpha0 ^ 2) ≤ 1 :=
  (gain_near (by positivity) (by norm_num [alpha0]) (by norm_num [alpha0])).1

theorem gain_hundred : 1 ≤ gain (10 ^ 2) := by
  have := gain_large (s := 10 ^ 2) (by norm_num) (by norm_num)
  exact le_trans (by norm_num) this

section

variable [MeasurableSpace Key] (R : JaxRandom Key) (κ : Measure Key) (hR : IdealRandom R κ)

include hR

/-- **C69**: `INITIAL_ALPHA` of the figure. -/
theorem figure_alpha (uniform : ℝ → ℝ → ℕ → ℝ) : getInitialAlpha R uniform 1 (10 : ℕ) = .ok alpha0 := by
  obtain ⟨r, h1, h2, h3⟩ := finds_alpha0 uniform (realOps.lit (-1000000000)) 0 []
  have hf : (fun a => miOfTask R (10 : ℕ) 0 a 0) = fun a => .ok (gain ((10 : ℕ) * a ^ 2)) := by
    funext a
    exact miOfTask_empty R κ hR 10 (by norm_num) a
  have hstart : binsearchStart realOps (0 : ℝ) 10 = ⟨0, 10, (0 + 10) / 2, realOps.lit (-1000000000), 0, []⟩ := by
    simp [binsearchStart, realOps]
    norm_num
  have hb : binsearch realOps (fun a => miOfTask R (10 : ℕ) 0 a 0) 1 0 10 1e-4 5000 uniform = .ok (some alpha0) := by
    rw [hf]
    unfold binsearch
    rw [hstart, h1]
    show (if meets realOps _ _ r.value = true then Except.ok (some r.mid) else Except.ok none) = _
    rw [if_pos ((meets_real _ _ _).2 h3), h2]
  simp only [getInitialAlpha, hb, bind, Except.bind]
  rw [if_neg (by norm_num [alpha0])]

/-- **C69**: the figure has 19 tasks, ten with all coordinates in pairs and `α` from 0 to `INITIAL_ALPHA` in equal steps, and
one for each number of pairs from 1 to 9 with `α = 0`; all have information one up to `1e-4`. -/
theorem figure_tasks (uniform : ℝ → ℝ → ℕ → ℝ) :
    ∃ ts, taskList R uniform 1 10 = .ok ts ∧
      List.Forall₂ (fun (p : ℕ × ℝ) t => ∃ l, 0 < l ∧ l < 10 ∧ IsLvmTask R κ 10 p.1 p.2 l t ∧ |t.2.mi - 1| < 1e-4)
        ((List.range 10).map (fun i : ℕ => (10, (i : ℝ) * (alpha0 / 9))) ++ (List.range' 1 9).map fun k : ℕ => (k, (0 : ℝ))) ts := by
  have h0 : (0 : ℝ) < alpha0 := by norm_num [alpha0]
  have hbig : (20 * (10 : ℕ) : ℝ) ≤ 2 ^ 4000 := by
    refine le_trans ?_ (pow_le_pow_right₀ (by norm_num : (1 : ℝ) ≤ 2) (by norm_num : 8 ≤ 4000))
    norm_num
  obtain ⟨ds, hds, hd⟩ := Workflow.mapM_forall2
    (fun (α : ℝ) (t : Call ℝ × Sampler Key) => ∃ l, 0 < l ∧ l < 10 ∧ IsLvmTask R κ 10 10 α l t ∧ |t.2.mi - 1| < 1e-4)
    (fun alpha => getLambdaTask R uniform 1 (10 : ℕ) alpha) (linspace alpha0 10) (by
      intro α hα
      obtain ⟨i, hi, rfl⟩ := List.mem_map.1 hα
      have hi' : (i : ℝ) ≤ 9 := by
        have := List.mem_range.1 hi
        exact_mod_cast (by omega : i ≤ 9)
      have ha : (0 : ℝ) ≤ i * (alpha0 / (((10 : ℕ) : ℝ) - 1)) := by norm_num; positivity
      have hb : (i : ℝ) * (alpha0 / (((10 : ℕ) : ℝ) - 1)) ≤ alpha0 := by
        norm_num
        nlinarith
      obtain ⟨t, l, h1, h2, h3, h4, h5⟩ := (getLambdaTask_spec R κ hR uniform 10 (by norm_num) hbig
          (i * (alpha0 / (((10 : ℕ) : ℝ) - 1))) 1 (by norm_num)).1
        (by
          have : gain ((10 : ℕ) * ((i : ℝ) * (alpha0 / (((10 : ℕ) : ℝ) - 1))) ^ 2) ≤ gain ((10 : ℕ) * alpha0 ^ 2) :=
            gain_le (by positivity) (mul_le_mul_of_nonneg_left (pow_le_pow_left₀ ha hb 2) (by positivity))
          have := gain_alpha0
          norm_num at *
          linarith)
        (by
          have h1 := gain_hundred
          have h2 : gain (10 ^ 2) ≤ gain (10 ^ 2 + (10 : ℕ) * ((i : ℝ) * (alpha0 / (((10 : ℕ) : ℝ) - 1))) ^ 2) :=
            gain_le (by norm_num) (by
              have : (0 : ℝ) ≤ (10 : ℕ) * ((i : ℝ) * (alpha0 / (((10 : ℕ) : ℝ) - 1))) ^ 2 := by positivity
              linarith)
          unfold denseInfo
          norm_num at *
          linarith)
      exact ⟨t, h1, l, h2, h3, h4, h5⟩)
  obtain ⟨ss, hss, hs⟩ := Workflow.mapM_forall2
    (fun (k : ℕ) (t : Call ℝ × Sampler Key) => ∃ l, 0 < l ∧ l < 10 ∧ IsLvmTask R κ 10 k 0 l t ∧ |t.2.mi - 1| < 1e-4)
    (fun n : ℕ => getNInteractingTask R uniform 1 (10 : ℕ) n) (List.range' 1 9) (by
      intro k hk
      rw [List.mem_range'_1] at hk
      have hk' : (1 : ℝ) ≤ k := by exact_mod_cast hk.1
      obtain ⟨t, l, h1, h2, h3, h4, h5⟩ := (getNInteractingTask_spec R κ hR uniform 10 k (by omega) (by omega) hbig 1
        (by norm_num)).1 (by norm_num) (by
          have := gain_hundred
          have : (1 : ℝ) * 1 ≤ k * gain (10 ^ 2) := mul_le_mul hk' this (by norm_num) (by linarith)
          norm_num at *
          linarith)
      exact ⟨t, h1, l, h2, h3, h4, h5⟩)
  refine ⟨ds ++ ss, ?_, ?_⟩
  · simp only [taskList, figure_alpha R κ hR uniform, bind, Except.bind, hds]
    simp only [show 10 - 1 = 9 from rfl, hss]
  · refine List.rel_append ?_ ?_
    · rw [List.forall₂_map_left_iff]
      unfold linspace at hd
      rw [List.forall₂_map_left_iff] at hd
      refine hd.imp fun i t h => ?_
      convert h using 6
      norm_num
    · rw [List.forall₂_map_left_iff]
      exact hs

end

/-- What printing with five digits guarantees for numbers that are not negative. -/
structure GoodFix5 (fix5 : ℝ → List Char) : Prop where
  close : ∀ x y, 0 ≤ x → 0 ≤ y → fix5 x = fix5 y → |x - y| ≤ 1e-5
  nodash : ∀ x, 0 ≤ x → '-' ∉ fix5 x

theorem split_at_dash {a a' b b' : List Char} (ha : '-' ∉ a) (ha' : '-' ∉ a') (h : a ++ '-' :: b = a' ++ '-' :: b') :
    a = a' ∧ b = b' := by
  induction a generalizing a' with
  | nil =>
    cases a' with
    | nil => simpa using h
    | cons c a' =>
      simp only [List.nil_append, List.cons_append, List.cons.injEq] at h
      exact absurd (List.mem_cons.2 (Or.inl h.1)) ha'
  | cons c a ih =>
    cases a' with
    | nil =>
      simp only [List.nil_append, List.cons_append, List.cons.injEq] at h
      exact absurd (List.mem_cons.2 (Or.inl h.1.symm)) ha
    | cons c' a' =>
      simp only [List.cons_append, List.cons.injEq] at h
      obtain ⟨rfl, h⟩ := h
      simp only [List.mem_cons, not_or] at ha ha'
      obtain ⟨rfl, rfl⟩ := ih ha.2 ha'.2 h
      exact ⟨rfl, rfl⟩

theorem lvm_id_inj {fm : Format ℝ} (hfm : GoodFix5 fm.fix5) {d k k' : ℕ} {α α' l l' : ℝ} (hα : 0 ≤ α) (hα' : 0 ≤ α')
    (h : (Call.lvm d d k α l 0 l).id fm = (Call.lvm d d k' α' l' 0 l').id fm) : k = k' ∧ |α - α'| ≤ 1e-5 := by
  simp only [Call.id] at h
  have h1 := (TaskIds.split_nat (List.append_cancel_left h)).2
  obtain ⟨h2, h3⟩ := TaskIds.split_nat (TaskIds.split_nat h1).2
  exact ⟨h2, hfm.close _ _ hα hα' (split_at_dash (hfm.nodash _ hα) (hfm.nodash _ hα') h3).1⟩

/-- **C69**: the tasks of the figure have different identifiers, so that the dictionary of tasks has all of them. -/
theorem figure_ids [MeasurableSpace Key] (R : JaxRandom Key) (κ : Measure Key) (hR : IdealRandom R κ)
    (uniform : ℝ → ℝ → ℕ → ℝ) (fm : Format ℝ) (hfm : GoodFix5 fm.fix5) :
    ∃ ts, taskList R uniform 1 10 = .ok ts ∧ ts.length = 19 ∧ (ts.map fun t => t.1.id fm).Nodup := by
  obtain ⟨ts, h1, h2⟩ := figure_tasks R κ hR uniform
  refine ⟨ts, h1, by rw [← h2.length_eq]; rfl, ?_⟩
  have h0 : (1 : ℝ) < alpha0 := by norm_num [alpha0]
  set ps : List (ℕ × ℝ) := (List.range 10).map (fun i : ℕ => (10, (i : ℝ) * (alpha0 / 9))) ++ (List.range' 1 9).map fun k : ℕ => (k, (0 : ℝ))
    with hps
  have hpos : ∀ p ∈ ps, 0 ≤ p.2 := by
    intro p hp
    rcases List.mem_append.1 hp with hp | hp
    · obtain ⟨i, -, rfl⟩ := List.mem_map.1 hp
      dsimp only
      positivity
    · obtain ⟨i, -, rfl⟩ := List.mem_map.1 hp
      exact le_rfl
  have hsep : ps.Pairwise fun p q => ¬ (p.1 = q.1 ∧ |p.2 - q.2| ≤ 1e-5) := by
    rw [hps, List.pairwise_append]
    refine ⟨?_, ?_, ?_⟩
    · rw [List.pairwise_map]
      refine List.pairwise_lt_range.imp ?_
      intro i j hij h
      have hij' : (1 : ℝ) ≤ j - i := by
        have : (i : ℝ) + 1 ≤ j := by exact_mod_cast hij
        linarith
      have h2 := (abs_le.1 h.2).1
      have : (1 : ℝ) * (alpha0 / 9) ≤ (j - i) * (alpha0 / 9) := mul_le_mul_of_nonneg_right hij' (by positivity)
      norm_num at h2
      linarith
    · rw [List.pairwise_map]
      refine (List.pairwise_lt_range' (s := 1) (n := 9) ).imp ?_
      intro i j hij h
      exact absurd h.1 hij.ne
    · intro p hp q hq h
      obtain ⟨i, -, rfl⟩ := List.mem_map.1 hp
      obtain ⟨k, hk, rfl⟩ := List.mem_map.1 hq
      rw [List.mem_range'_1] at hk
      have := h.1
      dsimp only at this
      omega
  have key : ∀ (ps : List (ℕ × ℝ)) (ts : List (Call ℝ × Sampler Key)),
      List.Forall₂ (fun (p : ℕ × ℝ) t => ∃ l, 0 < l ∧ l < 10 ∧ IsLvmTask R κ 10 p.1 p.2 l t ∧ |t.2.mi - 1| < 1e-4) ps ts →
      (∀ p ∈ ps, 0 ≤ p.2) → ps.Pairwise (fun p q => ¬ (p.1 = q.1 ∧ |p.2 - q.2| ≤ 1e-5)) →
      (ts.map fun t => t.1.id fm).Nodup := by
    intro ps ts h
    induction h with
    | nil => intro _ _; simp
    | @cons p t ps ts hpt hrest ih =>
      intro hp hs
      rw [List.pairwise_cons] at hs
      rw [List.map_cons, List.nodup_cons]
      refine ⟨?_, ih (fun q hq => hp q (List.mem_cons_of_mem _ hq)) hs.2⟩
      intro hmem
      obtain ⟨t', ht', heq⟩ := List.mem_map.1 hmem
      obtain ⟨q, hq, hqt⟩ : ∃ q ∈ ps, ∃ l, 0 < l ∧ l < 10 ∧ IsLvmTask R κ 10 q.1 q.2 l t' ∧ |t'.2.mi - 1| < 1e-4 := by
        clear ih hs hmem hp
        induction hrest with
        | nil => cases ht'
        | @cons q t1 qs ts hq _ ih' =>
          rcases List.mem_cons.1 ht' with rfl | ht'
          · exact ⟨q, List.mem_cons_self, hq⟩
          · obtain ⟨q', h1, h2⟩ := ih' ht'
            exact ⟨q', List.mem_cons_of_mem _ h1, h2⟩
      obtain ⟨l, -, -, hl, -⟩ := hpt
      obtain ⟨l', -, -, hl', -⟩ := hqt
      rw [hl.params, hl'.params] at heq
      have := lvm_id_inj hfm (hp q (List.mem_cons_of_mem _ hq)) (hp p List.mem_cons_self) heq
      exact hs.1 q hq ⟨this.1.symm, by rw [abs_sub_comm]; exact this.2⟩
  exact key ps ts h2 hpos hsep

/-- **C69**: the covariance shown in the figure for a task is the one its samples have. -/
theorem shown_covariance [MeasurableSpace Key] (R : JaxRandom Key) (κ : Measure Key) (d k : ℕ) (hk : k ≤ d) (α l : ℝ)
    (t : Call ℝ × Sampler Key) (ht : IsLvmTask R κ d k α l t) :
    ∃ m r C, paramsToLvm d (ReadResults.params 1 t.1) = .ok m ∧ m.correlation = .ok r ∧
      rowsOf r = rowsOf (correlationOf (n := d + d) C) ∧ IsLvmCovariance k α l 0 l C ∧
      Correct R κ t.2 d d ((normalLaw 0 (correlationOf C)).map (halves d d)) := by
  obtain ⟨m, c, h1, -, C, h2, h3, r, h4, h5⟩ := lvm_covariance d d k hk hk α l 0 l
  obtain ⟨C', h6, h7⟩ := ht.sampler
  have e : C' = C := by
    ext p q
    induction p using Fin.addCases <;> induction q using Fin.addCases
    · rw [h6.xx, h2.xx]
    · rw [h6.xy, h2.xy]
    · rw [h6.yx, h2.yx]
    · rw [h6.yy, h2.yy]
  subst e
  refine ⟨m, r, C', ?_, h4, h5, h2, h7⟩
  rw [ht.params]
  exact h1

/-! ### Refusals -/

theorem raises_lost (func : ℝ → Except Err ℝ) (hf : ∀ x, func x = .error .valueError) (uniform : ℝ → ℝ → ℕ → ℝ) (mi : ℝ)
    (hmi : -1e8 < mi) : binsearch realOps func mi 0 10 1e-4 5000 uniform = .ok none := by
  obtain ⟨t, h1, h2⟩ := binsearchLoop_raises realOps func mi 0 10 1e-4 uniform hf 5000 (binsearchStart realOps 0 10)
  unfold binsearch
  rw [h1]
  show (if meets realOps _ _ t.value = true then Except.ok (some t.mid) else Except.ok none) = _
  rw [if_neg]
  rw [meets_real, h2, not_lt]
  have : (binsearchStart realOps (0 : ℝ) 10).value = -1000000000 := by simp [binsearchStart, realOps]
  rw [this, abs_of_neg (by norm_num at hmi ⊢; linarith)]
  norm_num at hmi ⊢
  linarith

theorem miOfTask_raises (R : JaxRandom Key) (d k : ℤ) (h : ¬ (0 < d ∧ 0 ≤ k ∧ k ≤ d)) (α l : ℝ) :
    miOfTask R d k α l = .error .valueError := by
  have := (taskMultinormalLvm_accepts_iff R d d k α l 0 none)
  have h1 := this.2 (fun hs => h (by have := this.1.1 hs; tauto))
  simp only [miOfTask, h1, bind, Except.bind]

/-- **C69**: dimensions and numbers of pairs that make no sense are refused: `AssertionError` by `get_initial_alpha`, and in
dimension zero; `ValueError` if the number of pairs is not between zero and the dimension. -/
theorem refused (R : JaxRandom Key) (uniform : ℝ → ℝ → ℕ → ℝ) (mi : ℝ) (hmi : -1e8 < mi) (α : ℝ) (d k : ℤ) :
    (d ≤ 0 → getInitialAlpha R uniform mi d = .error .assertionError) ∧
    (d < 0 → getLambdaTask R uniform mi d α = .error .valueError) ∧
    getLambdaTask R uniform mi 0 α = .error .assertionError ∧
    (¬ (0 ≤ k ∧ k ≤ d) → getNInteractingTask R uniform mi d k = .error .valueError) := by
  refine ⟨fun h => ?_, fun h => ?_, ?_, fun h => ?_⟩
  · have hb := raises_lost (fun a => miOfTask R d 0 a 0) (fun a => miOfTask_raises R d 0 (by omega) a 0) uniform mi hmi
    simp only [getInitialAlpha, hb, bind, Except.bind]
  · have hb := raises_lost (fun l => miOfTask R d d α l) (fun l => miOfTask_raises R d d (by omega) α l) uniform mi hmi
    simp only [getLambdaTask, findLambd, hb, bind, Except.bind, lambdToTask,
      (gaussianLVM_spec d d d α 0 1 none 0 none 0 none).2 (by omega)]
  · have hb := raises_lost (fun l => miOfTask R 0 0 α l) (fun l => miOfTask_raises R 0 0 (by omega) α l) uniform mi hmi
    obtain ⟨m, hm, -⟩ := (gaussianLVM_spec 0 0 0 α 0 1 none 0 none 0 none).1 ⟨by omega, by omega, by omega⟩
    simp only [getLambdaTask, findLambd, hb, bind, Except.bind, lambdToTask, hm]
  · have hb := raises_lost (fun l => miOfTask R d k 0 l) (fun l => miOfTask_raises R d k (by tauto) 0 l) uniform mi hmi
    simp only [getNInteractingTask, findLambd, hb, bind, Except.bind, lambdToTask,
      (gaussianLVM_spec d d k 0 0 1 none 0 none 0 none).2 (by omega)]

/-- **C69**: along the first panel the strength of the pairs decreases: for the same information, more in common to all
variables means less in common to each pair. -/
theorem strength_decreases (d : ℕ) (hd : 0 < d) (α α' l l' : ℝ) (hα : 0 ≤ α) (h : α < α') (hl : 0 ≤ l) (hl' : 0 ≤ l')
    (he : denseInfo d α l = denseInfo d α' l') : l' < l := by
  by_contra hlt
  have hd' : (1 : ℝ) ≤ d := by exact_mod_cast hd
  have h1 : l ^ 2 ≤ l' ^ 2 := pow_le_pow_left₀ hl (not_lt.1 hlt) 2
  have h2 : α ^ 2 < α' ^ 2 := pow_lt_pow_left₀ h hα two_ne_zero
  have h3 := mul_le_mul_of_nonneg_left (gain_le (sq_nonneg l) h1) (sub_nonneg.2 hd')
  have h4 := gain_lt (s := l ^ 2 + d * α ^ 2) (t := l' ^ 2 + d * α' ^ 2) (by positivity) (by nlinarith)
  simp only [denseInfo] at he
  linarith

/-! ### Examples -/

/-- The digits of a number without the dot. -/
noncomputable def exampleFix5 (x : ℝ) : List Char := TaskIds.nat ⌊x * 100000⌋₊

theorem exampleFix5_good : GoodFix5 exampleFix5 where
  close x y hx hy h := by
    have h1 := TaskIds.nat_inj h
    have a := Nat.floor_le (show 0 ≤ x * 100000 by positivity)
    have b := Nat.lt_floor_add_one (x * 100000)
    have c := Nat.floor_le (show 0 ≤ y * 100000 by positivity)
    have e := Nat.lt_floor_add_one (y * 100000)
    rw [h1] at a b
    norm_num
    rw [abs_le]
    constructor <;> linarith
  nodash x _ h := absurd (TaskIds.nat_digit h) (by decide)

example (uniform : ℝ → ℝ → ℕ → ℝ) : ∃ ts, taskList tree uniform 1 10 = .ok ts ∧ ts.length = 19 ∧
    (ts.map fun t => t.1.id ⟨exampleFix5, exampleFix5⟩).Nodup :=
  figure_ids tree treeLaw tree_ideal uniform _ exampleFix5_good

/-- Wanting one nat of information in 3 dimensions with one pair. -/
example (uniform : ℝ → ℝ → ℕ → ℝ) : ∃ t l, getNInteractingTask tree uniform 1 (3 : ℕ) (1 : ℕ) = .ok t ∧ 0 < l ∧ l < 10 ∧
    IsLvmTask tree treeLaw 3 1 0 l t ∧ |t.2.mi - 1| < 1e-4 :=
  (getNInteractingTask_spec tree treeLaw tree_ideal uniform 3 1 (by norm_num) (by norm_num) (by
    refine le_trans ?_ (pow_le_pow_right₀ (by norm_num : (1 : ℝ) ≤ 2) (by norm_num : 8 ≤ 4000))
    norm_num) 1 (by norm_num)).1 (by norm_num) (by
      have := gain_hundred
      norm_num at *
      linarith)

/-- The wanted number is out of reach. -/
example (uniform : ℝ → ℝ → ℕ → ℝ) : getInitialAlpha tree uniform (-1) (3 : ℕ) = .error .assertionError :=
  (getInitialAlpha_spec tree treeLaw tree_ideal uniform 3 (by norm_num) (by
    refine le_trans ?_ (pow_le_pow_right₀ (by norm_num : (1 : ℝ) ≤ 2) (by norm_num : 8 ≤ 4000))
    norm_num) (-1) (by norm_num)).2 (Or.inl (by norm_num))

/-- **C69**: parameters without one of the five entries cannot be turned into a model. -/
theorem paramsToLvm_missing (dim : ℤ) (p : Run.Dict (ReadResults.PVal ℝ)) (hn : p.get "n_interacting" = none ∨ ∃ n, p.get "n_interacting" = some (.int n))
    (hf : ∀ k ∈ ["alpha", "lambd", "beta_x", "eta_x"], p.get k = none ∨ ∃ x, p.get k = some (.float x))
    (hm : ∃ k ∈ ["n_interacting", "alpha", "lambd", "beta_x", "eta_x"], p.get k = none) : paramsToLvm dim p = .error .keyError := by
  simp only [List.mem_cons, List.not_mem_nil, or_false, forall_eq_or_imp, forall_eq, exists_eq_or_imp, exists_eq_left] at hf hm
  obtain ⟨h1, h2, h3, h4⟩ := hf
  rcases hn with h0 | ⟨n, h0⟩
  · simp [paramsToLvm, intParam, h0, bind, Except.bind]
  rcases h1 with h1 | ⟨a, h1⟩
  · simp [paramsToLvm, intParam, floatParam, h0, h1, bind, Except.bind]
  rcases h2 with h2 | ⟨b, h2⟩
  · simp [paramsToLvm, intParam, floatParam, h0, h1, h2, bind, Except.bind]
  rcases h3 with h3 | ⟨c, h3⟩
  · simp [paramsToLvm, intParam, floatParam, h0, h1, h2, h3, bind, Except.bind]
  rcases h4 with h4 | ⟨d, h4⟩
  · simp [paramsToLvm, intParam, floatParam, h0, h1, h2, h3, h4, bind, Except.bind]
  · simp [h0, h1, h2, h3, h4] at hm

example : paramsToLvm 3 [("n_interacting", .int 2)] = .error .keyError :=
  paramsToLvm_missing 3 _ (.inr ⟨2, rfl⟩) (fun k hk => .inl (by
    simp only [List.mem_cons, List.not_mem_nil, or_false] at hk
    rcases hk with rfl | rfl | rfl | rfl <;> rfl)) ⟨"alpha", by simp, rfl⟩

end BMI.Sparsity
