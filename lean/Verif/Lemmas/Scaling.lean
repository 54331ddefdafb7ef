import Verif.Model.Scaling
import Mathlib.Tactic.Linarith
import Mathlib.Tactic.Positivity
import Mathlib.Tactic.FieldSimp
import Mathlib.Tactic.Ring
import Mathlib.Tactic.NormNum
import Mathlib.Algebra.Order.Floor.Semiring
import Mathlib.Algebra.Order.BigOperators.Group.Finset
import Mathlib.Algebra.BigOperators.Field

/-! Helper lemmas about `np.interp`, percentiles and column scaling. -/

namespace BMI.Scaling

section Interp

variable {m : ℕ} {xp fp : ℕ → ℝ}

open Classical in
theorem interp_of_lt {x : ℝ} (h : x < xp 0) : interp m xp fp x = fp 0 := by
  unfold interp; rw [if_pos h]

open Classical in
/-- Which piece is used. -/
theorem interp_piece {x : ℝ} (h : xp 0 ≤ x) :
    (xp m ≤ x ∧ interp m xp fp x = fp m) ∨
    ∃ j, j < m ∧ xp j ≤ x ∧ x < xp (j + 1) ∧ (∀ k, j < k → k ≤ m → x < xp k) ∧
      interp m xp fp x = fp j + (fp (j + 1) - fp j) / (xp (j + 1) - xp j) * (x - xp j) := by
  have hspec : xp (Nat.findGreatest (fun j => xp j ≤ x) m) ≤ x :=
    Nat.findGreatest_spec (P := fun j => xp j ≤ x) (Nat.zero_le m) h
  have hmax : ∀ k, Nat.findGreatest (fun j => xp j ≤ x) m < k → k ≤ m → x < xp k := fun k h1 h2 =>
    not_le.1 (Nat.findGreatest_is_greatest (P := fun j => xp j ≤ x) h1 h2)
  have hle : Nat.findGreatest (fun j => xp j ≤ x) m ≤ m := Nat.findGreatest_le m
  unfold interp
  rw [if_neg (not_lt.2 h)]
  generalize Nat.findGreatest (fun j => xp j ≤ x) m = j at hspec hmax hle
  dsimp only
  by_cases hj : j = m
  · left
    subst hj
    exact ⟨hspec, by simp⟩
  · right
    have hlt : j < m := lt_of_le_of_ne hle hj
    refine ⟨j, hlt, hspec, hmax _ (Nat.lt_succ_self j) hlt, hmax, ?_⟩
    rw [if_neg hj]

theorem piece_bounds {a b u v x : ℝ} (hf : a < b) (h1 : u ≤ x) (h2 : x < v) :
    a ≤ a + (b - a) / (v - u) * (x - u) ∧ a + (b - a) / (v - u) * (x - u) < b := by
  have hv : 0 < v - u := by linarith
  constructor
  · have : 0 ≤ (b - a) / (v - u) * (x - u) :=
      mul_nonneg (div_nonneg (by linarith) hv.le) (by linarith)
    linarith
  · have : (b - a) / (v - u) * (x - u) < b - a := by
      rw [div_mul_eq_mul_div, div_lt_iff₀ hv]
      exact mul_lt_mul_of_pos_left (by linarith) (by linarith)
    linarith

theorem interp_bounds (hf : ∀ a b, a < b → b ≤ m → fp a < fp b) (x : ℝ) :
    fp 0 ≤ interp m xp fp x ∧ interp m xp fp x ≤ fp m := by
  have hmono : ∀ a b, a ≤ b → b ≤ m → fp a ≤ fp b := fun a b h1 h2 => by
    rcases h1.lt_or_eq with h | h
    · exact (hf a b h h2).le
    · rw [h]
  rcases lt_or_ge x (xp 0) with h | h
  · rw [interp_of_lt h]; exact ⟨le_rfl, hmono 0 m (Nat.zero_le m) le_rfl⟩
  · rcases interp_piece (m := m) (fp := fp) h with ⟨-, e⟩ | ⟨j, hj, h1, h2, -, e⟩
    · rw [e]; exact ⟨hmono 0 m (Nat.zero_le m) le_rfl, le_rfl⟩
    · rw [e]
      have := piece_bounds (hf j (j + 1) (Nat.lt_succ_self j) hj) h1 h2
      exact ⟨(hmono 0 j (Nat.zero_le j) hj.le).trans this.1, this.2.le.trans (hmono _ _ hj le_rfl)⟩

theorem interp_strict (hf : ∀ a b, a < b → b ≤ m → fp a < fp b) {x y : ℝ} (h0 : xp 0 ≤ x) (hxy : x < y)
    (hm : y ≤ xp m) : interp m xp fp x < interp m xp fp y := by
  have hmono : ∀ a b, a ≤ b → b ≤ m → fp a ≤ fp b := fun a b h1 h2 => by
    rcases h1.lt_or_eq with h | h
    · exact (hf a b h h2).le
    · rw [h]
  rcases interp_piece (m := m) (fp := fp) h0 with ⟨h, -⟩ | ⟨j, hj, h1, h2, h3, e⟩
  · linarith
  have hb := piece_bounds (hf j (j + 1) (Nat.lt_succ_self j) hj) h1 h2
  rcases interp_piece (m := m) (fp := fp) (h0.trans hxy.le) with ⟨-, e'⟩ | ⟨k, hk, k1, k2, k3, e'⟩
  · rw [e, e']
    exact hb.2.trans_le (hmono _ _ hj le_rfl)
  · rw [e, e']
    have hjk : j ≤ k := by
      by_contra hlt
      have := k3 j (not_le.1 hlt) hj.le
      linarith
    rcases hjk.lt_or_eq with hlt | heq
    · have hb' := piece_bounds (hf k (k + 1) (Nat.lt_succ_self k) hk) k1 k2
      exact (hb.2.trans_le (hmono _ _ hlt hk.le)).trans_le hb'.1
    · subst heq
      have hs : 0 < (fp (j + 1) - fp j) / (xp (j + 1) - xp j) :=
        div_pos (by linarith [hf j (j + 1) (Nat.lt_succ_self j) hj]) (by linarith)
      have := mul_lt_mul_of_pos_left (show x - xp j < y - xp j by linarith) hs
      linarith

theorem interp_mono (hf : ∀ a b, a < b → b ≤ m → fp a < fp b) {x y : ℝ} (hxy : x ≤ y) :
    interp m xp fp x ≤ interp m xp fp y := by
  rcases lt_or_ge x (xp 0) with h | h
  · rw [interp_of_lt h]; exact (interp_bounds hf y).1
  rcases hxy.lt_or_eq with hlt | heq
  · rcases le_or_gt y (xp m) with hm | hm
    · exact (interp_strict hf h hlt hm).le
    · rcases interp_piece (m := m) (fp := fp) (h.trans hxy) with ⟨-, e⟩ | ⟨j, hj, -, -, h3, -⟩
      · rw [e]; exact (interp_bounds hf x).2
      · have := h3 m hj le_rfl
        linarith
  · rw [heq]

theorem interp_affine (a b : ℝ) (ha : 0 < a) (x : ℝ) :
    interp m (fun k => a * xp k + b) fp (a * x + b) = interp m xp fp x := by
  have hP : ∀ k, (a * xp k + b ≤ a * x + b) ↔ xp k ≤ x := fun k => by
    rw [add_le_add_iff_right, mul_le_mul_iff_of_pos_left ha]
  have h0 : (a * x + b < a * xp 0 + b) ↔ x < xp 0 := by
    rw [add_lt_add_iff_right, mul_lt_mul_iff_of_pos_left ha]
  unfold interp
  simp only [hP, h0]
  have : ∀ j, (fp (j + 1) - fp j) / (a * xp (j + 1) + b - (a * xp j + b)) * (a * x + b - (a * xp j + b))
      = (fp (j + 1) - fp j) / (xp (j + 1) - xp j) * (x - xp j) := fun j => by
    have e1 : a * xp (j + 1) + b - (a * xp j + b) = a * (xp (j + 1) - xp j) := by ring
    have e2 : a * x + b - (a * xp j + b) = a * (x - xp j) := by ring
    rw [e1, e2]
    rcases eq_or_ne (xp (j + 1) - xp j) 0 with hz | hz
    · rw [hz]; simp
    · field_simp
  simp only [this]

end Interp

section Between

theorem reference_lt {m : ℕ} (a b : ℕ) (h : a < b) (hb : b ≤ m) : reference m a < reference m b := by
  have hm : 0 < m := by omega
  unfold reference
  rw [if_neg hm.ne', if_neg hm.ne']
  have : (0 : ℝ) < m := by exact_mod_cast hm
  rw [div_lt_div_iff_of_pos_right this]
  exact_mod_cast h

theorem reference_rev {m : ℕ} (a b : ℕ) (h : a < b) (hb : b ≤ m) :
    -reference m (m - a) < -reference m (m - b) := by
  have := reference_lt (m := m) (m - b) (m - a) (by omega) (by omega)
  linarith

theorem reference_zero (m : ℕ) : reference m 0 = 0 := by
  unfold reference; split <;> simp

theorem reference_last {m : ℕ} (hm : 0 < m) : reference m m = 1 := by
  unfold reference
  rw [if_neg hm.ne']
  have : (m : ℝ) ≠ 0 := by exact_mod_cast hm.ne'
  exact div_self this

theorem reference_last_le (m : ℕ) : reference m m ≤ 1 := by
  rcases Nat.eq_zero_or_pos m with h | h
  · subst h; rw [reference_zero]; norm_num
  · rw [reference_last h]

theorem between_mono {m : ℕ} {q : ℕ → ℝ} {x y : ℝ} (h : x ≤ y) : between m q x ≤ between m q y := by
  unfold between
  have h1 := interp_mono (m := m) (xp := q) (fp := reference m) reference_lt h
  have h2 := interp_mono (m := m) (xp := fun k => -q (m - k)) (fp := fun k => -reference m (m - k))
    reference_rev (neg_le_neg h)
  linarith

theorem between_strict {m : ℕ} {q : ℕ → ℝ} {x y : ℝ} (h0 : q 0 ≤ x) (h : x < y) (hm : y ≤ q m) :
    between m q x < between m q y := by
  unfold between
  have h1 := interp_strict (m := m) (xp := q) (fp := reference m) reference_lt h0 h hm
  have h2 := interp_mono (m := m) (xp := fun k => -q (m - k)) (fp := fun k => -reference m (m - k))
    reference_rev (neg_le_neg h.le)
  linarith

theorem between_bounds {m : ℕ} {q : ℕ → ℝ} (x : ℝ) : 0 ≤ between m q x ∧ between m q x ≤ 1 := by
  unfold between
  have h1 := interp_bounds (m := m) (xp := q) (fp := reference m) reference_lt x
  have h2 := interp_bounds (m := m) (xp := fun k => -q (m - k)) (fp := fun k => -reference m (m - k))
    reference_rev (-x)
  rw [reference_zero] at h1
  simp only [Nat.sub_zero, Nat.sub_self, reference_zero, neg_zero] at h2
  have := reference_last_le m
  constructor <;> linarith

theorem between_below {m : ℕ} {q : ℕ → ℝ} (hq : q 0 ≤ q m) {x : ℝ} (h : x < q 0) : between m q x = 0 := by
  unfold between
  have hx : ∀ f : ℕ → ℝ, interp m (fun k => -q (m - k)) f (-x) = f m := fun f => by
    rcases interp_piece (m := m) (xp := fun k => -q (m - k)) (fp := f) (x := -x)
      (by simp only [Nat.sub_zero]; linarith) with ⟨-, e⟩ | ⟨j, hj, -, -, h4, -⟩
    · exact e
    · have := h4 m hj le_rfl
      simp only [Nat.sub_self] at this
      linarith
  rw [interp_of_lt h, reference_zero, hx]
  simp [reference_zero]

theorem between_above {m : ℕ} (hm : 0 < m) {q : ℕ → ℝ} (hq : q 0 ≤ q m) {x : ℝ} (h : q m < x) :
    between m q x = 1 := by
  unfold between
  have hx : ∀ f : ℕ → ℝ, interp m q f x = f m := fun f => by
    rcases interp_piece (m := m) (xp := q) (fp := f) (x := x) (by linarith) with ⟨-, e⟩ | ⟨j, hj, -, -, h4, -⟩
    · exact e
    · have := h4 m hj le_rfl
      linarith
  rw [hx, interp_of_lt (by simp only [Nat.sub_zero]; linarith)]
  simp only [Nat.sub_zero, reference_last hm]
  norm_num

theorem between_affine {m : ℕ} {q : ℕ → ℝ} (a b : ℝ) (ha : 0 < a) (x : ℝ) :
    between m (fun k => a * q k + b) (a * x + b) = between m q x := by
  unfold between
  rw [interp_affine a b ha]
  have e1 : (fun k => -(a * q (m - k) + b)) = fun k => a * (-q (m - k)) + -b := by
    funext k; ring
  have e2 : -(a * x + b) = a * (-x) + -b := by ring
  have := interp_affine (m := m) (xp := fun k => -q (m - k)) (fp := fun k => -reference m (m - k)) a (-b) ha (-x)
  rw [e1, e2, this]

end Between

section ToUnit

variable {m : ℕ} {q : ℕ → ℝ}

open Classical in
theorem toUnit_bounds (τ : ℝ) (x : ℝ) : 0 ≤ toUnit τ m q x ∧ toUnit τ m q x ≤ 1 := by
  unfold toUnit
  by_cases h1 : (if τ = 0 then x = q 0 else x - τ < q 0)
  · rw [if_pos h1]; norm_num
  · rw [if_neg h1]
    by_cases h2 : (if τ = 0 then x = q m else q m < x + τ)
    · rw [if_pos h2]; norm_num
    · rw [if_neg h2]; exact between_bounds x

open Classical in
theorem toUnit_zero_lower : toUnit 0 m q (q 0) = 0 := by
  unfold toUnit; simp

open Classical in
theorem toUnit_zero_upper (h : q 0 < q m) : toUnit 0 m q (q m) = 1 := by
  unfold toUnit; simp [h.ne']

open Classical in
theorem toUnit_zero_inner {x : ℝ} (h0 : q 0 < x) (h1 : x < q m) : toUnit 0 m q x = between m q x := by
  unfold toUnit; simp [h0.ne', h1.ne]

/-- Without subsampling distinct values stay distinct and in order. -/
theorem toUnit_strict {x y : ℝ} (h0 : q 0 ≤ x) (h : x < y) (h1 : y ≤ q m) :
    toUnit 0 m q x < toUnit 0 m q y := by
  have hlt : q 0 < q m := by linarith
  have hb : ∀ z, q 0 < z → z < q m → 0 < toUnit 0 m q z ∧ toUnit 0 m q z < 1 := fun z hz hz' => by
    rw [toUnit_zero_inner hz hz']
    have e1 := between_strict (m := m) (q := q) le_rfl hz hz'.le
    have e2 := between_strict (m := m) (q := q) hz.le hz' le_rfl
    exact ⟨(between_bounds (q 0)).1.trans_lt e1, e2.trans_le (between_bounds (q m)).2⟩
  rcases h0.lt_or_eq with h0 | h0
  · rcases h1.lt_or_eq with h1 | h1
    · rw [toUnit_zero_inner h0 (h.trans h1), toUnit_zero_inner (h0.trans h) h1]
      exact between_strict h0.le h h1.le
    · rw [h1, toUnit_zero_upper hlt]
      exact (hb x h0 (h1 ▸ h)).2
  · subst h0
    rw [toUnit_zero_lower]
    rcases h1.lt_or_eq with h1 | h1
    · exact (hb y h h1).1
    · rw [h1, toUnit_zero_upper hlt]; norm_num

open Classical in
theorem toUnit_mono (τ : ℝ) (hτ : 0 ≤ τ) (hq : q 0 ≤ q m) {x y : ℝ} (h : x ≤ y) :
    toUnit τ m q x ≤ toUnit τ m q y := by
  rcases h.lt_or_eq with h | h
  swap
  · rw [h]
  by_cases hx1 : (if τ = 0 then x = q 0 else x - τ < q 0)
  · have : toUnit τ m q x = 0 := by unfold toUnit; rw [if_pos hx1]
    rw [this]; exact (toUnit_bounds τ y).1
  by_cases hy1 : (if τ = 0 then y = q 0 else y - τ < q 0)
  · -- then `τ = 0` and `x` lies below all quantiles
    have hτ0 : τ = 0 := by
      by_contra hne
      rw [if_neg hne] at hx1 hy1
      linarith
    subst hτ0
    rw [if_pos rfl] at hx1 hy1
    have hx0 : x < q 0 := by linarith
    have : toUnit 0 m q x = between m q x := by
      unfold toUnit
      rw [if_neg (by rw [if_pos rfl]; exact hx1), if_neg (by rw [if_pos rfl]; intro h; linarith)]
    rw [this, between_below hq hx0]
    exact (toUnit_bounds 0 y).1
  by_cases hy2 : (if τ = 0 then y = q m else q m < y + τ)
  · have : toUnit τ m q y = 1 := by unfold toUnit; rw [if_neg hy1, if_pos hy2]
    rw [this]; exact (toUnit_bounds τ x).2
  by_cases hx2 : (if τ = 0 then x = q m else q m < x + τ)
  · have hτ0 : τ = 0 := by
      by_contra hne
      rw [if_neg hne] at hx2 hy2
      linarith
    subst hτ0
    rw [if_pos rfl] at hx2 hy2 hx1 hy1
    have hm : 0 < m := by
      rcases Nat.eq_zero_or_pos m with hm | hm
      · subst hm; exact absurd hx2 hx1
      · exact hm
    have : toUnit 0 m q y = between m q y := by
      unfold toUnit
      rw [if_neg (by rw [if_pos rfl]; exact hy1), if_neg (by rw [if_pos rfl]; exact hy2)]
    rw [this, between_above hm hq (by linarith)]
    exact (toUnit_bounds 0 x).2
  · have e1 : toUnit τ m q x = between m q x := by unfold toUnit; rw [if_neg hx1, if_neg hx2]
    have e2 : toUnit τ m q y = between m q y := by unfold toUnit; rw [if_neg hy1, if_neg hy2]
    rw [e1, e2]; exact between_mono h.le

open Classical in
theorem toUnit_affine (a b : ℝ) (ha : 0 < a) (x : ℝ) :
    toUnit 0 m (fun k => a * q k + b) (a * x + b) = toUnit 0 m q x := by
  unfold toUnit
  simp only [if_true, add_left_inj, mul_right_inj' ha.ne', between_affine a b ha]

end ToUnit

section Percentile

variable {n : ℕ} (c : Fin (n + 1) → ℝ)

theorem sorted_mono {k l : ℕ} (h : k ≤ l) : sorted c k ≤ sorted c l := by
  unfold sorted
  exact Tuple.monotone_sort c (show (⟨min k n, _⟩ : Fin (n + 1)) ≤ ⟨min l n, _⟩ by
    simp only [Fin.mk_le_mk]; omega)

theorem sorted_mem (i : Fin (n + 1)) : ∃ k, k ≤ n ∧ sorted c k = c i := by
  obtain ⟨s, hs⟩ := (Tuple.sort c).surjective i
  refine ⟨s, by omega, ?_⟩
  unfold sorted
  have : (⟨min (s : ℕ) n, by omega⟩ : Fin (n + 1)) = s := by
    apply Fin.ext; simp only; omega
  rw [this, hs]

theorem sorted_attained (k : ℕ) : ∃ i, sorted c k = c i := ⟨_, rfl⟩

theorem percentile_zero : percentile c 0 = sorted c 0 := by
  unfold percentile; simp

theorem percentile_one : percentile c 1 = sorted c n := by
  unfold percentile; simp

theorem sorted_affine (a b : ℝ) (ha : 0 < a) (k : ℕ) :
    sorted (fun i => a * c i + b) k = a * sorted c k + b := by
  have hm : Monotone ((fun i => a * c i + b) ∘ Tuple.sort c) := fun i j hij => by
    have := Tuple.monotone_sort c hij
    simp only [Function.comp_apply] at this ⊢
    nlinarith
  have := (Tuple.comp_sort_eq_comp_iff_monotone (f := fun i => a * c i + b) (σ := Tuple.sort c)).2 hm
  unfold sorted
  exact congrFun this.symm _

theorem percentile_affine (a b : ℝ) (ha : 0 < a) (r : ℝ) :
    percentile (fun i => a * c i + b) r = a * percentile c r + b := by
  unfold percentile
  simp only [sorted_affine c a b ha]
  ring

end Percentile

end BMI.Scaling
