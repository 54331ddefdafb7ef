import Verif.Lemmas.Scaling
import Mathlib.Algebra.Order.Floor.Semiring
import Mathlib.Data.Fintype.Fin

/-! How many numbers lie below and above a percentile. -/

namespace BMI.Scaling

variable {n : ℕ} {c : Fin (n + 1) → ℝ} {r s : ℝ}

theorem sorted_floor_le (hr : 0 ≤ r) : sorted c ⌊r * n⌋₊ ≤ percentile c r := by
  have h := sorted_mono c (Nat.le_succ ⌊r * n⌋₊)
  have h2 := Nat.floor_le (a := r * n) (by positivity)
  unfold percentile
  simp only
  nlinarith

theorem le_sorted_succ : percentile c r ≤ sorted c (⌊r * n⌋₊ + 1) := by
  have h := sorted_mono c (Nat.le_succ ⌊r * n⌋₊)
  have h2 := Nat.lt_floor_add_one (r * n)
  unfold percentile
  simp only
  nlinarith

theorem le_sorted_ceil (hr : 0 ≤ r) : percentile c r ≤ sorted c ⌈r * n⌉₊ := by
  have h0 : 0 ≤ r * n := by positivity
  rcases (Nat.floor_le_ceil (r * n)).eq_or_lt with h | h
  · have h1 : (⌊r * n⌋₊ : ℝ) = r * n := le_antisymm (Nat.floor_le h0) (by rw [h]; exact Nat.le_ceil _)
    unfold percentile
    simp only [h1, sub_self, zero_mul, add_zero]
    rw [h]
  · exact le_sorted_succ.trans (sorted_mono c h)

theorem percentile_mono (hr : 0 ≤ r) (h : r ≤ s) : percentile c r ≤ percentile c s := by
  have hn : (0 : ℝ) ≤ n := by positivity
  have h1 : r * n ≤ s * n := mul_le_mul_of_nonneg_right h hn
  rcases (Nat.floor_mono h1).eq_or_lt with h2 | h2
  · have h3 := sorted_mono c (Nat.le_succ ⌊s * n⌋₊)
    unfold percentile
    simp only [h2]
    nlinarith
  · exact (le_sorted_succ.trans (sorted_mono c h2)).trans (sorted_floor_le (hr.trans h))

theorem card_sorted (p : ℝ → Prop) [DecidablePred p] : (Finset.univ.filter fun i => p (c i)).card
    = (Finset.univ.filter fun k : Fin (n + 1) => p (sorted c k)).card := by
  have e : ∀ k : Fin (n + 1), sorted c k = c (Tuple.sort c k) := fun k => by
    unfold sorted
    congr 2
    exact Fin.ext (by simp only; omega)
  refine (Finset.card_bij' (fun k _ => Tuple.sort c k) (fun i _ => (Tuple.sort c).symm i) ?_ ?_ ?_ ?_).symm
  · intro k hk
    simp only [Finset.mem_filter, Finset.mem_univ, true_and, e] at hk ⊢
    exact hk
  · intro i hi
    simp only [Finset.mem_filter, Finset.mem_univ, true_and, e] at hi ⊢
    simpa using hi
  · intro k _
    simp
  · intro i _
    simp

/-- At most the fraction `r` of the numbers is below the percentile. -/
theorem card_below (hr : 0 ≤ r) : (Finset.univ.filter fun i => c i < percentile c r).card ≤ ⌈r * n⌉₊ := by
  rw [card_sorted (c := c) (· < percentile c r)]
  refine (Finset.card_le_card (t := Finset.univ.filter fun k : Fin (n + 1) => (k : ℕ) < ⌈r * n⌉₊) fun k hk => ?_).trans ?_
  · simp only [Finset.mem_filter, Finset.mem_univ, true_and] at hk ⊢
    by_contra h
    exact absurd (hk.trans_le (le_sorted_ceil hr)) (not_lt.2 (sorted_mono c (not_lt.1 h)))
  · refine (Finset.card_le_card_of_injOn (t := Finset.range ⌈r * n⌉₊) (fun k : Fin (n + 1) => (k : ℕ)) (fun k hk => ?_)
      (Fin.val_injective.injOn)).trans (by simp)
    simpa using hk

/-- At most the fraction `1 - r` of the numbers is above the percentile. -/
theorem card_above (hr : 0 ≤ r) (hr1 : r ≤ 1) : (Finset.univ.filter fun i => percentile c r < c i).card ≤ ⌈(1 - r) * n⌉₊ := by
  have hn : (0 : ℝ) ≤ n := by positivity
  rw [card_sorted (c := c) (percentile c r < ·)]
  have h0 : 0 ≤ r * n := by positivity
  have hfl : ⌊r * n⌋₊ ≤ n := Nat.floor_le_of_le (by nlinarith)
  have hc : n - ⌊r * n⌋₊ ≤ ⌈(1 - r) * n⌉₊ := by
    have h1 := Nat.le_ceil ((1 - r) * n)
    have h2 := Nat.floor_le h0
    have h3 : (n : ℝ) - ⌈(1 - r) * (n : ℝ)⌉₊ ≤ r * n := by linarith
    by_contra h
    have h4 : ⌊r * n⌋₊ + ⌈(1 - r) * (n : ℝ)⌉₊ + 1 ≤ n := by omega
    have h5 := Nat.lt_floor_add_one (r * n)
    have h6 : ((⌊r * n⌋₊ + ⌈(1 - r) * (n : ℝ)⌉₊ + 1 : ℕ) : ℝ) ≤ n := by exact_mod_cast h4
    push_cast at h6
    linarith
  refine le_trans ?_ hc
  refine (Finset.card_le_card_of_injOn (t := Finset.Ioc ⌊r * n⌋₊ n) (fun k : Fin (n + 1) => (k : ℕ)) (fun k hk => ?_)
    (Fin.val_injective.injOn)).trans (by simp)
  simp only [Finset.coe_filter, Finset.mem_univ, true_and, Set.mem_setOf_eq, Finset.coe_Ioc, Set.mem_Ioc] at hk ⊢
  refine ⟨?_, by omega⟩
  by_contra h
  exact absurd ((sorted_floor_le hr).trans_lt hk) (not_lt.2 (sorted_mono c (not_lt.1 h)))

theorem exists_le_percentile (hr : 0 ≤ r) : ∃ i, c i ≤ percentile c r := by
  obtain ⟨i, hi⟩ := sorted_attained c ⌊r * n⌋₊
  exact ⟨i, hi ▸ sorted_floor_le hr⟩

theorem exists_percentile_le : ∃ i, percentile c r ≤ c i := by
  obtain ⟨i, hi⟩ := sorted_attained c (⌊r * n⌋₊ + 1)
  exact ⟨i, hi ▸ le_sorted_succ⟩

/-- Counting in a list. -/
theorem countP_get {α : Type} (p : α → Bool) : ∀ l : List α, l.countP p = (Finset.univ.filter fun i : Fin l.length => p (l.get i) = true).card
  | [] => by simp
  | a :: l => by
    rw [List.countP_cons, countP_get p l]
    show _ = (Finset.univ.filter fun i : Fin (l.length + 1) => p ((a :: l).get i) = true).card
    rw [Fin.card_filter_univ_succ]
    simp only [List.get_cons_zero, List.get_cons_succ']
    by_cases h : p a = true <;> simp [h, Function.comp_def]

end BMI.Scaling
