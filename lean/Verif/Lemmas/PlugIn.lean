import Verif.Spec.PlugIn
import Mathlib.Tactic.Linarith
import Mathlib.Tactic.Ring
import Mathlib.Tactic.FieldSimp
import Mathlib.Tactic.Positivity
import Mathlib.Data.Finset.Card
import Mathlib.Algebra.BigOperators.Fin
import Mathlib.Algebra.BigOperators.Field
import Mathlib.Algebra.Order.BigOperators.Group.Finset

/-! Gibbs' inequality and related facts about empirical mutual information. -/

namespace BMI.PlugIn

open Classical in
theorem freq_nonneg {n : ℕ} {α β : Type} (A : Fin n → α) (B : Fin n → β) (a : α) (b : β) :
    0 ≤ freq A B a b := by unfold freq; positivity

open Classical in
theorem freq1_nonneg {n : ℕ} {α : Type} (A : Fin n → α) (a : α) :
    0 ≤ freq1 A a := by unfold freq1; positivity

open Classical in
theorem sum_freq {n : ℕ} {α β : Type} (A : Fin n → α) (B : Fin n → β) (a : α) (T : Finset β)
    (hT : ∀ i, B i ∈ T) : ∑ b ∈ T, freq A B a b = freq1 A a := by
  unfold freq freq1
  rw [← Finset.sum_div, ← Nat.cast_sum]
  congr 2
  have := Finset.card_eq_sum_card_fiberwise (f := B) (s := Finset.univ.filter fun i => A i = a) (t := T)
    (fun i _ => hT i)
  rw [this]
  refine Finset.sum_congr rfl fun b _ => ?_
  rw [Finset.filter_filter]

open Classical in
theorem freq_swap {n : ℕ} {α β : Type} (A : Fin n → α) (B : Fin n → β) (a : α) (b : β) :
    freq B A b a = freq A B a b := by
  unfold freq; congr 3; ext i; simp [and_comm]

open Classical in
theorem sum_freq1 {n : ℕ} (hn : 0 < n) {α : Type} (A : Fin n → α) (S : Finset α)
    (hS : ∀ i, A i ∈ S) : ∑ a ∈ S, freq1 A a = 1 := by
  unfold freq1
  rw [← Finset.sum_div, ← Nat.cast_sum]
  have := Finset.card_eq_sum_card_fiberwise (f := A) (s := (Finset.univ : Finset (Fin n))) (t := S)
    (fun i _ => hS i)
  rw [← this]
  have : (n : ℝ) ≠ 0 := by positivity
  simp [this]

open Classical in
theorem freq_eq_zero {n : ℕ} {α β : Type} (A : Fin n → α) (B : Fin n → β) (a : α) (b : β)
    (h : ∀ i, ¬ (A i = a ∧ B i = b)) : freq A B a b = 0 := by
  unfold freq
  rw [Finset.filter_false_of_mem fun i _ => h i]
  simp

open Classical in
/-- The sum may run over any sets containing the occurring values. -/
theorem info_eq {n : ℕ} {α β : Type} (A : Fin n → α) (B : Fin n → β) (S : Finset α) (T : Finset β)
    (hS : ∀ i, A i ∈ S) (hT : ∀ i, B i ∈ T) :
    info A B = ∑ a ∈ S, ∑ b ∈ T, freq A B a b * Real.log (freq A B a b / (freq1 A a * freq1 B b)) := by
  unfold info
  have h1 : ∀ a, ∑ b ∈ Finset.univ.image B, freq A B a b * Real.log (freq A B a b / (freq1 A a * freq1 B b))
      = ∑ b ∈ T, freq A B a b * Real.log (freq A B a b / (freq1 A a * freq1 B b)) := by
    intro a
    refine Finset.sum_subset ?_ ?_
    · intro b hb
      simp only [Finset.mem_image, Finset.mem_univ, true_and] at hb
      obtain ⟨i, rfl⟩ := hb
      exact hT i
    · intro b _ hb
      rw [freq_eq_zero A B a b, zero_mul]
      rintro i ⟨_, rfl⟩
      exact hb (Finset.mem_image_of_mem _ (Finset.mem_univ i))
  simp only [h1]
  refine Finset.sum_subset ?_ ?_
  · intro a ha
    simp only [Finset.mem_image, Finset.mem_univ, true_and] at ha
    obtain ⟨i, rfl⟩ := ha
    exact hS i
  · intro a _ ha
    refine Finset.sum_eq_zero fun b _ => ?_
    rw [freq_eq_zero A B a b, zero_mul]
    rintro i ⟨rfl, _⟩
    exact ha (Finset.mem_image_of_mem _ (Finset.mem_univ i))

open Classical in
theorem freq_le_left {n : ℕ} {α β : Type} (A : Fin n → α) (B : Fin n → β) (a : α) (b : β) :
    freq A B a b ≤ freq1 A a := by
  unfold freq freq1
  gcongr
  intro h
  exact h.1

theorem freq_le_right {n : ℕ} {α β : Type} (A : Fin n → α) (B : Fin n → β) (a : α) (b : β) :
    freq A B a b ≤ freq1 B b := by
  rw [← freq_swap]; exact freq_le_left B A b a

theorem mul_log_ge {p q : ℝ} (hp : 0 ≤ p) (hq : 0 ≤ q) (h : q = 0 → p = 0) :
    p - q ≤ p * Real.log (p / q) := by
  rcases hp.lt_or_eq with hp' | hp'
  · have hq' : 0 < q := by
      rcases hq.lt_or_eq with h' | h'
      · exact h'
      · exact absurd (h h'.symm) hp'.ne'
    have := Real.log_le_sub_one_of_pos (div_pos hq' hp')
    have e : Real.log (p / q) = - Real.log (q / p) := by rw [← Real.log_inv, inv_div]
    rw [e]
    have h2 : p * (q / p - 1) = q - p := by field_simp
    nlinarith [mul_le_mul_of_nonneg_left this hp'.le]
  · rw [← hp']; simp; exact hq

open Classical in
theorem info_nonneg {n : ℕ} (hn : 0 < n) {α β : Type} (A : Fin n → α) (B : Fin n → β) : 0 ≤ info A B := by
  have hS : ∀ i, A i ∈ Finset.univ.image A := fun i => Finset.mem_image_of_mem _ (Finset.mem_univ i)
  have hT : ∀ i, B i ∈ Finset.univ.image B := fun i => Finset.mem_image_of_mem _ (Finset.mem_univ i)
  have key : ∑ a ∈ Finset.univ.image A, ∑ b ∈ Finset.univ.image B, (freq A B a b - freq1 A a * freq1 B b)
      ≤ info A B := by
    unfold info
    refine Finset.sum_le_sum fun a _ => Finset.sum_le_sum fun b _ => ?_
    refine mul_log_ge (freq_nonneg A B a b) (mul_nonneg (freq1_nonneg A a) (freq1_nonneg B b)) ?_
    intro h
    rcases mul_eq_zero.1 h with h | h
    · exact le_antisymm (h ▸ freq_le_left A B a b) (freq_nonneg A B a b)
    · exact le_antisymm (h ▸ freq_le_right A B a b) (freq_nonneg A B a b)
  have zero : ∑ a ∈ Finset.univ.image A, ∑ b ∈ Finset.univ.image B, (freq A B a b - freq1 A a * freq1 B b) = 0 := by
    simp only [Finset.sum_sub_distrib, sum_freq A B _ _ hT, ← Finset.mul_sum, sum_freq1 hn B _ hT, mul_one, sub_self,
      Finset.sum_const_zero]
  linarith

open Classical in
theorem info_le_log_card {n : ℕ} (hn : 0 < n) {α β : Type} (A : Fin n → α) (B : Fin n → β) (S : Finset α)
    (hS : ∀ i, A i ∈ S) : info A B ≤ Real.log S.card := by
  have hT : ∀ i, B i ∈ Finset.univ.image B := fun i => Finset.mem_image_of_mem _ (Finset.mem_univ i)
  rw [info_eq A B S _ hS hT]
  have hcard : 0 < S.card := Finset.card_pos.2 ⟨A ⟨0, hn⟩, hS _⟩
  have hc : (0 : ℝ) < S.card := by exact_mod_cast hcard
  have h1 : ∀ a ∈ S, ∀ b ∈ Finset.univ.image B,
      freq A B a b * Real.log (freq A B a b / (freq1 A a * freq1 B b))
        ≤ freq A B a b * - Real.log (freq1 A a) := by
    intro a _ b _
    rcases (freq_nonneg A B a b).lt_or_eq with h | h
    · refine mul_le_mul_of_nonneg_left ?_ h.le
      have ha := h.trans_le (freq_le_left A B a b)
      have hb := h.trans_le (freq_le_right A B a b)
      rw [← Real.log_inv]
      refine Real.log_le_log (by positivity) ?_
      rw [div_le_iff₀ (by positivity)]
      rw [← mul_assoc, inv_mul_cancel₀ ha.ne', one_mul]
      exact freq_le_right A B a b
    · rw [← h]; simp
  have h2 : ∑ a ∈ S, ∑ b ∈ Finset.univ.image B, freq A B a b * - Real.log (freq1 A a)
      = ∑ a ∈ S, freq1 A a * - Real.log (freq1 A a) := by
    refine Finset.sum_congr rfl fun a _ => ?_
    rw [← Finset.sum_mul, sum_freq A B a _ hT]
  have h3 : ∀ a ∈ S, freq1 A a - 1 / S.card
      ≤ freq1 A a * (Real.log (freq1 A a) + Real.log S.card) := by
    intro a _
    have := mul_log_ge (freq1_nonneg A a) (q := 1 / (S.card : ℝ)) (by positivity)
      (fun h => absurd h (by positivity))
    rcases (freq1_nonneg A a).lt_or_eq with h | h
    · rwa [Real.log_div h.ne' (by positivity), one_div, Real.log_inv, sub_neg_eq_add, ← one_div] at this
    · rw [← h]; simp
  have h4 := Finset.sum_le_sum h3
  rw [Finset.sum_sub_distrib, sum_freq1 hn A S hS, Finset.sum_const, nsmul_eq_mul,
    mul_one_div_cancel hc.ne', sub_self] at h4
  simp only [mul_add, Finset.sum_add_distrib, ← Finset.sum_mul, sum_freq1 hn A S hS, one_mul] at h4
  calc _ ≤ ∑ a ∈ S, ∑ b ∈ Finset.univ.image B, freq A B a b * - Real.log (freq1 A a) :=
        Finset.sum_le_sum fun a ha => Finset.sum_le_sum fun b hb => h1 a ha b hb
    _ = _ := h2
    _ ≤ _ := by
        simp only [mul_neg, Finset.sum_neg_distrib]; linarith

open Classical in
theorem info_swap {n : ℕ} {α β : Type} (A : Fin n → α) (B : Fin n → β) : info B A = info A B := by
  unfold info
  rw [Finset.sum_comm]
  refine Finset.sum_congr rfl fun a _ => Finset.sum_congr rfl fun b _ => ?_
  rw [freq_swap, mul_comm (freq1 B b)]

open Classical in
theorem freq1_perm {n : ℕ} {α : Type} (A : Fin n → α) (σ : Equiv.Perm (Fin n)) (a : α) :
    freq1 (fun i => A (σ i)) a = freq1 A a := by
  unfold freq1
  congr 2
  refine Finset.card_bij (fun j _ => σ j) ?_ ?_ ?_
  · intro i hi; simpa using hi
  · intro i _ j _ hij; exact σ.injective hij
  · intro b hb; exact ⟨σ.symm b, by simpa using hb, by simp⟩

theorem freq_eq_freq1 {n : ℕ} {α β : Type} (A : Fin n → α) (B : Fin n → β) (a : α) (b : β) :
    freq A B a b = freq1 (fun i => (A i, B i)) (a, b) := by
  unfold freq freq1; congr 3; ext i; simp

open Classical in
theorem info_perm {n : ℕ} {α β : Type} (A : Fin n → α) (B : Fin n → β) (σ : Equiv.Perm (Fin n)) :
    info (fun i => A (σ i)) (fun i => B (σ i)) = info A B := by
  rw [info_eq (fun i => A (σ i)) (fun i => B (σ i)) (Finset.univ.image A) (Finset.univ.image B)
    (fun i => Finset.mem_image_of_mem _ (Finset.mem_univ _))
    (fun i => Finset.mem_image_of_mem _ (Finset.mem_univ _))]
  unfold info
  refine Finset.sum_congr rfl fun a _ => Finset.sum_congr rfl fun b _ => ?_
  rw [freq1_perm, freq1_perm, freq_eq_freq1, freq_eq_freq1,
    freq1_perm (fun i => (A i, B i)) σ]

open Classical in
/-- Renaming values does not change the information. -/
theorem info_map {n : ℕ} {α β α' β' : Type} (A : Fin n → α) (B : Fin n → β) (f : α → α') (g : β → β')
    (hf : Function.Injective f) (hg : Function.Injective g) :
    info (fun i => f (A i)) (fun i => g (B i)) = info A B := by
  have h1 : ∀ a, freq1 (fun i => f (A i)) (f a) = freq1 A a := by
    intro a; unfold freq1; simp only [hf.eq_iff]
  have h2 : ∀ b, freq1 (fun i => g (B i)) (g b) = freq1 B b := by
    intro b; unfold freq1; simp only [hg.eq_iff]
  have h3 : ∀ a b, freq (fun i => f (A i)) (fun i => g (B i)) (f a) (g b) = freq A B a b := by
    intro a b; unfold freq; simp only [hf.eq_iff, hg.eq_iff]
  rw [info_eq _ _ ((Finset.univ.image A).image f) ((Finset.univ.image B).image g)
    (fun i => Finset.mem_image_of_mem _ (Finset.mem_image_of_mem _ (Finset.mem_univ i)))
    (fun i => Finset.mem_image_of_mem _ (Finset.mem_image_of_mem _ (Finset.mem_univ i)))]
  rw [Finset.sum_image fun _ _ _ _ h => hf h]
  unfold info
  refine Finset.sum_congr rfl fun a _ => ?_
  rw [Finset.sum_image fun _ _ _ _ h => hg h]
  refine Finset.sum_congr rfl fun b _ => ?_
  rw [h1, h2, h3]

end BMI.PlugIn
