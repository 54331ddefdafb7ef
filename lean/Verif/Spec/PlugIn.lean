import Mathlib.Analysis.SpecialFunctions.Log.Basic

/-! Specification: the mutual information of the empirical distribution of a list of pairs, and equal-width cells. -/

namespace BMI.PlugIn

open Classical in
/-- Relative frequency of the pair `(a, b)` among `(A i, B i)`. -/
noncomputable def freq {n : ℕ} {α β : Type} (A : Fin n → α) (B : Fin n → β) (a : α) (b : β) : ℝ :=
  ((Finset.univ.filter fun i => A i = a ∧ B i = b).card : ℝ) / n

open Classical in
/-- Relative frequency of `a` among `A i`. -/
noncomputable def freq1 {n : ℕ} {α : Type} (A : Fin n → α) (a : α) : ℝ :=
  ((Finset.univ.filter fun i => A i = a).card : ℝ) / n

open Classical in
/-- Mutual information of the empirical distribution: `Σ p(a,b) log (p(a,b) / (p(a) p(b)))` over the values that
occur. -/
noncomputable def info {n : ℕ} {α β : Type} (A : Fin n → α) (B : Fin n → β) : ℝ :=
  ∑ a ∈ Finset.univ.image A, ∑ b ∈ Finset.univ.image B,
    freq A B a b * Real.log (freq A B a b / (freq1 A a * freq1 B b))

/-- `c` is the cell of `x` when `[lo, hi]` is cut into `m` cells of equal width: half-open cells, the last one
closed. -/
def IsCell (lo hi : ℝ) (m : ℕ) (x : ℝ) (c : ℕ) : Prop :=
  c < m ∧ lo + (hi - lo) * c / m ≤ x ∧
    (x < lo + (hi - lo) * (c + 1) / m ∨ (c + 1 = m ∧ x = hi))

/-- `[lo, hi]` is the range of a column: its smallest and largest values, widened by one half on each side if
they coincide. -/
def IsRange {n : ℕ} (c : Fin n → ℝ) (lo hi : ℝ) : Prop :=
  ∃ a b : Fin n, (∀ i, c a ≤ c i ∧ c i ≤ c b) ∧
    ((c a < c b ∧ lo = c a ∧ hi = c b) ∨ (c a = c b ∧ lo = c a - 1 / 2 ∧ hi = c a + 1 / 2))

end BMI.PlugIn
