import Verif.Model.MatrixUtils
import Mathlib.Tactic

/-! Loops of assignments to the entries of an array. -/

namespace BMI.MatrixUtils

variable {n : ℕ}

/-- The value of an entry after a list of assignments. -/
def lastSet (L : List (ℕ × ℕ × ℝ)) (p q : ℕ) (d : ℝ) : ℝ :=
  L.foldl (fun acc w => if p = w.1 ∧ q = w.2.1 then w.2.2 else acc) d

theorem foldlM_setEntry (L : List (ℕ × ℕ × ℝ)) (hL : ∀ w ∈ L, w.1 < n ∧ w.2.1 < n) (a : Matrix (Fin n) (Fin n) ℝ) :
    L.foldlM setEntry a = .ok fun p q => lastSet L p q (a p q) := by
  induction L generalizing a with
  | nil => rfl
  | cons w L ih =>
    rw [List.foldlM_cons]
    unfold setEntry
    rw [if_pos (hL w List.mem_cons_self)]
    exact ih (fun v hv => hL v (List.mem_cons_of_mem _ hv)) _

theorem lastSet_of_no_match (L : List (ℕ × ℕ × ℝ)) (p q : ℕ) (d : ℝ) (h : ∀ w ∈ L, ¬ (p = w.1 ∧ q = w.2.1)) :
    lastSet L p q d = d := by
  induction L generalizing d with
  | nil => rfl
  | cons w L ih =>
    show lastSet L p q (if p = w.1 ∧ q = w.2.1 then w.2.2 else d) = d
    rw [if_neg (h w List.mem_cons_self)]
    exact ih d fun v hv => h v (List.mem_cons_of_mem _ hv)

theorem lastSet_of_match (L : List (ℕ × ℕ × ℝ)) (p q : ℕ) (d v : ℝ) (h : ∃ w ∈ L, p = w.1 ∧ q = w.2.1)
    (hv : ∀ w ∈ L, p = w.1 ∧ q = w.2.1 → w.2.2 = v) : lastSet L p q d = v := by
  induction L generalizing d with
  | nil => simp at h
  | cons w L ih =>
    show lastSet L p q (if p = w.1 ∧ q = w.2.1 then w.2.2 else d) = v
    by_cases hL : ∃ w ∈ L, p = w.1 ∧ q = w.2.1
    · exact ih _ hL fun u hu => hv u (List.mem_cons_of_mem _ hu)
    · push Not at hL
      rw [lastSet_of_no_match L p q _ fun u hu hm => hL u hu hm.1 hm.2]
      obtain ⟨u, hu, hm⟩ := h
      rcases List.mem_cons.1 hu with rfl | hu
      · rw [if_pos hm]
        exact hv u List.mem_cons_self hm
      · exact absurd hm.2 (hL u hu hm.1)

theorem foldlM_setEntry_error (L L' : List (ℕ × ℕ × ℝ)) (w : ℕ × ℕ × ℝ) (hL : ∀ w ∈ L, w.1 < n ∧ w.2.1 < n)
    (hw : ¬ (w.1 < n ∧ w.2.1 < n)) (a : Matrix (Fin n) (Fin n) ℝ) :
    (L ++ w :: L').foldlM setEntry a = .error .indexError := by
  have hb : ∀ b : Matrix (Fin n) (Fin n) ℝ, (w :: L').foldlM setEntry b = .error .indexError := by
    intro b
    rw [List.foldlM_cons]
    conv_lhs => enter [1]; unfold setEntry
    rw [if_neg hw]
    rfl
  rw [List.foldlM_append, foldlM_setEntry L hL]
  exact hb _

/-- The increments of an entry by a list of assignments. -/
def increments (L : List (ℕ × ℕ × ℝ)) (p q : ℕ) : ℝ :=
  (L.map fun w => if p = w.1 ∧ q = w.2.1 then w.2.2 else 0).sum

theorem foldlM_addEntry (L : List (ℕ × ℕ × ℝ)) (hL : ∀ w ∈ L, w.1 < n ∧ w.2.1 < n) (a : Matrix (Fin n) (Fin n) ℝ) :
    L.foldlM addEntry a = .ok fun p q => a p q + increments L p q := by
  induction L generalizing a with
  | nil =>
    show Except.ok a = _
    congr 1
    funext p q
    simp [increments]
  | cons w L ih =>
    rw [List.foldlM_cons]
    conv_lhs => enter [1]; unfold addEntry
    rw [if_pos (hL w List.mem_cons_self)]
    refine (ih (fun v hv => hL v (List.mem_cons_of_mem _ hv)) _).trans ?_
    congr 1
    funext p q
    simp only [increments, List.map_cons, List.sum_cons]
    split_ifs <;> ring

theorem increments_append (L L' : List (ℕ × ℕ × ℝ)) (p q : ℕ) :
    increments (L ++ L') p q = increments L p q + increments L' p q := by
  simp [increments]

/-- Increments of diagonal entries. -/
theorem increments_diag (s k : ℕ) (v : ℝ) (p q : ℕ) :
    increments ((List.range' s k).map fun i => (i, i, v)) p q = if p = q ∧ s ≤ p ∧ p < s + k then v else 0 := by
  induction k generalizing s with
  | zero =>
    rw [if_neg (by omega)]
    rfl
  | succ k ih =>
    rw [List.range'_succ, List.map_cons, ← List.singleton_append, increments_append, ih]
    simp only [increments, List.map_cons, List.map_nil, List.sum_cons, List.sum_nil, add_zero]
    split_ifs <;> first | omega | simp

/-- Increments of the pairs of interacting coordinates. -/
theorem increments_pairs (dx k : ℕ) (v : ℝ) (hk : k ≤ dx) (p q : ℕ) :
    increments ((List.range k).flatMap fun i => [(i, dx + i, v), (dx + i, i, v), (i, i, v), (dx + i, dx + i, v)]) p q
      = if (p < k ∧ (q = p ∨ q = dx + p)) ∨ (dx ≤ p ∧ p < dx + k ∧ (q = p ∨ dx + q = p)) then v else 0 := by
  induction k with
  | zero =>
    rw [if_neg (by omega)]
    rfl
  | succ k ih =>
    rw [List.range_succ, List.flatMap_append, increments_append, ih (by omega)]
    simp only [increments, List.flatMap_cons, List.flatMap_nil, List.append_nil, List.map_cons, List.map_nil,
      List.sum_cons, List.sum_nil, add_zero]
    split_ifs <;> first | omega | simp

/-! ### Rows of coefficients -/

/-- The scalar product of two rows. -/
def dot (a b : List ℝ) : ℝ := (List.zipWith (· * ·) a b).sum

theorem dot_append (a a' b b' : List ℝ) (h : a.length = b.length) : dot (a ++ a') (b ++ b') = dot a b + dot a' b' := by
  unfold dot
  rw [List.zipWith_append h, List.sum_append]

theorem dot_zeros_left (k : ℕ) (b : List ℝ) : dot (zeros k) b = 0 := by
  induction k generalizing b with
  | zero => rfl
  | succ k ih =>
    cases b with
    | nil => rfl
    | cons x b =>
      have := ih b
      simp only [dot, zeros, List.replicate_succ, List.zipWith_cons_cons, List.sum_cons, zero_mul, zero_add] at this ⊢
      exact this

theorem dot_comm (a b : List ℝ) : dot a b = dot b a := by
  unfold dot
  rw [List.zipWith_comm]
  simp only [mul_comm]

theorem dot_zeros_right (k : ℕ) (b : List ℝ) : dot b (zeros k) = 0 := by rw [dot_comm, dot_zeros_left]

theorem dot_set (k i j : ℕ) (v w : ℝ) :
    dot ((zeros k).set i v) ((zeros k).set j w) = if i = j ∧ i < k then v * w else 0 := by
  induction k generalizing i j with
  | zero => simp [dot, zeros]
  | succ k ih =>
    have hz : zeros (k + 1) = 0 :: zeros k := rfl
    cases i with
    | zero =>
      cases j with
      | zero =>
        have := dot_zeros_left k (zeros k)
        simp only [dot, List.zipWith_self] at this
        simp [hz, dot, this]
      | succ j =>
        have := dot_zeros_left k ((zeros k).set j w)
        simp only [dot] at this
        simp [hz, dot, this]
    | succ i =>
      cases j with
      | zero =>
        have := dot_zeros_right k ((zeros k).set i v)
        simp only [dot] at this
        simp [hz, dot, this]
      | succ j =>
        have := ih i j
        simp only [dot] at this
        simp [hz, dot, this]

theorem length_zeros (k : ℕ) : (zeros k).length = k := List.length_replicate

theorem dot_eq_sum (a b : List ℝ) (k : ℕ) (ha : a.length = k) (hb : b.length = k) :
    dot a b = ∑ l : Fin k, a.getD l 0 * b.getD l 0 := by
  subst ha
  induction a generalizing b with
  | nil => simp [dot]
  | cons x a ih =>
    cases b with
    | nil => simp at hb
    | cons y b =>
      have := ih b (by simpa using hb)
      simp only [List.length_cons, Fin.sum_univ_succ]
      simp only [dot, List.zipWith_cons_cons, List.sum_cons] at this ⊢
      rw [this]
      simp

end BMI.MatrixUtils
