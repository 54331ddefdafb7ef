import Verif.Model.Chunker
import Mathlib.Data.List.Basic
import Mathlib.Tactic.Ring
import Mathlib.Algebra.Order.Ring.Nat

/-!
# C41 – the chunker partitions the index range

Specification vocabulary: only Python-level slicing (`Slice.apply`) and list concatenation.
-/

namespace BMI.Chunker

/-- C41 (error part): `chunker` raises `ValueError` exactly when one argument is not positive. -/
theorem chunker_error_iff (n c : Int) :
    chunker n c = .error .valueError ↔ (n ≤ 0 ∨ c ≤ 0) := by
  unfold chunker
  split <;> simp_all

private theorem chunker_pos (n c : Nat) (hn : 0 < n) (hc : 0 < c) :
    chunker n c = .ok ((List.range (1 + (n - 1) / c)).map fun i =>
      ⟨i * c, min n (i * c + c)⟩) := by
  unfold chunker
  rw [if_neg (by omega)]
  simp [pyRange, List.map_map, Function.comp_def]

private theorem flat_prefix {α : Type} (xs : List α) (c : Nat) (j : Nat) :
    ((List.range j).map fun i =>
        Slice.apply ⟨i * c, min xs.length (i * c + c)⟩ xs).flatten = xs.take (j * c) := by
  induction j with
  | zero => simp
  | succ j ih =>
    rw [List.range_succ, List.map_append, List.flatten_append, ih]
    simp only [List.map_cons, List.map_nil, List.flatten_cons, List.flatten_nil, List.append_nil,
      Slice.apply]
    have h1 : xs.take (min xs.length (j * c + c)) = xs.take ((j + 1) * c) := by
      rw [Nat.add_mul, one_mul]
      rcases le_total xs.length (j * c + c) with h | h
      · rw [min_eq_left h, List.take_length, List.take_of_length_le h]
      · rw [min_eq_right h]
    rw [h1, List.drop_take]
    have : (j + 1) * c - j * c = c := by rw [Nat.add_mul]; omega
    rw [this, Nat.add_mul, one_mul, List.take_add]

private theorem covers (n c : Nat) (hn : 0 < n) (hc : 0 < c) : n ≤ (1 + (n - 1) / c) * c := by
  have := Nat.lt_div_mul_add (a := n - 1) hc
  have e : (1 + (n - 1) / c) * c = (n - 1) / c * c + c := by ring
  omega

/-- C41 (main part): for positive arguments, concatenating `xs[s]` over the slices yielded by
`chunker(len(xs), c)` gives back `xs`: every item is processed exactly once and in order. -/
theorem chunker_concat {α : Type} (xs : List α) (c : Int) (hx : xs ≠ []) (hc : 0 < c) :
    ∃ ss, chunker xs.length c = .ok ss ∧ (ss.map fun s => s.apply xs).flatten = xs := by
  have hn : 0 < xs.length := List.length_pos_iff.2 hx
  obtain ⟨c, rfl⟩ := Int.eq_ofNat_of_zero_le hc.le
  have hc' : 0 < c := by exact_mod_cast hc
  refine ⟨_, chunker_pos _ c hn hc', ?_⟩
  rw [List.map_map, Function.comp_def, flat_prefix]
  exact List.take_of_length_le (covers _ _ hn hc')

/-- C41 (shape part): there are `⌈n / c⌉` chunks; chunk `i` starts at `i * c`; every chunk is
non-empty and inside the range; every chunk but the last has exactly `c` elements. -/
theorem chunker_shape (n c : Nat) (hn : 0 < n) (hc : 0 < c) :
    ∃ ss, chunker n c = .ok ss ∧ ss.length = (n + c - 1) / c ∧
      ∀ i (h : i < ss.length),
        ss[i].start = i * c ∧ ss[i].start < ss[i].stop ∧ ss[i].stop ≤ n ∧
        (i + 1 < ss.length → ss[i].stop = ss[i].start + c) ∧
        (i + 1 = ss.length → ss[i].stop = n) := by
  have hlen : 1 + (n - 1) / c = (n + c - 1) / c := by
    have : n + c - 1 = (n - 1) + c := by omega
    rw [this, Nat.add_div_right _ hc]; omega
  refine ⟨_, chunker_pos n c hn hc, ?_, ?_⟩
  · simp [hlen]
  · intro i h
    simp only [List.length_map, List.length_range, List.getElem_map, List.getElem_range] at h ⊢
    have hcov := covers n c hn hc
    have hle : i ≤ (n - 1) / c := by omega
    have hi : i * c ≤ n - 1 := le_trans (Nat.mul_le_mul_right c hle) (Nat.div_mul_le_self _ _)
    refine ⟨trivial, by simp; omega, by simp, ?_, ?_⟩
    · intro h2
      have hle2 : i + 1 ≤ (n - 1) / c := by omega
      have hi2 : (i + 1) * c ≤ n - 1 :=
        le_trans (Nat.mul_le_mul_right c hle2) (Nat.div_mul_le_self _ _)
      rw [Nat.add_mul] at hi2
      rw [min_eq_right]; omega
    · intro h2
      rw [min_eq_left]
      have : (1 + (n - 1) / c) * c = i * c + c := by rw [← h2]; ring
      omega

/-- Non-vacuity: the docstring example (/repo/src/bmi/utils.py:163-168). -/
example : chunker 4 3 = .ok [⟨0, 3⟩, ⟨3, 4⟩] := by decide

example : ([⟨0, 3⟩, ⟨3, 4⟩] : List Slice).map (·.apply ["a", "b", "c", "d"])
    = [["a", "b", "c"], ["d"]] := by decide

example : (["a", "b", "c", "d"] : List String) ≠ [] ∧ (0 : Int) < 3 := by decide

end BMI.Chunker
