import Verif.Lemmas.NeuralData
import Mathlib.Tactic.Linarith
import Mathlib.Tactic.NormNum
import Mathlib.Tactic.FieldSimp
import Mathlib.Algebra.Order.Floor.Semiring

/-!
C37: mini-batches and the train/test split keep X and Y paired.

Pairs are elements of `xs.zip ys`.  "Uses each pair at most once" is `List.Subperm`, "uses each pair exactly once" is
`List.Perm`.
-/

namespace BMI.NeuralData

variable {Key X Y : Type}

/-- C37: a batch of `get_batch` consists of `b` of the original pairs, none used twice. -/
theorem getBatch_pairs {r : Rng Key} (hr : IdealRng r) (xs : List X) (ys : List Y) (e : xs.length = ys.length)
    (key : Key) (b : ℕ) (hb : b ≤ xs.length) :
    ∃ bx by_, getBatch r xs ys key (some b) = .ok (bx, by_) ∧ bx.length = b ∧ by_.length = b ∧
      (bx.zip by_).Subperm (xs.zip ys) := by
  have h := hr.indices_lt key _ _ hb
  refine ⟨gather xs (r.indices key xs.length b), gather ys (r.indices key xs.length b), ?_, ?_, ?_, ?_⟩
  · simp only [getBatch, choice, if_neg (show ¬ xs.length < b by omega)]
    rfl
  · rw [gather_length _ _ h, hr.indices_length _ _ _ hb]
  · rw [gather_length _ _ (e ▸ h), hr.indices_length _ _ _ hb]
  · rw [gather_zip _ _ _ e h]
    exact gather_subperm _ _ (by simpa [← e] using h) (hr.indices_nodup _ _ _ hb)

/-- `batch_size=None` uses all pairs. -/
theorem getBatch_none (r : Rng Key) (xs : List X) (ys : List Y) (key : Key) :
    getBatch r xs ys key none = .ok (xs, ys) := rfl

/-- A batch larger than the data is refused. -/
theorem getBatch_too_large (r : Rng Key) (xs : List X) (ys : List Y) (key : Key) (b : ℕ) (hb : xs.length < b) :
    getBatch r xs ys key (some b) = .error .valueError := by
  simp only [getBatch, choice, if_pos hb]
  rfl

/-- A batch as large as the data is the data in another order. -/
theorem getBatch_full {r : Rng Key} (hr : IdealRng r) (xs : List X) (ys : List Y) (e : xs.length = ys.length)
    (key : Key) : ∃ bx by_, getBatch r xs ys key (some xs.length) = .ok (bx, by_) ∧
      (bx.zip by_).Perm (xs.zip ys) := by
  obtain ⟨bx, by_, h1, h2, h3, h4⟩ := getBatch_pairs hr xs ys e key xs.length le_rfl
  exact ⟨bx, by_, h1, h4.perm_of_length_le (by simp [h2, h3, e])⟩

/-- `get_batch` itself does not check that the two arrays have the same length: with two x and one y the second x gets
the y of the first one, silently. -/
theorem getBatch_mispairs : ∃ bx by_, getBatch plainRng [0, 1] [10] () (some 2) = .ok (bx, by_) ∧
    (1, 10) ∈ bx.zip by_ ∧ (1, 10) ∉ [0, 1].zip [10] :=
  ⟨[0, 1], [10, 10], rfl, by decide, by decide⟩

/-- C37 for MINE: the paired part consists of original pairs, none used twice, and the unpaired part of original
values of Y, none used twice; with `batch_size=None` all of them are used. -/
theorem samplePairedUnpaired_pairs {r : Rng Key} (hr : IdealRng r) (xs : List X) (ys : List Y)
    (e : xs.length = ys.length) (key : Key) (b : Option ℕ) (hb : ∀ m, b = some m → m ≤ xs.length) :
    ∃ bx yp yu, samplePairedUnpaired r key xs ys b = .ok (bx, yp, yu) ∧
      bx.length = b.getD xs.length ∧ yp.length = b.getD xs.length ∧ yu.length = b.getD xs.length ∧
      (bx.zip yp).Subperm (xs.zip ys) ∧ yu.Subperm ys ∧
      (b = none → bx = xs ∧ yp = ys ∧ yu.Perm ys) := by
  have hs : ∃ k1 k2, split2 r key = .ok (k1, k2) := by
    have hl := hr.split_length key 2
    unfold split2
    obtain ⟨k1, k2, hk⟩ := List.length_eq_two.1 hl
    exact ⟨k1, k2, by rw [hk]⟩
  obtain ⟨k1, k2, hk⟩ := hs
  unfold samplePairedUnpaired
  rw [if_neg (show ¬ xs.length ≠ ys.length by simpa using e), hk]
  cases b with
  | none =>
    have hp := gather_perm ys _ (hr.permutation k2 ys.length)
    refine ⟨xs, ys, _, rfl, rfl, e.symm, ?_, List.Subperm.refl _, hp.subperm, fun _ => ⟨rfl, rfl, hp⟩⟩
    simp [hp.length_eq, e]
  | some m =>
    have hm := hb m rfl
    have h1 := hr.indices_lt k1 _ _ hm
    have h2 := hr.indices_lt k2 _ _ hm
    refine ⟨gather xs (r.indices k1 xs.length m), gather ys (r.indices k1 xs.length m),
      gather ys (r.indices k2 xs.length m), ?_, ?_, ?_, ?_, ?_, ?_, by simp⟩
    · simp only [choice, if_neg (show ¬ xs.length < m by omega)]
      rfl
    · simp [gather_length _ _ h1, hr.indices_length _ _ _ hm]
    · rw [gather_length _ _ (e ▸ h1), hr.indices_length _ _ _ hm]; rfl
    · rw [gather_length _ _ (e ▸ h2), hr.indices_length _ _ _ hm]; rfl
    · rw [gather_zip _ _ _ e h1]
      exact gather_subperm _ _ (by simpa [← e] using h1) (hr.indices_nodup _ _ _ hm)
    · exact gather_subperm _ _ (e ▸ h2) (hr.indices_nodup _ _ _ hm)

/-- MINE's sampler refuses arrays of different lengths. -/
theorem samplePairedUnpaired_mismatch (r : Rng Key) (xs : List X) (ys : List Y) (e : xs.length ≠ ys.length)
    (key : Key) (b : Option ℕ) : samplePairedUnpaired r key xs ys b = .error .assertionError := by
  rw [samplePairedUnpaired, if_pos e]

/-- C37: with a split fraction `f` the `⌊f·n⌋` training pairs and the remaining test pairs are together exactly the
original pairs, each in one part. -/
theorem trainTestSplit_partition {r : Rng Key} (hr : IdealRng r) (xs : List X) (ys : List Y)
    (e : xs.length = ys.length) (f : ℝ) (hf : 0 < f ∧ f < 1) (hn : 1 ≤ f * xs.length) (key : Key) :
    ∃ xTr xTe yTr yTe, trainTestSplit r xs ys (some f) key = .ok (xTr, xTe, yTr, yTe) ∧
      (xTr.zip yTr ++ xTe.zip yTe).Perm (xs.zip ys) ∧
      xTr.length = ⌊f * xs.length⌋₊ ∧ yTr.length = xTr.length ∧ yTe.length = xTe.length ∧
      xTr.length + xTe.length = xs.length ∧ 1 ≤ xTr.length ∧ 1 ≤ xTe.length := by
  set n := xs.length with hnd
  have hn0 : (0 : ℝ) < n := by
    rcases Nat.eq_zero_or_pos n with h | h
    · rw [h] at hn; norm_num at hn
    · exact_mod_cast h
  have h1 : 1 ≤ ⌊f * n⌋₊ := Nat.one_le_floor_iff _ |>.2 hn
  have h2 : ⌊f * n⌋₊ < n := by
    rw [Nat.floor_lt (by nlinarith [hf.1])]
    nlinarith [hf.2]
  set perm := r.shuffle (r.randint key) n with hp
  have hperm : perm.Perm (List.range n) := hr.shuffle _ _
  have hlen : perm.length = n := by rw [hperm.length_eq, List.length_range]
  have hlt : ∀ i ∈ perm, i < n := fun i hi => List.mem_range.1 (hperm.mem_iff.1 hi)
  set test := perm.take (n - ⌊f * n⌋₊) with htest
  set train := (perm.drop (n - ⌊f * n⌋₊)).take ⌊f * n⌋₊ with htrain
  have htr' : train = perm.drop (n - ⌊f * n⌋₊) := by
    rw [htrain, List.take_of_length_le]
    rw [List.length_drop, hlen]; omega
  have l1 : ∀ i ∈ train, i < n := fun i hi => hlt i (List.mem_of_mem_drop (htr' ▸ hi))
  have l2 : ∀ i ∈ test, i < n := fun i hi => hlt i (List.mem_of_mem_take hi)
  have lt1 : train.length = ⌊f * n⌋₊ := by rw [htr', List.length_drop, hlen]; omega
  have lt2 : test.length = n - ⌊f * n⌋₊ := by rw [htest, List.length_take, hlen]; omega
  refine ⟨gather xs train, gather xs test, gather ys train, gather ys test, ?_, ?_, ?_, ?_, ?_, ?_, ?_, ?_⟩
  · simp only [trainTestSplit, sklearnSplit]
    rw [if_neg (by push Not; exact hf), if_neg (by simpa using e)]
    simp only [← hnd]
    rw [if_neg (show ¬ ⌊f * n⌋₊ = 0 by omega)]
  · rw [gather_zip _ _ _ e l1, gather_zip _ _ _ e l2]
    have : gather (xs.zip ys) train ++ gather (xs.zip ys) test = gather (xs.zip ys) (train ++ test) := by
      unfold gather; rw [List.filterMap_append]
    rw [this]
    refine gather_perm _ _ ?_
    have h3 : (xs.zip ys).length = n := by simp [← e, hnd]
    rw [h3]
    refine List.Perm.trans ?_ hperm
    rw [htr', htest]
    exact List.perm_append_comm.trans (by rw [List.take_append_drop])
  · rw [gather_length _ _ l1, lt1]
  · rw [gather_length _ _ l1, gather_length _ _ (e ▸ l1)]
  · rw [gather_length _ _ l2, gather_length _ _ (e ▸ l2)]
  · rw [gather_length _ _ l1, gather_length _ _ l2, lt1, lt2]; omega
  · rw [gather_length _ _ l1, lt1]; exact h1
  · rw [gather_length _ _ l2, lt2]; omega

/-- Consequence for data without repeated pairs: no pair is in both parts. -/
theorem trainTestSplit_disjoint_partial {r : Rng Key} (hr : IdealRng r) (xs : List X) (ys : List Y)
    (e : xs.length = ys.length) (hd : (xs.zip ys).Nodup) (f : ℝ) (key : Key) (xTr xTe : List X) (yTr yTe : List Y)
    (h : trainTestSplit r xs ys (some f) key = .ok (xTr, xTe, yTr, yTe)) :
    (xTr.zip yTr).Disjoint (xTe.zip yTe) := by
  have hf : (0 < f ∧ f < 1) ∧ 1 ≤ f * xs.length := by
    simp only [trainTestSplit, sklearnSplit] at h
    split_ifs at h with h1 h2 h3
    push Not at h1
    refine ⟨h1, ?_⟩
    rw [Nat.floor_eq_zero, not_lt] at h3
    exact h3
  obtain ⟨a, b, c, d, h1, h2, -⟩ := trainTestSplit_partition hr xs ys e f hf.1 hf.2 key
  rw [h] at h1
  obtain ⟨rfl, rfl, rfl, rfl⟩ : xTr = a ∧ xTe = b ∧ yTr = c ∧ yTe = d := by
    have := Except.ok.inj h1
    simpa using this
  exact List.disjoint_of_nodup_append (h2.nodup_iff.2 hd)

/-- Which splits are refused: fractions outside (0, 1), different lengths, and too few points. -/
theorem trainTestSplit_error_iff (r : Rng Key) (xs : List X) (ys : List Y) (f : ℝ) (key : Key) :
    trainTestSplit r xs ys (some f) key = .error .valueError ↔
      f ≤ 0 ∨ 1 ≤ f ∨ xs.length ≠ ys.length ∨ f * xs.length < 1 := by
  simp only [trainTestSplit, sklearnSplit]
  split_ifs with h1 h2 h3
  · simp only [true_iff]; tauto
  · simp only [true_iff]; tauto
  · simp only [true_iff]
    right; right; right
    exact Nat.floor_eq_zero.1 h3
  · rw [Nat.floor_eq_zero, not_lt] at h3
    simp only [reduceCtorEq, false_iff]
    push Not at h1 ⊢
    exact ⟨h1.1, h1.2, not_not.1 h2, h3⟩

/-- With `train_test_split=None` the parts are not disjoint: both are the whole data set, so the reported value is the
training objective. -/
theorem trainTestSplit_none (r : Rng Key) (xs : List X) (ys : List Y) (key : Key) :
    trainTestSplit r xs ys none key = .ok (xs, xs, ys, ys) := rfl

theorem trainTestSplit_disjoint_false : ∃ xTr xTe yTr yTe,
    trainTestSplit plainRng [0] [1] none () = .ok (xTr, xTe, yTr, yTe) ∧
      ¬ (xTr.zip yTr).Disjoint (xTe.zip yTe) :=
  ⟨[0], [0], [1], [1], rfl, fun h => h (a := (0, 1)) (by decide) (by decide)⟩

/-! ### The hypotheses can be met -/

example : ∃ bx by_, getBatch plainRng [0, 1, 2] ['a', 'b', 'c'] () (some 2) = .ok (bx, by_) ∧ bx.length = 2 ∧
    by_.length = 2 ∧ (bx.zip by_).Subperm ([0, 1, 2].zip ['a', 'b', 'c']) :=
  getBatch_pairs plainRng_ideal (X := ℕ) [0, 1, 2] ['a', 'b', 'c'] rfl () 2 (by decide)

example : ∃ bx by_, getBatch plainRng [0, 1, 2] ['a', 'b', 'c'] () (some 3) = .ok (bx, by_) ∧
    (bx.zip by_).Perm ([0, 1, 2].zip ['a', 'b', 'c']) :=
  getBatch_full plainRng_ideal (X := ℕ) [0, 1, 2] ['a', 'b', 'c'] rfl ()

example : ∃ bx yp yu, samplePairedUnpaired plainRng () [0, 1, 2] ['a', 'b', 'c'] none = .ok (bx, yp, yu) ∧
    bx.length = 3 ∧ yp.length = 3 ∧ yu.length = 3 ∧ (bx.zip yp).Subperm ([0, 1, 2].zip ['a', 'b', 'c']) ∧
    yu.Subperm ['a', 'b', 'c'] ∧ ((none : Option ℕ) = none → bx = [0, 1, 2] ∧ yp = ['a', 'b', 'c'] ∧ yu.Perm ['a', 'b', 'c']) :=
  samplePairedUnpaired_pairs plainRng_ideal (X := ℕ) [0, 1, 2] ['a', 'b', 'c'] rfl () none (by simp)

example : ∃ xTr xTe yTr yTe, trainTestSplit plainRng [0, 1, 2] ['a', 'b', 'c'] (some 0.5) () = .ok (xTr, xTe, yTr, yTe) ∧
    (xTr.zip yTr).Disjoint (xTe.zip yTe) := by
  obtain ⟨a, b, c, d, h, -⟩ := trainTestSplit_partition plainRng_ideal (X := ℕ) [0, 1, 2] ['a', 'b', 'c'] rfl 0.5
    (by norm_num) (by norm_num) ()
  exact ⟨a, b, c, d, h, trainTestSplit_disjoint_partial plainRng_ideal (X := ℕ) [0, 1, 2] ['a', 'b', 'c'] rfl (by decide) _ _ _ _ _ _ h⟩

end BMI.NeuralData
