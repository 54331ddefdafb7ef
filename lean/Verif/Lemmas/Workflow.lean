import Verif.Model.Workflow
import Verif.Props.TaskIds
import Mathlib.Data.List.Count
import Mathlib.Tactic.Common

/-! Helper lemmas on path patterns (C66). -/

namespace BMI.Workflow

theorem stripPrefix_append (l s : List Char) : stripPrefix l (l ++ s) = some s := by
  induction l with
  | nil => rfl
  | cons c l ih => simp [stripPrefix, ih]

theorem stripPrefix_some {l s r : List Char} (h : stripPrefix l s = some r) : s = l ++ r := by
  induction l generalizing s with
  | nil => simpa [stripPrefix] using h
  | cons c l ih =>
    cases s with
    | nil => simp [stripPrefix] at h
    | cons d s =>
      by_cases e : c = d
      · simp only [stripPrefix, if_pos e] at h
        rw [e, ih h]; rfl
      · simp [stripPrefix, if_neg e] at h

/-- The occurrences of a character in the literal parts of a pattern. -/
def litCount (c : Char) : List Tok → ℕ
  | [] => 0
  | .lit l :: p => l.count c + litCount c p
  | .wild :: p => litCount c p

theorem tryWild_some {m : List Char → Option (List (List Char))} {s : List Char} {k : ℕ}
    {vs : List (List Char)} (h : tryWild m s k = some vs) :
    ∃ j ws, j < k ∧ m (s.drop (j + 1)) = some ws ∧ vs = s.take (j + 1) :: ws ∧ '\n' ∉ s.take (j + 1) := by
  induction k with
  | zero => simp [tryWild] at h
  | succ k ih =>
    rw [tryWild] at h
    cases hm : m (s.drop (k + 1)) with
    | none =>
      rw [hm] at h
      obtain ⟨j, ws, hj, h1⟩ := ih h
      exact ⟨j, ws, by omega, h1⟩
    | some ws =>
      rw [hm] at h
      dsimp only at h
      by_cases hn : '\n' ∈ s.take (k + 1)
      · rw [if_pos hn] at h
        obtain ⟨j, ws, hj, h1⟩ := ih h
        exact ⟨j, ws, by omega, h1⟩
      · rw [if_neg hn] at h
        exact ⟨k, ws, by omega, hm, (Option.some.inj h).symm, hn⟩

/-- A matching text contains at least the literal characters. -/
theorem matchPat_count (c : Char) (p : List Tok) (s : List Char) (vs : List (List Char))
    (h : matchPat p s = some vs) : litCount c p ≤ s.count c := by
  induction p generalizing s vs with
  | nil => simp [litCount]
  | cons t p ih =>
    cases t with
    | lit l =>
      rw [matchPat] at h
      cases hr : stripPrefix l s with
      | none => simp [hr] at h
      | some r =>
        rw [hr, Option.bind_some] at h
        rw [stripPrefix_some hr, litCount, List.count_append]
        have := ih _ _ h
        omega
    | wild =>
      rw [matchPat] at h
      obtain ⟨j, ws, _, hm, _, _⟩ := tryWild_some h
      have := ih _ _ hm
      rw [litCount]
      exact this.trans (List.Sublist.count_le c (List.drop_sublist _ _))

/-- The greedy wildcard takes `v` if the rest matches after `v` and after no longer prefix. -/
theorem matchPat_wild (p : List Tok) (v rest : List Char) (vs : List (List Char)) (hv : v ≠ [])
    (hnl : '\n' ∉ v) (h : matchPat p rest = some vs)
    (hno : ∀ a b, rest = a ++ b → a ≠ [] → matchPat p b = none) :
    matchPat (.wild :: p) (v ++ rest) = some (v :: vs) := by
  rw [matchPat]
  have key : ∀ j, j ≤ rest.length → tryWild (matchPat p) (v ++ rest) (v.length + j) = some (v :: vs) := by
    intro j
    induction j with
    | zero =>
      intro _
      obtain ⟨k, hk⟩ : ∃ k, v.length = k + 1 := Nat.exists_eq_succ_of_ne_zero (by simpa using hv)
      have h1 : (v ++ rest).drop (k + 1) = rest := by rw [← hk]; simp
      have h2 : (v ++ rest).take (k + 1) = v := by rw [← hk]; simp
      rw [Nat.add_zero, hk, tryWild, h1, h]
      simp only [h2, hnl, if_false]
    | succ j ih =>
      intro hj
      have h1 : (v ++ rest).drop (v.length + j + 1) = rest.drop (j + 1) := by
        rw [add_assoc, List.drop_append]; simp
      have h2 : matchPat p (rest.drop (j + 1)) = none := by
        refine hno (rest.take (j + 1)) _ (List.take_append_drop _ _).symm fun he => ?_
        have := congrArg List.length he
        simp at this
        rw [this] at hj
        simp at hj
      rw [← Nat.add_assoc, tryWild, h1, h2]
      exact ih (by omega)
  rw [List.length_append]
  exact key _ le_rfl

theorem matchPat_lit (p : List Tok) (l s : List Char) : matchPat (.lit l :: p) (l ++ s) = matchPat p s := by
  rw [matchPat, stripPrefix_append, Option.bind_some]

theorem matchPat_end (l : List Char) : matchPat [.lit l] l = some [] := by
  have := matchPat_lit [] l []
  rw [List.append_nil] at this
  rw [this, matchPat, if_pos rfl]

theorem matchPat_end_none (l a b : List Char) (h : l = a ++ b) (ha : a ≠ []) : matchPat [.lit l] b = none := by
  rw [Option.eq_none_iff_forall_not_mem]
  intro vs hvs
  rw [Option.mem_def, matchPat] at hvs
  cases hr : stripPrefix l b with
  | none => simp [hr] at hvs
  | some r =>
    have h1 := congrArg List.length (stripPrefix_some hr)
    have h2 := congrArg List.length h
    have h3 : 0 < a.length := List.length_pos_of_ne_nil ha
    simp at h1 h2
    omega

/-- If the pattern needs more of a character than there is in a proper suffix, no proper suffix matches. -/
theorem no_suffix (c : Char) (p : List Tok) (rest : List Char) (hc : rest.count c ≤ litCount c p)
    (h0 : rest.head? = some c) (a b : List Char) (hab : rest = a ++ b) (ha : a ≠ []) : matchPat p b = none := by
  rw [Option.eq_none_iff_forall_not_mem]
  intro vs hvs
  have h1 := matchPat_count c p b vs hvs
  cases a with
  | nil => exact ha rfl
  | cons d a =>
    rw [hab] at h0 hc
    simp only [List.cons_append, List.head?_cons, Option.some.injEq] at h0
    rw [h0, List.cons_append, List.count_cons_self, List.count_append] at hc
    omega

theorem count_digits {c : Char} (hc : c.isDigit = false) {l : List Char} (hl : ∀ d ∈ l, d.isDigit) :
    l.count c = 0 := by
  rw [List.count_eq_zero]
  intro h
  rw [hl _ h] at hc
  exact Bool.noConfusion hc

theorem digits_ne (l : List Char) (hl : ∀ d ∈ l, d.isDigit) {c : Char} (hc : c.isDigit = false) : c ∉ l := by
  rw [← List.count_eq_zero]
  exact count_digits hc hl

theorem tail_match (ext n s : List Char) (hn : n ≠ []) (hs : s ≠ []) (hnd : ∀ d ∈ n, d.isDigit)
    (hsd : ∀ d ∈ s, d.isDigit) (he : ext.count '-' = 0) :
    matchPat [.wild, .lit ['-'], .wild, .lit ext] (n ++ (['-'] ++ (s ++ ext))) = some [n, s] := by
  refine matchPat_wild _ _ _ _ hn (digits_ne _ hnd (by decide)) ?_ ?_
  · rw [matchPat_lit]
    exact matchPat_wild _ _ _ _ hs (digits_ne _ hsd (by decide)) (matchPat_end _)
      (matchPat_end_none ext)
  · refine no_suffix '-' _ _ ?_ rfl
    simp [litCount, count_digits (c := '-') (by decide) hsd, he]

/-- The wildcards of the path of a sample. -/
theorem matchPat_sample (t n s : List Char) (ht : t ≠ []) (htn : '\n' ∉ t) (hn : n ≠ []) (hs : s ≠ [])
    (hnd : ∀ d ∈ n, d.isDigit) (hsd : ∀ d ∈ s, d.isDigit) :
    matchPat samplePat (fill samplePat [t, n, s]) = some [t, n, s] := by
  simp only [samplePat, fill, List.append_nil]
  rw [matchPat_lit]
  refine matchPat_wild _ _ _ _ ht htn ?_ ?_
  · rw [matchPat_lit]
    exact tail_match _ n s hn hs hnd hsd (by decide)
  · refine no_suffix '/' _ _ ?_ rfl
    simp [litCount, count_digits (c := '/') (by decide) hsd, count_digits (c := '/') (by decide) hnd]

/-- The wildcards of the path of a result. Only the task must be free of slashes. -/
theorem matchPat_result (e t n s : List Char) (he : e ≠ []) (hen : '\n' ∉ e) (ht : t ≠ []) (htn : '\n' ∉ t)
    (hts : '/' ∉ t) (hn : n ≠ []) (hs : s ≠ []) (hnd : ∀ d ∈ n, d.isDigit) (hsd : ∀ d ∈ s, d.isDigit) :
    matchPat resultPat (fill resultPat [e, t, n, s]) = some [e, t, n, s] := by
  simp only [resultPat, fill, List.append_nil]
  rw [matchPat_lit]
  refine matchPat_wild _ _ _ _ he hen ?_ ?_
  · rw [matchPat_lit]
    refine matchPat_wild _ _ _ _ ht htn ?_ ?_
    · rw [matchPat_lit]
      exact tail_match _ n s hn hs hnd hsd (by decide)
    · refine no_suffix '/' _ _ ?_ rfl
      simp [litCount, count_digits (c := '/') (by decide) hsd, count_digits (c := '/') (by decide) hnd]
  · refine no_suffix '/' _ _ ?_ rfl
    simp [litCount, count_digits (c := '/') (by decide) hsd, count_digits (c := '/') (by decide) hnd,
      List.count_eq_zero.2 hts]

/-- The wildcards of the path of a sample with a negative seed: the minus sign goes to the number of samples. -/
theorem matchPat_sample_neg (t n s : List Char) (ht : t ≠ []) (htn : '\n' ∉ t) (hs : s ≠ [])
    (hnd : ∀ d ∈ n, d.isDigit) (hsd : ∀ d ∈ s, d.isDigit) :
    matchPat samplePat (fill samplePat [t, n, '-' :: s]) = some [t, n ++ ['-'], s] := by
  have h : fill samplePat [t, n, '-' :: s]
      = ['t', 'a', 's', 'k', 's', '/'] ++ (t ++ (['/'] ++ ((n ++ ['-']) ++ (['-'] ++ (s ++ ['.', 'c', 's', 'v']))))) := by
    simp [samplePat, fill]
  rw [h]
  simp only [samplePat]
  rw [matchPat_lit]
  refine matchPat_wild _ _ _ _ ht htn ?_ ?_
  · rw [matchPat_lit]
    refine matchPat_wild _ _ _ _ (by simp) ?_ ?_ ?_
    · simp only [List.mem_append, List.mem_singleton, not_or]
      exact ⟨digits_ne _ hnd (by decide), by decide⟩
    · rw [matchPat_lit]
      exact matchPat_wild _ _ _ _ hs (digits_ne _ hsd (by decide)) (matchPat_end _) (matchPat_end_none _)
    · refine no_suffix '-' _ _ ?_ rfl
      simp [litCount, count_digits (c := '-') (by decide) hsd]
  · refine no_suffix '/' _ _ ?_ rfl
    simp [litCount, count_digits (c := '/') (by decide) hsd, count_digits (c := '/') (by decide) hnd]

theorem matchPat_result_neg (e t n s : List Char) (he : e ≠ []) (hen : '\n' ∉ e) (ht : t ≠ []) (htn : '\n' ∉ t)
    (hts : '/' ∉ t) (hs : s ≠ []) (hnd : ∀ d ∈ n, d.isDigit) (hsd : ∀ d ∈ s, d.isDigit) :
    matchPat resultPat (fill resultPat [e, t, n, '-' :: s]) = some [e, t, n ++ ['-'], s] := by
  have h : fill resultPat [e, t, n, '-' :: s]
      = ['r', 'e', 's', 'u', 'l', 't', 's', '/'] ++ (e ++ (['/'] ++ (t ++ (['/'] ++
          ((n ++ ['-']) ++ (['-'] ++ (s ++ ['.', 'y', 'a', 'm', 'l']))))))) := by
    simp [resultPat, fill]
  rw [h]
  simp only [resultPat]
  rw [matchPat_lit]
  refine matchPat_wild _ _ _ _ he hen ?_ ?_
  · rw [matchPat_lit]
    refine matchPat_wild _ _ _ _ ht htn ?_ ?_
    · rw [matchPat_lit]
      refine matchPat_wild _ _ _ _ (by simp) ?_ ?_ ?_
      · simp only [List.mem_append, List.mem_singleton, not_or]
        exact ⟨digits_ne _ hnd (by decide), by decide⟩
      · rw [matchPat_lit]
        exact matchPat_wild _ _ _ _ hs (digits_ne _ hsd (by decide)) (matchPat_end _) (matchPat_end_none _)
      · refine no_suffix '-' _ _ ?_ rfl
        simp [litCount, count_digits (c := '-') (by decide) hsd]
    · refine no_suffix '/' _ _ ?_ rfl
      simp [litCount, count_digits (c := '/') (by decide) hsd, count_digits (c := '/') (by decide) hnd]
  · refine no_suffix '/' _ _ ?_ rfl
    simp [litCount, count_digits (c := '/') (by decide) hsd, count_digits (c := '/') (by decide) hnd,
      List.count_eq_zero.2 hts]

theorem digitsVal_toDigits (n : ℕ) : digitsVal (Nat.toDigits 10 n) = some n := by
  have h1 : Nat.toDigits 10 n ≠ [] := TaskIds.nat_ne_nil n
  have h2 : (Nat.toDigits 10 n).all Char.isDigit = true := List.all_eq_true.2 fun c hc => TaskIds.nat_digit hc
  rw [digitsVal, if_pos ⟨h1, h2⟩]
  simp

theorem pyInt_digits {s : List Char} (hs : ∀ d ∈ s, d.isDigit) : pyInt s = (digitsVal s).map fun n => (n : ℤ) := by
  cases s with
  | nil => rfl
  | cons c s =>
    have : c ≠ '-' := by
      rintro rfl
      exact absurd (hs _ List.mem_cons_self) (by decide)
    unfold pyInt
    split
    · rename_i h
      simp only [List.cons.injEq] at h
      exact absurd h.1 this
    · rfl

/-- Integers survive printing and parsing. -/
theorem pyInt_intStr (z : ℤ) : pyInt (intStr z) = some z := by
  cases z with
  | ofNat n =>
    rw [intStr, pyInt_digits (s := Nat.toDigits 10 n) fun d hd => TaskIds.nat_digit hd, digitsVal_toDigits]
    rfl
  | negSucc n =>
    simp only [intStr, pyInt, digitsVal_toDigits, Option.map_some, Option.some.injEq]
    rfl

end BMI.Workflow
