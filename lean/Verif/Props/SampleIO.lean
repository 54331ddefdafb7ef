import Verif.Model.SampleIO
import Mathlib.Data.Nat.Digits.Defs
import Mathlib.Data.List.Nodup
import Mathlib.Tactic.Common

/-!
# C40 – saving and reading samples
-/

namespace BMI.SampleIO

theorem toDigits_isDigit (i : ℕ) : ∀ c ∈ Nat.toDigits 10 i, c.isDigit := by
  intro c hc
  exact Nat.isDigit_of_mem_toDigits (by decide) (by decide) hc

theorem hasChar_colName (c c' : Char) (hc : c.isDigit = false) (i : ℕ) :
    hasChar c (colName c' i) = decide (c = c') := by
  have h : c ∉ Nat.toDigits 10 i := fun h => by
    have := toDigits_isDigit i c h
    rw [hc] at this; exact absurd this (by decide)
  by_cases e : c = c'
  · simp [hasChar, colName, e]
  · simp [hasChar, colName, e, h]

theorem colName_inj {c c' : Char} {i j : ℕ} (h : colName c i = colName c' j) : c = c' ∧ i = j := by
  unfold colName at h
  have h' := String.ofList_injective h
  simp only [List.cons.injEq] at h'
  refine ⟨h'.1, ?_⟩
  have := congrArg (Nat.ofDigitChars 10 · 0) h'.2
  simpa using this

theorem colsWith_names (dx dy : ℕ) :
    colsWith 'X' ((List.range dx).map (colName 'X') ++ (List.range dy).map (colName 'Y'))
      = (List.range dx).map (colName 'X') ∧
    colsWith 'Y' ((List.range dx).map (colName 'X') ++ (List.range dy).map (colName 'Y'))
      = (List.range dy).map (colName 'Y') := by
  constructor
  · unfold colsWith
    rw [List.filter_append, List.filter_eq_self.2, List.filter_eq_nil_iff.2, List.append_nil]
    · simp only [List.mem_map, List.mem_range]
      rintro _ ⟨i, _, rfl⟩
      rw [hasChar_colName _ _ (by decide)]; decide
    · simp only [List.mem_map, List.mem_range]
      rintro _ ⟨i, _, rfl⟩
      rw [hasChar_colName _ _ (by decide)]; decide
  · unfold colsWith
    rw [List.filter_append, List.filter_eq_nil_iff.2, List.filter_eq_self.2, List.nil_append]
    · simp only [List.mem_map, List.mem_range]
      rintro _ ⟨i, _, rfl⟩
      rw [hasChar_colName _ _ (by decide)]; decide
    · simp only [List.mem_map, List.mem_range]
      rintro _ ⟨i, _, rfl⟩
      rw [hasChar_colName _ _ (by decide)]; decide

theorem names_nodup (dx dy : ℕ) :
    ((List.range dx).map (colName 'X') ++ (List.range dy).map (colName 'Y')).Nodup := by
  rw [List.nodup_append]
  refine ⟨List.Nodup.map (fun i j h => (colName_inj h).2) List.nodup_range,
    List.Nodup.map (fun i j h => (colName_inj h).2) List.nodup_range, ?_⟩
  intro a ha b hb hab
  subst hab
  simp only [List.mem_map, List.mem_range] at ha hb
  obtain ⟨i, _, rfl⟩ := ha
  obtain ⟨j, _, h⟩ := hb
  exact absurd (colName_inj h).1 (by decide)

theorem flatMap_congr' {α β : Type} {l : List α} {f g : α → List β} (h : ∀ a ∈ l, f a = g a) :
    l.flatMap f = l.flatMap g := by
  rw [List.flatMap_def, List.flatMap_def, List.map_congr_left h]

/-- Selecting columns by (distinct) names returns the corresponding cells. -/
theorem selectCols_of_nodup {F : Type} (cols : List String) (row : List F)
    (hl : cols.length = row.length) (hn : cols.Nodup) :
    selectCols cols row cols = row := by
  unfold selectCols
  induction cols generalizing row with
  | nil => cases row <;> simp_all
  | cons c cs ih =>
    cases row with
    | nil => simp at hl
    | cons r rs =>
      simp only [List.nodup_cons] at hn
      simp only [List.length_cons, Nat.add_right_cancel_iff] at hl
      have hno : ((cs.zip rs).filter fun p => p.1 = c) = [] := by
        rw [List.filter_eq_nil_iff]
        rintro ⟨a, b⟩ hab
        have := List.of_mem_zip hab
        simp only [decide_eq_true_eq]
        rintro rfl
        exact hn.1 this.1
      rw [List.flatMap_cons]
      simp only [List.zip_cons_cons, List.filter_cons, decide_true, if_true, List.map_cons, hno,
        List.map_nil, List.cons_append, List.nil_append, List.cons.injEq, true_and]
      conv_rhs => rw [← ih rs hl hn.2]
      refine flatMap_congr' ?_
      intro a ha
      have : ¬ c = a := fun h => hn.1 (h ▸ ha)
      simp [this]

theorem selectCols_sub {F : Type} (cs cs' : List String) (r r' : List F)
    (hl : cs.length = r.length) (hl' : cs'.length = r'.length)
    (hn : (cs ++ cs').Nodup) :
    selectCols (cs ++ cs') (r ++ r') cs = r ∧ selectCols (cs ++ cs') (r ++ r') cs' = r' := by
  have hd := List.nodup_append.1 hn
  constructor
  · conv_rhs => rw [← selectCols_of_nodup cs r hl hd.1]
    unfold selectCols
    refine flatMap_congr' ?_
    intro a ha
    rw [List.zip_append hl, List.filter_append]
    have : ((cs'.zip r').filter fun p => p.1 = a) = [] := by
      rw [List.filter_eq_nil_iff]
      rintro ⟨b, v⟩ hb
      simp only [decide_eq_true_eq]
      rintro rfl
      exact hd.2.2 _ ha _ (List.of_mem_zip hb).1 rfl
    rw [this, List.append_nil]
  · conv_rhs => rw [← selectCols_of_nodup cs' r' hl' hd.2.1]
    unfold selectCols
    refine flatMap_congr' ?_
    intro a ha
    rw [List.zip_append hl, List.filter_append]
    have : ((cs.zip r).filter fun p => p.1 = a) = [] := by
      rw [List.filter_eq_nil_iff]
      rintro ⟨b, v⟩ hb
      simp only [decide_eq_true_eq]
      rintro rfl
      exact hd.2.2 _ (List.of_mem_zip hb).1 _ ha rfl
    rw [this, List.nil_append]

/-- C40: what is read back is what was saved: the same two arrays (every cell having gone through the text
format `rt`), split at the same place, for all sizes with at least one column. -/
theorem read_save {F : Type} (rt : F → F) (n dx dy : ℕ) (x : Fin n → Fin dx → F)
    (y : Fin n → Fin dy → F) (hd : 0 < dx + dy) :
    ∃ f, saveSample (.mat n dx x) (.mat n dy y) = .ok f ∧
      readSample rt f = .ok
        ((dx, List.ofFn fun i => List.ofFn fun j => rt (x i j)),
         (dy, List.ofFn fun i => List.ofFn fun j => rt (y i j))) ∧
      readSampleDims f = .ok (dx, dy) := by
  refine ⟨_, by simp only [saveSample, dif_pos]; rfl, ?_, ?_⟩
  · have hne : ((List.range dx).map (colName 'X') ++ (List.range dy).map (colName 'Y')) ≠ [] := by
      intro h
      have := congrArg List.length h
      simp at this; omega
    unfold readSample
    simp only [if_neg hne, (colsWith_names dx dy).1, (colsWith_names dx dy).2]
    rw [if_pos (by simp)]
    simp only [List.length_map, List.length_range, Except.ok.injEq, Prod.mk.injEq, true_and,
      List.map_ofFn, Fin.cast_eq_self, Function.comp_def, List.map_append]
    constructor
    · congr 1; funext i
      exact (selectCols_sub _ _ _ _ (by simp) (by simp) (names_nodup dx dy)).1
    · congr 1; funext i
      exact (selectCols_sub _ _ _ _ (by simp) (by simp) (names_nodup dx dy)).2
  · have hne : ((List.range dx).map (colName 'X') ++ (List.range dy).map (colName 'Y')) ≠ [] := by
      intro h
      have := congrArg List.length h
      simp at this; omega
    unfold readSampleDims
    rw [if_neg hne]
    simp [(colsWith_names dx dy).1, (colsWith_names dx dy).2]

/-- C40: with a text format that is exact on the stored values the arrays come back identical. -/
theorem read_save_exact {F : Type} (rt : F → F) (n dx dy : ℕ) (x : Fin n → Fin dx → F)
    (y : Fin n → Fin dy → F) (hd : 0 < dx + dy)
    (hx : ∀ i j, rt (x i j) = x i j) (hy : ∀ i j, rt (y i j) = y i j) :
    ∃ f, saveSample (.mat n dx x) (.mat n dy y) = .ok f ∧
      readSample rt f = .ok ((dx, List.ofFn fun i => List.ofFn (x i)),
        (dy, List.ofFn fun i => List.ofFn (y i))) := by
  obtain ⟨f, h1, h2, _⟩ := read_save rt n dx dy x y hd
  refine ⟨f, h1, ?_⟩
  rw [h2]
  simp [hx, hy]

/-- C40: saving succeeds exactly for two matrices with the same number of rows. -/
theorem save_ok_iff {F : Type} (x y : NdArr F) :
    (∃ f, saveSample x y = .ok f) ↔
      ∃ n dx dy vx vy, x = .mat n dx vx ∧ y = .mat n dy vy := by
  constructor
  · rintro ⟨f, h⟩
    cases x with
    | otherRank => simp [saveSample] at h
    | mat n dx vx =>
      cases y with
      | otherRank => simp [saveSample] at h
      | mat m dy vy =>
        by_cases e : n = m
        · subst e; exact ⟨n, dx, dy, vx, vy, rfl, rfl⟩
        · simp [saveSample, e] at h
  · rintro ⟨n, dx, dy, vx, vy, rfl, rfl⟩
    simp [saveSample]

/-- A file is accepted for reading only if every column name contains exactly one of the two letters, or
names with both letters are balanced by names with none. A foreign file without `X`/`Y` letters in some
column, all other columns being well named, is refused. -/
theorem read_foreign_refused {F : Type} (rt : F → F) (f : Csv F)
    (hx : ∀ c ∈ f.columns, ¬ (hasChar 'X' c = true ∧ hasChar 'Y' c = true))
    (hbad : ∃ c ∈ f.columns, hasChar 'X' c = false ∧ hasChar 'Y' c = false) :
    readSample rt f = .error .assertionError := by
  have key : ∀ l : List String, (∀ c ∈ l, ¬ (hasChar 'X' c = true ∧ hasChar 'Y' c = true)) →
      (colsWith 'X' l).length + (colsWith 'Y' l).length ≤ l.length ∧
      ((∃ c ∈ l, hasChar 'X' c = false ∧ hasChar 'Y' c = false) →
        (colsWith 'X' l).length + (colsWith 'Y' l).length < l.length) := by
    intro l
    induction l with
    | nil => simp [colsWith]
    | cons a l ih =>
      intro h
      have ih' := ih fun c hc => h c (List.mem_cons_of_mem _ hc)
      have ha := h a List.mem_cons_self
      unfold colsWith at ih' ⊢
      cases hX : hasChar 'X' a <;> cases hY : hasChar 'Y' a
      · simp only [List.filter_cons, hX, hY, List.length_cons, Bool.false_eq_true, if_false]
        exact ⟨by omega, fun _ => by omega⟩
      · simp only [List.filter_cons, hX, hY, List.length_cons, Bool.false_eq_true, if_false, if_true]
        refine ⟨by omega, ?_⟩
        rintro ⟨c, hc, h1, h2⟩
        rcases List.mem_cons.1 hc with rfl | hc
        · simp [hY] at h2
        · have := ih'.2 ⟨c, hc, h1, h2⟩; omega
      · simp only [List.filter_cons, hX, hY, List.length_cons, Bool.false_eq_true, if_false, if_true]
        refine ⟨by omega, ?_⟩
        rintro ⟨c, hc, h1, h2⟩
        rcases List.mem_cons.1 hc with rfl | hc
        · simp [hX] at h1
        · have := ih'.2 ⟨c, hc, h1, h2⟩; omega
      · exact absurd ⟨hX, hY⟩ ha
  have hne : f.columns ≠ [] := by
    obtain ⟨c, hc, _⟩ := hbad
    exact List.ne_nil_of_mem hc
  have := (key f.columns hx).2 hbad
  unfold readSample
  simp only [if_neg hne]
  rw [if_neg (by omega)]

/-- Non-vacuity: twelve X columns (two-digit names), one Y column, two rows. -/
example : (0 : ℕ) < 12 + 1 ∧ colName 'X' 11 = "X11" := by
  refine ⟨by decide, by decide⟩

example : (∀ c ∈ ["X0", "weight", "Y0"], ¬ (hasChar 'X' c = true ∧ hasChar 'Y' c = true)) ∧
    ∃ c ∈ ["X0", "weight", "Y0"], hasChar 'X' c = false ∧ hasChar 'Y' c = false := by decide

end BMI.SampleIO
