import Verif.Model.External
import Verif.Props.SampleIO

/-! C47: the estimators that call R and Julia. -/

namespace BMI.External

open BMI.SampleIO

variable {F : Type}

/-! ### Specification -/

/-- Assumptions on what surrounds the code: absolute paths start with `/`; Julia reads back what Python writes; numbers
are printed without white space, and Python reads the number printed by Julia, and `round` of the number printed by R. -/
structure Sane (W : World F) (round : F → F) : Prop where
  absolute : ∀ p, (W.absolute p).toList.head? = some '/'
  str_parse : ∀ b, W.positive b = true → W.parseFloatJulia (W.strFloat b) = some b
  str_head : ∀ b, W.positive b = true → (W.strFloat b).toList.head? ≠ some '-'
  cat_word : ∀ v, W.catR v ≠ [] ∧ ∀ c ∈ W.catR v, c.isWhitespace = false
  print_word : ∀ v, W.printJulia v ≠ [] ∧ ∀ c ∈ W.printJulia v, c.isWhitespace = false
  read_cat : ∀ v, W.readFloat (W.catR v) = some (round v)
  read_print : ∀ v, W.readFloat (W.printJulia v) = some v

/-- The call that an estimator stands for, on rows `xs` and `ys` of data: method and parameters of the estimator, X the
first `p` and Y the next `q` columns. -/
def intended (e : Estimator F) (xs ys : List (List F)) (p q : ℕ) : Call F :=
  match e with
  | .rKSG variant neighbors => .knnMi (List.zipWith (· ++ ·) xs ys) (p, q) (if variant = 1 then "KSG1" else "KSG2") neighbors
  | .rLNN k truncation => .lnnMi (List.zipWith (· ++ ·) xs ys) (p, q) k truncation
  | .rBNSL proc => .bnslMi xs ys proc
  | .juliaKSG variant neighbors => if variant = 1 then .kraskov1 xs ys neighbors else .kraskov2 xs ys neighbors
  | .juliaHistogram bins => .visitationFrequency xs ys bins
  | .juliaTransfer bins => .transferOperator xs ys bins
  | .juliaKernel bandwidth => .naiveKernel xs ys bandwidth

/-- Is it an estimator in R? -/
def usesR : Estimator F → Bool
  | .rKSG .. | .rLNN .. | .rBNSL .. => true
  | _ => false

/-- The estimators that can be constructed. -/
inductive Constructed (W : World F) : Estimator F → Prop
  | rKSG (variant neighbors : ℤ) (e) (h : rKSG variant neighbors = .ok e) : Constructed W e
  | rLNN (k truncation : ℤ) (e) (h : rLNN k truncation = .ok e) : Constructed W e
  | rBNSL (proc : ℤ) (e) (h : rBNSL proc = .ok e) : Constructed W e
  | juliaKSG (variant neighbors : ℤ) (e) (h : juliaKSG variant neighbors = .ok e) : Constructed W e
  | juliaHistogram (bins : ℤ) (e) (h : juliaHistogram bins = .ok e) : Constructed W e
  | juliaTransfer (bins : ℤ) (e) (h : juliaTransfer bins = .ok e) : Constructed W e
  | juliaKernel (bandwidth : F) (e) (h : juliaKernel W bandwidth = .ok e) : Constructed W e

/-! ### Arguments -/

theorem isOption_nat (n : ℕ) : isOption n.repr = false := by
  unfold isOption
  rw [Nat.toList_repr]
  cases h : Nat.toDigits 10 n with
  | nil => simp
  | cons c l =>
    have : c.isDigit := Nat.isDigit_of_mem_toDigits (by decide) (by decide) (h ▸ List.mem_cons_self)
    have hc : c ≠ '-' := by rintro rfl; exact absurd this (by decide)
    simp [hc]

theorem isOption_int {z : ℤ} (h : 0 < z) : isOption z.repr = false := by
  obtain ⟨n, rfl⟩ := Int.eq_ofNat_of_zero_le h.le
  exact isOption_nat n

theorem option_mapM_some {α β : Type} (l : List α) (f : α → Option β) (g : α → β) (h : ∀ a ∈ l, f a = some (g a)) :
    l.mapM f = some (l.map g) := by
  induction l with
  | nil => rfl
  | cons a l ih =>
    rw [List.mapM_cons, h a (by simp), ih fun b hb => h b (by simp [hb])]
    rfl

theorem cols (r : List F) (s m : ℕ) (h : s + m ≤ r.length) (f : ℤ → Option F)
    (hf : ∀ i : ℕ, f ((1 + s : ℤ) + i) = r[s + i]?) :
    ((List.range m).map fun (i : ℕ) => (1 + s : ℤ) + i).mapM f = some ((r.drop s).take m) := by
  have hl : ((r.drop s).take m).length = m := by simp; omega
  have : (List.range m).map (fun (i : ℕ) => (1 + s : ℤ) + i) = (List.finRange m).map fun i => (1 + s : ℤ) + (i.val : ℤ) := by
    rw [← List.map_coe_finRange_eq_range, List.map_map]
    rfl
  rw [this, List.mapM_map, option_mapM_some (List.finRange m) _ fun i => ((r.drop s).take m)[i.val]'(by omega)]
  · congr 1
    refine List.ext_getElem (by simp; omega) fun k h1 h2 => ?_
    simp
  · intro i _
    simp only [Function.comp_apply, hf]
    rw [List.getElem?_eq_getElem (by omega)]
    simp

theorem rCols_ok (r : List F) (s m : ℕ) (hm : 0 < m) (h : s + m ≤ r.length) :
    rCols r (s + 1) (s + m) = some ((r.drop s).take m) := by
  unfold rCols rSeq
  rw [if_pos (by omega), show ((s : ℤ) + m - (s + 1) + 1).toNat = m by omega, List.filter_eq_self.2]
  · simp only [show ((s : ℤ) + 1) = 1 + s by ring]
    refine cols r s m h _ fun i => ?_
    rw [if_neg (by omega)]
    congr 1
    omega
  · intro z hz
    obtain ⟨i, _, rfl⟩ := List.mem_map.1 hz
    simp
    omega

theorem juliaCols_ok (r : List F) (s m : ℕ) (h : s + m ≤ r.length) :
    juliaCols r (1 + s) (s + m) = some ((r.drop s).take m) := by
  unfold juliaCols
  rw [show ((s : ℤ) + m - (1 + s) + 1).toNat = m by omega]
  refine cols r s m h _ fun i => ?_
  congr 1
  omega

/-! ### The scripts -/

/-- A table whose rows are those of `xs` and `ys` side by side. -/
structure Table (rows xs ys : List (List F)) (p q : ℕ) : Prop where
  rows : rows = List.zipWith (· ++ ·) xs ys
  length : xs.length = ys.length
  x : ∀ r ∈ xs, r.length = p
  y : ∀ r ∈ ys, r.length = q

theorem Table.split {rows xs ys : List (List F)} {p q : ℕ} (T : Table rows xs ys p q) :
    rows.map (fun r => (r.drop 0).take p) = xs ∧ rows.map (fun r => (r.drop p).take q) = ys ∧
      ∀ r ∈ rows, r.length = p + q := by
  obtain ⟨rfl, hl, hx, hy⟩ := T
  induction xs generalizing ys with
  | nil => cases ys <;> simp_all
  | cons a xs ih =>
    cases ys with
    | nil => simp at hl
    | cons b ys =>
      obtain ⟨h1, h2, h3⟩ := ih (by simpa using hl) (fun r hr => hx r (by simp [hr])) fun r hr => hy r (by simp [hr])
      have e1 := hx a (by simp)
      have e2 := hy b (by simp)
      refine ⟨?_, ?_, ?_⟩
      · rw [List.zipWith_cons_cons, List.map_cons, h1, List.drop_zero, List.take_left' e1]
      · rw [List.zipWith_cons_cons, List.map_cons, h2, List.drop_left' e1, List.take_of_length_le e2.le]
      · intro r hr
        rw [List.zipWith_cons_cons] at hr
        rcases List.mem_cons.1 hr with rfl | hr
        · simp [e1, e2]
        · exact h3 r hr

/-- Arguments to the script. -/
def scriptArgs (W : World F) (e : Estimator F) (path : String) (p q : ℕ) : List String :=
  (buildCommand W e path p q).drop 2

set_option maxHeartbeats 1000000 in
/-- C47: rmi.R, called by the R estimators, runs the intended method with the given parameters on the right
columns. -/
theorem rCall_ok (W : World F) {round : F → F} (hW : Sane W round) (e : Estimator F) (he : Constructed W e)
    (hR : usesR e = true) (hproc : ∀ proc, e = .rBNSL proc → proc = 1 ∨ proc = 2 ∨ proc = 10) (path : String)
    (csv : Csv F) (hfile : W.files (W.absolute path) = some csv) (p q : ℕ) (hp : 0 < p) (hq : 0 < q)
    (xs ys : List (List F)) (hT : Table (csv.rows.map fun r => r.map W.csvR) xs ys p q) :
    rCall W (scriptArgs W e path p q) = some (intended e xs ys p q) := by
  have ha : isOption (W.absolute path) = false := by simp [isOption, hW.absolute path]
  obtain ⟨s1, s2, s3⟩ := hT.split
  have o1 : isOption "--method" = true := by decide
  have o2 : isOption "--neighbors" = true := by decide
  have o3 : isOption "--truncation" = true := by decide
  have o4 : isOption "--proc" = true := by decide
  have i10 : "10".toInt? = some 10 := Int.toInt?_repr 10
  have i30 : "30".toInt? = some 30 := Int.toInt?_repr 30
  have i0 : "0".toInt? = some 0 := Int.toInt?_repr 0
  cases he with
  | rKSG variant neighbors e h =>
    unfold rKSG at h
    split_ifs at h with hv
    obtain ⟨hv, hn⟩ := hv
    cases h
    have k1 : "KSG" ++ (1 : ℤ).repr = "KSG1" := by decide
    have k2 : "KSG" ++ (2 : ℤ).repr = "KSG2" := by decide
    have k1' : isOption "KSG1" = false := by decide
    have k2' : isOption "KSG2" = false := by decide
    rcases hv with rfl | rfl
    · simp [rCall, scriptArgs, buildCommand, scan, ha, isOption_nat, o1, o2, k1, k1', rOptions, isOption_int hn, option,
        List.lookup, hfile, intended, i30, i0, hT.rows]
    · simp [rCall, scriptArgs, buildCommand, scan, ha, isOption_nat, o1, o2, k2, k2', rOptions, isOption_int hn, option,
        List.lookup, hfile, intended, i30, i0, hT.rows]
  | rLNN k truncation e h =>
    unfold rLNN at h
    split_ifs at h with hv
    cases h
    have hm : isOption "LNN" = false := by decide
    simp [rCall, scriptArgs, buildCommand, scan, ha, isOption_nat, o1, o2, o3, hm, rOptions, isOption_int hv.1,
      isOption_int hv.2, option, List.lookup, hfile, intended, i0, hT.rows]
  | rBNSL proc e h =>
    unfold rBNSL at h
    split_ifs at h with hv
    cases h
    have hm : isOption "BNSL" = false := by decide
    have hpr : (2 < proc → proc = 10) ∧ 0 ≤ proc := by have := hproc proc rfl; omega
    have m1 : (csv.rows.map fun r => r.map W.csvR).mapM (fun r => rCols r 1 p) = some xs := by
      rw [option_mapM_some _ _ fun r => (r.drop 0).take p, s1]
      intro r hr
      simpa using rCols_ok r 0 p hp (by have := s3 r hr; omega)
    have m2 : (csv.rows.map fun r => r.map W.csvR).mapM (fun r => rCols r (p + 1) (p + q)) = some ys := by
      rw [option_mapM_some _ _ fun r => (r.drop p).take q, s2]
      intro r hr
      exact rCols_ok r p q hq (s3 r hr).ge
    simp [rCall, scriptArgs, buildCommand, scan, ha, isOption_nat, o1, o4, hm, rOptions, isOption_int hv,
      option, List.lookup, hfile, intended, i10, i30, m1, m2, hpr.2, -List.mapM_map]
    exact hpr.1
  | juliaKSG variant neighbors e h =>
    unfold juliaKSG at h
    split_ifs at h
    cases h
    cases hR
  | juliaHistogram bins e h =>
    unfold juliaHistogram at h
    split_ifs at h
    cases h
    cases hR
  | juliaTransfer bins e h =>
    unfold juliaTransfer at h
    split_ifs at h
    cases h
    cases hR
  | juliaKernel bandwidth e h =>
    unfold juliaKernel at h
    split_ifs at h
    cases h
    cases hR

set_option maxHeartbeats 1000000 in
/-- C47: mi_estimator.jl, called by the Julia estimators, runs the intended method with the given parameters on the
right columns. -/
theorem juliaCall_ok (W : World F) {round : F → F} (hW : Sane W round) (default : F) (e : Estimator F)
    (he : Constructed W e) (hR : usesR e = false) (path : String)
    (csv : Csv F) (hfile : W.files (W.absolute path) = some csv) (p q : ℕ) (hp : 0 < p) (hq : 0 < q)
    (xs ys : List (List F)) (hT : Table (csv.rows.map fun r => r.map W.csvJulia) xs ys p q) :
    juliaCall W default (scriptArgs W e path p q) = some (intended e xs ys p q) := by
  have ha : isOption (W.absolute path) = false := by simp [isOption, hW.absolute path]
  obtain ⟨s1, s2, s3⟩ := hT.split
  have o1 : isOption "--estimator" = true := by decide
  have o2 : isOption "--neighbors" = true := by decide
  have o3 : isOption "--bins" = true := by decide
  have o4 : isOption "--bandwidth" = true := by decide
  have i10 : "10".toInt? = some 10 := Int.toInt?_repr 10
  have hp' : ¬ p = 0 := by omega
  have hq' : ¬ q = 0 := by omega
  have m1 : (csv.rows.map fun r => r.map W.csvJulia).mapM (fun r => juliaCols r 1 p) = some xs := by
    rw [option_mapM_some _ _ fun r => (r.drop 0).take p, s1]
    intro r hr
    simpa using juliaCols_ok r 0 p (by have := s3 r hr; omega)
  have m2 : (csv.rows.map fun r => r.map W.csvJulia).mapM (fun r => juliaCols r (1 + p) (p + q)) = some ys := by
    rw [option_mapM_some _ _ fun r => (r.drop p).take q, s2]
    intro r hr
    exact juliaCols_ok r p q (s3 r hr).ge
  cases he with
  | rKSG variant neighbors e h =>
    unfold rKSG at h
    split_ifs at h
    cases h
    cases hR
  | rLNN k truncation e h =>
    unfold rLNN at h
    split_ifs at h
    cases h
    cases hR
  | rBNSL proc e h =>
    unfold rBNSL at h
    split_ifs at h
    cases h
    cases hR
  | juliaKSG variant neighbors e h =>
    unfold juliaKSG at h
    split_ifs at h with hv
    obtain ⟨hv, hn⟩ := hv
    cases h
    have k1 : "KSG" ++ (1 : ℤ).repr = "KSG1" := by decide
    have k2 : "KSG" ++ (2 : ℤ).repr = "KSG2" := by decide
    have k1' : isOption "KSG1" = false := by decide
    have k2' : isOption "KSG2" = false := by decide
    have hn' : ¬ neighbors < 1 := by omega
    rcases hv with rfl | rfl
    · simp [juliaCall, scriptArgs, buildCommand, scan, ha, isOption_nat, o1, o2, k1, k1', juliaOptions, isOption_int hn,
        option, List.lookup, hfile, intended, i10, m1, m2, hn', hp', hq', allowedEstimators, -List.mapM_map]
    · simp [juliaCall, scriptArgs, buildCommand, scan, ha, isOption_nat, o1, o2, k2, k2', juliaOptions, isOption_int hn,
        option, List.lookup, hfile, intended, i10, m1, m2, hn', hp', hq', allowedEstimators, -List.mapM_map]
  | juliaHistogram bins e h =>
    unfold juliaHistogram at h
    split_ifs at h with h1 hv
    cases h
    have hm : isOption "Histogram" = false := by decide
    simp [juliaCall, scriptArgs, buildCommand, scan, ha, isOption_nat, o1, o3, hm, juliaOptions, isOption_int hv,
        option, List.lookup, hfile, intended, i10, m1, m2, hp', hq', allowedEstimators, -List.mapM_map]
  | juliaTransfer bins e h =>
    unfold juliaTransfer at h
    split_ifs at h with h1 hv
    cases h
    have hm : isOption "Transfer" = false := by decide
    simp [juliaCall, scriptArgs, buildCommand, scan, ha, isOption_nat, o1, o3, hm, juliaOptions, isOption_int hv,
        option, List.lookup, hfile, intended, i10, m1, m2, hp', hq', allowedEstimators, -List.mapM_map]
  | juliaKernel bandwidth e h =>
    unfold juliaKernel at h
    split_ifs at h with hv
    cases h
    have hm : isOption "Kernel" = false := by decide
    have hb : isOption (W.strFloat bandwidth) = false := by simpa [isOption] using hW.str_head _ hv
    simp [juliaCall, scriptArgs, buildCommand, scan, ha, isOption_nat, o1, o4, hm, hb, juliaOptions, hW.str_parse _ hv,
        option, List.lookup, hfile, intended, i10, m1, m2, hp', hq', allowedEstimators, -List.mapM_map]

/-! ### From samples to estimates -/

theorem strip_text (c : Char) (a w : List Char) (hc : c.isWhitespace = false) (h : w ≠ [])
    (hw : ∀ c ∈ w, c.isWhitespace = false) : strip (c :: (a ++ w ++ ['\n'])) = c :: (a ++ w) := by
  have hn : ('\n').isWhitespace = true := by decide
  unfold strip
  obtain ⟨v, d, rfl⟩ : ∃ v d, w = v ++ [d] := ⟨_, _, (List.dropLast_append_getLast h).symm⟩
  have hd := hw d (by simp)
  simp [List.dropWhile, hn, hc, hd]

theorem strip_word (w : List Char) (h : w ≠ []) (hw : ∀ c ∈ w, c.isWhitespace = false) : strip (w ++ ['\n']) = w := by
  cases w with
  | nil => exact absurd rfl h
  | cons c w =>
    cases w with
    | nil =>
      have hn : ('\n').isWhitespace = true := by decide
      simp [strip, List.dropWhile, hn, hw c (by simp)]
    | cons d w =>
      have := strip_text c [] (d :: w) (hw c (by simp)) (by simp) fun u hu => hw u (by simp [hu])
      simpa using this

/-- Rows of an array. -/
def rowsOf {n d : ℕ} (x : Fin n → Fin d → F) : List (List F) := List.ofFn fun i => List.ofFn (x i)

/-- The samples as the script reads them. -/
def seen (W : World F) (e : Estimator F) : F → F := if usesR e then W.csvR else W.csvJulia

theorem save_table (n p q : ℕ) (x : Fin n → Fin p → F) (y : Fin n → Fin q → F) (g : F → F) (csv : Csv F)
    (h : saveSample (.mat n p x) (.mat n q y) = .ok csv) :
    Table (csv.rows.map fun r => r.map g) (rowsOf fun i j => g (x i j)) (rowsOf fun i j => g (y i j)) p q := by
  simp only [saveSample, dif_pos] at h
  cases h
  refine ⟨?_, by simp [rowsOf], ?_, ?_⟩
  · refine List.ext_getElem (by simp [rowsOf]) fun k h1 h2 => ?_
    simp [rowsOf, Function.comp_def]
  · intro r hr
    obtain ⟨i, rfl⟩ := (List.mem_ofFn' _ _).1 hr
    simp
  · intro r hr
    obtain ⟨i, rfl⟩ := (List.mem_ofFn' _ _).1 hr
    simp

/-- The parameters with which the script of `BNSL` works; all those of the other estimators do. -/
def Supported : Estimator F → Prop
  | .rBNSL proc => proc = 1 ∨ proc = 2 ∨ proc = 10
  | _ => True

/-- What an estimate is to be: the result of the intended call of the library, as printed. -/
def expected (W : World F) (round : F → F) (e : Estimator F) (xs ys : List (List F)) (p q : ℕ) : Except Fail F :=
  match W.lib (intended e xs ys p q) with
  | none => .error .process
  | some v => .ok (if usesR e then round v else v)

theorem buildCommand_head (W : World F) (e : Estimator F) (path : String) (p q : ℕ) :
    buildCommand W e path p q =
      (if usesR e then ["Rscript", W.rScript] else ["julia", W.juliaScript]) ++ scriptArgs W e path p q := by
  cases e <;> rfl

/-- C47: the command built for a file runs the intended method on its columns, and its output is read back. -/
theorem run_spec (W : World F) {round : F → F} (hW : Sane W round) (default : F) (e : Estimator F)
    (he : Constructed W e) (hs : Supported e) (herr : W.stderr = []) (path : String) (csv : Csv F)
    (hfile : W.files (W.absolute path) = some csv) (p q : ℕ) (hp : 0 < p) (hq : 0 < q) (xs ys : List (List F))
    (hT : Table (csv.rows.map fun r => r.map (seen W e)) xs ys p q) :
    runCommandAndReadMi W default (buildCommand W e path p q) = expected W round e xs ys p q := by
  rw [buildCommand_head]
  unfold expected
  cases hR : usesR e with
  | true =>
    have hT' : Table (csv.rows.map fun r => r.map W.csvR) xs ys p q := by simpa [seen, hR] using hT
    have hc := rCall_ok W hW e he hR (by rintro proc rfl; exact hs) path csv hfile p q hp hq xs ys hT'
    cases hl : W.lib (intended e xs ys p q) with
    | none => simp [runCommandAndReadMi, rMain, hc, hl]
    | some v =>
      simp [runCommandAndReadMi, rMain, hc, hl, herr, strip_word _ (hW.cat_word v).1 (hW.cat_word v).2, hW.read_cat]
  | false =>
    have hT' : Table (csv.rows.map fun r => r.map W.csvJulia) xs ys p q := by simpa [seen, hR] using hT
    have hc := juliaCall_ok W hW default e he hR path csv hfile p q hp hq xs ys hT'
    cases hl : W.lib (intended e xs ys p q) with
    | none => simp [runCommandAndReadMi, juliaMain, hc, hl]
    | some v =>
      simp [runCommandAndReadMi, juliaMain, hc, hl, herr, strip_word _ (hW.print_word v).1 (hW.print_word v).2,
        hW.read_print]

/-- C47: for every constructed estimator, except `BNSL` with other `proc` than 1, 2 and 10, the estimate is the number
the library computes, with the parameters of the estimator, from the samples. -/
theorem estimate_partial (W : World F) {round : F → F} (hW : Sane W round) (default : F) (e : Estimator F)
    (he : Constructed W e) (hs : Supported e) (herr : W.stderr = []) (tmp : String) (n p q : ℕ) (hp : 0 < p)
    (hq : 0 < q) (x : Fin n → Fin p → F) (y : Fin n → Fin q → F) :
    estimate W default e tmp (.mat n p x) (.mat n q y) =
      expected W round e (rowsOf fun i j => seen W e (x i j)) (rowsOf fun i j => seen W e (y i j)) p q := by
  obtain ⟨csv, h1, -, h3⟩ := read_save (seen W e) n p q x y (by omega)
  simp only [estimate, h1, estimateFromPath, if_true, h3]
  have hT := save_table n p q x y (seen W e) csv h1
  have := run_spec { W with files := fun p => if p = W.absolute tmp then some csv else W.files p }
    (round := round) ⟨hW.1, hW.2, hW.3, hW.4, hW.5, hW.6, hW.7⟩ default e
    (by cases he with
      | rKSG a b _ h => exact .rKSG a b _ h
      | rLNN a b _ h => exact .rLNN a b _ h
      | rBNSL a _ h => exact .rBNSL a _ h
      | juliaKSG a b _ h => exact .juliaKSG a b _ h
      | juliaHistogram a _ h => exact .juliaHistogram a _ h
      | juliaTransfer a _ h => exact .juliaTransfer a _ h
      | juliaKernel a _ h => exact .juliaKernel a _ h) hs herr tmp csv (by simp) p q hp hq _ _ hT
  exact this

/-- C47: samples that are not two matrices with as many rows are refused before anything is run. -/
theorem estimate_refuses (W : World F) (default : F) (e : Estimator F) (tmp : String) (x y : NdArr F)
    (h : ¬ ∃ n p q vx vy, x = .mat n p vx ∧ y = .mat n q vy) :
    estimate W default e tmp x y = .error (.exception .assertionError) := by
  rw [← save_ok_iff] at h
  unfold estimate
  cases hs : saveSample x y with
  | ok f => exact absurd ⟨f, hs⟩ h
  | error er =>
    cases x <;> cases y <;> simp [saveSample] at hs
    · split_ifs at hs
      cases hs; rfl
    all_goals cases hs; rfl

/-! ### Parameters -/

/-- C47: which parameters are accepted. -/
theorem constructed_iff (W : World F) (e : Estimator F) :
    Constructed W e ↔ match e with
      | .rKSG variant neighbors => (variant = 1 ∨ variant = 2) ∧ 1 ≤ neighbors
      | .rLNN k truncation => 1 ≤ k ∧ 1 ≤ truncation
      | .rBNSL proc => 1 ≤ proc
      | .juliaKSG variant neighbors => (variant = 1 ∨ variant = 2) ∧ 1 ≤ neighbors
      | .juliaHistogram bins => 2 ≤ bins
      | .juliaTransfer bins => 2 ≤ bins
      | .juliaKernel bandwidth => W.positive bandwidth = true := by
  constructor
  · intro h
    cases h with
    | rKSG a b _ h => unfold rKSG at h; split_ifs at h with hv; cases h; exact ⟨hv.1, by omega⟩
    | rLNN a b _ h => unfold rLNN at h; split_ifs at h with hv; cases h; exact ⟨by omega, by omega⟩
    | rBNSL a _ h => unfold rBNSL at h; split_ifs at h with hv; cases h; simp only; omega
    | juliaKSG a b _ h => unfold juliaKSG at h; split_ifs at h with hv; cases h; exact ⟨hv.1, by omega⟩
    | juliaHistogram a _ h => unfold juliaHistogram at h; split_ifs at h with h1 hv; cases h; simp only; omega
    | juliaTransfer a _ h => unfold juliaTransfer at h; split_ifs at h with h1 hv; cases h; simp only; omega
    | juliaKernel a _ h => unfold juliaKernel at h; split_ifs at h with hv; cases h; exact hv
  · cases e with
    | rKSG a b => intro h; exact .rKSG a b _ (by simp only at h; rw [rKSG, if_pos ⟨h.1, by omega⟩])
    | rLNN a b => intro h; exact .rLNN a b _ (by simp only at h; rw [rLNN, if_pos (by omega)])
    | rBNSL a => intro h; exact .rBNSL a _ (by simp only at h; rw [rBNSL, if_pos (by omega)])
    | juliaKSG a b => intro h; exact .juliaKSG a b _ (by simp only at h; rw [juliaKSG, if_pos ⟨h.1, by omega⟩])
    | juliaHistogram a =>
      intro h
      exact .juliaHistogram a _ (by simp only at h; rw [juliaHistogram, if_neg (by omega), if_pos (by omega)])
    | juliaTransfer a =>
      intro h
      exact .juliaTransfer a _ (by simp only at h; rw [juliaTransfer, if_neg (by omega), if_pos (by omega)])
    | juliaKernel a => intro h; exact .juliaKernel a _ (by simp only at h; rw [juliaKernel, if_pos h])

/-- Against C47: `BNSL` with another `proc` can be constructed, and never gives an estimate. -/
theorem bnsl_never (W : World F) {round : F → F} (hW : Sane W round) (default : F) (proc : ℤ) (h : 3 ≤ proc)
    (h10 : proc ≠ 10) :
    Constructed W (.rBNSL proc) ∧ ∀ (tmp : String) (n p q : ℕ) (x : Fin n → Fin p → F) (y : Fin n → Fin q → F),
      0 < p + q → estimate W default (.rBNSL proc) tmp (.mat n p x) (.mat n q y) = .error .process := by
  refine ⟨(constructed_iff W _).2 (by simp only; omega), fun tmp n p q x y hd => ?_⟩
  obtain ⟨csv, h1, -, h3⟩ := read_save id n p q x y hd
  have ha : isOption (W.absolute tmp) = false := by simp [isOption, hW.absolute tmp]
  have o1 : isOption "--method" = true := by decide
  have o4 : isOption "--proc" = true := by decide
  have i10 : "10".toInt? = some 10 := Int.toInt?_repr 10
  have i30 : "30".toInt? = some 30 := Int.toInt?_repr 30
  have hm : isOption "BNSL" = false := by decide
  have hpr : ((2 < proc ∧ ¬ proc = 10) ∨ proc < 0) ↔ True := by simp; omega
  simp only [estimate, h1, estimateFromPath, if_true, h3]
  simp [runCommandAndReadMi, buildCommand, rMain, rCall, scan, ha, isOption_nat, o1, o4, hm, rOptions,
    isOption_int (show 0 < proc by omega), option, List.lookup, i10, i30, hpr]

/-- Against C47: the value 0 of `proc`, the default of the script, cannot be asked for, though the script accepts it. -/
theorem bnsl_zero (W : World F) {round : F → F} (hW : Sane W round) (path : String) (csv : Csv F)
    (hfile : W.files (W.absolute path) = some csv) (p q : ℕ) (hp : 0 < p) (hq : 0 < q) (xs ys : List (List F))
    (hT : Table (csv.rows.map fun r => r.map W.csvR) xs ys p q) :
    rBNSL (F := F) 0 = .error .validationError ∧
      rCall W [W.absolute path, p.repr, q.repr, "--method", "BNSL", "--proc", "0"] = some (.bnslMi xs ys 0) := by
  refine ⟨by simp [rBNSL], ?_⟩
  have ha : isOption (W.absolute path) = false := by simp [isOption, hW.absolute path]
  obtain ⟨s1, s2, s3⟩ := hT.split
  have o1 : isOption "--method" = true := by decide
  have o4 : isOption "--proc" = true := by decide
  have i10 : "10".toInt? = some 10 := Int.toInt?_repr 10
  have i30 : "30".toInt? = some 30 := Int.toInt?_repr 30
  have i0 : "0".toInt? = some 0 := Int.toInt?_repr 0
  have hm : isOption "BNSL" = false := by decide
  have h0 : isOption "0" = false := by decide
  have m1 : (csv.rows.map fun r => r.map W.csvR).mapM (fun r => rCols r 1 p) = some xs := by
    rw [option_mapM_some _ _ fun r => (r.drop 0).take p, s1]
    intro r hr
    simpa using rCols_ok r 0 p hp (by have := s3 r hr; omega)
  have m2 : (csv.rows.map fun r => r.map W.csvR).mapM (fun r => rCols r (p + 1) (p + q)) = some ys := by
    rw [option_mapM_some _ _ fun r => (r.drop p).take q, s2]
    intro r hr
    exact rCols_ok r p q hq (s3 r hr).ge
  simp [rCall, scan, ha, isOption_nat, o1, o4, hm, h0, rOptions, option, List.lookup, hfile, i10, i30, i0, m1, m2,
    -List.mapM_map]

/-- C47: a message on the error stream, even if the script succeeds, makes the estimate fail: Python does not read
text with white space inside as a number. -/
theorem run_warning (W : World F) {round : F → F} (hW : Sane W round) (default : F) (e : Estimator F)
    (he : Constructed W e) (hs : Supported e) (c : Char) (msg : List Char) (hc : c.isWhitespace = false)
    (herr : W.stderr = c :: (msg ++ ['\n']))
    (hread : ∀ a b : List Char, a ≠ [] → b ≠ [] → a.head?.any (fun c => !c.isWhitespace) →
      (∀ c ∈ b, c.isWhitespace = false) → W.readFloat (a ++ '\n' :: b) = none)
    (path : String) (csv : Csv F)
    (hfile : W.files (W.absolute path) = some csv) (p q : ℕ) (hp : 0 < p) (hq : 0 < q) (xs ys : List (List F))
    (hT : Table (csv.rows.map fun r => r.map (seen W e)) xs ys p q) (v : F)
    (hv : W.lib (intended e xs ys p q) = some v) :
    runCommandAndReadMi W default (buildCommand W e path p q) = .error (.exception .valueError) := by
  have key : ∀ w : List Char, (w ≠ [] ∧ ∀ c ∈ w, c.isWhitespace = false) →
      W.readFloat (strip (W.stderr ++ (w ++ ['\n']))) = none := by
    intro w hw
    have e1 : W.stderr ++ (w ++ ['\n']) = c :: ((msg ++ ['\n']) ++ w ++ ['\n']) := by simp [herr]
    rw [e1, strip_text c _ w hc hw.1 hw.2]
    have := hread (c :: msg) w (by simp) hw.1 (by simp [hc]) hw.2
    simpa using this
  rw [buildCommand_head]
  cases hR : usesR e with
  | true =>
    have hT' : Table (csv.rows.map fun r => r.map W.csvR) xs ys p q := by simpa [seen, hR] using hT
    have hk := rCall_ok W hW e he hR (by rintro proc rfl; exact hs) path csv hfile p q hp hq xs ys hT'
    simp [runCommandAndReadMi, rMain, hk, hv, key _ (hW.cat_word v)]
  | false =>
    have hT' : Table (csv.rows.map fun r => r.map W.csvJulia) xs ys p q := by simpa [seen, hR] using hT
    have hk := juliaCall_ok W hW default e he hR path csv hfile p q hp hq xs ys hT'
    simp [runCommandAndReadMi, juliaMain, hk, hv, key _ (hW.print_word v)]

/-- Against C47: the columns of a file are taken by position, while `read_sample` takes them by name; for a file with
`Y` first they are exchanged. -/
theorem path_exchanged (W : World F) {round : F → F} (hW : Sane W round) (default : F) (e : Estimator F)
    (he : Constructed W e) (hs : Supported e) (herr : W.stderr = []) (path : String) (a b : F)
    (hfile : W.files (W.absolute path) = some ⟨["Y0", "X0"], [[a, b]]⟩) :
    readSample (seen W e) ⟨["Y0", "X0"], [[a, b]]⟩ = .ok ((1, [[seen W e b]]), (1, [[seen W e a]])) ∧
      estimateFromPath W default e path = expected W round e [[seen W e a]] [[seen W e b]] 1 1 := by
  have hx : hasChar 'X' "Y0" = false := by decide
  have hx' : hasChar 'X' "X0" = true := by decide
  have hy : hasChar 'Y' "Y0" = true := by decide
  have hy' : hasChar 'Y' "X0" = false := by decide
  constructor
  · simp [readSample, colsWith, selectCols, hx, hx', hy, hy']
  · rw [estimateFromPath, hfile]
    simp only [readSampleDims, colsWith, hx, hx', hy, hy', List.filter]
    exact run_spec W hW default e he hs herr path _ hfile 1 1 (by simp) (by simp) _ _ ⟨rfl, rfl, by simp, by simp⟩

/-! ### Examples -/

/-- A world in which numbers are natural numbers, written in decimal. -/
def sampleWorld : World ℕ where
  absolute p := "/tmp/" ++ p
  rScript := "/repo/external/rmi.R"
  juliaScript := "/repo/external/mi_estimator.jl"
  positive n := 0 < n
  strFloat n := n.repr
  parseFloatJulia s := s.toNat?
  readFloat s := (String.ofList s).toNat?
  csvR := id
  csvJulia := id
  catR n := n.repr.toList
  printJulia n := n.repr.toList
  stderr := []
  files _ := none
  lib
    | .knnMi _ _ _ k => some k.toNat
    | .naiveKernel _ _ b => some b
    | _ => none

theorem repr_word (n : ℕ) : n.repr.toList ≠ [] ∧ ∀ c ∈ n.repr.toList, c.isWhitespace = false := by
  refine ⟨by simp, fun c hc => ?_⟩
  rw [Nat.toList_repr] at hc
  have h : c.isDigit = true := toDigits_isDigit n c hc
  by_contra hw
  have hw : c.isWhitespace = true := by simpa using hw
  simp only [Char.isWhitespace, Bool.or_eq_true, decide_eq_true_eq] at hw
  rcases hw with ((rfl | rfl) | rfl) | rfl <;> exact absurd h (by decide)

theorem sampleWorld_sane : Sane sampleWorld id where
  absolute p := by simp [sampleWorld]
  str_parse b _ := by simp [sampleWorld]
  str_head b _ := by
    have := isOption_nat b
    simp only [isOption, decide_eq_false_iff_not] at this
    exact this
  cat_word v := repr_word v
  print_word v := repr_word v
  read_cat v := by
    change (String.ofList v.repr.toList).toNat? = _
    rw [String.ofList_toList, Nat.toNat?_repr]; rfl
  read_print v := by
    change (String.ofList v.repr.toList).toNat? = _
    rw [String.ofList_toList, Nat.toNat?_repr]

example : estimate sampleWorld 1 (.rKSG 2 7) "sample.csv" (.mat 2 1 fun i _ => i) (.mat 2 1 fun i _ => 5 + i) = .ok 7 := by
  have hc : Constructed sampleWorld (.rKSG 2 7) := .rKSG 2 7 _ (by simp [rKSG])
  rw [estimate_partial sampleWorld sampleWorld_sane 1 _ hc trivial rfl _ 2 1 1 one_pos one_pos]
  rfl

/-- A library that fails. -/
example : estimate sampleWorld 1 (.rLNN 3 30) "sample.csv" (.mat 2 1 fun i _ => i) (.mat 2 1 fun i _ => 5 + i) =
    .error .process := by
  have hc : Constructed sampleWorld (.rLNN 3 30) := .rLNN 3 30 _ (by simp [rLNN])
  rw [estimate_partial sampleWorld sampleWorld_sane 1 _ hc trivial rfl _ 2 1 1 one_pos one_pos]
  rfl

example : estimate sampleWorld 1 (.rBNSL 4) "sample.csv" (.mat 2 1 fun i _ => i) (.mat 2 1 fun i _ => 5 + i) =
    .error .process :=
  (bnsl_never sampleWorld sampleWorld_sane 1 4 (by norm_num) (by norm_num)).2 _ 2 1 1 _ _ (by norm_num)

/-- The same world, with a file that has the columns of `Y` first, and libraries that tell what they were given. -/
def exchangedWorld : World ℕ :=
  { sampleWorld with
    files := fun _ => some ⟨["Y0", "X0"], [[3, 4]]⟩
    lib := fun
      | .kraskov1 x _ _ => x.head?.bind List.head?
      | _ => none }

example : estimateFromPath exchangedWorld 1 (.juliaKSG 1 7) "sample.csv" = .ok 3 := by
  have hs : Sane exchangedWorld id := sampleWorld_sane.casesOn fun a b c d e f g => ⟨a, b, c, d, e, f, g⟩
  have hc : Constructed exchangedWorld (.juliaKSG 1 7) := .juliaKSG 1 7 _ (by simp [juliaKSG])
  rw [(path_exchanged exchangedWorld hs 1 _ hc trivial rfl "sample.csv" 3 4 rfl).2]
  rfl

/-- A world in which R warns about its version, and Python refuses text with line breaks. -/
def warningWorld : World ℕ :=
  { exchangedWorld with
    readFloat := fun s => if '\n' ∈ s then none else (String.ofList s).toNat?
    stderr := "Warning: package was built under R version 4.3".toList ++ ['\n'] }

example : runCommandAndReadMi warningWorld 1 (buildCommand warningWorld (.juliaKSG 1 7) "sample.csv" 1 1) =
    .error (.exception .valueError) := by
  have hn : ∀ v : ℕ, '\n' ∉ v.repr.toList := fun v h => by
    have := (repr_word v).2 _ h
    exact absurd this (by decide)
  have hr : ∀ v : ℕ, warningWorld.readFloat v.repr.toList = some v := fun v => by
    change (if '\n' ∈ v.repr.toList then none else (String.ofList v.repr.toList).toNat?) = some v
    rw [if_neg (hn v), String.ofList_toList, Nat.toNat?_repr]
  have hs : Sane warningWorld id := sampleWorld_sane.casesOn fun a b c d e _ _ => ⟨a, b, c, d, e, hr, hr⟩
  have hc : Constructed warningWorld (.juliaKSG 1 7) := .juliaKSG 1 7 _ (by simp [juliaKSG])
  refine run_warning warningWorld hs 1 _ hc trivial 'W' "arning: package was built under R version 4.3".toList
    (by decide) (by decide) (fun a b _ _ _ _ => ?_) "sample.csv" _ rfl 1 1 one_pos one_pos [[3]] [[4]]
    ⟨rfl, rfl, by simp, by simp⟩ 3 rfl
  change (if '\n' ∈ _ then none else _) = none
  simp

end BMI.External
