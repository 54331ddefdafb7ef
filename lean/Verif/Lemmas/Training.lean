import Verif.Spec.Training
import Mathlib.Data.List.Basic
import Mathlib.Tactic.Linarith
import Mathlib.Order.Bounds.Basic
import Mathlib.Algebra.BigOperators.Group.List.Basic
import Mathlib.Tactic.Ring
import Mathlib.Algebra.Order.Floor.Ring

namespace BMI.Training
open Spec
variable {α : Type} [LinearOrder α]

/-- `(best, sinceBest)` after the test values `vals`. -/
def St (vals : List (Fl α)) (best : Option (Fl α)) (since : Nat) : Prop :=
  (vals = [] ∧ best = none ∧ since = 0) ∨
  ∃ (j : Nat) (v : Fl α), vals[j]? = some v ∧ best = some v ∧ since + j + 1 = vals.length ∧ Improves vals j ∧
    ((∃ a : α, v = Fl.num a ∧ ∀ (i : Nat) (b : α), vals[i]? = some (Fl.num b) → b ≤ a) ∨ (v = Fl.nan ∧ j = 0))

theorem improves_append (vals : List (Fl α)) (v : Fl α) (k : Nat) (hk : k < vals.length) :
    Improves (vals ++ [v]) k ↔ Improves vals k := by
  have h0 : 0 < vals.length := by omega
  unfold Improves
  rw [List.getElem?_append_left hk, List.getElem?_append_left h0]
  constructor
  · rintro (h | ⟨b, h1, h2, h3⟩)
    · exact .inl h
    · refine .inr ⟨b, h1, h2, fun i hi a ha => h3 i hi a ?_⟩
      rw [List.getElem?_append_left (by omega)]; exact ha
  · rintro (h | ⟨b, h1, h2, h3⟩)
    · exact .inl h
    · refine .inr ⟨b, h1, h2, fun i hi a ha => h3 i hi a ?_⟩
      rw [List.getElem?_append_left (by omega)] at ha; exact ha

theorem st_step (vals : List (Fl α)) (best since) (h : St vals best since) (v : Fl α) :
    improves best v = true ∧ Improves (vals ++ [v]) vals.length
      ∧ St (vals ++ [v]) (some v) 0 ∨
    improves best v = false ∧
      ¬ Improves (vals ++ [v]) vals.length ∧ St (vals ++ [v]) best (since + 1) := by
  rcases h with ⟨rfl, rfl, rfl⟩ | ⟨j, w, hj, rfl, hs, himp, hw⟩
  · left
    refine ⟨rfl, .inl rfl, .inr ⟨0, v, rfl, rfl, rfl, .inl rfl, ?_⟩⟩
    cases v with
    | nan => exact .inr ⟨rfl, rfl⟩
    | num a =>
      refine .inl ⟨a, rfl, fun i b hb => ?_⟩
      rcases i with _ | i
      · simp at hb; exact hb ▸ le_rfl
      · simp at hb
  · have hjlt : j < vals.length := by omega
    have h0 : 0 < vals.length := by omega
    have hlast : (vals ++ [v])[vals.length]? = some v := by simp
    have keep : ∀ (hn : ∀ a b, w = .num a → v = .num b → b ≤ a), St (vals ++ [v]) (some w) (since + 1) := by
      intro hn
      refine .inr ⟨j, w, ?_, rfl, ?_, (improves_append _ _ _ hjlt).2 himp, ?_⟩
      · rw [List.getElem?_append_left hjlt]; exact hj
      · simp; omega
      · rcases hw with ⟨a, rfl, ha⟩ | h
        · refine .inl ⟨a, rfl, fun i b hb => ?_⟩
          rcases lt_trichotomy i vals.length with hi | rfl | hi
          · rw [List.getElem?_append_left hi] at hb; exact ha i b hb
          · rw [hlast] at hb
            exact hn a b rfl (Option.some.inj hb)
          · rw [List.getElem?_eq_none (by simp; omega)] at hb; simp at hb
        · exact .inr h
    rcases hw with ⟨a, rfl, ha⟩ | ⟨rfl, rfl⟩
    · cases v with
      | nan =>
        right
        refine ⟨rfl, ?_, keep (by simp)⟩
        rintro (h | ⟨b, h1, -⟩)
        · omega
        · rw [hlast] at h1; simp at h1
      | num b =>
        by_cases hab : a < b
        · left
          have hI : Improves (vals ++ [Fl.num b]) vals.length := by
            refine .inr ⟨b, hlast, ?_, fun i hi c hc => ?_⟩
            · rcases himp with rfl | ⟨b', _, ⟨c, hc⟩, _⟩
              · exact ⟨a, by rw [List.getElem?_append_left h0]; exact hj⟩
              · exact ⟨c, by rw [List.getElem?_append_left h0]; exact hc⟩
            · rw [List.getElem?_append_left hi] at hc
              exact lt_of_le_of_lt (ha i c hc) hab
          refine ⟨by simp [improves, Fl.ltb, hab], hI, .inr ⟨vals.length, _, hlast, rfl, by simp, hI, ?_⟩⟩
          refine .inl ⟨b, rfl, fun i c hc => ?_⟩
          rcases lt_trichotomy i vals.length with hi | rfl | hi
          · rw [List.getElem?_append_left hi] at hc; exact le_of_lt (lt_of_le_of_lt (ha i c hc) hab)
          · rw [hlast] at hc; simp at hc; exact hc ▸ le_rfl
          · rw [List.getElem?_eq_none (by simp; omega)] at hc; simp at hc
        · right
          refine ⟨by simp [improves, Fl.ltb, hab], ?_, keep ?_⟩
          · rintro (h | ⟨c, h1, -, h3⟩)
            · omega
            · rw [hlast] at h1; simp at h1; subst h1
              exact hab (h3 j hjlt a (by rw [List.getElem?_append_left hjlt]; exact hj))
          · intro a' b' h1 h2; simp at h1 h2; subst h1 h2; exact not_lt.1 hab
    · right
      refine ⟨by simp [improves, Fl.ltb], ?_, keep (by simp)⟩
      rintro (h | ⟨c, -, ⟨d, hd⟩, -⟩)
      · omega
      · rw [List.getElem?_append_left h0, hj] at hd; simp at hd

/-- Invariant of the log: its two derived fields describe its test history. -/
def LogInv (l : Log α) : Prop := St (l.testHist.map Prod.snd) l.best l.sinceBest

theorem logInv_init (es : Bool) : LogInv ({ earlyStopping := es } : Log α) :=
  Or.inl ⟨rfl, rfl, rfl⟩

theorem logInv_train (l : Log α) (h : LogInv l) (n mi) : LogInv (l.logTrain n mi) := h

theorem logTest_testHist (l : Log α) (n mi) :
    (l.logTest n mi).testHist = l.testHist ++ [(n, mi)] := by
  unfold Log.logTest
  dsimp only
  split_ifs <;> simp

theorem logTest_trainHist (l : Log α) (n mi) : (l.logTest n mi).trainHist = l.trainHist := by
  unfold Log.logTest
  dsimp only
  split_ifs <;> simp

theorem logTest_earlyStopping (l : Log α) (n mi) :
    (l.logTest n mi).earlyStopping = l.earlyStopping := by
  unfold Log.logTest
  dsimp only
  split_ifs <;> simp

theorem logInv_test (l : Log α) (h : LogInv l) (n mi) : LogInv (l.logTest n mi) := by
  unfold LogInv
  rw [logTest_testHist]
  unfold Log.logTest
  rcases st_step _ _ _ h mi with ⟨h1, _, h3⟩ | ⟨h1, _, h3⟩
  · dsimp only; rw [if_pos h1]; simpa using h3
  · dsimp only; rw [if_neg (by simp [h1])]; simpa using h3

theorem improves_unique_last (vals : List (Fl α)) (best since) (h : St vals best since) :
    since > 1 ↔ StopRule vals := by
  rcases h with ⟨rfl, rfl, rfl⟩ | ⟨j, w, hj, rfl, hs, himp, hw⟩
  · simp [StopRule]
  · -- no index after `j` improves
    have hno : ∀ k, j < k → k < vals.length → ¬ Improves vals k := by
      rintro k hk hkl (h | ⟨b, h1, ⟨c, hc⟩, h3⟩)
      · omega
      · rcases hw with ⟨a, rfl, ha⟩ | ⟨rfl, rfl⟩
        · exact absurd (h3 j hk a hj) (not_lt.2 (ha k b h1))
        · rw [hj] at hc; simp at hc
    constructor
    · intro h
      obtain ⟨n, hn⟩ : ∃ n, vals.length = n + 2 := ⟨vals.length - 2, by omega⟩
      exact ⟨n, hn, hno n (by omega) (by omega), hno (n + 1) (by omega) (by omega)⟩
    · rintro ⟨n, hn, h1, h2⟩
      by_contra hlt
      have : j = n ∨ j = n + 1 := by omega
      rcases this with rfl | rfl
      · exact h1 himp
      · exact h2 himp

theorem earlyStop_iff (l : Log α) (h : LogInv l) :
    l.earlyStop = true ↔ l.earlyStopping = true ∧ StopRule (l.testHist.map Prod.snd) := by
  unfold Log.earlyStop
  rw [Bool.and_eq_true, decide_eq_true_iff, improves_unique_last _ _ _ h]

theorem run_inv (ops : List (Op α)) (l : Log α) (h : LogInv l) :
    LogInv (run l ops) ∧ (run l ops).testHist.map Prod.snd = l.testHist.map Prod.snd ++ testVals ops
      ∧ (run l ops).earlyStopping = l.earlyStopping := by
  induction ops generalizing l with
  | nil => simp [run, testVals, h]
  | cons op ops ih =>
    cases op with
    | train n mi =>
      simpa [run, testVals, Log.logTrain] using ih _ (logInv_train l h n mi)
    | test n mi =>
      have := ih _ (logInv_test l h n mi)
      rw [logTest_testHist, logTest_earlyStopping] at this
      simpa [run, testVals] using this

end BMI.Training

namespace BMI.Training
open Spec
variable {α : Type} [LinearOrder α] {S Key : Type}

theorem traj_succ (env : Env α S Key) (c : S) (pre : List Key) (k : Key) (rest : List Key) :
    traj env c (pre ++ k :: rest) (pre.length + 1)
      = (env.step (traj env c (pre ++ k :: rest) pre.length) k).1 := by
  unfold traj
  have h1 : (pre ++ k :: rest).take (pre.length + 1) = pre ++ [k] := by
    rw [List.take_append, List.take_of_length_le (by omega)]
    simp
  have h2 : (pre ++ k :: rest).take pre.length = pre := by simp
  rw [h1, h2, List.foldl_append]; rfl

theorem trainVals_append (env : Env α S Key) (c : S) (pre : List Key) (k : Key) :
    trainVals env c (pre ++ [k]) = trainVals env c pre
      ++ [(env.step (pre.foldl (fun s k => (env.step s k).1) c) k).2] := by
  induction pre generalizing c with
  | nil => rfl
  | cons a pre ih => simp [trainVals, ih]

theorem trainVals_length (env : Env α S Key) (c : S) (ks : List Key) :
    (trainVals env c ks).length = ks.length := by
  induction ks generalizing c with
  | nil => rfl
  | cons a ks ih => simp [trainVals, ih]

theorem testLog_succ (env : Env α S Key) (c : S) (keys : List Key) (t : Int) (m : Nat) :
    testLog env c keys t (m + 1) = testLog env c keys t m ++
      (if t ∣ ((m + 1 : Nat) : Int) then [(m + 1, env.testMI (traj env c keys (m + 1)))] else []) := by
  unfold testLog
  rw [List.range'_1_concat, List.filter_append, List.map_append]
  congr 1
  rw [show 1 + m = m + 1 by omega]
  by_cases h : t ∣ ((m + 1 : Nat) : Int)
  · rw [if_pos h]; simp only [List.filter_cons, h, decide_true, if_true]; simp
  · rw [if_neg h]; simp only [List.filter_cons, h, decide_false]; simp

theorem loop_spec (env : Env α S Key) (es : Bool) (t : Int) (ht : t ≠ 0) (c : S)
    (pre rest : List Key) (l : Log α)
    (hinv : LogInv l) (hes : l.earlyStopping = es)
    (htr : l.trainHist = (List.range' 1 pre.length).zip (trainVals env c pre))
    (hte : l.testHist = testLog env c (pre ++ rest) t pre.length)
    (hno : ∀ m' ≤ pre.length, ¬ (es = true ∧
      StopRule ((testLog env c (pre ++ rest) t m').map Prod.snd))) :
    ∃ m l', loop env t rest (pre.length + 1) (traj env c (pre ++ rest) pre.length) l
        = .ok (l', traj env c (pre ++ rest) m) ∧
      pre.length ≤ m ∧ m ≤ (pre ++ rest).length ∧
      LogInv l' ∧ l'.earlyStopping = es ∧
      l'.trainHist = (List.range' 1 m).zip (trainVals env c ((pre ++ rest).take m)) ∧
      l'.testHist = testLog env c (pre ++ rest) t m ∧
      (m < (pre ++ rest).length → es = true ∧ t ∣ (m : Int) ∧
        StopRule ((testLog env c (pre ++ rest) t m).map Prod.snd)) ∧
      ∀ m' < m, ¬ (es = true ∧ StopRule ((testLog env c (pre ++ rest) t m').map Prod.snd)) := by
  induction rest generalizing pre l with
  | nil =>
    refine ⟨pre.length, l, ?_, le_rfl, by simp, hinv, hes, by simpa using htr, hte, by simp,
      fun m' hm' => hno m' hm'.le⟩
    simp [loop]
  | cons k rest ih =>
    have hl : (pre ++ [k]).length = pre.length + 1 := by simp
    have happ : pre ++ k :: rest = (pre ++ [k]) ++ rest := by simp
    have htraj := traj_succ env c pre k rest
    have hfold : traj env c (pre ++ k :: rest) pre.length
        = pre.foldl (fun s k => (env.step s k).1) c := by simp [traj]
    -- the log after this step
    set s := traj env c (pre ++ k :: rest) pre.length with hs
    set l1 := l.logTrain (pre.length + 1) (env.step s k).2 with hl1
    set l2 := (if ((pre.length + 1 : Nat) : Int) % t = 0 then
      l1.logTest (pre.length + 1) (env.testMI (env.step s k).1) else l1) with hl2
    have hdvd : ((pre.length + 1 : Nat) : Int) % t = 0 ↔ t ∣ ((pre.length + 1 : Nat) : Int) :=
      ⟨Int.dvd_of_emod_eq_zero, Int.emod_eq_zero_of_dvd⟩
    have inv2 : LogInv l2 := by
      rw [hl2]; split_ifs
      · exact logInv_test _ (logInv_train _ hinv _ _) _ _
      · exact logInv_train _ hinv _ _
    have es2 : l2.earlyStopping = es := by
      rw [hl2]; split_ifs
      · rw [logTest_earlyStopping]; exact hes
      · exact hes
    have tr2 : l2.trainHist = (List.range' 1 (pre ++ [k]).length).zip
        (trainVals env c (pre ++ [k])) := by
      have e : l2.trainHist = l1.trainHist := by
        rw [hl2]; split_ifs
        · rw [logTest_trainHist]
        · rfl
      rw [e, hl1, Log.logTrain, htr, trainVals_append, hl, List.range'_1_concat, List.zip_append,
        hfold, add_comm 1 pre.length]
      · rfl
      · rw [trainVals_length, List.length_range']
    have te2 : l2.testHist = testLog env c (pre ++ k :: rest) t (pre.length + 1) := by
      rw [testLog_succ, htraj, hl2]
      split_ifs with h1 h2 h2
      · rw [logTest_testHist]
        show l.testHist ++ _ = _
        rw [hte]
      · exact absurd (hdvd.1 h1) h2
      · exact absurd (hdvd.2 h2) h1
      · rw [List.append_nil]; exact hte
    have hunf : loop env t (k :: rest) (pre.length + 1) s l
        = if l2.earlyStop then .ok (l2, (env.step s k).1)
          else loop env t rest (pre.length + 1 + 1) (env.step s k).1 l2 := by
      rw [loop]
      simp only [ht, if_false]
      rfl
    rw [hunf]
    by_cases hstop : l2.earlyStop = true
    · rw [if_pos hstop]
      have hrule := (earlyStop_iff _ inv2).1 hstop
      rw [es2, te2] at hrule
      refine ⟨pre.length + 1, l2, by rw [htraj], by omega, by simp, inv2, es2, ?_, te2, ?_, ?_⟩
      · rw [tr2, hl]
        congr 2
        rw [happ, List.take_append, List.take_of_length_le (by simp)]
        simp
      · intro _
        refine ⟨hrule.1, ?_, hrule.2⟩
        by_contra hnd
        apply hno pre.length le_rfl
        refine ⟨hrule.1, ?_⟩
        have := hrule.2
        rw [testLog_succ, if_neg hnd, List.append_nil] at this
        exact this
      · intro m' hm'
        exact hno m' (by omega)
    · rw [if_neg hstop]
      have h := ih (pre ++ [k]) l2 inv2 es2 tr2 (by rw [← happ, hl]; exact te2) (by
        intro m' hm'
        rw [← happ]
        rw [hl] at hm'
        rcases Nat.lt_or_ge m' (pre.length + 1) with h | h
        · exact hno m' (by omega)
        · have : m' = pre.length + 1 := by omega
          subst this
          rw [← te2, ← es2]
          intro hc
          exact hstop ((earlyStop_iff _ inv2).2 hc))
      obtain ⟨m, l', h1, h2, h3, h4⟩ := h
      rw [← happ] at h1 h3 h4
      rw [hl] at h1 h2
      rw [htraj] at h1
      exact ⟨m, l', h1, by omega, h3, h4⟩

end BMI.Training

namespace BMI.Training
open Spec

theorem cumsum0_length (xs : List ℝ) : (cumsum0 xs).length = xs.length + 1 := by
  simp [cumsum0]

theorem cumsum0_getElem? (xs : List ℝ) (i : Nat) (h : i ≤ xs.length) :
    (cumsum0 xs)[i]? = some (xs.take i).sum := by
  unfold cumsum0
  rw [List.getElem?_scanl]
  simp only [h, if_true]
  rw [List.sum_eq_foldl]

theorem smooth_length (xs : List ℝ) (w : Nat) (hw : w ≤ xs.length) :
    (smooth xs w).length = xs.length + 1 - w := by
  simp [smooth, cumsum0_length]

theorem smooth_getElem? (xs : List ℝ) (w i : Nat) (h : i + w ≤ xs.length) :
    (smooth xs w)[i]? = some (windowMean xs w i) := by
  unfold smooth windowMean
  rw [List.getElem?_zipWith, List.getElem?_drop, List.getElem?_take_of_lt (by rw [cumsum0_length]; omega),
    cumsum0_getElem? _ _ (by omega), cumsum0_getElem? _ _ (by omega)]
  simp only [Option.some.injEq]
  congr 1
  rw [add_comm w i, List.take_add, List.sum_append]
  ring

theorem listMax_spec (xs : List ℝ) (hx : xs ≠ []) (c : ℝ) : listMax xs > c ↔ ∃ x ∈ xs, x > c := by
  cases xs with
  | nil => exact absurd rfl hx
  | cons y ys =>
    simp only [listMax]
    clear hx
    induction ys generalizing y with
    | nil => simp
    | cons z zs ih =>
      rw [List.foldl_cons, ih]
      simp only [List.mem_cons, exists_eq_or_imp, gt_iff_lt, lt_max_iff, or_assoc]

theorem negIdx_spec (xs : List ℝ) (k : Nat) (h0 : 0 < k) (hk : k ≤ xs.length) (v : ℝ)
    (hv : xs[xs.length - k]? = some v) : negIdx xs k = .ok v := by
  unfold negIdx
  rw [if_neg (by omega), dif_pos ⟨hk, h0⟩]
  congr 1
  rw [List.getElem?_eq_getElem (by omega)] at hv
  exact Option.some.inj hv

end BMI.Training
