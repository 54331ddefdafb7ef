import Verif.Lemmas.Training
import Mathlib.Tactic.NormNum

/-!
# C32–C35: neural training loop and training log
-/

namespace BMI.Training
open Spec

variable {α : Type} [LinearOrder α] {S Key : Type}

/-! ## C33 – the reported estimate is the best test value -/

/-- No test evaluation: the reported estimate is NaN. -/
theorem final_mi_without_tests (es : Bool) (ops : List (Op α)) (h : testVals ops = []) :
    (run { earlyStopping := es } ops).finalMI = .nan := by
  obtain ⟨h1, h2, -⟩ := run_inv ops _ (logInv_init es)
  rw [h] at h2
  simp only [List.map_nil, List.append_nil] at h2
  unfold LogInv at h1
  rw [h2] at h1
  rcases h1 with ⟨-, hb, -⟩ | ⟨j, v, hj, -⟩
  · simp [Log.finalMI, hb]
  · simp at hj

/-- C33.  Full statement: for every history with at least one numeric test value, `final_mi` is the
maximum of the numeric test values.  Proved when the *first* test value is a number (values
logged later may be NaN).  Missing: histories whose first test value is NaN, for
which the statement is false, see `final_mi_first_nan`. -/
theorem final_mi_is_max_partial (es : Bool) (ops : List (Op α)) (a : α) (rest : List (Fl α))
    (h : testVals ops = .num a :: rest) :
    ∃ m, (run { earlyStopping := es } ops).finalMI = .num m ∧
      IsGreatest {v | Fl.num v ∈ testVals ops} m := by
  obtain ⟨h1, h2, -⟩ := run_inv ops _ (logInv_init es)
  simp only [List.map_nil, List.nil_append] at h2
  unfold LogInv at h1
  rw [h2] at h1
  rcases h1 with ⟨h0, -⟩ | ⟨j, v, hj, hb, -, -, hw⟩
  · rw [h0] at h; simp at h
  · rcases hw with ⟨m, rfl, hm⟩ | ⟨rfl, rfl⟩
    · refine ⟨m, by simp [Log.finalMI, hb], ?_, ?_⟩
      · exact List.mem_of_getElem? hj
      · intro b hb'
        obtain ⟨i, hi⟩ := List.getElem?_of_mem hb'
        exact hm i b hi
    · rw [h] at hj; simp at hj

/-- A NaN at the first test evaluation sticks: whatever is logged later, NaN is reported. -/
theorem final_mi_first_nan (es : Bool) (ops : List (Op α)) (rest : List (Fl α))
    (h : testVals ops = .nan :: rest) :
    (run { earlyStopping := es } ops).finalMI = .nan := by
  obtain ⟨h1, h2, -⟩ := run_inv ops _ (logInv_init es)
  simp only [List.map_nil, List.nil_append] at h2
  unfold LogInv at h1
  rw [h2] at h1
  rcases h1 with ⟨h0, -⟩ | ⟨j, v, hj, hb, -, hI, hw⟩
  · rw [h0] at h; simp at h
  · rcases hw with ⟨m, rfl, hm⟩ | ⟨rfl, rfl⟩
    · rcases hI with rfl | ⟨b, -, ⟨c, hc⟩, -⟩
      · rw [h] at hj; simp at hj
      · rw [h] at hc; simp at hc
    · simp [Log.finalMI, hb]

/-- Disproof of the full statement of C33: a history with a numeric test value 3 reporting NaN. -/
theorem final_mi_is_max_false :
    ∃ ops : List (Op ℕ), Fl.num 3 ∈ testVals ops ∧
      (run { earlyStopping := true } ops).finalMI = .nan :=
  ⟨[.test 1 .nan, .test 2 (.num 3)], by simp [testVals], by decide⟩

example : ∃ ops : List (Op ℕ), testVals ops = [.num 1, .nan, .num 5, .num 2] ∧
    (run { earlyStopping := true } ops).finalMI = .num 5 :=
  ⟨[.train 1 (.num 0), .test 1 (.num 1), .test 2 .nan, .train 3 .nan, .test 3 (.num 5),
    .test 4 (.num 2)], by decide, by decide⟩

/-! ## C34 – early stopping -/

/-- C34: after any history of calls, `early_stop()` holds exactly when early stopping is enabled and
the two most recent test evaluations both failed to improve (in the sense of `Spec.Improves`, which
covers NaN values too). -/
theorem early_stop_iff (es : Bool) (ops : List (Op α)) :
    (run { earlyStopping := es } ops).earlyStop = true ↔ es = true ∧ StopRule (testVals ops) := by
  obtain ⟨h1, h2, h3⟩ := run_inv ops _ (logInv_init es)
  rw [earlyStop_iff _ h1, h2, h3]
  simp

/-- C34 for histories without NaN, in elementary terms: some test evaluation `j` is at least as good as
all others and at least two evaluations came after it. -/
theorem early_stop_iff_of_numbers (es : Bool) (ops : List (Op α)) (vs : List α)
    (h : testVals ops = vs.map .num) :
    (run { earlyStopping := es } ops).earlyStop = true ↔
      es = true ∧ ∃ (j : Nat) (v : α), j + 2 < vs.length ∧ vs[j]? = some v ∧ ∀ w ∈ vs, w ≤ v := by
  rw [early_stop_iff, h]
  refine and_congr_right fun _ => ?_
  have hget : ∀ (i : Nat) (a : α), (vs.map Fl.num)[i]? = some (Fl.num a) ↔ vs[i]? = some a := by
    intro i a
    rw [List.getElem?_map, Option.map_eq_some_iff]
    constructor
    · rintro ⟨b, hb, hab⟩; cases hab; exact hb
    · intro hb; exact ⟨a, hb, rfl⟩
  have hImp : ∀ k, Improves (vs.map Fl.num) k ↔
      k = 0 ∨ ∃ b, vs[k]? = some b ∧ ∀ i < k, ∀ a, vs[i]? = some a → a < b := by
    intro k
    unfold Improves
    simp only [hget]
    refine or_congr_right ⟨?_, ?_⟩
    · rintro ⟨b, h1, -, h3⟩; exact ⟨b, h1, h3⟩
    · rintro ⟨b, h1, h3⟩
      refine ⟨b, h1, ?_, h3⟩
      have : 0 < vs.length := by
        have := (List.getElem?_eq_some_iff.1 h1).1; omega
      exact ⟨vs[0], by rw [List.getElem?_eq_getElem]⟩
  constructor
  · rintro ⟨n, hn, h1, h2⟩
    simp only [List.length_map] at hn
    -- a maximiser among the first n entries
    have hn0 : 0 < n := by
      rcases Nat.eq_zero_or_pos n with rfl | h
      · exact absurd (Or.inl rfl) h1
      · exact h
    have key : ∀ k, 0 < k → k ≤ n → ∃ j v, j < k ∧ vs[j]? = some v ∧
        ∀ i < k, ∀ a, vs[i]? = some a → a ≤ v := by
      intro k hk
      induction k with
      | zero => omega
      | succ k ih =>
        intro hkn
        have hkl : k < vs.length := by omega
        rcases Nat.eq_zero_or_pos k with rfl | hk0
        · refine ⟨0, vs[0], by omega, by rw [List.getElem?_eq_getElem], ?_⟩
          intro i hi a ha
          have : i = 0 := by omega
          subst this
          rw [List.getElem?_eq_getElem hkl] at ha
          simp at ha; exact ha ▸ le_rfl
        · obtain ⟨j, v, hj, hv, hmax⟩ := ih hk0 (by omega)
          rcases le_total vs[k] v with hle | hle
          · refine ⟨j, v, by omega, hv, fun i hi a ha => ?_⟩
            rcases Nat.lt_or_ge i k with h | h
            · exact hmax i h a ha
            · have : i = k := by omega
              subst this
              rw [List.getElem?_eq_getElem hkl] at ha
              simp at ha; exact ha ▸ hle
          · refine ⟨k, vs[k], by omega, by rw [List.getElem?_eq_getElem], fun i hi a ha => ?_⟩
            rcases Nat.lt_or_ge i k with h | h
            · exact le_trans (hmax i h a ha) hle
            · have : i = k := by omega
              subst this
              rw [List.getElem?_eq_getElem hkl] at ha
              simp at ha; exact ha ▸ le_rfl
    obtain ⟨j, v, hj, hv, hmax⟩ := key n hn0 le_rfl
    have step : ∀ k, n ≤ k → k < n + 2 → ¬ Improves (vs.map Fl.num) k →
        (∀ i < k, ∀ a, vs[i]? = some a → a ≤ v) → ∀ i < k + 1, ∀ a, vs[i]? = some a → a ≤ v := by
      intro k hk1 hk2 hnI hm i hi a ha
      rcases Nat.lt_or_ge i k with h | h
      · exact hm i h a ha
      · have : i = k := by omega
        subst this
        by_contra hlt
        apply hnI
        rw [hImp]
        exact .inr ⟨a, ha, fun i' hi' b hb => lt_of_le_of_lt (hm i' hi' b hb) (not_le.1 hlt)⟩
    have hm1 := step n le_rfl (by omega) h1 hmax
    have hm2 := step (n + 1) (by omega) (by omega) h2 hm1
    refine ⟨j, v, by omega, hv, fun w hw => ?_⟩
    obtain ⟨i, hi⟩ := List.getElem?_of_mem hw
    have hil := (List.getElem?_eq_some_iff.1 hi).1
    exact hm2 i (by omega) w hi
  · rintro ⟨j, v, hj, hv, hmax⟩
    refine ⟨vs.length - 2, by simp; omega, ?_, ?_⟩ <;>
    · rw [hImp]
      rintro (h0 | ⟨b, hb, hlt⟩)
      · omega
      · exact absurd (hlt j (by omega) v hv) (not_lt.2 (hmax b (List.mem_of_getElem? hb)))

/-- Logging an improvement re-arms early stopping. -/
theorem improvement_rearms (es : Bool) (ops : List (Op α)) (vs : List α) (n : Nat) (v : α)
    (h : testVals ops = vs.map .num) (hv : ∀ w ∈ vs, w < v) :
    (run { earlyStopping := es } (ops ++ [.test n (.num v)])).earlyStop = false := by
  have ht : testVals (ops ++ [.test n (.num v)]) = (vs ++ [v]).map .num := by
    have : ∀ o : List (Op α), testVals (o ++ [.test n (.num v)]) = testVals o ++ [.num v] := by
      intro o
      induction o with
      | nil => rfl
      | cons a o ih => cases a <;> simp [testVals, ih]
    rw [this, h]; simp
  rw [Bool.eq_false_iff]
  intro hc
  obtain ⟨-, j, w, hj, hw, hmax⟩ := (early_stop_iff_of_numbers es _ _ ht).1 hc
  simp only [List.length_append, List.length_cons, List.length_nil] at hj
  rw [List.getElem?_append_left (by omega)] at hw
  exact absurd (hv w (List.mem_of_getElem? hw)) (not_lt.2 (hmax v (by simp)))

example : (run { earlyStopping := true }
    ([.test 1 (.num 4), .test 2 (.num 3), .test 3 (.num 4)] : List (Op ℕ))).earlyStop = true := by
  decide

example : (run { earlyStopping := true }
    ([.test 1 (.num 4), .test 2 (.num 3), .test 3 (.num 5)] : List (Op ℕ))).earlyStop = false := by
  decide

/-! ## C32 – bounded, scheduled, early-stopped training -/

/-- C32: for a non-zero `test_every_n_steps`, training never fails; it executes some number
`m ≤ max_n_steps` of optimisation steps, returns the critic after exactly these `m` steps, logs the training
objective of each of them, evaluates the test objective exactly at the multiples of `test_every_n_steps`
among `1..m` (on the critic after that step); `m < max_n_steps` happens only if early stopping is on and the
stopping rule holds after step `m`, which then is a test step; and the rule did not hold at any earlier step. -/
theorem training_spec (env : Env α S Key) (es : Bool) (t : Int) (ht : t ≠ 0) (keys : List Key)
    (critic : S) :
    ∃ m l, basicTraining env es t keys critic = .ok (l, traj env critic keys m) ∧
      m ≤ keys.length ∧
      l.trainHist = (List.range' 1 m).zip (trainVals env critic (keys.take m)) ∧
      l.testHist = testLog env critic keys t m ∧
      (m < keys.length → es = true ∧ t ∣ (m : Int) ∧
        StopRule ((testLog env critic keys t m).map Prod.snd)) ∧
      ∀ m' < m, ¬ (es = true ∧ StopRule ((testLog env critic keys t m').map Prod.snd)) := by
  have h := loop_spec env es t ht critic [] keys { earlyStopping := es } (logInv_init es) rfl
    (by simp [trainVals]) (by simp [testLog]) (by
      intro m' hm'
      have : m' = 0 := by simpa using hm'
      subst this
      simp [testLog, StopRule])
  obtain ⟨m, l, h1, -, h3, -, -, h6, h7, h8, h9⟩ := h
  simp only [List.nil_append] at h1 h3 h6 h7 h8 h9
  exact ⟨m, l, h1, h3, h6, h7, h8, h9⟩

/-- C32, corollaries a user sees: the reported number of steps is the number of steps made and the reported
estimate is the value of the best-scoring test evaluation. -/
theorem training_reports_steps (env : Env α S Key) (es : Bool) (t : Int) (ht : t ≠ 0)
    (keys : List Key) (critic : S) :
    ∃ l s, basicTraining env es t keys critic = .ok (l, s) ∧
      l.nTrainingSteps = l.trainHist.length ∧ l.trainHist.length ≤ keys.length ∧
      s = traj env critic keys l.nTrainingSteps := by
  obtain ⟨m, l, h1, h2, h3, -⟩ := training_spec env es t ht keys critic
  have hlen : l.trainHist.length = m := by
    rw [h3, List.length_zip, trainVals_length, List.length_range', List.length_take]; omega
  have hn : l.nTrainingSteps = m := by
    unfold Log.nTrainingSteps
    rcases Nat.eq_zero_or_pos m with rfl | hm
    · simp at h3; simp [h3]
    · have : l.trainHist.getLast? = l.trainHist[m - 1]? := by
        rw [List.getLast?_eq_getElem?, hlen]
      rw [this]
      have hlt : m - 1 < l.trainHist.length := by omega
      rw [List.getElem?_eq_getElem hlt]
      have : l.trainHist[m - 1].1 = m := by
        simp only [h3, List.getElem_zip, List.getElem_range']
        omega
      exact this
  exact ⟨l, _, h1, by omega, by omega, by rw [hn]⟩

/-- `test_every_n_steps = 0` is accepted as a parameter (`NeuralEstimatorParams`,
/repo/src/bmi/estimators/neural/_estimators.py:36, is a plain `int`) but training then always fails. -/
theorem training_zero_period (env : Env α S Key) (es : Bool) (keys : List Key) (hk : keys ≠ [])
    (critic : S) : basicTraining env es 0 keys critic = .error .zeroDivision := by
  cases keys with
  | nil => exact absurd rfl hk
  | cons k ks => simp [basicTraining, loop]

/-- With fewer steps than the test period no test is made and the result is NaN. -/
theorem training_no_test_nan (env : Env α S Key) (es : Bool) (t : Nat) (keys : List Key)
    (hk : keys.length < t) (critic : S) :
    ∃ l s, basicTraining env es t keys critic = .ok (l, s) ∧ l.testHist = [] := by
  obtain ⟨m, l, h1, h2, -, h4, -⟩ := training_spec env es t (by omega) keys critic
  refine ⟨l, _, h1, ?_⟩
  rw [h4, testLog, List.map_eq_nil_iff, List.filter_eq_nil_iff]
  intro i hi
  simp only [List.mem_range'_1] at hi
  simp only [decide_eq_true_eq]
  intro hd
  have := Nat.le_of_dvd (by omega) (Int.natCast_dvd_natCast.1 hd)
  omega

/-- Non-vacuity: a toy run (state = step counter, test objective decreasing after step 2), test period 2:
tests at 2, 4, 6; stops at step 6 out of 100. -/
example :
    (basicTraining (α := ℤ) (S := ℤ) (Key := Unit)
      { step := fun s _ => (s + 1, .num s), testMI := fun s => .num (-s) }
      true 2 (List.replicate 100 ()) 0).toOption.map
        (fun r => (r.1.testHist.map Prod.fst, r.1.trainHist.length, r.2))
      = some ([2, 4, 6], 6, 6) := by decide

/-! ## C35 – diagnostics -/

/-- C35: with the smoothing factor allowed by the constructor, `detect_warnings` never raises, and starting
from no flags it sets each flag exactly under the stated condition.  `w` is the window length, the
smoothed training history consists of the means of `w` consecutive values. -/
theorem detect_warnings_spec (es fired : Bool) (f : ℝ) (hf : checkSmoothFactor f = .ok ())
    (xs : List ℝ) :
    ∃ fl, detectWarnings es fired f xs {} = .ok fl ∧
      (fl.earlyStoppingNotTriggered = true ↔ es = true ∧ fired = false) ∧
      (fl.tooShort = true ↔ f * xs.length < 1) ∧
      (f * xs.length < 1 → fl.maxDecreased = false ∧ fl.stillIncreasing = false) ∧
      ∀ w : ℕ, w = ⌊f * xs.length⌋₊ → 1 ≤ w →
        (fl.maxDecreased = true ↔ ∃ i, i + w ≤ xs.length ∧
          windowMean xs w i > 1.05 * windowMean xs w (xs.length - w)) ∧
        (fl.stillIncreasing = true ↔
          windowMean xs w (xs.length - w) > 1.05 * windowMean xs w (xs.length + 1 - 2 * w)) := by
  have hf' : f ≤ 1 / 2 := by
    unfold checkSmoothFactor at hf
    split_ifs at hf with h
    norm_num at h ⊢; linarith
  unfold detectWarnings
  by_cases hshort : f * xs.length < 1
  · have hw : pyInt (f * xs.length) < 1 := by
      unfold pyInt
      split_ifs with h0
      · rw [Int.floor_lt]; exact_mod_cast hshort
      · have : ⌈f * (xs.length : ℝ)⌉ ≤ 0 := by rw [Int.ceil_le]; push_cast; linarith
        omega
    simp only [hw, if_true]
    refine ⟨_, rfl, ?_, ?_, ?_, ?_⟩
    · cases es <;> cases fired <;> simp
    · simp [hshort]
    · intro _; split_ifs <;> simp
    · intro w hw1 hw2
      have h0 : ⌊f * (xs.length : ℝ)⌋₊ = 0 := by
        rw [Nat.floor_eq_zero]; exact hshort
      omega
  · have hnn : 0 ≤ f * (xs.length : ℝ) := by linarith
    set w : ℕ := ⌊f * (xs.length : ℝ)⌋₊ with hwdef
    have hw1 : 1 ≤ w := by
      rw [hwdef, Nat.le_floor_iff hnn]; push_cast; linarith
    have hpy : pyInt (f * xs.length) = (w : ℤ) := by
      unfold pyInt; rw [if_pos hnn, hwdef, Int.natCast_floor_eq_floor hnn]
    have h2w : 2 * w ≤ xs.length := by
      have h1 : (w : ℝ) ≤ f * xs.length := Nat.floor_le hnn
      have h2 : f * (xs.length : ℝ) ≤ 1 / 2 * xs.length :=
        mul_le_mul_of_nonneg_right hf' (Nat.cast_nonneg _)
      have : ((2 * w : ℕ) : ℝ) ≤ xs.length := by push_cast; linarith
      exact_mod_cast this
    have hlen := smooth_length xs w (by omega)
    have hne : smooth xs w ≠ [] := by
      intro h; rw [h] at hlen; simp at hlen; omega
    have hfin : negIdx (smooth xs w) 1 = .ok (windowMean xs w (xs.length - w)) := by
      apply negIdx_spec _ _ one_pos (by omega)
      rw [hlen, ← smooth_getElem? xs w (xs.length - w) (by omega)]
      congr 1; omega
    have hprv : negIdx (smooth xs w) w = .ok (windowMean xs w (xs.length + 1 - 2 * w)) := by
      apply negIdx_spec _ _ (by omega) (by omega)
      rw [hlen, ← smooth_getElem? xs w (xs.length + 1 - 2 * w) (by omega)]
      congr 1; omega
    have hmax : ∀ c, listMax (smooth xs w) > c ↔ ∃ i, i + w ≤ xs.length ∧ windowMean xs w i > c := by
      intro c
      rw [listMax_spec _ hne]
      constructor
      · rintro ⟨x, hx, hxc⟩
        obtain ⟨i, hi⟩ := List.getElem?_of_mem hx
        have hil := (List.getElem?_eq_some_iff.1 hi).1
        rw [smooth_getElem? xs w i (by omega)] at hi
        exact ⟨i, by omega, by rw [Option.some.inj hi]; exact hxc⟩
      · rintro ⟨i, hi, hc⟩
        exact ⟨_, List.mem_of_getElem? (smooth_getElem? xs w i hi), hc⟩
    have hnlt : ¬ ((w : ℤ) < 1) := by omega
    simp only [hpy, hnlt, if_false, Int.toNat_natCast, hfin, hprv]
    rw [hlen]
    have hass : ¬ ¬ (xs.length + 1 - w ≥ w + 1) := by omega
    simp only [hass, if_false, pure_bind]
    simp only [bind, Except.bind, pure, Except.pure]
    refine ⟨_, rfl, ?_, ?_, ?_, ?_⟩
    · split_ifs <;> cases es <;> cases fired <;> simp_all
    · constructor
      · intro h; split_ifs at h <;> simp at h
      · intro h; exact absurd h hshort
    · intro h; exact absurd h hshort
    · intro w' hw' _
      subst hw'
      rw [← hmax]
      constructor
      · split_ifs <;> simp_all
      · split_ifs <;> simp_all

/-- The constructor refuses smoothing factors above one half. -/
theorem smooth_factor_checked (f : ℝ) :
    checkSmoothFactor f = .error .assertionError ↔ 1 / 2 < f := by
  unfold checkSmoothFactor
  split_ifs with h <;> norm_num at h ⊢ <;> linarith

theorem windowMean_replicate (n w i : Nat) (h : i + w ≤ n) (hw : 1 ≤ w) (x : ℝ) :
    windowMean (List.replicate n x) w i = x := by
  unfold windowMean
  rw [List.drop_replicate, List.take_replicate, min_eq_left (by omega), List.sum_replicate]
  have : (w : ℝ) ≠ 0 := by positivity
  simp [this]

/-- C35 is violated for negative objectives: on a *constant* negative training history the warning
"smoothed training MI fell compared to highest value" is always raised although nothing fell. -/
theorem decrease_flag_on_constant (es fired : Bool) (f x : ℝ) (hf : checkSmoothFactor f = .ok ())
    (hx : x < 0) (n : ℕ) (hn : 1 ≤ f * n) :
    ∃ fl, detectWarnings es fired f (List.replicate n x) {} = .ok fl ∧ fl.maxDecreased = true := by
  obtain ⟨fl, h1, -, -, -, h5⟩ := detect_warnings_spec es fired f hf (List.replicate n x)
  refine ⟨fl, h1, ?_⟩
  simp only [List.length_replicate] at h5
  have hw : 1 ≤ ⌊f * (n : ℝ)⌋₊ := by
    rw [Nat.le_floor_iff (by linarith)]; push_cast; linarith
  have hf' : f ≤ 1 / 2 := by
    unfold checkSmoothFactor at hf
    split_ifs at hf with h
    norm_num at h ⊢; linarith
  have h2w : ⌊f * (n : ℝ)⌋₊ ≤ n := by
    have h1 : (⌊f * (n : ℝ)⌋₊ : ℝ) ≤ f * n := Nat.floor_le (by linarith)
    have : (⌊f * (n : ℝ)⌋₊ : ℝ) ≤ n := by nlinarith [Nat.cast_nonneg (α := ℝ) n]
    exact_mod_cast this
  rw [(h5 _ rfl hw).1]
  refine ⟨0, by omega, ?_⟩
  rw [windowMean_replicate _ _ _ (by omega) hw, windowMean_replicate _ _ _ (by omega) hw]
  linarith

/-- C35 is violated for a window of length one: the comparison made for "still increasing" is of the last
value with itself, so the warning is never raised for a non-negative final value, however fast the
objective grows. -/
theorem still_increasing_blind (es fired : Bool) (f : ℝ) (hf : checkSmoothFactor f = .ok ())
    (xs : List ℝ) (hw : ⌊f * (xs.length : ℝ)⌋₊ = 1) (hfin : 0 ≤ windowMean xs 1 (xs.length - 1)) :
    ∃ fl, detectWarnings es fired f xs {} = .ok fl ∧ fl.stillIncreasing = false := by
  obtain ⟨fl, h1, -, -, -, h5⟩ := detect_warnings_spec es fired f hf xs
  refine ⟨fl, h1, ?_⟩
  have := (h5 1 hw.symm le_rfl).2
  rw [Bool.eq_false_iff, Ne, this, show xs.length + 1 - 2 * 1 = xs.length - 1 by omega]
  linarith

/-- Non-vacuity of the two disproofs: the default factor 0.1 and ten training steps. -/
example : checkSmoothFactor 0.1 = .ok () ∧ (1 : ℝ) ≤ 0.1 * (10 : ℕ) ∧
    ⌊(0.1 : ℝ) * (([0,1,2,3,4,5,6,7,8,9] : List ℝ).length : ℝ)⌋₊ = 1 ∧
    0 ≤ windowMean [0,1,2,3,4,5,6,7,8,9] 1 (([0,1,2,3,4,5,6,7,8,9] : List ℝ).length - 1) := by
  refine ⟨by unfold checkSmoothFactor; norm_num, by norm_num, ?_, ?_⟩
  · rw [Nat.floor_eq_iff (by norm_num)]; norm_num
  · norm_num [windowMean]

end BMI.Training
