import Verif.Model.Integration
import Verif.Model.NeuralNamed
import Verif.Model.PaperBenchmark
import Verif.Model.ReadResults
import Verif.Model.Training
import Verif.Model.Student
import Verif.Props.RunEstimator
import Verif.Props.NeuralNamed
import Mathlib.Data.EReal.Operations

/-!
Further statements of C34, C55, C66, C71, C91 and C94, about which earlier theorems were silent: Python's index `-0`, arithmetic with
infinite floats, the parameters of the shipped spirals, where the files on ground truths are, tables with rows of a wrong length, and the
names of the objectives.
-/

namespace BMI.Student.Ext

/-- The extended real number which a float stands for. -/
noncomputable def toE : Ext → EReal
  | fin x => x
  | pinf => ⊤
  | ninf => ⊥
  | nan => 0

/-- **C55**: sums and products of floats are those of the extended real numbers, whenever they are not NaN; NaN are exactly the sums of
opposite infinities, the products of zero and an infinity, and what is computed from NaN. -/
theorem arithmetic (a b : Ext) : (add a b ≠ nan → toE (add a b) = toE a + toE b) ∧ (mul a b ≠ nan → toE (mul a b) = toE a * toE b) ∧
    (add a b = nan ↔ a = nan ∨ b = nan ∨ (a = pinf ∧ b = ninf) ∨ (a = ninf ∧ b = pinf)) ∧
    (mul a b = nan ↔ a = nan ∨ b = nan ∨ (a = fin 0 ∧ (b = pinf ∨ b = ninf)) ∨ (b = fin 0 ∧ (a = pinf ∨ a = ninf))) ∧
    toE (neg a) = -toE a ∧ (neg a = nan ↔ a = nan) := by
  have tri : ∀ x : ℝ, ¬ 0 < x → ¬ x < 0 → x = 0 := fun x h1 h2 => le_antisymm (not_lt.1 h1) (not_lt.1 h2)
  refine ⟨?_, ?_, ?_, ?_, ?_, ?_⟩
  · cases a <;> cases b <;> simp [add, toE]
  · cases a with
    | fin x =>
      cases b with
      | fin y => simp [mul, toE]
      | pinf =>
        simp only [mul]
        split_ifs with h1 h2
        · intro _
          exact (EReal.coe_mul_top_of_pos h1).symm
        · intro _
          exact (EReal.coe_mul_top_of_neg h2).symm
        · intro h
          exact (h rfl).elim
      | ninf =>
        simp only [mul]
        split_ifs with h1 h2
        · intro _
          exact (EReal.coe_mul_bot_of_pos h1).symm
        · intro _
          exact (EReal.coe_mul_bot_of_neg h2).symm
        · intro h
          exact (h rfl).elim
      | nan => simp [mul]
    | pinf =>
      cases b with
      | fin y =>
        simp only [mul]
        split_ifs with h1 h2
        · intro _
          exact (EReal.top_mul_coe_of_pos h1).symm
        · intro _
          exact (EReal.top_mul_coe_of_neg h2).symm
        · intro h
          exact (h rfl).elim
      | _ => simp [mul, toE]
    | ninf =>
      cases b with
      | fin y =>
        simp only [mul]
        split_ifs with h1 h2
        · intro _
          exact (EReal.bot_mul_coe_of_pos h1).symm
        · intro _
          exact (EReal.bot_mul_coe_of_neg h2).symm
        · intro h
          exact (h rfl).elim
      | _ => simp [mul, toE]
    | nan => cases b <;> simp [mul]
  · cases a <;> cases b <;> simp [add]
  · cases a with
    | fin x =>
      cases b with
      | fin y => simp [mul]
      | nan => simp [mul]
      | _ =>
        simp only [mul]
        split_ifs with h1 h2
        · simp [h1.ne']
        · simp [h2.ne]
        · simp [tri x h1 h2]
    | nan => cases b <;> simp [mul]
    | _ =>
      cases b with
      | fin y =>
        simp only [mul]
        split_ifs with h1 h2
        · simp [h1.ne']
        · simp [h2.ne]
        · simp [tri y h1 h2]
      | _ => simp [mul]
  · cases a <;> simp [neg, toE]
  · cases a <;> simp [neg]

example : toE (mul pinf ninf) = ⊥ := by
  rw [(arithmetic pinf ninf).2.1 (fun h => by simp [(arithmetic pinf ninf).2.2.2.1] at h)]
  rfl

end BMI.Student.Ext

namespace BMI.Training

/-- **C34**: the index `-0` is the index `0`, so it finds what `-len(arr)` finds; indices beyond the length raise `IndexError`. -/
theorem negIdx_ends (xs : List ℝ) (k : ℕ) : (negIdx xs 0 = negIdx xs xs.length) ∧
    ((∃ v, negIdx xs k = .ok v) ↔ k ≤ xs.length ∧ xs ≠ []) ∧ ((∀ v, negIdx xs k ≠ .ok v) → negIdx xs k = .error .indexError) := by
  refine ⟨?_, ?_, fun h => ?_⟩
  · cases xs with
    | nil => rfl
    | cons x xs => simp [negIdx]
  · unfold negIdx
    rcases Nat.eq_zero_or_pos k with rfl | hk
    · cases xs <;> simp
    · rw [if_neg hk.ne']
      by_cases hl : k ≤ xs.length
      · rw [dif_pos ⟨hl, hk⟩]
        refine iff_of_true ⟨_, rfl⟩ ⟨hl, ?_⟩
        rintro rfl
        simp at hl
        omega
      · rw [dif_neg fun h => hl h.1]
        exact iff_of_false (by simp) fun h => hl h.1
  · unfold negIdx at h ⊢
    split_ifs at h ⊢
    · cases xs with
      | nil => rfl
      | cons x xs => exact (h x rfl).elim
    · exact (h _ rfl).elim
    · rfl

example : negIdx [3, 4, 5] 0 = .ok 3 := by rw [(negIdx_ends [3, 4, 5] 0).1]; simp [negIdx]

end BMI.Training

namespace BMI.Workflow

open TaskIds ReadResults

/-- **C66**: the spirals among the tasks of the shipped configurations have speed 1 and are normalised - `spiralise` with its default
arguments -, and they say so in their parameters. -/
theorem setups_spirals (c : Setup) (h : c = setupV1 ∨ c = setupV2 ∨ c = setupDemo) (t : Call CfgF) (s : CfgF) (b : Bool)
    (ht : Call.spiral t s b ∈ c.tasks) (one : CfgF) : s = .f1_0 ∧ (params one (Call.spiral t s b)).get "normalize_speed" = some (.bool true) := by
  let plain : Call CfgF → Bool := fun u => match u with
    | .spiral _ s b => decide (s = CfgF.f1_0) && b
    | _ => true
  have key : ∀ c ∈ [setupV1, setupV2, setupDemo], c.tasks.all plain = true := by
    decide +kernel
  have k := List.all_eq_true.1 (key c (by simpa using h)) _ ht
  simp only [plain, Bool.and_eq_true, decide_eq_true_eq] at k
  obtain ⟨rfl, rfl⟩ := k
  refine ⟨rfl, ?_⟩
  have : ∀ d : Run.Dict (PVal CfgF), ((d.set "speed" (.float .f1_0)).set "normalize_speed" (.bool true)).get "normalize_speed" = some (.bool true) :=
    fun d => by rw [Run.get_set, if_pos rfl]
  exact this _

/-- There are spirals among the tasks of the second benchmark. -/
example : ∃ t s b, Call.spiral t s b ∈ setupV2.tasks := by
  let spirals : Call CfgF → Bool := fun u => match u with
    | .spiral _ _ _ => true
    | _ => false
  have h : setupV2.tasks.any spirals = true := by decide +kernel
  obtain ⟨u, hu, hs⟩ := List.any_eq_true.1 h
  cases u <;> simp [spirals] at hs
  exact ⟨_, _, _, hu⟩

end BMI.Workflow

namespace BMI.Integration

open BMI.Workflow

/-- **C71**: where the files of the workflow are. -/
theorem files (s e n k : List Char) : fill samplePat [s, n, k] = s ++ "/samples/".toList ++ n ++ "-".toList ++ k ++ ".npz".toList ∧
    fill estimatePat [s, e, n, k] = s ++ "/estimates/".toList ++ e ++ "/".toList ++ n ++ "-".toList ++ k ++ ".json".toList ∧
    fill truthPat [s, k] = s ++ "/_ground_truth_seeds/".toList ++ k ++ ".json".toList := by
  simp [samplePat, estimatePat, truthPat, fill]

example : fill truthPat ["out".toList, "t1".toList] = "out/_ground_truth_seeds/t1.json".toList := (files "out".toList [] [] "t1".toList).2.2

end BMI.Integration

namespace BMI.Paper

/-- **C91**: a table needs a name for each column: rows of another length raise `ValueError`. -/
theorem frame_rows (a : Samplers.Arr) (cols : List (List Char)) :
    ((∀ r ∈ a, r.length = cols.length) → frame a cols = .ok (cols, a)) ∧
    ((∃ r ∈ a, r.length ≠ cols.length) → frame a cols = .error .valueError) := by
  unfold frame
  refine ⟨fun h => if_pos h, fun ⟨r, hr, hne⟩ => if_neg fun h => hne (h r hr)⟩

example : frame [[1, 2], [3]] ["X1".toList, "Y1".toList] = .error .valueError := (frame_rows _ _).2 ⟨[3], by simp, by simp⟩

end BMI.Paper

namespace BMI.NeuralEstimator

/-- **C94**: the three estimators report the names of their objectives, which differ. -/
theorem names_tell {Θ : Type} (o : Objective) (p : Params) (backend : String) (N : Named Θ) (h : mkNamed o p backend = .ok N) :
    (N.formulaName = "InfoNCE" ↔ o = .infonce) ∧ (N.formulaName = "NWJ" ↔ o = .nwj) ∧
    (N.formulaName = "Donsker-Varadhan" ↔ o = .donskerVaradhan) := by
  have e : N.formulaName = o.name := by
    unfold mkNamed at h
    simp only [bind, Except.bind] at h
    split at h
    · cases h
    · split at h
      · cases h
      · cases h
        rfl
  rw [e]
  cases o <;> simp [Objective.name]

example : ∃ N : Named ℝ, mkNamed .nwj (smallParams 2) = .ok N ∧ N.formulaName = "NWJ" := by
  obtain ⟨N, hN⟩ := small_named .nwj "quadratic" (.inl rfl)
  exact ⟨N, hN, (names_tell _ _ _ N hN).2.1.2 rfl⟩

end BMI.NeuralEstimator
