import Verif.Model.MiFigure
import Verif.Model.GmmBenchmark
import Verif.Model.Fitting
import Verif.Props.NeuralEstimator
import Verif.Props.TaskIds
import Verif.Model.Registry
import Verif.Lemmas.Workflow

/-!
Further statements of C42, C62, C68, C74, C76, C82 and C90, about which earlier theorems were silent: empty arrays and `len` of
`ProductSpace`, the parameters that a neural estimator keeps, columns missing in a table of results, the runs of the benchmark of mixture
models, the files of the workflow on fitted mixtures, the colours and labels of the figures, and the names of tasks.
-/

namespace BMI.PSpace

/-- **C42**: an array without rows or without columns cannot be standardised. -/
theorem init_empty (ε : ℝ) (h : Heap) (ax ay : ℕ) (mx my : Mat) (hx : h[ax]? = some mx) (hy : h[ay]? = some my)
    (he : mx.n = 0 ∨ mx.d = 0 ∨ my.n = 0 ∨ my.d = 0) : init ε h ax ay true = .error .valueError := by
  by_cases hn : mx.n = my.n
  · have hy' : (h ++ [mx])[ay]? = some my := by
      rw [List.getElem?_append_left (List.getElem?_eq_some_iff.1 hy).1]
      exact hy
    have h1 : (h ++ [mx] ++ [my])[h.length]? = some mx := by simp
    have h2 : (h ++ [mx] ++ [my])[(h ++ [mx]).length]? = some my := by simp
    have h3 : ∀ m : Mat, ((h ++ [mx] ++ [my]).set h.length m)[(h ++ [mx]).length]? = some my := by
      intro m
      rw [List.getElem?_set_ne (by simp)]
      exact h2
    simp only [init, npArray, hx, hy', h1, h2, hn, bind, Except.bind, Option.elim, ne_eq, not_true_eq_false, if_false, if_true, fitTransform]
    by_cases hz : my.n = 0 ∨ mx.d = 0
    · rw [if_pos hz]
    · rw [if_neg hz]
      simp only [h3]
      rw [if_pos (by omega)]
  · exact init_length_mismatch ε h ax ay mx my true hx hy hn

example : init 0 [⟨0, 2, fun _ _ => 1⟩] 0 0 true = .error .valueError := init_empty 0 _ 0 0 _ _ rfl rfl (.inl rfl)

/-- **C42**: `len(space)` counts the points: exactly the integers from `-len(space)` up to and without `len(space)` are indices. -/
theorem len_spec (mx my : Mat) (e : mx.n = my.n) (i : ℤ) :
    (∃ r, getItem mx my i = .ok r) ↔ -(len mx : ℤ) ≤ i ∧ i < len mx := by
  obtain ⟨h1, h2⟩ := getItem_spec mx my e i
  constructor
  · rintro ⟨r, hr⟩
    by_contra hc
    rw [h2 (by unfold len at hc; omega)] at hr
    cases hr
  · rintro ⟨ha, hb⟩
    unfold len at ha hb
    by_cases hi : i < 0
    · exact ⟨_, (h1 ⟨(i + mx.n).toNat, by omega⟩ (.inr (by simp only; omega))).1⟩
    · exact ⟨_, (h1 ⟨i.toNat, by omega⟩ (.inl (by simp only; omega))).1⟩

example : ∃ r, getItem ⟨3, 1, fun i _ => i⟩ ⟨3, 2, fun i _ => i⟩ (-3) = .ok r :=
  (len_spec ⟨3, 1, fun i _ => i⟩ ⟨3, 2, fun i _ => i⟩ rfl (-3)).2 (by simp [len])

end BMI.PSpace

namespace BMI.NeuralEstimator

variable {Θ : Type} [NormedAddCommGroup Θ] [NormedSpace ℝ Θ]

/-- **C62**: an accepted estimator works with exactly the parameters that were given (the seed among them) and has no critic yet. -/
theorem keeps_params (p : Params) (est : Estimator Θ) :
    (NeuralEstimator.mk p = .ok est → est.params = p ∧ est.trainedCritic = none) ∧
    (∀ α, mkMine p α = .ok est → est.params = p ∧ est.trainedCritic = none) := by
  constructor
  · intro h
    unfold NeuralEstimator.mk at h
    cases hv : validate p with
    | error e => rw [hv] at h; cases h
    | ok u => rw [hv] at h; cases h; exact ⟨rfl, rfl⟩
  · intro α h
    unfold mkMine at h
    cases hv : validateMine p α with
    | error e => rw [hv] at h; cases h
    | ok u => rw [hv] at h; cases h; exact ⟨rfl, rfl⟩

example (p : Params) (hb : 1 ≤ p.batchSize) (hm : 1 ≤ p.maxSteps) (hl : 0 < p.learningRate) :
    ∃ est : Estimator Θ, NeuralEstimator.mk p = .ok est ∧ est.params = p := by
  obtain ⟨est, h⟩ := (mk_accepts_iff (Θ := Θ) p).1.2 ⟨hb, hm, hl⟩
  exact ⟨est, h, ((keeps_params p est).1 h).1⟩

end BMI.NeuralEstimator

namespace BMI.ReadResults

open BMI.Run (Dict)

/-- **C68**: a row without the parameters of the task or without the additional information raises `KeyError`, provided that the text of
the parameters can be read. -/
theorem readRow_missing {V : Type} (Y : Yaml V) (params info : Bool) (row : Dict V) :
    (row.get "task_params" = none → readRow Y params info row = .error .keyError) ∧
    (∀ v w, row.get "task_params" = some v → Y.load v = .ok w → (row.set "task_params" w).get "additional_information" = none →
      readRow Y params info row = .error .keyError) := by
  constructor
  · intro h
    simp [readRow, loadCol, lookup, h, bind, Except.bind]
  · intro v w h1 h2 h3
    simp [readRow, loadCol, lookup, h1, h2, h3, bind, Except.bind]

example (Y : Yaml ℕ) : readRow Y true true [("seed", 0)] = .error .keyError := (readRow_missing Y _ _ _).1 rfl

end BMI.ReadResults

namespace BMI.GmmBenchmark

/-- **C74**: the seeds are different and not negative; their columns are the three columns `Run 1`, `Run 2`, `Run 3` of a new row, which has
no others besides the name and the information. -/
theorem seeds_runs : seeds.Nodup ∧ (∀ s ∈ seeds, 0 ≤ s) ∧ seeds.map runColumn = ["Run 1", "Run 2", "Run 3"] ∧
    newRow.map Prod.fst = "Task name" :: "True MI" :: seeds.map runColumn := by
  have h : seeds.map runColumn = ["Run 1", "Run 2", "Run 3"] := by decide
  refine ⟨by decide, by decide, h, ?_⟩
  rw [h]
  rfl

end BMI.GmmBenchmark

namespace BMI.Fitting

open BMI.Workflow

/-- A path that matches a pattern begins with its first text. -/
theorem match_prefix {l : List Char} {p : List Tok} {s : List Char} {vs : List (List Char)} (h : matchPat (.lit l :: p) s = some vs) :
    l <+: s := by
  rw [matchPat] at h
  cases hr : stripPrefix l s with
  | none => rw [hr] at h; cases h
  | some r => exact ⟨r, (stripPrefix_some hr).symm⟩

/-- The patterns of the files that the rules of the workflow write, in the order of the rules. -/
def outputs : List (List Tok) := [dataPat, fitPat, plotPat, truePat, collectedPat, approxPat, individualPat]

/-- **C76**: no file is written by two rules: a path matches at most one of the seven patterns. -/
theorem outputs_separate : outputs.Pairwise fun p q => ∀ s vs ws, matchPat p s = some vs → matchPat q s ≠ some ws := by
  have key : ∀ {l m : List Char} {p q : List Tok}, ¬ l <+: m → ¬ m <+: l →
      ∀ s vs ws, matchPat (.lit l :: p) s = some vs → matchPat (.lit m :: q) s ≠ some ws := by
    intro l m p q h1 h2 s vs ws ha hb
    rcases List.prefix_or_prefix_of_prefix (match_prefix ha) (match_prefix hb) with h | h
    · exact h1 h
    · exact h2 h
  simp only [outputs, List.pairwise_cons, List.mem_cons, List.not_mem_nil, or_false, forall_eq_or_imp, forall_eq, false_imp_iff, implies_true,
    List.Pairwise.nil, and_true]
  refine ⟨⟨?_, ?_, ?_, ?_, ?_, ?_⟩, ⟨?_, ?_, ?_, ?_, ?_⟩, ⟨?_, ?_, ?_, ?_⟩, ⟨?_, ?_, ?_⟩, ⟨?_, ?_⟩, ?_⟩ <;>
    exact key (by decide) (by decide)

example : matchPat dataPat "data/X-500.npz".toList = some ["X".toList, "500".toList] ∧ matchPat truePat "data/X-500.npz".toList = none := by
  decide

end BMI.Fitting

namespace BMI.MiFigure

/-- **C82**: the estimators of the figures have a colour and a label each, and no two of them the same; only they have a colour. -/
theorem palette : estimators.Nodup ∧
    (∀ e, e ∈ estimators ↔ (estimatorColors.get e).isSome) ∧ (∀ e ∈ estimators, (estimatorNames.get e).isSome) ∧
    (∀ a ∈ estimators, ∀ b ∈ estimators, estimatorColors.get a = estimatorColors.get b → a = b) ∧
    (∀ a ∈ estimators, ∀ b ∈ estimators, estimatorNames.get a = estimatorNames.get b → a = b) := by
  refine ⟨by decide, fun e => ?_, by decide, by decide, by decide⟩
  constructor
  · intro h
    revert e
    decide
  · intro h
    have hk : ∀ (d : Run.Dict String) (k : String), (d.get k).isSome → k ∈ d.map Prod.fst := by
      intro d k hd
      induction d with
      | nil => simp [Run.Dict.get] at hd
      | cons a d ih =>
        rw [Run.Dict.get] at hd
        split_ifs at hd with he
        · simp [he]
        · exact List.mem_cons_of_mem _ (ih hd)
    have h1 := hk _ _ h
    have h2 : ∀ k ∈ estimatorColors.map Prod.fst, k ∈ estimators := by decide
    exact h2 e h1

example : "Donsker-Varadhan" ∈ estimators ∧ "R-BNSL" ∉ estimators := by decide

end BMI.MiFigure

namespace BMI.Registry

open BMI.TaskIds

/-- Two numbers followed by a sign that is no digit. -/
theorem nat_split {a b : ℕ} {c : Char} (hc : c.isDigit = false) {s t : List Char} (h : nat a ++ c :: s = nat b ++ c :: t) : a = b ∧ s = t := by
  have key : ∀ (l m : List Char), (∀ d ∈ l, d.isDigit) → (∀ d ∈ m, d.isDigit) → l ++ c :: s = m ++ c :: t → l = m ∧ s = t := by
    intro l
    induction l with
    | nil =>
      rintro (- | ⟨d, m⟩) - hm h
      · exact ⟨rfl, (List.cons.inj h).2⟩
      · have := hm d (by simp)
        rw [← (List.cons.inj h).1, hc] at this
        cases this
    | cons d l ih =>
      rintro (- | ⟨d', m⟩) hl hm h
      · have := hl d (by simp)
        rw [(List.cons.inj h).1, hc] at this
        cases this
      · obtain ⟨h1, h2⟩ := List.cons.inj h
        obtain ⟨h3, h4⟩ := ih m (fun x hx => hl x (by simp [hx])) (fun x hx => hm x (by simp [hx])) h2
        exact ⟨by rw [h1, h3], h4⟩
  obtain ⟨h1, h2⟩ := key _ _ (fun d hd => nat_digit hd) (fun d hd => nat_digit hd) h
  exact ⟨nat_inj h1, h2⟩

/-- **C90**: the name of a base task tells its dimensions, and for a Student-t task its degrees of freedom: dense normal tasks, two-pair
normal tasks and Student-t tasks with other parameters have other names. -/
theorem base_names (dx dy df dx' dy' df' : ℕ) :
    ((dense dx dy).name = (dense dx' dy').name → dx = dx' ∧ dy = dy') ∧
    ((pair2 dx dy).name = (pair2 dx' dy').name → dx = dx' ∧ dy = dy') ∧
    ((studentT dx dy df).name = (studentT dx' dy' df').name → dx = dx' ∧ dy = dy' ∧ df = df') := by
  refine ⟨fun h => ?_, fun h => ?_, fun h => ?_⟩
  · simp only [dense, times, List.append_assoc, List.cons_append, List.nil_append, List.cons.injEq, true_and] at h
    obtain ⟨h1, h2⟩ := nat_split (by decide) h
    simp only [List.cons.injEq, true_and] at h2
    exact ⟨h1, (nat_split (by decide) h2).1⟩
  · simp only [pair2, times, List.append_assoc, List.cons_append, List.nil_append, List.cons.injEq, true_and] at h
    obtain ⟨h1, h2⟩ := nat_split (by decide) h
    simp only [List.cons.injEq, true_and] at h2
    exact ⟨h1, (nat_split (by decide) h2).1⟩
  · simp only [studentT, times, List.append_assoc, List.cons_append, List.nil_append, List.cons.injEq, true_and] at h
    obtain ⟨h1, h2⟩ := nat_split (by decide) h
    simp only [List.cons.injEq, true_and] at h2
    obtain ⟨h3, h4⟩ := nat_split (by decide) h2
    simp only [List.cons.injEq, true_and] at h4
    exact ⟨h1, h3, (nat_split (by decide) h4).1⟩

example : (dense 2 3).name ≠ (dense 3 2).name := fun h => by
  have := (base_names 2 3 0 3 2 0).1 h
  omega

/-- **C90**: the transforms announce themselves: a transformed task has another name than the task it transforms, and tasks transformed in
the same way have the same name only if they had before. -/
theorem transformed_names (f : Entry → Entry) (hf : f ∈ [asinh, halfCube, normalCdf, wiggly, spiralise]) (t t' : Entry) :
    (f t).name ≠ t.name ∧ ((f t).name = (f t').name → t.name = t'.name) := by
  simp only [List.mem_cons, List.not_mem_nil, or_false] at hf
  rcases hf with rfl | rfl | rfl | rfl | rfl <;>
  · refine ⟨fun h => ?_, fun h => ?_⟩
    · have := congrArg List.length h
      simp only [asinh, halfCube, normalCdf, wiggly, spiralise, List.length_append, List.length_cons, List.length_nil] at this
      omega
    · simpa [asinh, halfCube, normalCdf, wiggly, spiralise] using h

example : (asinh (dense 2 3)).name ≠ (asinh (dense 3 2)).name := fun h => by
  have := (base_names 2 3 0 3 2 0).1 ((transformed_names asinh (by simp) _ _).2 h)
  omega

end BMI.Registry
