import Verif.Model.RunEstimator
import Mathlib.Data.List.Basic

/-!
# C38, C39 – running an estimator
-/

namespace BMI.Run

variable {F V Row Path : Type}

theorem get_set (d : Dict V) (k k' : String) (v : V) :
    (d.set k v).get k' = if k = k' then some v else d.get k' := by
  induction d with
  | nil => simp [Dict.set, Dict.get]
  | cons e d ih =>
    obtain ⟨k1, v1⟩ := e
    by_cases h : k1 = k
    · subst h
      by_cases h2 : k1 = k' <;> simp [Dict.set, Dict.get, h2]
    · by_cases h2 : k1 = k'
      · subst h2
        have : ¬ k = k1 := fun h' => h h'.symm
        simp [Dict.set, Dict.get, h, this]
      · simp [Dict.set, Dict.get, h, h2, ih]

/-- Dictionary union looks up the right operand first; `some` on the left of `orElse` is the *last*
assignment to the key, which for a dictionary (distinct keys) is its only one. -/
theorem get_update (d e : Dict V) (k : String) (he : (e.map Prod.fst).Nodup) :
    (d.update e).get k = (e.get k).orElse fun _ => d.get k := by
  unfold Dict.update
  induction e generalizing d with
  | nil => simp [Dict.get]
  | cons kv e ih =>
    obtain ⟨k1, v1⟩ := kv
    simp only [List.map_cons, List.nodup_cons] at he
    rw [List.foldl_cons, ih _ he.2, get_set]
    by_cases h : k1 = k
    · subst h
      have : Dict.get e k1 = none := by
        have hn := he.1
        clear ih he
        induction e with
        | nil => rfl
        | cons a e ih =>
          obtain ⟨k2, v2⟩ := a
          simp only [List.map_cons, List.mem_cons, not_or] at hn
          simp [Dict.get, Ne.symm hn.1, ih hn.2]
      simp [Dict.get, this]
    · simp [Dict.get, h]

/-- What a user may read off a result, compared with what the estimator did. -/
structure Reported (nan measured : F) (str : String → V) (o : Outcome F V) (n : Nat)
    (eid tid : String) (seed : Option Int) (given : Dict V) (r : RunResult F V) : Prop where
  ids : r.estimatorId = eid ∧ r.taskId = tid ∧ r.seed = seed ∧ r.nSamples = n
  success_iff : r.success = true ↔ ∃ res, o = .ret res
  on_success : ∀ res, o = .ret res → r.mi = res.mi ∧
    (∀ t, res.time = some t → r.time = t) ∧ (res.time = none → r.time = measured) ∧
    ((res.info.map Prod.fst).Nodup →
      ∀ k, r.info.get k = (res.info.get k).orElse fun _ => given.get k)
  on_failure : ∀ msg out, o = .exc msg out → r.mi = nan ∧ r.time = nan ∧
    r.info.get "error" = some (str msg) ∧
    (∀ o', out = some o' → r.info.get "subprocess_output" = some (str o')) ∧
    (out = none → r.info.get "subprocess_output" = given.get "subprocess_output") ∧
    ∀ k, k ≠ "error" → k ≠ "subprocess_output" → r.info.get k = given.get k

/-- C38: on a readable sample, whatever the estimator does short of aborting the interpreter,
`run_estimator` returns a result, and the result reports what happened. -/
theorem run_reports (nan : F) (str : String → V) (ext : Bool) (onPath : Path → Outcome F V)
    (onData : List Row → List Row → Outcome F V) (measured : F) (eid : String) (path : Path)
    (xs ys : List Row) (tid : String) (seed : Option Int) (given : Option (Dict V))
    (hab : (if ext then onPath path else onData xs ys) ≠ .abort) :
    ∃ r, (runEstimator nan str ext onPath onData measured eid path (.ok (xs, ys)) tid seed given).1
        = .result r ∧
      Reported nan measured str (if ext then onPath path else onData xs ys) xs.length
        eid tid seed (given.getD []) r := by
  simp only [runEstimator]
  cases ho : (if ext then onPath path else onData xs ys) with
  | abort => exact absurd ho hab
  | ret res =>
    refine ⟨_, rfl, ⟨rfl, rfl, rfl, rfl⟩, by simp, ?_, by simp⟩
    intro res' h
    cases h
    refine ⟨rfl, ?_, ?_, fun hn k => get_update _ _ _ hn⟩
    · intro t ht; simp [ht]
    · intro ht; simp [ht]
  | exc msg out =>
    refine ⟨_, rfl, ⟨rfl, rfl, rfl, rfl⟩, by simp, by simp, ?_⟩
    intro msg' out' h
    cases h
    refine ⟨rfl, rfl, ?_, ?_, ?_, ?_⟩
    · cases out <;> simp [Dict.update, get_set]
    · intro o ho; subst ho; simp [Dict.update, get_set]
    · intro ho; subst ho; simp [Dict.update, get_set]
    · intro k h1 h2
      cases out <;> simp [Dict.update, get_set, Ne.symm h1, Ne.symm h2]

/-- C38: a result comes back exactly when the sample is readable and the estimator does not abort the interpreter
(`KeyboardInterrupt` and the like are passed on, not recorded as failures). -/
theorem run_returns_iff (nan : F) (str : String → V) (ext : Bool) (onPath : Path → Outcome F V)
    (onData : List Row → List Row → Outcome F V) (measured : F) (eid : String) (path : Path)
    (sample : Except Err (List Row × List Row)) (tid : String) (seed : Option Int) (given : Option (Dict V)) :
    (∃ r, (runEstimator nan str ext onPath onData measured eid path sample tid seed given).1 = .result r) ↔
      ∃ xs ys, sample = .ok (xs, ys) ∧ (if ext then onPath path else onData xs ys) ≠ .abort := by
  constructor
  · rintro ⟨r, hr⟩
    rcases sample with e | ⟨xs, ys⟩
    · simp [runEstimator] at hr
    · refine ⟨xs, ys, rfl, fun ha => ?_⟩
      simp [runEstimator, ha] at hr
  · rintro ⟨xs, ys, rfl, ha⟩
    obtain ⟨r, hr, _⟩ := run_reports nan str ext onPath onData measured eid path xs ys tid seed given ha
    exact ⟨r, hr⟩

/-- An unreadable sample raises (nothing is reported): reading happens outside the `try` block. -/
theorem run_unreadable (nan : F) (str : String → V) (ext : Bool) (onPath : Path → Outcome F V)
    (onData : List Row → List Row → Outcome F V) (measured : F) (eid : String) (path : Path)
    (e : Err) (tid : String) (seed : Option Int) (given : Option (Dict V)) :
    runEstimator nan str ext onPath onData measured eid path (.error e) tid seed given
      = (.raised e, given) := rfl

/-- C39.  Full statement: `run_estimator` never changes the caller's dictionary.
Proved for callers passing nothing or an empty dictionary; for a non-empty dictionary the statement is
false, see `run_mutates_caller`. -/
theorem run_pure_partial (nan : F) (str : String → V) (ext : Bool) (onPath : Path → Outcome F V)
    (onData : List Row → List Row → Outcome F V) (measured : F) (eid : String) (path : Path)
    (sample : Except Err (List Row × List Row)) (tid : String) (seed : Option Int)
    (given : Option (Dict V)) (hg : given = none ∨ given = some []) :
    (runEstimator nan str ext onPath onData measured eid path sample tid seed given).2 = given := by
  simp only [runEstimator]
  rcases hg with rfl | rfl
  · cases sample with
    | error e => rfl
    | ok p =>
      obtain ⟨xs, ys⟩ := p
      simp only
      generalize (if ext then onPath path else onData xs ys) = o
      cases o <;> simp
  · cases sample with
    | error e => rfl
    | ok p =>
      obtain ⟨xs, ys⟩ := p
      simp only
      generalize (if ext then onPath path else onData xs ys) = o
      cases o <;> simp

/-- C39 is false in general: with any non-empty dictionary, a failing estimator leaves an `"error"` entry
in the caller's own dictionary. -/
theorem run_mutates_caller (nan : F) (str : String → V) (onPath : Path → Outcome F V)
    (measured : F) (eid : String) (path : Path) (xs ys : List Row) (tid : String)
    (seed : Option Int) (d : Dict V) (hd : d ≠ []) (hnew : d.get "error" = none) (msg : String) :
    ∃ d', (runEstimator nan str false onPath (fun _ _ => .exc msg none) measured eid path
        (.ok (xs, ys)) tid seed (some d)).2 = some d' ∧ d' ≠ d ∧
      d'.get "error" = some (str msg) := by
  refine ⟨d.set "error" (str msg), ?_, ?_, ?_⟩
  · cases d with
    | nil => exact absurd rfl hd
    | cons a d => simp [runEstimator, Dict.update]
  · intro h
    have := get_set d "error" "error" (str msg)
    rw [h, hnew] at this
    simp at this
  · simp [get_set]

/-- Consequence (information of one run leaks into another): two runs sharing a non-empty dictionary, the first
fails, the second succeeds – and the *successful* result carries the first run's error message. -/
theorem run_leaks_between_runs (nan : F) (str : String → V) (onPath : Path → Outcome F V)
    (measured : F) (eid : String) (path : Path) (xs ys : List Row) (tid : String)
    (seed : Option Int) (d : Dict V) (hd : d ≠ []) (msg : String) (mi : F) :
    let first := runEstimator nan str false onPath (fun _ _ => .exc msg none) measured eid path
        (.ok (xs, ys)) tid seed (some d)
    ∃ r, (runEstimator nan str false onPath (fun _ _ => .ret ⟨mi, none, []⟩) measured eid path
        (.ok (xs, ys)) tid seed first.2).1 = .result r ∧
      r.success = true ∧ r.info.get "error" = some (str msg) := by
  cases d with
  | nil => exact absurd rfl hd
  | cons a d =>
    simp only [runEstimator, List.isEmpty_cons, Bool.not_false, if_true]
    refine ⟨_, rfl, rfl, ?_⟩
    simp [Dict.update, get_set]

/-- Non-vacuity: a dictionary with one entry, estimator failing with a message. -/
example : ([("note", "x")] : Dict String) ≠ [] ∧
    Dict.get ([("note", "x")] : Dict String) "error" = none := by decide

example :
    (runEstimator (F := Option Int) (V := String) (Row := Nat) (Path := String) none id false
      (fun _ => .abort) (fun xs _ => .exc s!"boom {xs.length}" (some "out")) (some 3) "ksg" "p"
      (.ok ([1, 2], [3, 4])) "t" (some 7) (some [("note", "x")])).2
    = some [("note", "x"), ("error", "boom 2"), ("subprocess_output", "out")] := by decide

end BMI.Run
