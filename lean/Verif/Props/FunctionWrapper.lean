import Verif.Model.FunctionWrapper
import Verif.Props.RunEstimator

/-! C96: functions as estimators. -/

namespace BMI.Wrapper

open BMI.Run

variable {F P V Row Path : Type}

/-- C96: running a wrapped function on a readable sample reports the number it returns, the measured time and nothing but the
given information; if it raises, or returns no number, this is reported as a failure. -/
theorem wrapped_run (nan : F) (str : String → V) (onPath : Path → Outcome F V) (measured : F) (eid : String) (path : Path)
    (xs ys : List Row) (tid : String) (seed : Option Int) (given : Option (Dict V)) (invalid : String)
    (func : List Row → List Row → Called F) (params : Option P) (hab : func xs ys ≠ .abort) :
    ∃ r, (runEstimator nan str false onPath ((mkFunctional func params).estimateWithInfo invalid) measured eid path (.ok (xs, ys))
        tid seed given).1 = .result r ∧
      (r.estimatorId = eid ∧ r.taskId = tid ∧ r.seed = seed ∧ r.nSamples = xs.length) ∧
      (r.success = true ↔ ∃ v, func xs ys = .number v) ∧
      (∀ v, func xs ys = .number v → r.mi = v ∧ r.time = measured ∧ r.info = given.getD []) ∧
      (r.success = false → r.mi = nan ∧ r.time = nan) ∧
      (func xs ys = .other → r.info.get "error" = some (str invalid)) ∧
      ∀ msg out, func xs ys = .exc msg out → r.info.get "error" = some (str msg) := by
  simp only [runEstimator, Functional.estimateWithInfo, Functional.estimate, mkFunctional, Bool.false_eq_true, if_false]
  cases hc : func xs ys with
  | abort => exact absurd hc hab
  | number v => exact ⟨_, rfl, ⟨rfl, rfl, rfl, rfl⟩, by simp, by simp [Dict.update], by simp, by simp, by simp⟩
  | other => exact ⟨_, rfl, ⟨rfl, rfl, rfl, rfl⟩, by simp, by simp, by simp, by simp [Dict.update, get_set], by simp⟩
  | exc msg out =>
    refine ⟨_, rfl, ⟨rfl, rfl, rfl, rfl⟩, by simp, by simp, by simp, by simp, ?_⟩
    rintro _ _ h
    cases h
    cases out <;> simp [Dict.update, get_set]

/-- C96: wrapping the method `estimate` of an estimator gives the same result, except that on success the time is measured and the
estimator's own information is lost. -/
theorem wrapped_estimate (nan : F) (str : String → V) (onPath : Path → Outcome F V) (onData : List Row → List Row → Outcome F V)
    (measured : F) (eid : String) (path : Path) (sample : Except Err (List Row × List Row)) (tid : String) (seed : Option Int)
    (given : Option (Dict V)) (invalid : String) (params : Option P) :
    (∀ xs ys, sample = .ok (xs, ys) → ∀ res, onData xs ys = .ret res → ∃ r,
      (runEstimator nan str false onPath onData measured eid path sample tid seed given).1 = .result r ∧
      (runEstimator nan str false onPath ((mkFunctional (estimateOf onData) params).estimateWithInfo invalid) measured eid path
        sample tid seed given).1 = .result { r with time := measured, info := given.getD [] }) ∧
    ((∀ xs ys, sample = .ok (xs, ys) → ∀ res, onData xs ys ≠ .ret res) →
      runEstimator nan str false onPath ((mkFunctional (estimateOf onData) params).estimateWithInfo invalid) measured eid path
        sample tid seed given = runEstimator nan str false onPath onData measured eid path sample tid seed given) := by
  constructor
  · rintro xs ys rfl res hres
    refine ⟨⟨res.mi, res.time.getD measured, true, eid, tid, xs.length, seed, (given.getD []).update res.info⟩, ?_, ?_⟩
    · simp only [runEstimator, Bool.false_eq_true, if_false, hres]
    · simp only [runEstimator, Functional.estimateWithInfo, Functional.estimate, mkFunctional, estimateOf, Bool.false_eq_true,
        if_false, hres, Dict.update, List.foldl_nil, Option.getD_none]
  · intro h
    cases sample with
    | error e => rfl
    | ok s =>
      obtain ⟨xs, ys⟩ := s
      simp only [runEstimator, Functional.estimateWithInfo, Functional.estimate, mkFunctional, estimateOf, Bool.false_eq_true, if_false]
      cases hc : onData xs ys with
      | ret res => exact absurd hc (h xs ys rfl res)
      | exc msg out => rfl
      | abort => rfl

/-- C96: the parameters are those given, or empty. -/
theorem wrapped_params (func : List Row → List Row → Called F) (params : Option P) :
    (∀ p, (mkFunctional func params).params = .given p ↔ params = some p) ∧
    ((mkFunctional func params).params = .empty ↔ params = none) := by
  cases params <;> simp [mkFunctional]

/-! ### The hypotheses can be met -/

/-- A function which returns the number of points, and raises if there are none. -/
def countPoints (x _ : List ℕ) : Called ℕ := if x = [] then .exc "no points" none else .number x.length

example : ∃ r, (runEstimator 999 id false (fun _ : Unit => .abort) ((mkFunctional (P := Unit) countPoints).estimateWithInfo "invalid") 5 "count"
      () (.ok ([1, 2, 3], [4, 5, 6])) "task" none none).1 = .result r ∧ r.mi = 3 ∧ r.time = 5 := by
  obtain ⟨r, h1, -, -, h2, -⟩ := wrapped_run 999 id (fun _ : Unit => .abort) 5 "count" () [1, 2, 3] [4, 5, 6] "task" none none "invalid"
    countPoints (none : Option Unit) (by simp [countPoints])
  exact ⟨r, h1, (h2 3 (by simp [countPoints])).1, (h2 3 (by simp [countPoints])).2.1⟩

example : ∃ r, (runEstimator 0 id false (fun _ : Unit => .abort)
      ((mkFunctional (P := Unit) (estimateOf fun (_ _ : List ℕ) => .ret ⟨7, some 8, [("steps", "9")]⟩)).estimateWithInfo "invalid") 5
      "count" () (.ok ([1], [4])) "task" none none).1 = .result r ∧ r.info = [] := by
  obtain ⟨r, -, h⟩ := (wrapped_estimate 0 id (fun _ : Unit => .abort) (fun (_ _ : List ℕ) => .ret ⟨7, some 8, [("steps", "9")]⟩) 5
    "count" () (.ok ([1], [4])) "task" none none "invalid" (none : Option Unit)).1 _ _ rfl _ rfl
  exact ⟨_, h, rfl⟩

end BMI.Wrapper
