import Verif.Model.GmmBenchmark

/-! Specification of the benchmark of the mixture model estimator. -/

namespace BMI.GmmBenchmark

open BMI.Training (Fl)
open BMI.Task (Task)
open BMI.Run (Dict)

/-- A float that is a number. -/
def IsNumber (f : Fl EReal) (a : ℝ) : Prop := f = .num (a : EReal)

/-- What the summary of a posterior should say. The list `l` consists of the finite numbers in it, in order. -/
structure IsSummary (posterior : List (Fl EReal)) (s : Summary) : Prop where
  split : ∃ l : List ℝ, (∃ keep : List (Fl EReal), keep.Sublist posterior ∧ List.Forall₂ IsNumber keep l) ∧
    (∀ a, l.count a = posterior.countP fun f => open Classical in decide (IsNumber f a)) ∧
    s.used = l.length ∧ s.used + s.filteredOut = posterior.length ∧
    (l = [] → s.qLow = -1 ∧ s.mean = -1 ∧ s.qHigh = -1) ∧
    (l ≠ [] → s.mean * l.length = l.sum ∧ (∃ a ∈ l, a ≤ s.qLow) ∧ s.qLow ≤ s.qHigh ∧ (∃ a ∈ l, s.qHigh ≤ a) ∧
      (open Classical in (l.countP fun a => decide (a < s.qLow)) ≤ ⌈((l.length : ℝ) - 1) / 10⌉₊) ∧
      (open Classical in (l.countP fun a => decide (s.qLow < a)) ≤ ⌈9 * ((l.length : ℝ) - 1) / 10⌉₊) ∧
      (open Classical in (l.countP fun a => decide (a < s.qHigh)) ≤ ⌈9 * ((l.length : ℝ) - 1) / 10⌉₊) ∧
      (open Classical in (l.countP fun a => decide (s.qHigh < a)) ≤ ⌈((l.length : ℝ) - 1) / 10⌉₊))

variable {C P : Type}

/-- What a row of the results should say about an estimator, a task and a seed: it summarises the posterior that the estimator gives on
the sample of that task with that seed, next to the number the task itself advertises. -/
structure IsRow (cfg : Config C P) (e : String × (List (List C) → List (List C) → Except Err (List (Fl EReal)))) (t : Task ℝ C P)
    (s : ℤ) (r : Row P) : Prop where
  true_mi : t.sampler.mi = .ok r.miTrue
  ids : r.taskId = t.taskId ∧ r.estimatorId = e.1 ∧ r.seed = s
  name : r.taskName = t.taskName
  params : r.taskParams = t.params.getD []
  run : ∃ (m dx dy : ℕ) (x : Fin m → Fin dx → C) (y : Fin m → Fin dy → C) (posterior : List (Fl EReal)),
    t.sampler.sample cfg.nSamples s = .ok (.mat m dx x, .mat m dy y) ∧
    e.2 (List.ofFn fun i => List.ofFn fun j => cfg.csv (x i j)) (List.ofFn fun i => List.ofFn fun j => cfg.csv (y i j)) = .ok posterior ∧
    IsSummary posterior r.summary

end BMI.GmmBenchmark
