import Verif.Model.Training

/-!
Specification vocabulary for the training properties (C32–C35), independent of how the log keeps its
running best value and counter.
-/

namespace BMI.Training.Spec

variable {α : Type} [LinearOrder α]

/-- Test evaluation number `k` (0-based) *improves*: it is the first one, or it is larger than all the
earlier numbers (and the very first value was a number). -/
def Improves (vals : List (Fl α)) (k : Nat) : Prop :=
  k = 0 ∨ ∃ b, vals[k]? = some (.num b) ∧ (∃ a, vals[0]? = some (.num a)) ∧
    ∀ i < k, ∀ a, vals[i]? = some (.num a) → a < b

/-- The early stopping rule: the two most recent test evaluations both failed to improve. -/
def StopRule (vals : List (Fl α)) : Prop :=
  ∃ n, vals.length = n + 2 ∧ ¬ Improves vals n ∧ ¬ Improves vals (n + 1)

/-- Critic after the first `i` keys have been used. -/
def traj {S Key : Type} (env : Env α S Key) (critic : S) (keys : List Key) (i : Nat) : S :=
  (keys.take i).foldl (fun s k => (env.step s k).1) critic

/-- Training objectives met along the keys, each evaluated at the critic before the update. -/
def trainVals {S Key : Type} (env : Env α S Key) : S → List Key → List (Fl α)
  | _, [] => []
  | s, k :: ks => (env.step s k).2 :: trainVals env (env.step s k).1 ks

/-- Test values that a run of `m` steps must have logged: one at each multiple of `testEvery`. -/
def testLog {S Key : Type} (env : Env α S Key) (critic : S) (keys : List Key) (testEvery : Int)
    (m : Nat) : List (Nat × Fl α) :=
  ((List.range' 1 m).filter fun (i : Nat) => decide (testEvery ∣ (i : Int))).map
    fun i => (i, env.testMI (traj env critic keys i))

/-- Average of the `w` consecutive training values starting at index `i`. -/
noncomputable def windowMean (xs : List ℝ) (w i : Nat) : ℝ := ((xs.drop i).take w).sum / w

/-- A sequence of calls to the log. -/
inductive Op (α : Type) where
  | train (step : Nat) (mi : Fl α)
  | test (step : Nat) (mi : Fl α)

/-- Effect of a sequence of calls. -/
def run (l : Log α) : List (Op α) → Log α
  | [] => l
  | .train n mi :: ops => run (l.logTrain n mi) ops
  | .test n mi :: ops => run (l.logTest n mi) ops

/-- The test values among the calls. -/
def testVals : List (Op α) → List (Fl α)
  | [] => []
  | .train _ _ :: ops => testVals ops
  | .test _ mi :: ops => mi :: testVals ops

end BMI.Training.Spec
