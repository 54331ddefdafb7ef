import Mathlib.Data.Real.Basic

/-! Model of the timer (/repo/src/bmi/benchmark/utils/timer.py).
`time.perf_counter()` (line 26) is an arbitrary clock: `clock i` is the value returned by its `i`-th call. -/

namespace BMI.Timer

/-- State of a timer together with the number of clock readings so far
(/repo/src/bmi/benchmark/utils/timer.py:21). -/
structure State where
  t0 : ℝ
  calls : ℕ

/-- The three methods of `Timer` (/repo/src/bmi/benchmark/utils/timer.py:28,32,36). -/
inductive Op where
  | reset
  | check
  | checkAndReset
  deriving DecidableEq

/-- `__init__` (/repo/src/bmi/benchmark/utils/timer.py:19-21). -/
def init (clock : ℕ → ℝ) : State := ⟨clock 0, 1⟩

/-- `reset` (/repo/src/bmi/benchmark/utils/timer.py:28-30). -/
def reset (clock : ℕ → ℝ) (s : State) : State := ⟨clock s.calls, s.calls + 1⟩

/-- `check` (/repo/src/bmi/benchmark/utils/timer.py:32-34). -/
def check (clock : ℕ → ℝ) (s : State) : ℝ × State :=
  (clock s.calls - s.t0, ⟨s.t0, s.calls + 1⟩)

/-- `check_and_reset` (/repo/src/bmi/benchmark/utils/timer.py:36-49). -/
def checkAndReset (clock : ℕ → ℝ) (s : State) : ℝ × State :=
  let (t, s') := check clock s
  (t, reset clock s')

/-- One method call; `none` is Python's `None` (/repo/src/bmi/benchmark/utils/timer.py:28-49). -/
def step (clock : ℕ → ℝ) (s : State) : Op → Option ℝ × State
  | .reset => (none, reset clock s)
  | .check => let (t, s') := check clock s; (some t, s')
  | .checkAndReset => let (t, s') := checkAndReset clock s; (some t, s')

/-- A history of method calls on one timer (/repo/src/bmi/benchmark/utils/timer.py:28-49):
the returned values and the final state. -/
def run (clock : ℕ → ℝ) : State → List Op → List (Option ℝ) × State
  | s, [] => ([], s)
  | s, o :: os =>
    let (r, s') := step clock s o
    let (rs, s'') := run clock s' os
    (r :: rs, s'')

end BMI.Timer
