import Verif.Model.Basic
import Mathlib.Data.Real.Basic
import Mathlib.Algebra.Order.Floor.Defs
import Mathlib.Algebra.Order.Archimedean.Real.Basic

/-!
Model of `TrainingLog` (/repo/src/bmi/estimators/neural/_training_log.py) and of the training loop
`basic_training` (/repo/src/bmi/estimators/neural/_basic_training.py).
-/

namespace BMI.Training

/-- A Python float as far as `<` is concerned: a number of some ordered type or NaN
(values logged at /repo/src/bmi/estimators/neural/_training_log.py:56-75 are floats). -/
inductive Fl (α : Type) where
  | nan
  | num (a : α)
  deriving DecidableEq, Repr

/-- Python's `a < b` on floats: false as soon as one side is NaN
(comparison at /repo/src/bmi/estimators/neural/_training_log.py:69). -/
def Fl.ltb {α : Type} [LT α] [DecidableLT α] : Fl α → Fl α → Bool
  | .num a, .num b => decide (a < b)
  | _, _ => false

/-- The flags that `detect_warnings` may put into `_additional_information`
(/repo/src/bmi/estimators/neural/_training_log.py:118,128,143,154).  A flag is either absent
(`false`) or `True`. -/
structure Flags where
  earlyStoppingNotTriggered : Bool := false
  tooShort : Bool := false
  maxDecreased : Bool := false
  stillIncreasing : Bool := false
  deriving DecidableEq, Repr

/-- The assertion of the constructor (/repo/src/bmi/estimators/neural/_training_log.py:36). -/
noncomputable def checkSmoothFactor (f : ℝ) : Except Err Unit :=
  if f ≤ 0.5 then .ok () else .error .assertionError

/-- Fields of `TrainingLog` (/repo/src/bmi/estimators/neural/_training_log.py:36-51).  Not modelled:
the tqdm progress bar and printing. `best = none` is Python's `None`. -/
structure Log (α : Type) where
  earlyStopping : Bool
  trainHist : List (Nat × Fl α) := []
  testHist : List (Nat × Fl α) := []
  best : Option (Fl α) := none
  sinceBest : Nat := 0

variable {α : Type} [LinearOrder α]

/-- `log_train_mi` (/repo/src/bmi/estimators/neural/_training_log.py:56-62). -/
def Log.logTrain (l : Log α) (step : Nat) (mi : Fl α) : Log α :=
  { l with trainHist := l.trainHist ++ [(step, mi)] }

/-- The condition `self._mi_test_best is None or self._mi_test_best < mi`
(/repo/src/bmi/estimators/neural/_training_log.py:69). -/
def improves (best : Option (Fl α)) (mi : Fl α) : Bool :=
  match best with
  | none => true
  | some b => b.ltb mi

/-- `log_test_mi` (/repo/src/bmi/estimators/neural/_training_log.py:64-80). -/
def Log.logTest (l : Log α) (step : Nat) (mi : Fl α) : Log α :=
  let l' := if improves l.best mi then { l with best := some mi, sinceBest := 0 }
            else { l with sinceBest := l.sinceBest + 1 }
  { l' with testHist := l'.testHist ++ [(step, mi)] }

/-- `final_mi` (/repo/src/bmi/estimators/neural/_training_log.py:82-87). -/
def Log.finalMI (l : Log α) : Fl α :=
  match l.best with
  | none => .nan
  | some b => b

/-- `early_stop` (/repo/src/bmi/estimators/neural/_training_log.py:108-109). -/
def Log.earlyStop (l : Log α) : Bool :=
  l.earlyStopping && decide (l.sinceBest > 1)

/-- `n_training_steps` of `additional_information`
(/repo/src/bmi/estimators/neural/_training_log.py:91-99): the step of the last train log, or 0. -/
def Log.nTrainingSteps (l : Log α) : Nat :=
  match l.trainHist.getLast? with
  | some (n, _) => n
  | none => 0

/-! ### The training loop -/

/-- What `basic_training` calls but does not define: the mini-batch for a key (`get_batch`,
/repo/src/bmi/estimators/neural/_basic_training.py:13-23), the jitted `step` function (59-69, which
returns new critic, new optimiser state and the training objective; critic and optimiser state are one
type `S` here) and the test objective (86). -/
structure Env (α S Key : Type) where
  step : S → Key → S × Fl α
  testMI : S → Fl α

/-- One pass through the loop body
(/repo/src/bmi/estimators/neural/_basic_training.py:76-91) for each remaining key;
`n` is the value of `n_step` for the first key in the list.  `n_step % test_every_n_steps` raises
`ZeroDivisionError` for 0. -/
def loop {S Key : Type} (env : Env α S Key) (testEvery : Int) :
    List Key → Nat → S → Log α → Except Err (Log α × S)
  | [], _, s, l => .ok (l, s)
  | key :: keys, n, s, l =>
    let (s', miTrain) := env.step s key
    let l1 := l.logTrain n miTrain
    if testEvery = 0 then
      .error .zeroDivision
    else
      let l2 := if (n : Int) % testEvery = 0 then l1.logTest n (env.testMI s') else l1
      if l2.earlyStop then .ok (l2, s')
      else loop env testEvery keys (n + 1) s' l2

/-- `basic_training` (/repo/src/bmi/estimators/neural/_basic_training.py:26-95) up to
`training_log.finish()`; `keys` is the result of `jax.random.split(rng, max_n_steps)`, i.e. a list of
`max_n_steps` keys. -/
def basicTraining {S Key : Type} (env : Env α S Key) (earlyStopping : Bool) (testEvery : Int)
    (keys : List Key) (critic : S) : Except Err (Log α × S) :=
  loop env testEvery keys 1 critic { earlyStopping := earlyStopping }

/-! ### Diagnostics (NaN-free training history) -/

/-- Python's `int(x)` for a real number: truncation towards zero
(/repo/src/bmi/estimators/neural/_training_log.py:124). -/
noncomputable def pyInt (x : ℝ) : ℤ := if 0 ≤ x then ⌊x⌋ else ⌈x⌉

/-- `jnp.cumsum(jnp.concatenate([jnp.zeros(1), xs]))`
(/repo/src/bmi/estimators/neural/_training_log.py:134). -/
def cumsum0 (xs : List ℝ) : List ℝ := xs.scanl (· + ·) 0

/-- `(cs[w:] - cs[:-w]) / w` for `1 ≤ w` (/repo/src/bmi/estimators/neural/_training_log.py:135). -/
noncomputable def smooth (xs : List ℝ) (w : Nat) : List ℝ :=
  List.zipWith (fun a b => (a - b) / w)
    ((cumsum0 xs).drop w) ((cumsum0 xs).take ((cumsum0 xs).length - w))

/-- `float(arr.max())` of a non-empty array: left fold with `max`
(/repo/src/bmi/estimators/neural/_training_log.py:140). -/
noncomputable def listMax : List ℝ → ℝ
  | [] => 0
  | x :: xs => xs.foldl max x

/-- Python negative indexing `arr[-k]` (/repo/src/bmi/estimators/neural/_training_log.py:141,152);
`IndexError` when out of range. -/
def negIdx (xs : List ℝ) (k : Nat) : Except Err ℝ :=
  if k = 0 then (match xs with | [] => .error .indexError | x :: _ => .ok x)
  else if h : k ≤ xs.length ∧ 0 < k then .ok (xs[xs.length - k]'(by omega)) else .error .indexError

/-- `detect_warnings` (/repo/src/bmi/estimators/neural/_training_log.py:115-161), over the real
numbers (no NaN in the training history).  `flags` is `_additional_information` before the call,
`earlyStopFired` the value of `early_stop()`. -/
noncomputable def detectWarnings (earlyStopping earlyStopFired : Bool) (smoothFactor : ℝ)
    (trainMI : List ℝ) (flags : Flags) : Except Err Flags :=
  let f1 := if earlyStopping && !earlyStopFired then
      { flags with earlyStoppingNotTriggered := true } else flags
  let w := pyInt (smoothFactor * trainMI.length)
  if w < 1 then
    .ok { f1 with tooShort := true }
  else do
    let s := smooth trainMI w.toNat
    -- line 138: the assertion
    if ¬ (s.length ≥ w.toNat + 1) then throw .assertionError
    let mx := listMax s
    let fin ← negIdx s 1
    let f2 := if mx > 1.05 * fin then { f1 with maxDecreased := true } else f1
    let prv ← negIdx s w.toNat
    let f3 := if fin > 1.05 * prv then { f2 with stillIncreasing := true } else f2
    return f3

end BMI.Training
