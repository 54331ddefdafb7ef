import Verif.Model.NeuralData
import Verif.Model.Training
import Mathlib.Analysis.Calculus.FDeriv.Basic
import Mathlib.Analysis.Normed.Group.Basic
import Mathlib.Analysis.SpecialFunctions.Log.ENNRealLog
import Mathlib.Analysis.SpecialFunctions.Log.ERealExp

/-!
Model of MINE (/repo/src/bmi/estimators/neural/_mine_estimator.py) and of the loop of `basic_training` with its calls
written out (/repo/src/bmi/estimators/neural/_basic_training.py:26-95).

The parameters of a critic form a normed space `Θ`; a critic is a function `f : Θ → X → Y → ℝ`.  JAX's gradients are
Fréchet derivatives with respect to the parameters.  Critic values are real numbers; only the carried
log-denominator, which starts at `-inf`, is an extended real.  The optimiser (`optax.adam`) is a parameter.
-/

namespace BMI.Mine

open BMI.NeuralData BMI.Training

variable {Θ X Y Key O S : Type} [NormedAddCommGroup Θ] [NormedSpace ℝ Θ]

/-- `jax.vmap(f, in_axes=(0, 0))(xs, ys)` (/repo/src/bmi/estimators/neural/_mine_estimator.py:40-42). -/
def scores (f : X → Y → ℝ) (xs : List X) (ys : List Y) : List ℝ := List.zipWith f xs ys

/-- `jnp.mean` of a non-empty vector (/repo/src/bmi/estimators/neural/_mine_estimator.py:44,56). -/
noncomputable def mean (vs : List ℝ) : ℝ := vs.sum / vs.length

/-- `logmeanexp` (/repo/src/bmi/estimators/neural/_mine_estimator.py:30-31) of a non-empty vector. -/
noncomputable def logmeanexp (vs : List ℝ) : ℝ := Real.log (vs.map Real.exp).sum - Real.log vs.length

/-- `_mine_value` (/repo/src/bmi/estimators/neural/_mine_estimator.py:34-44). -/
noncomputable def mineValue (f : X → Y → ℝ) (xs : List X) (ysPaired ysUnpaired : List Y) : ℝ :=
  mean (scores f xs ysPaired) - logmeanexp (scores f xs ysUnpaired)

/-- `_mine_T_mean_value_and_grad` (/repo/src/bmi/estimators/neural/_mine_estimator.py:47-58). -/
noncomputable def meanValueAndGrad (f : Θ → X → Y → ℝ) (θ : Θ) (xs : List X) (ys : List Y) : ℝ × (Θ →L[ℝ] ℝ) :=
  (mean (scores (f θ) xs ys), fderiv ℝ (fun t => mean (scores (f t) xs ys)) θ)

/-- `_mine_T_lme_value_and_grad` (/repo/src/bmi/estimators/neural/_mine_estimator.py:61-72). -/
noncomputable def lmeValueAndGrad (f : Θ → X → Y → ℝ) (θ : Θ) (xs : List X) (ys : List Y) : ℝ × (Θ →L[ℝ] ℝ) :=
  (logmeanexp (scores (f θ) xs ys), fderiv ℝ (fun t => logmeanexp (scores (f t) xs ys)) θ)

/-- `jnp.log` of a number in `[0, 1]` (/repo/src/bmi/estimators/neural/_mine_estimator.py:89-90). -/
noncomputable def jnpLog (a : ℝ) : EReal := ENNReal.log (ENNReal.ofReal a)

/-- `jnp.logaddexp` (/repo/src/bmi/estimators/neural/_mine_estimator.py:88). -/
noncomputable def logaddexp (a b : EReal) : EReal := ENNReal.log (EReal.exp a + EReal.exp b)

/-- `_mine_value_neg_grad_log_denom` (/repo/src/bmi/estimators/neural/_mine_estimator.py:75-100). -/
noncomputable def valueNegGradLogDenom (f : Θ → X → Y → ℝ) (θ : Θ) (xs : List X) (ysPaired ysUnpaired : List Y)
    (logDenomPrev : EReal) (α : ℝ) : ℝ × (Θ →L[ℝ] ℝ) × EReal :=
  let (meanTp, dMeanTp) := meanValueAndGrad f θ xs ysPaired
  let (lmeTu, dLmeTu) := lmeValueAndGrad f θ xs ysUnpaired
  let logDenomBatch : EReal := (lmeTu : EReal)
  let logDenom := logaddexp (jnpLog α + logDenomPrev) (jnpLog (1 - α) + logDenomBatch)
  let correction : ℝ := (EReal.exp (logDenomBatch - logDenom)).toReal
  let negGrad := correction • dLmeTu - dMeanTp
  (meanTp - lmeTu, negGrad, logDenom)

/-- The optimiser: `optax.adam(learning_rate)` with its `init` and `update`
(/repo/src/bmi/estimators/neural/_mine_estimator.py:178-179,202 and _basic_training.py:55-56,67). -/
structure Optimizer (Θ O : Type) [NormedAddCommGroup Θ] [NormedSpace ℝ Θ] where
  init : Θ → O
  update : (Θ →L[ℝ] ℝ) → O → Θ → Θ × O

/-- Critic, optimiser state and carried log-denominator during MINE training
(/repo/src/bmi/estimators/neural/_mine_estimator.py:179,208,224-232). -/
structure MineState (Θ O : Type) where
  critic : Θ
  opt : O
  logDenom : EReal

/-- The jitted `step` (/repo/src/bmi/estimators/neural/_mine_estimator.py:182-204), with the value it returns. -/
noncomputable def mineStep (o : Optimizer Θ O) (f : Θ → X → Y → ℝ) (α : ℝ) (s : MineState Θ O) (xs : List X)
    (ysPaired ysUnpaired : List Y) : MineState Θ O × ℝ :=
  let (value, negGrad, logDenom) := valueNegGradLogDenom f s.critic xs ysPaired ysUnpaired s.logDenom α
  let (updates, opt) := o.update negGrad s.opt s.critic
  (⟨s.critic + updates, opt, logDenom⟩, value)

/-- The loop shared by `mine_training` and `basic_training`
(/repo/src/bmi/estimators/neural/_mine_estimator.py:215-247 and _basic_training.py:76-91): `step` samples a batch and
updates, `test` evaluates the test objective.  `n` is `n_step` for the first remaining key. -/
noncomputable def trainLoop (step : S → Key → Except Err (S × Fl ℝ)) (test : S → Key → Except Err (Fl ℝ)) (testEvery : Int) :
    List Key → Nat → S → Log ℝ → Except Err (Log ℝ × S)
  | [], _, s, l => .ok (l, s)
  | key :: keys, n, s, l => do
    let (s', miTrain) ← step s key
    let l1 := l.logTrain n miTrain
    if testEvery = 0 then .error .zeroDivision
    else
      let l2 ← if (n : Int) % testEvery = 0 then (do let v ← test s' key; .ok (l1.logTest n v)) else .ok l1
      if l2.earlyStop then .ok (l2, s')
      else trainLoop step test testEvery keys (n + 1) s' l2

/-- The part of the loop body that samples and steps
(/repo/src/bmi/estimators/neural/_mine_estimator.py:216-232). -/
noncomputable def mineBody (r : Rng Key) (o : Optimizer Θ O) (f : Θ → X → Y → ℝ) (α : ℝ) (xs : List X)
    (ys : List Y) (batchSize : Option ℕ) (s : MineState Θ O) (key : Key) : Except Err (MineState Θ O × Fl ℝ) := do
  let (keySample, _) ← split2 r key
  let (xb, yp, yu) ← samplePairedUnpaired r keySample xs ys batchSize
  let (s', v) := mineStep o f α s xb yp yu
  .ok (s', .num v)

/-- The test objective (/repo/src/bmi/estimators/neural/_mine_estimator.py:239-242). -/
noncomputable def mineTest (r : Rng Key) (f : Θ → X → Y → ℝ) (xsTest : List X) (ysTest : List Y)
    (s : MineState Θ O) (key : Key) : Except Err (Fl ℝ) := do
  let (_, keyTest) ← split2 r key
  let yu := gather ysTest (r.permutation keyTest ysTest.length)
  .ok (.num (mineValue (f s.critic) xsTest ysTest yu))

/-- `mine_training` (/repo/src/bmi/estimators/neural/_mine_estimator.py:135-251) up to `training_log.finish()`;
`keys` is `jax.random.split(rng, max_n_steps)`.  `xs_test = None` means the training data are used. -/
noncomputable def mineTraining (r : Rng Key) (o : Optimizer Θ O) (f : Θ → X → Y → ℝ) (keys : List Key) (critic : Θ)
    (xs : List X) (ys : List Y) (xsTest : Option (List X)) (ysTest : Option (List Y)) (α : ℝ)
    (batchSize : Option ℕ) (testEvery : Int) (earlyStopping : Bool) : Except Err (Log ℝ × MineState Θ O) :=
  let xsTest := xsTest.getD xs
  let ysTest := ysTest.getD ys
  trainLoop (mineBody r o f α xs ys batchSize) (mineTest r f xsTest ysTest) testEvery keys 1
    ⟨critic, o.init critic, ⊥⟩ { earlyStopping := earlyStopping }

/-! ### `basic_training` -/

/-- An objective `mi_formula(critic, xs, ys)` as a number or NaN
(/repo/src/bmi/estimators/neural/_basic_training.py:29,32). -/
abbrev Formula (X Y : Type) : Type := (X → Y → ℝ) → List X → List Y → Fl ℝ

/-- The number behind a float, for differentiation (used in `basicStep`,
/repo/src/bmi/estimators/neural/_basic_training.py:66). -/
noncomputable def Fl.real : Fl ℝ → ℝ
  | .nan => 0
  | .num a => a

/-- The jitted `step` of `basic_training` (/repo/src/bmi/estimators/neural/_basic_training.py:59-69): the loss is
minus the objective and minus the loss is returned; negation changes neither numbers nor NaN when done twice. -/
noncomputable def basicStep (o : Optimizer Θ O) (f : Θ → X → Y → ℝ) (formula : Formula X Y) (s : Θ × O)
    (xs : List X) (ys : List Y) : (Θ × O) × Fl ℝ :=
  let grads := fderiv ℝ (fun t => -(Fl.real (formula (f t) xs ys))) s.1
  let (updates, opt) := o.update grads s.2 s.1
  ((s.1 + updates, opt), formula (f s.1) xs ys)

/-- The part of the loop body that samples and steps
(/repo/src/bmi/estimators/neural/_basic_training.py:78-79). -/
noncomputable def basicBody (r : Rng Key) (o : Optimizer Θ O) (f : Θ → X → Y → ℝ) (formula : Formula X Y)
    (xs : List X) (ys : List Y) (batchSize : Option ℕ) (s : Θ × O) (key : Key) :
    Except Err ((Θ × O) × Fl ℝ) := do
  let (xb, yb) ← getBatch r xs ys key batchSize
  .ok (basicStep o f formula s xb yb)

/-- `basic_training` (/repo/src/bmi/estimators/neural/_basic_training.py:26-95) up to `training_log.finish()`. -/
noncomputable def basicTrainingE (r : Rng Key) (o : Optimizer Θ O) (f : Θ → X → Y → ℝ) (keys : List Key)
    (critic : Θ) (formula : Formula X Y) (xs : List X) (ys : List Y) (formulaTest : Option (Formula X Y))
    (xsTest : Option (List X)) (ysTest : Option (List Y)) (batchSize : Option ℕ) (testEvery : Int)
    (earlyStopping : Bool) : Except Err (Log ℝ × (Θ × O)) :=
  let formulaTest := formulaTest.getD formula
  let xsTest := xsTest.getD xs
  let ysTest := ysTest.getD ys
  trainLoop (basicBody r o f formula xs ys batchSize)
    (fun s _ => .ok (formulaTest (f s.1) xsTest ysTest)) testEvery keys 1
    (critic, o.init critic) { earlyStopping := earlyStopping }

end BMI.Mine
