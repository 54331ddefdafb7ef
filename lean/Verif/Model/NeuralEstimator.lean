import Verif.Model.Mine
import Verif.Model.ProductSpace

/-!
Model of `NeuralEstimatorBase` (/repo/src/bmi/estimators/neural/_estimators.py:66-176) and `MINEEstimator`
(/repo/src/bmi/estimators/neural/_mine_estimator.py:254-366): parameter validation and `estimate_with_info`.

Not modelled: printing, the learning rate inside the optimiser (a parameter here), and the warnings that
`training_log.finish()` adds to the additional information (see `BMI.Training.detectWarnings`).
-/

namespace BMI.NeuralEstimator

open BMI.NeuralData BMI.Training BMI.Mine BMI.PSpace

variable {Θ Key O : Type} [NormedAddCommGroup Θ] [NormedSpace ℝ Θ]

/-- A point (a row of an array) as used by the critics (/repo/src/bmi/estimators/neural/_types.py:6). -/
abbrev Point : Type := List ℝ

/-- Rows of an array (`jnp.asarray(space.x)`, /repo/src/bmi/estimators/neural/_estimators.py:134). -/
def rows (m : Mat) : List Point := List.ofFn fun i => List.ofFn (m.v i)

/-- `NeuralEstimatorParams` (/repo/src/bmi/estimators/neural/_estimators.py:31-40) without the names that are only
displayed. -/
structure Params where
  batchSize : ℤ
  maxSteps : ℤ
  trainTestSplit : Option ℝ
  testEvery : ℤ
  learningRate : ℝ
  standardize : Bool
  seed : ℤ

/-- Validation of `NeuralEstimatorParams` (/repo/src/bmi/estimators/neural/_estimators.py:31-40): `PositiveInt` batch
size and number of steps, `PositiveFloat` learning rate; the other fields have only a type. -/
noncomputable def validate (p : Params) : Except Err Unit :=
  if 0 < p.batchSize ∧ 0 < p.maxSteps ∧ 0 < p.learningRate then .ok () else .error .validationError

/-- Validation of `MINEParams` (/repo/src/bmi/estimators/neural/_mine_estimator.py:254-266). -/
noncomputable def validateMine (p : Params) (α : ℝ) : Except Err Unit :=
  if 0 < p.batchSize ∧ 0 < p.maxSteps ∧ (∀ f, p.trainTestSplit = some f → 0 < f ∧ f < 1) ∧ 0 < p.testEvery ∧
      0 < p.learningRate ∧ 0 < α ∧ α < 1 then .ok () else .error .validationError

/-- What the estimators call: JAX keys, the optimiser for a learning rate, the critic factory and the critic as a
function of its parameters (/repo/src/bmi/estimators/neural/_estimators.py:129,148-151,
_mine_estimator.py:316-317). -/
structure Lib (Key Θ O : Type) [NormedAddCommGroup Θ] [NormedSpace ℝ Θ] where
  rng : Rng Key
  prngKey : ℤ → Key
  adam : ℝ → Optimizer Θ O
  factory : Key → ℕ → ℕ → Except Err Θ
  call : Θ → Point → Point → ℝ

/-- `EstimateResult` (/repo/src/bmi/estimators/neural/_estimators.py:144-147,168-171): the estimate, whether the flag
`batch_size_larger_than_train` is set, and the training log otherwise. -/
structure Result where
  mi : Fl ℝ
  batchSizeLargerThanTrain : Bool
  log : Option (Log ℝ)

/-- An estimator object: the validated parameters and `_trained_critic`
(/repo/src/bmi/estimators/neural/_estimators.py:97,99-111). -/
structure Estimator (Θ : Type) where
  params : Params
  trainedCritic : Option Θ

/-- The constructor (/repo/src/bmi/estimators/neural/_estimators.py:67-111). -/
noncomputable def mk (p : Params) : Except Err (Estimator Θ) := do
  validate p
  .ok ⟨p, none⟩

/-- The constructor of `MINEEstimator` (/repo/src/bmi/estimators/neural/_mine_estimator.py:270-299). -/
noncomputable def mkMine (p : Params) (α : ℝ) : Except Err (Estimator Θ) := do
  validateMine p α
  .ok ⟨p, none⟩

/-- `key_init, key_split, key_fit = jax.random.split(key, 3)`
(/repo/src/bmi/estimators/neural/_estimators.py:130, _mine_estimator.py:321). -/
def split3 (r : Rng Key) (key : Key) : Except Err (Key × Key × Key) :=
  match r.split key 3 with
  | [a, b, c] => .ok (a, b, c)
  | _ => .error .valueError

/-- `ProductSpace(x, y, standardize)` and the two arrays it holds
(/repo/src/bmi/estimators/neural/_estimators.py:133-134); the arrays given by the caller are passed by value, for the
effect on memory see `BMI.PSpace.init`. -/
noncomputable def space (ε : ℝ) (x y : Mat) (standardize : Bool) : Except Err (Mat × Mat) := do
  let (h, bx, by_) ← PSpace.init ε [x, y] 0 1 standardize
  let mx ← (h[bx]?).elim (.error .indexError) .ok
  let my ← (h[by_]?).elim (.error .indexError) .ok
  .ok (mx, my)

/-- `NeuralEstimatorBase.estimate_with_info` (/repo/src/bmi/estimators/neural/_estimators.py:128-173): the result and
the estimator object afterwards.  `basic_training` is called with its default `early_stopping=True`. -/
noncomputable def estimateWithInfo (lib : Lib Key Θ O) (ε : ℝ) (formula formulaTest : Formula Point Point)
    (est : Estimator Θ) (x y : Mat) : Except Err (Result × Estimator Θ) := do
  let p := est.params
  let (keyInit, keySplit, keyFit) ← split3 lib.rng (lib.prngKey p.seed)
  let (mx, my) ← space ε x y p.standardize
  let (xsTrain, xsTest, ysTrain, ysTest) ← trainTestSplit lib.rng (rows mx) (rows my) p.trainTestSplit keySplit
  if p.batchSize > xsTrain.length then
    .ok (⟨.nan, true, none⟩, est)
  else
    let critic ← lib.factory keyInit mx.d my.d
    let (log, s) ← basicTrainingE lib.rng (lib.adam p.learningRate) lib.call
      (lib.rng.split keyFit p.maxSteps.toNat) critic formula xsTrain ysTrain (some formulaTest) (some xsTest)
      (some ysTest) (some p.batchSize.toNat) p.testEvery true
    .ok (⟨log.finalMI, false, some log⟩, { est with trainedCritic := some s.1 })

/-- `MINEEstimator.estimate_with_info` (/repo/src/bmi/estimators/neural/_mine_estimator.py:319-363). -/
noncomputable def mineEstimateWithInfo (lib : Lib Key Θ O) (ε α : ℝ) (est : Estimator Θ) (x y : Mat) :
    Except Err (Result × Estimator Θ) := do
  let p := est.params
  let (keyInit, keySplit, keyFit) ← split3 lib.rng (lib.prngKey p.seed)
  let (mx, my) ← space ε x y p.standardize
  let (xsTrain, xsTest, ysTrain, ysTest) ← trainTestSplit lib.rng (rows mx) (rows my) p.trainTestSplit keySplit
  if p.batchSize > xsTrain.length then
    .ok (⟨.nan, true, none⟩, est)
  else
    let critic ← lib.factory keyInit mx.d my.d
    let (log, s) ← mineTraining lib.rng (lib.adam p.learningRate) lib.call
      (lib.rng.split keyFit p.maxSteps.toNat) critic xsTrain ysTrain (some xsTest) (some ysTest) α
      (some p.batchSize.toNat) p.testEvery true
    .ok (⟨log.finalMI, false, some log⟩, { est with trainedCritic := some s.critic })

end BMI.NeuralEstimator
