import Verif.Model.Basic
import Mathlib.Data.Real.Basic
import Mathlib.Algebra.Order.Floor.Defs
import Mathlib.Algebra.Order.Archimedean.Real.Basic

/-!
Model of the data handling of the neural estimators: mini-batches, paired/unpaired samples and the train/test split
(/repo/src/bmi/estimators/neural/_basic_training.py:13-23, _mine_estimator.py:103-132, _estimators.py:43-63).

Arrays of points are lists.  The random functions of JAX and scikit-learn are parameters.
-/

namespace BMI.NeuralData

/-- The random functions of JAX and scikit-learn that are called with a key
(/repo/src/bmi/estimators/neural/_basic_training.py:15-20, _mine_estimator.py:110-127,216,239,
_estimators.py:54,130).  `choice k n b` is `jax.random.choice(k, n, shape=(b,), replace=False)`, which raises when
`n < b` (see `choice`); `permutation k n` is the order in which `jax.random.permutation(k, ys)` returns the `n` rows;
`randint` is `jax.random.randint(key, shape=(), minval=0, maxval=1000)`; `shuffle s n` is
`np.random.RandomState(s).permutation(n)` inside scikit-learn. -/
structure Rng (Key : Type) where
  split : Key → ℕ → List Key
  indices : Key → ℕ → ℕ → List ℕ
  permutation : Key → ℕ → List ℕ
  randint : Key → ℕ
  shuffle : ℕ → ℕ → List ℕ

variable {Key X Y : Type}

/-- `jax.random.choice(key, n, shape=(size,), replace=False)`
(/repo/src/bmi/estimators/neural/_basic_training.py:15-20): JAX raises `ValueError` when more indices are asked for
than there are. -/
def choice (r : Rng Key) (key : Key) (n size : ℕ) : Except Err (List ℕ) :=
  if n < size then .error .valueError else .ok (r.indices key n size)

/-- `xs[indices]` for a JAX array (/repo/src/bmi/estimators/neural/_basic_training.py:21): an index beyond the end
is clamped to the last row. -/
def gather (xs : List X) (ix : List ℕ) : List X := ix.filterMap fun i => xs[min i (xs.length - 1)]?

/-- `get_batch` (/repo/src/bmi/estimators/neural/_basic_training.py:13-23). -/
def getBatch (r : Rng Key) (xs : List X) (ys : List Y) (key : Key) (batchSize : Option ℕ) :
    Except Err (List X × List Y) :=
  match batchSize with
  | some b => do
    let ix ← choice r key xs.length b
    .ok (gather xs ix, gather ys ix)
  | none => .ok (xs, ys)

/-- `key_paired, key_unpaired = jax.random.split(key)`
(/repo/src/bmi/estimators/neural/_mine_estimator.py:110,216): unpacking fails if there are not exactly two. -/
def split2 (r : Rng Key) (key : Key) : Except Err (Key × Key) :=
  match r.split key 2 with
  | [a, b] => .ok (a, b)
  | _ => .error .valueError

/-- `_sample_paired_unpaired` (/repo/src/bmi/estimators/neural/_mine_estimator.py:103-132). -/
def samplePairedUnpaired (r : Rng Key) (key : Key) (xs : List X) (ys : List Y) (batchSize : Option ℕ) :
    Except Err (List X × List Y × List Y) :=
  if xs.length ≠ ys.length then .error .assertionError
  else do
    let (keyPaired, keyUnpaired) ← split2 r key
    match batchSize with
    | none => .ok (xs, ys, gather ys (r.permutation keyUnpaired ys.length))
    | some b =>
      let paired ← choice r keyPaired xs.length b
      let unpaired ← choice r keyUnpaired xs.length b
      .ok (gather xs paired, gather ys paired, gather ys unpaired)

/-- `sklearn.model_selection.train_test_split(xs, ys, train_size=f, random_state=s)` for a float `f`
(called at /repo/src/bmi/estimators/neural/_estimators.py:56-61; third-party, modelled from its source: lengths must
agree, `0 < f < 1`, `⌊f·n⌋` training points, not zero; the shuffled indices are cut after the `n_test` first).
Result in the order `xs_train, xs_test, ys_train, ys_test`. -/
noncomputable def sklearnSplit (r : Rng Key) (xs : List X) (ys : List Y) (f : ℝ) (state : ℕ) :
    Except Err (List X × List X × List Y × List Y) :=
  if f ≤ 0 ∨ 1 ≤ f then .error .valueError
  else if xs.length ≠ ys.length then .error .valueError
  else
    let n := xs.length
    let nTrain := ⌊f * n⌋₊
    let nTest := n - nTrain
    if nTrain = 0 then .error .valueError
    else
      let perm := r.shuffle state n
      let test := perm.take nTest
      let train := (perm.drop nTest).take nTrain
      .ok (gather xs train, gather xs test, gather ys train, gather ys test)

/-- `train_test_split` (/repo/src/bmi/estimators/neural/_estimators.py:43-63). -/
noncomputable def trainTestSplit (r : Rng Key) (xs : List X) (ys : List Y) (trainSize : Option ℝ) (key : Key) :
    Except Err (List X × List X × List Y × List Y) :=
  match trainSize with
  | none => .ok (xs, xs, ys, ys)
  | some f => sklearnSplit r xs ys f (r.randint key)

end BMI.NeuralData
