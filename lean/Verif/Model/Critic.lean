import Verif.Model.Basic
import Mathlib.Data.Real.Basic
import Mathlib.Algebra.BigOperators.Group.List.Basic

/-!
Model of the MLP critic (/repo/src/bmi/estimators/neural/_critics.py).

`eqx.nn.Linear` (third-party) is modelled from its documentation: a weight array of shape `(out, in)` and a bias of
shape `(out,)`, filled from a key; calling it on a vector of another length than `in` raises `TypeError` (JAX matrix
product).  Dimensions are natural numbers; layers with zero inputs, for which some versions of Equinox divide by zero,
are not treated specially.
-/

namespace BMI.Critic

/-- `eqx.nn.Linear` (/repo/src/bmi/estimators/neural/_critics.py:52,54). -/
structure Linear where
  inF : ℕ
  outF : ℕ
  weight : List (List ℝ)
  bias : List ℝ

/-- Random functions used in the constructor (/repo/src/bmi/estimators/neural/_critics.py:45-54): `split key n` and the
initial numbers `weight k i o`, `bias k i o` of a layer (position by position). -/
structure Init (Key : Type) where
  split : Key → ℕ → List Key
  weight : Key → ℕ → ℕ → ℝ
  bias : Key → ℕ → ℝ

variable {Key : Type}

/-- `eqx.nn.Linear(dim_in, dim_out, key=key)` (/repo/src/bmi/estimators/neural/_critics.py:52,54). -/
def mkLinear (g : Init Key) (dimIn dimOut : ℕ) (key : Key) : Linear where
  inF := dimIn
  outF := dimOut
  weight := (List.range dimOut).map fun o => (List.range dimIn).map fun i => g.weight key o i
  bias := (List.range dimOut).map (g.bias key)

/-- `weight @ x + bias` (call of `eqx.nn.Linear`, /repo/src/bmi/estimators/neural/_critics.py:60,64). -/
def Linear.call (l : Linear) (x : List ℝ) : Except Err (List ℝ) :=
  if x.length = l.inF then
    .ok (List.zipWith (fun w b => (List.zipWith (· * ·) w x).sum + b) l.weight l.bias)
  else .error .typeError

/-- `jax.nn.relu` (/repo/src/bmi/estimators/neural/_critics.py:61). -/
noncomputable def relu (x : List ℝ) : List ℝ := x.map (max · 0)

/-- The constructor (/repo/src/bmi/estimators/neural/_critics.py:45-54): the result is `self.layers`.
`key_final, key_hidden = split(key)`; `zip` stops at the shortest list. -/
def mlpInit (g : Init Key) (key : Key) (dimX dimY : ℕ) (hidden : List ℕ) : Except Err (List Linear) :=
  match g.split key 2 with
  | [keyFinal, keyHidden] =>
    let keysHidden := g.split keyHidden hidden.length
    let dims := (dimX + dimY) :: hidden
    let layers := ((dims.zip dims.tail).zip keysHidden).map fun p => mkLinear g p.1.1 p.1.2 p.2
    .ok (layers ++ [mkLinear g (dims.getLast (List.cons_ne_nil _ _)) 1 keyFinal])
  | _ => .error .valueError

/-- The loop over `self.layers[:-1]` (/repo/src/bmi/estimators/neural/_critics.py:59-61). -/
noncomputable def hiddenPass : List Linear → List ℝ → Except Err (List ℝ)
  | [], z => .ok z
  | l :: ls, z => do
    let z ← l.call z
    hiddenPass ls (relu z)

/-- `__call__` (/repo/src/bmi/estimators/neural/_critics.py:56-66): `jnp.concatenate`, hidden layers, last layer,
`z[..., 0]`. -/
noncomputable def mlpCall (layers : List Linear) (x y : List ℝ) : Except Err ℝ := do
  let z ← hiddenPass layers.dropLast (x ++ y)
  match layers.getLast? with
  | none => .error .indexError
  | some l =>
    let z ← l.call z
    match z with
    | [] => .error .indexError
    | v :: _ => .ok v

end BMI.Critic
