import Verif.Model.Basic

/-! Model of `chunker` (/repo/src/bmi/utils.py:150-178). -/

namespace BMI.Chunker

/-- Python's `range(0, n, c)` for `0 < n`, `0 < c`: the CPython length formula
`1 + (n - 1 - 0) // c` and the elements `i * c`.
Used at /repo/src/bmi/utils.py:176. -/
def pyRange (n c : Nat) : List Nat :=
  (List.range (1 + (n - 1) / c)).map fun i => i * c

/-- A Python `slice(start, stop)` with non-negative bounds (/repo/src/bmi/utils.py:178). -/
structure Slice where
  start : Nat
  stop : Nat
  deriving DecidableEq, Repr

/-- `xs[slice(start, stop)]` on a list or array (used at /repo/src/bmi/estimators/ksg.py:96,99):
out-of-range bounds are truncated as in Python. -/
def Slice.apply {α : Type} (s : Slice) (xs : List α) : List α :=
  (xs.take s.stop).drop s.start

/-- `chunker(n_items, chunk_size)` (/repo/src/bmi/utils.py:150-178), as the list of all values the
generator yields.  Simplification: Python raises the `ValueError` lazily, at the first `next()`;
the model raises it when the list is formed. -/
def chunker (nItems chunkSize : Int) : Except Err (List Slice) :=
  if nItems ≤ 0 ∨ chunkSize ≤ 0 then
    .error .valueError
  else
    let n := nItems.toNat
    let c := chunkSize.toNat
    .ok ((pyRange n c).map fun start => ⟨start, min n (start + c)⟩)

end BMI.Chunker
