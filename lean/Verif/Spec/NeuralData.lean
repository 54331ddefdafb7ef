import Verif.Model.NeuralData
import Mathlib.Data.List.Perm.Subperm
import Mathlib.Data.List.Nodup

/-! Assumption on the random functions of JAX and scikit-learn used by the neural estimators. -/

namespace BMI.NeuralData

/-- `jax.random.split(key, n)` gives `n` keys, `choice` without replacement gives different indices within range,
`permutation` and the shuffle of scikit-learn reorder all indices. -/
structure IdealRng {Key : Type} (r : Rng Key) : Prop where
  split_length : ∀ k n, (r.split k n).length = n
  indices_length : ∀ k n b, b ≤ n → (r.indices k n b).length = b
  indices_lt : ∀ k n b, b ≤ n → ∀ i ∈ r.indices k n b, i < n
  indices_nodup : ∀ k n b, b ≤ n → (r.indices k n b).Nodup
  permutation : ∀ k n, (r.permutation k n).Perm (List.range n)
  shuffle : ∀ s n, (r.shuffle s n).Perm (List.range n)

/-- A generator with one key: the first indices, and the reversed order. -/
def plainRng : Rng Unit where
  split _ n := List.replicate n ()
  indices _ _ b := List.range b
  permutation _ n := (List.range n).reverse
  randint _ := 7
  shuffle _ n := (List.range n).reverse

theorem plainRng_ideal : IdealRng plainRng where
  split_length _ n := List.length_replicate
  indices_length _ _ b _ := List.length_range
  indices_lt _ _ b h i hi := (List.mem_range.1 hi).trans_le h
  indices_nodup _ _ _ _ := List.nodup_range
  permutation _ _ := List.reverse_perm _
  shuffle _ _ := List.reverse_perm _

end BMI.NeuralData
