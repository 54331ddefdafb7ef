import Verif.Props.Critic
import Verif.Lemmas.UniversalApprox
import Mathlib.Data.List.OfFn

/-! Networks with given arrays, and the numbers they compute. -/

namespace BMI.Critic

/-- The layer with the weights `W` and the biases `b`. -/
def dense {m n : ℕ} (W : Fin n → Fin m → ℝ) (b : Fin n → ℝ) : Linear := ⟨m, n, List.ofFn fun i => List.ofFn (W i), List.ofFn b⟩

theorem dense_wellShaped {m n : ℕ} (W : Fin n → Fin m → ℝ) (b : Fin n → ℝ) : (dense W b).WellShaped := by
  refine ⟨by simp [dense], by simp [dense], fun w hw => ?_⟩
  simp only [dense, List.mem_ofFn] at hw
  obtain ⟨i, rfl⟩ := hw
  simp [dense]

theorem zipWith_ofFn {α β γ : Type} {n : ℕ} (f : α → β → γ) (u : Fin n → α) (v : Fin n → β) :
    List.zipWith f (List.ofFn u) (List.ofFn v) = List.ofFn fun i => f (u i) (v i) := by
  refine List.ext_getElem (by simp) fun i h1 h2 => ?_
  simp

theorem dense_call {m n : ℕ} (W : Fin n → Fin m → ℝ) (b : Fin n → ℝ) (z : Fin m → ℝ) :
    (dense W b).call (List.ofFn z) = .ok (List.ofFn fun i => ∑ j, W i j * z j + b i) := by
  unfold Linear.call dense
  rw [if_pos (by simp), zipWith_ofFn]
  simp only [zipWith_ofFn, List.sum_ofFn]

theorem relu_ofFn {n : ℕ} (z : Fin n → ℝ) : relu (List.ofFn z) = List.ofFn fun i => max (z i) 0 := by
  unfold relu
  rw [List.map_ofFn]
  rfl

/-- The last layer after `k` layers which change nothing. -/
def tail {h : ℕ} (a : Fin h → ℝ) (t : ℝ) (k : ℕ) : List Linear :=
  List.replicate k (dense (fun i j => if i = j then 1 else 0) fun _ : Fin h => 0) ++ [dense (fun _ : Fin 1 => a) fun _ => t]

theorem tail_ne_nil {h : ℕ} (a : Fin h → ℝ) (t : ℝ) (k : ℕ) : tail a t k ≠ [] := by simp [tail]

theorem tail_call {h : ℕ} (a : Fin h → ℝ) (t : ℝ) (k : ℕ) {z : Fin h → ℝ} (hz : ∀ i, 0 ≤ z i) :
    mlpCall (tail a t k) (List.ofFn z) [] = .ok (∑ i, a i * z i + t) := by
  induction k with
  | zero =>
    simp only [tail, List.replicate_zero, List.nil_append, mlpCall, List.append_nil]
    simp [hiddenPass, dense_call, bind, Except.bind]
  | succ k ih =>
    have e : tail a t (k + 1) = dense (fun i j => if i = j then 1 else 0) (fun _ : Fin h => 0) :: tail a t k := by
      simp [tail, List.replicate_succ]
    rw [e, mlpCall_cons _ _ (tail_ne_nil a t k), List.append_nil, dense_call]
    simp only [bind, Except.bind, relu_ofFn]
    have : (fun i => max (∑ j, (if i = j then (1 : ℝ) else 0) * z j + 0) 0) = z := by
      funext i
      simp [hz i]
    rw [this]
    exact ih

/-- A network with `k + 1` hidden layers of `h` units. -/
def net {d h : ℕ} (a : Fin h → ℝ) (w : Fin h → Fin d → ℝ) (b : Fin h → ℝ) (t : ℝ) (k : ℕ) : List Linear := dense w b :: tail a t k

theorem net_call {dx dy h : ℕ} (a : Fin h → ℝ) (w : Fin h → Fin (dx + dy) → ℝ) (b : Fin h → ℝ) (t : ℝ) (k : ℕ) (x : Fin dx → ℝ) (y : Fin dy → ℝ) :
    mlpCall (net a w b t k) (List.ofFn x) (List.ofFn y) = .ok (unitSum a w b (Fin.append x y) + t) := by
  unfold net
  rw [mlpCall_cons _ _ (tail_ne_nil a t k), ← List.ofFn_fin_append, dense_call]
  simp only [bind, Except.bind, relu_ofFn]
  rw [tail_call _ _ _ fun i => le_max_right _ _]
  rfl

theorem net_shapes {d h : ℕ} (a : Fin h → ℝ) (w : Fin h → Fin d → ℝ) (b : Fin h → ℝ) (t : ℝ) (k : ℕ) :
    (net a w b t k).map (fun l => (l.inF, l.outF)) = (d :: List.replicate (k + 1) h).zip (List.replicate (k + 1) h ++ [1]) ∧
      ∀ l ∈ net a w b t k, l.WellShaped := by
  constructor
  · have : ∀ k, (tail a t k).map (fun l => (l.inF, l.outF)) = (List.replicate (k + 1) h).zip (List.replicate k h ++ [1]) := by
      intro k
      induction k with
      | zero => simp [tail, dense]
      | succ k ih =>
        have e : tail a t (k + 1) = dense (fun i j => if i = j then 1 else 0) (fun _ : Fin h => 0) :: tail a t k := by
          simp [tail, List.replicate_succ]
        rw [e, List.map_cons, ih, List.replicate_succ (n := k + 1), List.replicate_succ (n := k)]
        simp [dense]
    unfold net
    rw [List.map_cons, this, List.replicate_succ]
    simp [dense, List.replicate_succ]
  · intro l hl
    simp only [net, tail, List.mem_cons, List.mem_append, List.mem_replicate, List.mem_singleton, List.not_mem_nil, or_false] at hl
    rcases hl with rfl | ⟨-, rfl⟩ | rfl <;> exact dense_wellShaped _ _

end BMI.Critic
