import Verif.Model.Critic
import Mathlib.Data.List.Zip
import Mathlib.Tactic.Linarith
import Mathlib.Tactic.Ring
import Mathlib.Tactic.NormNum

/-!
C53: shapes of the MLP critic.

The claim "wrong dimensions are refused" holds only for the sum of the two dimensions: the critic concatenates x and y
and looks at the total length (`mlp_swapped_dimensions`).
-/

namespace BMI.Critic

variable {Key : Type}

/-- `jax.random.split(key, n)` gives `n` keys. -/
def SplitOk (g : Init Key) : Prop := ∀ k n, (g.split k n).length = n

/-- The arrays of a layer have the declared shape. -/
def Linear.WellShaped (l : Linear) : Prop :=
  l.weight.length = l.outF ∧ l.bias.length = l.outF ∧ ∀ w ∈ l.weight, w.length = l.inF

theorem mkLinear_wellShaped (g : Init Key) (i o : ℕ) (k : Key) : (mkLinear g i o k).WellShaped := by
  refine ⟨by simp [mkLinear], by simp [mkLinear], ?_⟩
  intro w hw
  simp only [mkLinear, List.mem_map] at hw
  obtain ⟨_, -, rfl⟩ := hw
  simp [mkLinear]

theorem call_ok {l : Linear} (h : l.WellShaped) (x : List ℝ) (hx : x.length = l.inF) :
    ∃ z, l.call x = .ok z ∧ z.length = l.outF :=
  ⟨_, if_pos hx, by rw [List.length_zipWith, h.1, h.2.1, min_self]⟩

theorem call_error {l : Linear} (x : List ℝ) (hx : x.length ≠ l.inF) : l.call x = .error .typeError := if_neg hx

/-- C53: the constructed network has one layer more than hidden sizes, with shapes
`dim_x + dim_y → h₁ → … → h_k → 1`. -/
theorem mlpInit_shapes {g : Init Key} (hg : SplitOk g) (key : Key) (dimX dimY : ℕ) (hidden : List ℕ) :
    ∃ layers, mlpInit g key dimX dimY hidden = .ok layers ∧ layers.length = hidden.length + 1 ∧
      layers.map (fun l => (l.inF, l.outF)) = ((dimX + dimY) :: hidden).zip (hidden ++ [1]) ∧
      ∀ l ∈ layers, l.WellShaped := by
  obtain ⟨k1, k2, hk⟩ := List.length_eq_two.1 (hg key 2)
  unfold mlpInit
  rw [hk]
  refine ⟨_, rfl, ?_, ?_, ?_⟩
  · simp [hg k2 hidden.length]
  · simp only [List.map_append, List.map_map, List.map_cons, List.map_nil, List.tail_cons]
    have key : ∀ (d : ℕ) (hid : List ℕ) (ks : List Key), ks.length = hid.length →
        ((((d :: hid).zip hid).zip ks).map ((fun l : Linear => (l.inF, l.outF)) ∘
          fun p : (ℕ × ℕ) × Key => mkLinear g p.1.1 p.1.2 p.2)) ++
        [((mkLinear g ((d :: hid).getLast (List.cons_ne_nil _ _)) 1 k1).inF,
          (mkLinear g ((d :: hid).getLast (List.cons_ne_nil _ _)) 1 k1).outF)] = (d :: hid).zip (hid ++ [1]) := by
      intro d hid
      induction hid generalizing d with
      | nil => intro ks hks; simp [mkLinear]
      | cons h hid ih =>
        intro ks hks
        cases ks with
        | nil => simp at hks
        | cons k ks =>
          have := ih h ks (by simpa using hks)
          simp only [List.zip_cons_cons, List.map_cons, List.cons_append, Function.comp_apply] at this ⊢
          rw [List.getLast_cons (List.cons_ne_nil _ _), this]
          rfl
    exact key _ _ _ (hg _ _)
  · intro l hl
    rcases List.mem_append.1 hl with h | h
    · obtain ⟨p, -, rfl⟩ := List.mem_map.1 h
      exact mkLinear_wellShaped _ _ _ _
    · rw [List.mem_singleton] at h
      subst h
      exact mkLinear_wellShaped _ _ _ _

theorem mlpCall_cons (l : Linear) (ls : List Linear) (hls : ls ≠ []) (x y : List ℝ) :
    mlpCall (l :: ls) x y = (do let z ← l.call (x ++ y); mlpCall ls (relu z) []) := by
  unfold mlpCall
  rw [List.dropLast_cons_of_ne_nil hls, hiddenPass, List.getLast?_cons_of_ne_nil hls]
  cases l.call (x ++ y) with
  | error e => rfl
  | ok z => simp [bind, Except.bind]

theorem mlpCall_single (l : Linear) (x y : List ℝ) (h : l.WellShaped) (ho : l.outF = 1) :
    (x.length + y.length = l.inF → ∃ v, mlpCall [l] x y = .ok v) ∧
      (x.length + y.length ≠ l.inF → mlpCall [l] x y = .error .typeError) := by
  refine ⟨fun hx => ?_, fun hx => ?_⟩
  · obtain ⟨z, hz, hl⟩ := call_ok h (x ++ y) (by simpa using hx)
    rw [ho] at hl
    obtain ⟨v, rfl⟩ := List.length_eq_one_iff.1 hl
    refine ⟨v, ?_⟩
    simp [mlpCall, hiddenPass, hz, bind, Except.bind]
  · have hz := call_error (l := l) (x ++ y) (by simpa using hx)
    simp [mlpCall, hiddenPass, hz, bind, Except.bind]

theorem mlpCall_chain (d : ℕ) (hidden : List ℕ) (layers : List Linear)
    (hs : layers.map (fun l => (l.inF, l.outF)) = (d :: hidden).zip (hidden ++ [1]))
    (hw : ∀ l ∈ layers, l.WellShaped) (x y : List ℝ) :
    (x.length + y.length = d → ∃ v, mlpCall layers x y = .ok v) ∧
      (x.length + y.length ≠ d → mlpCall layers x y = .error .typeError) := by
  induction hidden generalizing d layers x y with
  | nil =>
    obtain ⟨l, rfl, h2⟩ : ∃ l, layers = [l] ∧ (l.inF, l.outF) = (d, 1) := by
      cases layers with
      | nil => simp at hs
      | cons l ls =>
        cases ls with
        | nil => exact ⟨l, rfl, by simpa using hs⟩
        | cons => simp at hs
    obtain ⟨rfl, h4⟩ := Prod.mk.inj h2
    exact mlpCall_single l x y (hw l (by simp)) h4
  | cons h hidden ih =>
    cases layers with
    | nil => simp at hs
    | cons l ls =>
      simp only [List.map_cons, List.cons_append, List.zip_cons_cons, List.cons.injEq, Prod.mk.injEq] at hs
      obtain ⟨⟨rfl, ho⟩, hs⟩ := hs
      have hne : ls ≠ [] := by
        rintro rfl
        have := congrArg List.length hs
        simp at this
      rw [mlpCall_cons l ls hne]
      refine ⟨fun hx => ?_, fun hx => ?_⟩
      · obtain ⟨z, hz, hl⟩ := call_ok (hw l (by simp)) (x ++ y) (by simpa using hx)
        rw [hz]
        exact (ih h ls hs (fun l' hl' => hw l' (by simp [hl'])) (relu z) []).1 (by simp [relu, hl, ho])
      · rw [call_error (x ++ y) (by simpa using hx)]
        rfl

/-- C53: the network accepts every pair of vectors whose lengths add up to `dim_x + dim_y` and returns one number;
all other pairs are refused. -/
theorem mlp_accepts_iff_partial {g : Init Key} (hg : SplitOk g) (key : Key) (dimX dimY : ℕ) (hidden : List ℕ) :
    ∃ layers, mlpInit g key dimX dimY hidden = .ok layers ∧ ∀ x y : List ℝ,
      (x.length + y.length = dimX + dimY → ∃ v, mlpCall layers x y = .ok v) ∧
      (x.length + y.length ≠ dimX + dimY → mlpCall layers x y = .error .typeError) := by
  obtain ⟨layers, h1, -, h3, h4⟩ := mlpInit_shapes hg key dimX dimY hidden
  exact ⟨layers, h1, fun x y => mlpCall_chain _ hidden layers h3 h4 x y⟩

/-- In particular points of the declared dimensions are accepted. -/
theorem mlp_accepts_declared {g : Init Key} (hg : SplitOk g) (key : Key) (dimX dimY : ℕ) (hidden : List ℕ) :
    ∃ layers, mlpInit g key dimX dimY hidden = .ok layers ∧ ∀ x y : List ℝ,
      x.length = dimX → y.length = dimY → ∃ v, mlpCall layers x y = .ok v := by
  obtain ⟨layers, h1, h2⟩ := mlp_accepts_iff_partial hg key dimX dimY hidden
  exact ⟨layers, h1, fun x y hx hy => (h2 x y).1 (by rw [hx, hy])⟩

/-- The claim "wrong dimensions are refused" is false for arguments given in the wrong order: a network for
`dim_x = m`, `dim_y = n` accepts `x` of length `n` and `y` of length `m`, silently. -/
theorem mlp_swapped_dimensions {g : Init Key} (hg : SplitOk g) (key : Key) (dimX dimY : ℕ) (hidden : List ℕ) :
    ∃ layers, mlpInit g key dimX dimY hidden = .ok layers ∧ ∀ x y : List ℝ,
      x.length = dimY → y.length = dimX → ∃ v, mlpCall layers x y = .ok v := by
  obtain ⟨layers, h1, h2⟩ := mlp_accepts_iff_partial hg key dimX dimY hidden
  exact ⟨layers, h1, fun x y hx hy => (h2 x y).1 (by rw [hx, hy, add_comm])⟩

/-- `hidden_layers = []` gives a critic that is a sum of a function of x and a function of y. -/
theorem mlp_without_hidden_layers {g : Init Key} (hg : SplitOk g) (key : Key) (dimX dimY : ℕ) :
    ∃ layers, mlpInit g key dimX dimY [] = .ok layers ∧ ∃ a b : List ℝ → ℝ, ∀ x y : List ℝ,
      x.length = dimX → y.length = dimY → mlpCall layers x y = .ok (a x + b y) := by
  obtain ⟨k1, k2, hk⟩ := List.length_eq_two.1 (hg key 2)
  set w : List ℝ := (List.range (dimX + dimY)).map fun i => g.weight k1 0 i with hw
  have hl : mlpInit g key dimX dimY [] = .ok [mkLinear g (dimX + dimY) 1 k1] := by
    unfold mlpInit
    rw [hk]
    rfl
  refine ⟨_, hl, fun x => (List.zipWith (· * ·) (w.take dimX) x).sum,
    fun y => (List.zipWith (· * ·) (w.drop dimX) y).sum + g.bias k1 0, fun x y hx hy => ?_⟩
  have h1 : (mkLinear g (dimX + dimY) 1 k1).call (x ++ y) =
      .ok [(List.zipWith (· * ·) w (x ++ y)).sum + g.bias k1 0] := by
    unfold Linear.call
    rw [if_pos (by simp [mkLinear, hx, hy])]
    rfl
  have h2 : List.zipWith (· * ·) w (x ++ y) =
      List.zipWith (· * ·) (w.take dimX) x ++ List.zipWith (· * ·) (w.drop dimX) y := by
    conv_lhs => rw [← List.take_append_drop dimX w]
    rw [List.zipWith_append]
    rw [List.length_take, hx, hw, List.length_map, List.length_range]
    omega
  simp only [mlpCall, List.dropLast_singleton, hiddenPass, List.getLast?_singleton, h1, bind, Except.bind]
  rw [h2, List.sum_append, add_assoc]

/-! ### The hypotheses can be met -/

/-- An initialiser with one key and equal numbers. -/
def onesInit : Init Unit where
  split _ n := List.replicate n ()
  weight _ _ _ := 1
  bias _ _ := 0

theorem onesInit_ok : SplitOk onesInit := fun _ _ => List.length_replicate

example : ∃ layers, mlpInit onesInit () 2 3 [8, 12] = .ok layers ∧ layers.length = 3 ∧
    layers.map (fun l => (l.inF, l.outF)) = [(5, 8), (8, 12), (12, 1)] ∧ ∀ l ∈ layers, l.WellShaped :=
  mlpInit_shapes onesInit_ok () 2 3 [8, 12]

example : ∃ layers, mlpInit onesInit () 1 1 [] = .ok layers ∧ mlpCall layers [2] [3] = .ok 5 :=
  ⟨_, rfl, by
    simp [mlpCall, hiddenPass, mkLinear, Linear.call, onesInit, bind, Except.bind, List.range_succ]
    norm_num⟩

end BMI.Critic
