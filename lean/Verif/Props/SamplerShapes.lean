import Verif.Lemmas.Covariance
import Verif.Lemmas.IdealWitness

/-! Properties C17 (shapes) and C18 (seeds), over /repo/src/bmi/samplers. -/

namespace BMI.Samplers

open MeasureTheory

variable {Key : Type}

/-! ## C17: shapes -/

/-- The transform turns arrays of shape `(n, d)` into arrays of shape `(n, e)`, for every `n`. -/
def Reshapes (t : Transform) (d e : ℕ) : Prop :=
  ∀ (n : ℕ) (a : Arr), a.length = n → (∀ r ∈ a, r.length = d) →
    (t.vectorized a).length = n ∧ ∀ r ∈ t.vectorized a, r.length = e

theorem Acts.reshapes {t : Transform} {d e : ℕ} {f : (Fin d → ℝ) → (Fin e → ℝ)} (h : Acts t f) : Reshapes t d e := by
  intro n a ha hr
  obtain ⟨v, rfl⟩ := exists_rowsOf n d a ha hr
  rw [h]
  exact ⟨length_rowsOf _, length_of_mem_rowsOf _⟩

/-- **C17**: a transformed sampler of a well-shaped sampler is well-shaped, with the advertised dimensions, if the
transforms have the output dimensions announced by `add_dim_x` and `add_dim_y`. -/
theorem transformed_wellShaped (base : Sampler Key) (tx ty : Transform) (ax ay : ℤ) (dx dy ex ey : ℕ)
    (hb : WellShaped base dx dy) (hax : 0 ≤ ax) (hay : 0 ≤ ay) (hex : (ex : ℤ) = dx + ax) (hey : (ey : ℤ) = dy + ay)
    (htx : Reshapes tx dx ex) (hty : Reshapes ty dy ey) :
    ∃ s, transformed base tx ty ax ay = .ok s ∧ WellShaped s ex ey := by
  obtain ⟨p1, p2, h1, h2, h3⟩ := hb
  refine ⟨_, transformed_of hax hay h1 h2 p1 p2, by omega, by omega, ?_, ?_, ?_⟩
  · rw [← hex]; rfl
  · rw [← hey]; rfl
  · intro n rng
    obtain ⟨x, y, e, g1, g2, g3, g4⟩ := h3 n rng
    refine ⟨tx.vectorized x, ty.vectorized y, ?_, (htx n x g1 g3).1, (hty n y g2 g4).1, (htx n x g1 g3).2,
      (hty n y g2 g4).2⟩
    simp only [e]
    rfl

/-- **C17**: a concatenation of well-shaped samplers is well-shaped, and its dimensions are the sums. -/
theorem concatenation_wellShaped (R : JaxRandom Key) (ss : List (Sampler Key)) (ds : List (ℕ × ℕ)) (hne : ss ≠ [])
    (h : List.Forall₂ (fun s d => WellShaped s d.1 d.2) ss ds) :
    ∃ s, concatenation R ss = .ok s ∧ WellShaped s (ds.map (·.1)).sum (ds.map (·.2)).sum := by
  have hx : sumDims (ss.map (·.dimX)) = .ok (ds.map (·.1)).sum := by
    apply sumDims_ok
    rw [List.forall₂_map_left_iff, List.forall₂_map_right_iff]
    exact h.imp fun _ _ hh => hh.2.2.1
  have hy : sumDims (ss.map (·.dimY)) = .ok (ds.map (·.2)).sum := by
    apply sumDims_ok
    rw [List.forall₂_map_left_iff, List.forall₂_map_right_iff]
    exact h.imp fun _ _ hh => hh.2.2.2.1
  have hp : 0 < (ds.map (·.1)).sum ∧ 0 < (ds.map (·.2)).sum := by
    cases h with
    | nil => exact absurd rfl hne
    | cons h _ =>
      have := h.1
      have := h.2.1
      simp only [List.map_cons, List.sum_cons]
      omega
  refine ⟨_, concatenation_of R hx hy hp.1 hp.2, hp.1, hp.2, rfl, rfl, ?_⟩
  intro n rng
  obtain ⟨xs, ys, h1, h2, h3, h4, h5, h6, h7⟩ :=
    sampleAll_shape n (List.ofFn (R.split (castToRng R rng) ss.length)) ss ds h (by simp)
  have nex : xs ≠ [] := by rintro rfl; exact hne (List.length_eq_zero_iff.1 h2.symm)
  have ney : ys ≠ [] := by rintro rfl; exact hne (List.length_eq_zero_iff.1 h3.symm)
  refine ⟨hstackN n xs, hstackN n ys, ?_, length_hstackN n xs h4, length_hstackN n ys h5, h6, h7⟩
  simp only [h1]
  show (Except.bind (hstack xs) fun x => Except.bind (hstack ys) fun y => Except.ok (x, y)) = _
  rw [hstack_eq n xs nex h4, hstack_eq n ys ney h5]
  rfl

/-- **C17**: a multinormal sampler is well-shaped, and `x`, `y` are the two parts of the rows drawn from the joint
law with the given mean (zero by default) and covariance. -/
theorem splitMultinormal_wellShaped (R : JaxRandom Key) (dx dy : ℕ) (cov : Arr) (mean : Option (List ℝ))
    (s : Sampler Key) (h : splitMultinormal R dx dy cov mean = .ok s) :
    WellShaped s dx dy ∧
    ∀ n rng, ∃ x y : Arr, s.sample n rng = .ok (x, y) ∧ List.zipWith (· ++ ·) x y =
      rowsOf (R.multivariateNormal (castToRng R rng) n (dx + dy)
        (fun i => mean.elim 0 fun v => v.getD i 0) (Matrix.of fun i j => (cov.getD i []).getD j 0)) := by
  obtain ⟨dx', dy', e1, e2, p1, p2, μ, hμ, h1, h2, h3⟩ := splitMultinormal_inv h
  obtain rfl : dx' = dx := by exact_mod_cast e1
  obtain rfl : dy' = dy := by exact_mod_cast e2
  have hμ' : μ = fun i : Fin _ => mean.elim 0 fun v => v.getD i 0 := by
    rw [hμ]
    funext i
    cases mean with
    | none => simp [toVec]
    | some v => rfl
  refine ⟨⟨p1, p2, h1, h2, fun n rng => ⟨_, _, h3 n rng, by simp [length_rowsOf], by simp [length_rowsOf], ?_, ?_⟩⟩,
    fun n rng => ⟨_, _, h3 n rng, ?_⟩⟩
  · intro r hr
    obtain ⟨r', hr', rfl⟩ := List.mem_map.1 hr
    rw [List.length_take, length_of_mem_rowsOf _ _ hr']
    omega
  · intro r hr
    obtain ⟨r', hr', rfl⟩ := List.mem_map.1 hr
    rw [List.length_drop, length_of_mem_rowsOf _ _ hr']
    omega
  · rw [List.zipWith_map]
    rw [List.zipWith_self, hμ']
    simp only [List.take_append_drop, List.map_id']
    rfl

/-- **C17**: a bivariate normal sampler is well-shaped. -/
theorem bivariateNormal_wellShaped (R : JaxRandom Key) (c sx sy mx my : ℝ) (s : Sampler Key)
    (h : bivariateNormal R c sx sy mx my = .ok s) : WellShaped s 1 1 := by
  obtain ⟨s', h1, rfl⟩ := bivariateNormal_inv h
  obtain ⟨⟨_, _, _, _, h3⟩, _⟩ := splitMultinormal_wellShaped R 1 1 _ _ s' h1
  exact ⟨one_pos, one_pos, rfl, rfl, fun n rng => h3 n rng⟩

private theorem wellShaped_of_rows {s : Sampler Key} (h1 : s.dimX = .ok 1) (h2 : s.dimY = .ok 1)
    (h : ∀ n rng, ∃ (x y : Fin n → Fin 1 → ℝ), s.sample n rng = .ok (rowsOf x, rowsOf y)) : WellShaped s 1 1 := by
  refine ⟨one_pos, one_pos, h1, h2, fun n rng => ?_⟩
  obtain ⟨x, y, e⟩ := h n rng
  exact ⟨_, _, e, length_rowsOf _, length_rowsOf _, length_of_mem_rowsOf _, length_of_mem_rowsOf _⟩

/-- **C17**: an additive uniform sampler is well-shaped. -/
theorem additiveUniform_wellShaped (R : JaxRandom Key) (e : ℝ) (s : Sampler Key)
    (h : additiveUniform R e = .ok s) : WellShaped s 1 1 := by
  unfold additiveUniform at h
  split_ifs at h
  obtain rfl := Except.ok.inj h
  exact wellShaped_of_rows rfl rfl fun n rng => ⟨_, _, rfl⟩

/-- **C17**: a discrete-uniform mixture sampler is well-shaped. -/
theorem discreteUniformMixture_wellShaped (R : JaxRandom Key) (m : ℤ) (s : Sampler Key)
    (h : discreteUniformMixture R m = .ok s) : WellShaped s 1 1 := by
  unfold discreteUniformMixture at h
  split_ifs at h
  obtain rfl := Except.ok.inj h
  exact wellShaped_of_rows rfl rfl fun n rng => ⟨_, _, rfl⟩

/-- **C17** fails for the zero-inflated Poissonization sampler: whenever it can be constructed, reading its dimensions
raises, so that it can be neither transformed nor concatenated, although its samples have shape `(n, 1)`. -/
theorem zeroInflatedPoisson_no_dims (R : JaxRandom Key) (p : ℝ) (hp : 0 ≤ p) (hp1 : p < 1) :
    ∃ s, zeroInflatedPoisson R p = .ok s ∧ s.dimX = .error .attributeError ∧ s.dimY = .error .attributeError ∧
      (∀ tx ty ax ay, 0 ≤ ax → 0 ≤ ay → transformed s tx ty ax ay = .error .attributeError) ∧
      (∀ ss, concatenation R (s :: ss) = .error .attributeError) ∧
      ∀ n rng, ∃ x y : Fin n → Fin 1 → ℝ, s.sample n rng = .ok (rowsOf x, rowsOf y) := by
  refine ⟨_, by unfold zeroInflatedPoisson; rw [if_neg (by simp only [not_or, not_lt, not_le, ge_iff_le]; exact ⟨hp, hp1⟩)], rfl, rfl,
    ?_, ?_, fun n rng => ⟨_, _, rfl⟩⟩
  · intro tx ty ax ay h1 h2
    unfold transformed
    rw [if_neg (by omega)]
    rfl
  · intro ss
    rfl

/-! Concrete samplers meeting the hypotheses above. -/

private theorem posDef_three : (toMatrix (1 + 2) [[1, 0, 0], [0, 1, 0], [0, 0, 1]]).PosDef := by
  have e : toMatrix (1 + 2) [[1, 0, 0], [0, 1, 0], [0, 0, 1]] = (1 : Matrix (Fin 3) (Fin 3) ℝ) := by
    ext i j
    fin_cases i <;> fin_cases j <;> simp [toMatrix]
  rw [e]
  exact Matrix.PosDef.one

/-- A multinormal sampler with `dim_x = 1`, `dim_y = 2`. -/
example : ∃ s, splitMultinormal tree 1 2 [[1, 0, 0], [0, 1, 0], [0, 0, 1]] none = .ok s ∧ WellShaped s 1 2 := by
  have h := splitMultinormal_of tree 1 2 one_pos two_pos [[1, 0, 0], [0, 1, 0], [0, 0, 1]] none (by simp)
    (by simp [hasShape]) posDef_three
  exact ⟨_, h, (splitMultinormal_wellShaped tree 1 2 _ _ _ h).1⟩

private theorem additive_one : ∃ s, additiveUniform tree 1 = .ok s := by
  unfold additiveUniform
  rw [if_neg (by norm_num)]
  exact ⟨_, rfl⟩

private theorem mixture_three : ∃ s, discreteUniformMixture tree 3 = .ok s := by
  unfold discreteUniformMixture
  rw [if_neg (by norm_num)]
  exact ⟨_, rfl⟩

/-- The concatenation of an additive uniform sampler and a discrete mixture has dimensions `2` and `2`, and a transform
that repeats the entries of `x` doubles the first one. -/
example : ∃ a b s t, additiveUniform tree 1 = .ok a ∧ discreteUniformMixture tree 3 = .ok b ∧
    concatenation tree [a, b] = .ok s ∧ WellShaped s 2 2 ∧
    transformed s (.row fun r => r ++ r) .none 2 0 = .ok t ∧ WellShaped t 4 2 := by
  obtain ⟨a, ha⟩ := additive_one
  obtain ⟨b, hb⟩ := mixture_three
  obtain ⟨s, hs, ws⟩ := concatenation_wellShaped tree [a, b] [(1, 1), (1, 1)] (by simp)
    (.cons (additiveUniform_wellShaped tree 1 a ha) (.cons (discreteUniformMixture_wellShaped tree 3 b hb) .nil))
  obtain ⟨t, ht, wt⟩ := transformed_wellShaped s (.row fun r => r ++ r) .none 2 0 2 2 4 2 ws (by norm_num)
    (by norm_num) (by norm_num) (by norm_num) (by
      intro n x hx hr
      refine ⟨by simp [Transform.vectorized, hx], fun r h => ?_⟩
      simp only [Transform.vectorized, List.mem_map] at h
      obtain ⟨r', hr', rfl⟩ := h
      simp [hr r' hr']) (fun n x hx hr => ⟨hx, hr⟩)
  exact ⟨a, b, s, t, ha, hb, hs, ws, ht, wt⟩

/-- A bivariate normal sampler. -/
example : ∃ s, bivariateNormal tree 0 1 1 5 7 = .ok s ∧ WellShaped s 1 1 := by
  have h : ∃ s, bivariateNormal tree 0 1 1 5 7 = .ok s := by
    unfold bivariateNormal
    rw [if_neg (by norm_num), if_neg (by norm_num)]
    have e : toMatrix (1 + 1) [[1 ^ 2, 0 * 1 * 1], [0 * 1 * 1, 1 ^ 2]] = (1 : Matrix (Fin 2) (Fin 2) ℝ) := by
      ext i j
      fin_cases i <;> fin_cases j <;> simp [toMatrix]
    have h := splitMultinormal_of tree 1 1 one_pos one_pos [[1 ^ 2, 0 * 1 * 1], [0 * 1 * 1, 1 ^ 2]] (some [5, 7])
      (by simp) (by simp [hasShape]) (by rw [e]; exact Matrix.PosDef.one)
    have h' : splitMultinormal tree 1 1 [[1 ^ 2, 0 * 1 * 1], [0 * 1 * 1, 1 ^ 2]] (some [5, 7]) = .ok _ := h
    simp only [h']
    exact ⟨_, rfl⟩
  obtain ⟨s, hs⟩ := h
  exact ⟨s, hs, bivariateNormal_wellShaped tree 0 1 1 5 7 s hs⟩

example : (0 : ℝ) ≤ 0.15 ∧ (0.15 : ℝ) < 1 := by norm_num

/-! ## C18: seeds -/

/-- The samplers that can be built from the library (all sampler classes but `SplitStudentT` and `BMMSampler`). -/
inductive Built (R : JaxRandom Key) : Sampler Key → Prop
  | multinormal {dx dy cov mean s} : splitMultinormal R dx dy cov mean = .ok s → Built R s
  | bivariate {c sx sy mx my s} : bivariateNormal R c sx sy mx my = .ok s → Built R s
  | additive {e s} : additiveUniform R e = .ok s → Built R s
  | mixture {m s} : discreteUniformMixture R m = .ok s → Built R s
  | mixtures {ms s} : multivariateDiscreteUniformMixture R ms = .ok s → Built R s
  | poisson {p s} : zeroInflatedPoisson R p = .ok s → Built R s
  | transformed {base tx ty ax ay s} : Built R base → transformed base tx ty ax ay = .ok s → Built R s
  | concatenation {ss s} : (∀ t ∈ ss, Built R t) → concatenation R ss = .ok s → Built R s

/-- **C18**: for every sampler built from the library, sampling with an integer seed is sampling with the key made from
that seed. -/
theorem built_seedsAreKeys (R : JaxRandom Key) (s : Sampler Key) (h : Built R s) : SeedsAreKeys R s := by
  induction h with
  | multinormal h =>
    obtain ⟨_, _, _, _, _, _, _, _, _, _, h3⟩ := splitMultinormal_inv h
    intro n z
    rw [h3, h3]
    rfl
  | bivariate h =>
    obtain ⟨s', h1, rfl⟩ := bivariateNormal_inv h
    obtain ⟨_, _, _, _, _, _, _, _, _, _, h3⟩ := splitMultinormal_inv h1
    intro n z
    show s'.sample _ _ = s'.sample _ _
    rw [h3, h3]
    rfl
  | additive h =>
    unfold additiveUniform at h
    split_ifs at h
    obtain rfl := Except.ok.inj h
    exact fun _ _ => rfl
  | mixture h =>
    unfold discreteUniformMixture at h
    split_ifs at h
    obtain rfl := Except.ok.inj h
    exact fun _ _ => rfl
  | mixtures h =>
    rename_i ms s
    unfold multivariateDiscreteUniformMixture at h
    cases hs : ms.mapM (discreteUniformMixture R) with
    | error e => simp only [hs] at h; exact absurd h (by nofun)
    | ok ss =>
      simp only [hs] at h
      obtain ⟨_, _, _, _, _, _, rfl⟩ := concatenation_inv (ss := ss) h
      exact fun _ _ => rfl
  | poisson h =>
    unfold zeroInflatedPoisson at h
    split_ifs at h
    obtain rfl := Except.ok.inj h
    exact fun _ _ => rfl
  | transformed _ h ih =>
    obtain ⟨_, _, _, _, _, _, _, _, rfl⟩ := transformed_inv h
    intro n z
    simp only [ih n z]
  | concatenation _ h _ =>
    obtain ⟨_, _, _, _, _, _, rfl⟩ := concatenation_inv h
    exact fun _ _ => rfl

/-- A transformed concatenation. -/
example : ∃ s, Built tree s ∧ SeedsAreKeys tree s := by
  obtain ⟨a, ha⟩ := additive_one
  obtain ⟨b, hb⟩ := mixture_three
  obtain ⟨s, hs, ws⟩ := concatenation_wellShaped tree [a, b] [(1, 1), (1, 1)] (by simp)
    (.cons (additiveUniform_wellShaped tree 1 a ha) (.cons (discreteUniformMixture_wellShaped tree 3 b hb) .nil))
  have hB : Built tree s := .concatenation (by
    intro t ht
    rcases List.mem_pair.1 ht with rfl | rfl
    exacts [.additive ha, .mixture hb]) hs
  exact ⟨s, hB, built_seedsAreKeys tree s hB⟩

/-- **C18**: the samples of a transformed sampler are the transforms of the samples of the base sampler for the same
seed or key (and fail exactly when these fail). -/
theorem transformed_sample (base s : Sampler Key) (tx ty : Transform) (ax ay : ℤ)
    (h : transformed base tx ty ax ay = .ok s) (n : ℕ) (rng : Rng Key) :
    (∀ x y, base.sample n rng = .ok (x, y) → s.sample n rng = .ok (tx.vectorized x, ty.vectorized y)) ∧
    ∀ e, base.sample n rng = .error e → s.sample n rng = .error e := by
  obtain ⟨_, _, _, _, _, _, _, _, rfl⟩ := transformed_inv h
  constructor
  · intro x y hb
    simp only [hb]
    rfl
  · intro e hb
    simp only [hb]
    rfl

example : ∃ base s, additiveUniform tree 1 = .ok base ∧ transformed base (.row fun r => r ++ r) .none 1 0 = .ok s ∧
    ∀ x y, base.sample 10 (.seed 7) = .ok (x, y) → s.sample 10 (.seed 7) = .ok (x.map fun r => r ++ r, y) := by
  obtain ⟨a, ha⟩ := additive_one
  obtain ⟨p1, p2, h1, h2, _⟩ := additiveUniform_wellShaped tree 1 a ha
  have h := transformed_of (tx := .row fun r => r ++ r) (ty := .none) (ax := 1) (ay := 0) (by norm_num) le_rfl h1 h2
    p1 p2
  exact ⟨a, _, ha, h, (transformed_sample a _ _ _ _ _ h 10 (.seed 7)).1⟩

end BMI.Samplers
