import Verif.Lemmas.Rotation

/-! Property C10 (spirals and generators of rotations), over /repo/src/bmi/transforms/_rotate.py. -/

namespace BMI.Samplers

open Matrix

variable {n : ℕ}

theorem sumSq_eq (x : Fin n → ℝ) : sumSq x = x ⬝ᵥ x := by simp [sumSq, dotProduct, sq]

theorem spiral_none (g : Matrix (Fin n) (Fin n) ℝ) (speed : ℝ) :
    spiral ⟨n, n, g⟩ none speed = .ok ⟨n, 1, g.map (· * speed)⟩ := by
  unfold spiral
  simp only [dite_true]
  rfl

theorem spiral_some (g m : Matrix (Fin n) (Fin n) ℝ) (speed : ℝ) :
    spiral ⟨n, n, g⟩ (some ⟨n, n, m⟩) speed = .ok ⟨n, m, g.map (· * speed)⟩ := by
  unfold spiral
  simp only [dite_true, and_self]
  rfl

/-- **C10**: a spiral is accepted exactly when the generator is square and `initial`, if given, has its shape;
otherwise `ValueError` is raised. -/
theorem spiral_accepts_iff (g : Arr2) (initial : Option Arr2) (speed : ℝ) :
    ((∃ s, spiral g initial speed = .ok s) ↔
      g.1 = g.2.1 ∧ ∀ m, initial = some m → m.1 = g.1 ∧ m.2.1 = g.2.1) ∧
    ((∀ s, spiral g initial speed ≠ .ok s) → spiral g initial speed = .error .valueError) := by
  obtain ⟨r, c, g⟩ := g
  by_cases h : r = c
  · subst h
    cases initial with
    | none => simp [spiral_none]
    | some m =>
      obtain ⟨r', c', m⟩ := m
      by_cases h' : r = r' ∧ r = c'
      · obtain ⟨rfl, rfl⟩ := h'
        simp [spiral_some]
      · have : spiral ⟨r, r, g⟩ (some ⟨r', c', m⟩) speed = .error .valueError := by
          unfold spiral
          simp only [dite_true, dif_neg h']
        simp only [this, reduceCtorEq, exists_false, false_iff, ne_eq, not_false_eq_true, implies_true, and_true,
          true_and, Option.some.injEq, forall_eq']
        rintro ⟨rfl, rfl⟩
        exact h' ⟨rfl, rfl⟩
  · simp [spiral, h]

theorem spiral_inv {g : Matrix (Fin n) (Fin n) ℝ} {initial : Option Arr2} {speed : ℝ} {s : SpiralObj}
    (h : spiral ⟨n, n, g⟩ initial speed = .ok s) :
    (initial = none ∧ s = ⟨n, 1, g.map (· * speed)⟩) ∨
      ∃ m : Matrix (Fin n) (Fin n) ℝ, initial = some ⟨n, n, m⟩ ∧ s = ⟨n, m, g.map (· * speed)⟩ := by
  have hacc := ((spiral_accepts_iff ⟨n, n, g⟩ initial speed).1.1 ⟨s, h⟩).2
  cases initial with
  | none =>
    rw [spiral_none] at h
    exact Or.inl ⟨rfl, (Except.ok.inj h).symm⟩
  | some m =>
    obtain ⟨r, c, m⟩ := m
    obtain ⟨h1, h2⟩ := hacc _ rfl
    dsimp only at h1 h2
    subst h1 h2
    rw [spiral_some] at h
    exact Or.inr ⟨m, rfl, (Except.ok.inj h).symm⟩

/-- **C10**: with an antisymmetric generator and an orthogonal `initial` matrix (or none), the spiral keeps the norm of
every point, at every speed. -/
theorem spiral_norm {g : Matrix (Fin n) (Fin n) ℝ} {initial : Option Arr2} {speed : ℝ} {s : SpiralObj}
    (h : spiral ⟨n, n, g⟩ initial speed = .ok s) (hg : gᵀ = -g)
    (hm : ∀ m : Matrix (Fin n) (Fin n) ℝ, initial = some ⟨n, n, m⟩ → mᵀ * m = 1) (x : Fin s.n → ℝ) :
    sumSq (s.call x) = sumSq x := by
  obtain ⟨_, rfl⟩ | ⟨m, hi, rfl⟩ := spiral_inv h
  · rw [SpiralObj.call_eq, sumSq_eq, sumSq_eq]
    show ((1 : Matrix (Fin n) (Fin n) ℝ) *ᵥ windBy (g.map (· * speed)) x) ⬝ᵥ
      ((1 : Matrix (Fin n) (Fin n) ℝ) *ᵥ windBy (g.map (· * speed)) x) = _
    rw [Matrix.one_mulVec]
    exact windBy_norm (map_mul_skew hg speed) x
  · rw [SpiralObj.call_eq, sumSq_eq, sumSq_eq]
    show (m *ᵥ windBy (g.map (· * speed)) x) ⬝ᵥ (m *ᵥ windBy (g.map (· * speed)) x) = _
    rw [dotProduct_orthogonal (hm m hi)]
    exact windBy_norm (map_mul_skew hg speed) x

theorem windBy_bijective {g : Matrix (Fin n) (Fin n) ℝ} (hg : gᵀ = -g) : Function.Bijective (windBy g) := by
  refine ⟨Function.LeftInverse.injective (windBy_neg_windBy hg), Function.RightInverse.surjective (g := windBy (-g)) ?_⟩
  intro x
  have := windBy_neg_windBy (g := -g) (by rw [Matrix.transpose_neg, hg]) x
  rwa [neg_neg] at this

/-- **C10**: with an antisymmetric generator and an invertible `initial` matrix (or none), the spiral is a continuous
bijection, at every speed. -/
theorem spiral_bijective {g : Matrix (Fin n) (Fin n) ℝ} {initial : Option Arr2} {speed : ℝ} {s : SpiralObj}
    (h : spiral ⟨n, n, g⟩ initial speed = .ok s) (hg : gᵀ = -g)
    (hm : ∀ m : Matrix (Fin n) (Fin n) ℝ, initial = some ⟨n, n, m⟩ → m.det ≠ 0) :
    Function.Bijective s.call ∧ Continuous s.call := by
  have key : ∀ m : Matrix (Fin n) (Fin n) ℝ, m.det ≠ 0 →
      Function.Bijective (SpiralObj.call ⟨n, m, g.map (· * speed)⟩) ∧
        Continuous (SpiralObj.call ⟨n, m, g.map (· * speed)⟩) := by
    intro m hm
    have he : SpiralObj.call ⟨n, m, g.map (· * speed)⟩ = (fun x => m *ᵥ x) ∘ windBy (g.map (· * speed)) := by
      funext x
      exact SpiralObj.call_eq _ x
    have hu : IsUnit m := (Matrix.isUnit_iff_isUnit_det _).2 (isUnit_iff_ne_zero.2 hm)
    rw [he]
    exact ⟨Function.Bijective.comp ⟨Matrix.mulVec_injective_iff_isUnit.2 hu, Matrix.mulVec_surjective_iff_isUnit.2 hu⟩
      (windBy_bijective (map_mul_skew hg speed)),
      (continuous_const.matrix_mulVec continuous_id).comp (continuous_windBy _)⟩
  obtain ⟨_, rfl⟩ | ⟨m, hi, rfl⟩ := spiral_inv h
  · exact key 1 (by simp)
  · exact key m (hm m hi)

theorem windBy_conj {g m : Matrix (Fin n) (Fin n) ℝ} (hm : mᵀ * m = 1) (speed : ℝ) (w : Fin n → ℝ) :
    windBy ((m * g * mᵀ).map (· * -speed)) (m *ᵥ w) = m *ᵥ windBy (-(g.map (· * speed))) w := by
  have hinv : m⁻¹ = mᵀ := Matrix.inv_eq_left_inv hm
  have hu : IsUnit m := (Matrix.isUnit_iff_isUnit_det _).2 (Matrix.isUnit_det_of_left_inverse hm)
  have e : (-(g.map (· * speed))).map (· * (w ⬝ᵥ w)) = (-speed * (w ⬝ᵥ w)) • g := by
    ext i j; simp; ring
  have e' : ((m * g * mᵀ).map (· * -speed)).map (· * (w ⬝ᵥ w)) = m * ((-speed * (w ⬝ᵥ w)) • g) * m⁻¹ := by
    rw [hinv, Matrix.mul_smul, Matrix.smul_mul]
    ext i j
    simp only [Matrix.map_apply, Matrix.smul_apply, smul_eq_mul]
    ring
  unfold windBy
  rw [dotProduct_orthogonal hm, e', e, Matrix.exp_conj _ _ hu, Matrix.mulVec_mulVec, Matrix.mulVec_mulVec, hinv,
    Matrix.mul_assoc _ mᵀ, hm, Matrix.mul_one]

theorem toVec_ofFn' (w : Fin n → ℝ) : toVec n (List.ofFn w) = w := by funext i; simp [toVec]

theorem SpiralObj.row_ofFn (m g : Matrix (Fin n) (Fin n) ℝ) (w : Fin n → ℝ) :
    SpiralObj.row ⟨n, m, g⟩ (List.ofFn w) = List.ofFn (m *ᵥ windBy g w) := by
  have h := SpiralObj.call_eq ⟨n, m, g⟩ w
  unfold SpiralObj.row
  dsimp only at h ⊢
  rw [toVec_ofFn', h]

/-- **C10**: the spiral of opposite speed, with the conjugated generator and the transposed `initial` matrix, undoes
the spiral. -/
theorem spiral_undo {g m : Matrix (Fin n) (Fin n) ℝ} {speed : ℝ} {s s' : SpiralObj} (hg : gᵀ = -g) (hm : mᵀ * m = 1)
    (h : spiral ⟨n, n, g⟩ (some ⟨n, n, m⟩) speed = .ok s)
    (h' : spiral ⟨n, n, m * g * mᵀ⟩ (some ⟨n, n, mᵀ⟩) (-speed) = .ok s') (x : List ℝ) (hx : x.length = n) :
    s'.row (s.row x) = x := by
  rw [spiral_some] at h h'
  rw [← Except.ok.inj h, ← Except.ok.inj h']
  obtain ⟨v, rfl⟩ := exists_ofFn n x hx
  rw [SpiralObj.row_ofFn, SpiralObj.row_ofFn, windBy_conj hm, Matrix.mulVec_mulVec, hm, Matrix.one_mulVec,
    windBy_neg_windBy (map_mul_skew hg speed)]

/-- **C10**: without an `initial` matrix, the spiral of opposite speed undoes the spiral. -/
theorem spiral_undo_plain {g : Matrix (Fin n) (Fin n) ℝ} {speed : ℝ} {s s' : SpiralObj} (hg : gᵀ = -g)
    (h : spiral ⟨n, n, g⟩ none speed = .ok s) (h' : spiral ⟨n, n, g⟩ none (-speed) = .ok s') (x : List ℝ)
    (hx : x.length = n) : s'.row (s.row x) = x := by
  rw [spiral_none] at h h'
  refine spiral_undo (g := g) (m := 1) (speed := speed) hg (by simp) ?_ ?_ x hx
  · rw [spiral_some]; exact h
  · rw [spiral_some, Matrix.one_mul, Matrix.transpose_one, Matrix.mul_one]; exact h'

/-- **C10**: what the spiral does for a canonical generator: it turns the plane of the coordinates `i` and `j` by the
angle `speed * ‖x‖²`. -/
theorem spiral_turns {i j : Fin n} (hij : i < j) (speed : ℝ) : ∃ g s, soGenerator n i j = .ok g ∧
    spiral ⟨n, n, g⟩ none speed = .ok s ∧
      ∀ x, s.row (List.ofFn x) = List.ofFn (turn i j (speed * sumSq x) x) := by
  refine ⟨_, _, soGenerator_eq_planeGen i j hij, spiral_none _ speed, fun x => ?_⟩
  have hvec : toVec n (List.ofFn x) = x := by funext i; simp [toVec]
  show List.ofFn (SpiralObj.call ⟨n, 1, (planeGen i j).map (· * speed)⟩ (toVec n (List.ofFn x))) = _
  rw [hvec, SpiralObj.call_eq]
  show List.ofFn ((1 : Matrix (Fin n) (Fin n) ℝ) *ᵥ windBy ((planeGen i j).map (· * speed)) x) = _
  have e : ((planeGen i j).map (· * speed)).map (· * (x ⬝ᵥ x)) = (speed * (x ⬝ᵥ x)) • planeGen i j := by
    ext a b; simp; ring
  rw [Matrix.one_mulVec, ← exp_planeGen_mulVec i j hij.ne, sumSq_eq, ← e]
  rfl

/-- The example in the documentation: speed `π/2` sends `(1, 0)` to `(0, 1)`. -/
example : ∃ g s, soGenerator 2 0 1 = .ok g ∧ spiral ⟨2, 2, g⟩ none (Real.pi / 2) = .ok s ∧ s.row [1, 0] = [0, 1] := by
  obtain ⟨g, s, h1, h2, h3⟩ := spiral_turns (n := 2) (i := 0) (j := 1) (by decide) (Real.pi / 2)
  exact ⟨g, s, h1, h2, by simpa [turn, sumSq, List.ofFn_succ] using h3 ![1, 0]⟩

/-- An orthogonal `initial` matrix that is not the identity, with a non-zero antisymmetric generator. -/
example : ∃ s, spiral ⟨2, 2, planeGen 0 1⟩ (some ⟨2, 2, !![0, -1; 1, 0]⟩) 3 = .ok s ∧
    ∀ x, sumSq (s.call x) = sumSq x := by
  refine ⟨_, spiral_some _ _ _, spiral_norm (spiral_some _ _ 3) (planeGen_skew 0 1) ?_⟩
  intro m hm
  obtain rfl : !![0, -1; 1, 0] = m := by simpa using hm
  ext i j
  fin_cases i <;> fin_cases j <;> simp [Matrix.mul_apply, Fin.sum_univ_two]

/-- **C10**: the canonical generator: which indices are accepted, and what the matrix is. -/
theorem soGenerator_spec (n : ℕ) (i j : ℤ) :
    ((∃ g, soGenerator n i j = .ok g) ↔ 0 ≤ i ∧ i < j ∧ j < n) ∧
    (¬ (0 ≤ i ∧ i < j ∧ j < n) → soGenerator n i j = .error .valueError) ∧
    ∀ g, soGenerator n i j = .ok g → gᵀ = -g ∧ ∀ a b : Fin n,
      ((a : ℤ) = i ∧ (b : ℤ) = j → g a b = -1) ∧ ((a : ℤ) = j ∧ (b : ℤ) = i → g a b = 1) ∧
      (¬ ((a : ℤ) = i ∧ (b : ℤ) = j) → ¬ ((a : ℤ) = j ∧ (b : ℤ) = i) → g a b = 0) := by
  by_cases h : 0 ≤ i ∧ i < j ∧ j < n
  · refine ⟨⟨fun _ => h, fun _ => ⟨_, soGenerator_eq h⟩⟩, fun h' => absurd h h', fun g hg => ?_⟩
    rw [soGenerator_eq h] at hg
    obtain rfl := Except.ok.inj hg
    refine ⟨?_, fun a b => ⟨?_, ?_, ?_⟩⟩
    · ext a b
      show (if (b : ℤ) = j ∧ (a : ℤ) = i then (1 : ℝ) else if (b : ℤ) = i ∧ (a : ℤ) = j then -1 else 0)
        = -(if (a : ℤ) = j ∧ (b : ℤ) = i then (1 : ℝ) else if (a : ℤ) = i ∧ (b : ℤ) = j then -1 else 0)
      split_ifs <;> first | omega | simp
    · rintro ⟨h1, h2⟩
      beta_reduce
      rw [if_neg (by omega), if_pos ⟨h1, h2⟩]
    · rintro ⟨h1, h2⟩
      beta_reduce
      rw [if_pos ⟨h1, h2⟩]
    · intro h1 h2
      beta_reduce
      rw [if_neg h2, if_neg h1]
  · have hf : soGenerator n i j = .error .valueError := by
      unfold soGenerator
      split_ifs <;> rfl
    refine ⟨⟨?_, fun h' => absurd h' h⟩, fun _ => hf, fun g hg => ?_⟩
    · rintro ⟨g, hg⟩
      rw [hf] at hg
      cases hg
    · rw [hf] at hg
      cases hg

example : (∃ g, soGenerator 3 1 2 = .ok g) ∧ soGenerator 3 2 1 = .error .valueError ∧
    soGenerator 1 0 1 = .error .valueError :=
  ⟨(soGenerator_spec 3 1 2).1.2 (by norm_num), (soGenerator_spec 3 2 1).2.1 (by norm_num),
    (soGenerator_spec 1 0 1).2.1 (by norm_num)⟩

/-- **C10**: `skew_symmetrize` returns the antisymmetric part: the result is antisymmetric and what is left is
symmetric.  Antisymmetric matrices are unchanged. -/
theorem skewSymmetrize_spec (a : Matrix (Fin n) (Fin n) ℝ) :
    (skewSymmetrize a)ᵀ = -skewSymmetrize a ∧ (a - skewSymmetrize a)ᵀ = a - skewSymmetrize a ∧
      (aᵀ = -a → skewSymmetrize a = a) := by
  refine ⟨?_, ?_, fun h => ?_⟩
  · ext i j; simp [skewSymmetrize]; ring
  · ext i j; simp [skewSymmetrize]; ring
  · unfold skewSymmetrize
    rw [h]
    ext i j; simp; ring

example : skewSymmetrize !![1, 2; 4, 3] = !![0, -1; 1, 0] := by
  ext i j
  fin_cases i <;> fin_cases j <;> norm_num [skewSymmetrize]

end BMI.Samplers
