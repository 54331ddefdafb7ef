import Verif.Lemmas.Concat

/-! What a successful construction of a sampler says. -/

namespace BMI.Samplers

open MeasureTheory

variable {Key : Type}

/-! ## Inversion of the constructors -/

theorem validateDimensions_ok {a b : ℤ} (h : validateDimensions a b = .ok ()) : 1 ≤ a ∧ 1 ≤ b := by
  unfold validateDimensions at h
  split_ifs at h <;> omega

theorem validateDimensions_of {a b : ℤ} (ha : 1 ≤ a) (hb : 1 ≤ b) : validateDimensions a b = .ok () := by
  unfold validateDimensions
  rw [if_neg (by omega), if_neg (by omega)]

theorem validateDimensions_cases (a b : ℤ) :
    validateDimensions a b = .ok () ∨ validateDimensions a b = .error .valueError := by
  unfold validateDimensions
  split_ifs <;> simp

theorem transformed_inv {base s : Sampler Key} {tx ty : Transform} {ax ay : ℤ}
    (h : transformed base tx ty ax ay = .ok s) :
    0 ≤ ax ∧ 0 ≤ ay ∧ ∃ dx dy : ℕ, base.dimX = .ok dx ∧ base.dimY = .ok dy ∧ 1 ≤ dx + ax ∧ 1 ≤ dy + ay ∧
      s = { dimX := .ok (dx + ax).toNat, dimY := .ok (dy + ay).toNat,
            sample := fun n rng => do
              let xy ← base.sample n rng
              .ok (tx.vectorized xy.1, ty.vectorized xy.2),
            mi := base.mi } := by
  unfold transformed at h
  split_ifs at h with hneg
  cases hx : base.dimX with
  | error e => simp only [hx] at h; exact absurd h (by nofun)
  | ok dx =>
    cases hy : base.dimY with
    | error e => simp only [hx, hy] at h; exact absurd h (by nofun)
    | ok dy =>
      simp only [hx, hy] at h
      rcases validateDimensions_cases (dx + ax) (dy + ay) with hv | hv
      · have hh := validateDimensions_ok hv
        refine ⟨by omega, by omega, dx, dy, rfl, rfl, hh.1, hh.2, ?_⟩
        have h' : (Except.bind (validateDimensions (dx + ax) (dy + ay)) fun _ => _) = Except.ok s := h
        rw [hv] at h'
        exact (Except.ok.inj h').symm
      · have h' : (Except.bind (validateDimensions (dx + ax) (dy + ay)) fun _ => _) = Except.ok s := h
        rw [hv] at h'
        exact absurd h' (by nofun)

theorem transformed_of {base : Sampler Key} {tx ty : Transform} {ax ay : ℤ} {dx dy : ℕ}
    (h1 : 0 ≤ ax) (h2 : 0 ≤ ay) (hx : base.dimX = .ok dx) (hy : base.dimY = .ok dy) (p1 : 0 < dx) (p2 : 0 < dy) :
    transformed base tx ty ax ay = .ok
      { dimX := .ok (dx + ax).toNat, dimY := .ok (dy + ay).toNat,
        sample := fun n rng => do
          let xy ← base.sample n rng
          .ok (tx.vectorized xy.1, ty.vectorized xy.2),
        mi := base.mi } := by
  unfold transformed
  rw [if_neg (by omega)]
  simp only [hx, hy]
  have hv := validateDimensions_of (a := dx + ax) (b := dy + ay) (by omega) (by omega)
  show (Except.bind (validateDimensions (dx + ax) (dy + ay)) fun _ => _) = _
  rw [hv]
  rfl

theorem concatenation_inv {R : JaxRandom Key} {ss : List (Sampler Key)} {s : Sampler Key}
    (h : concatenation R ss = .ok s) : ∃ dx dy : ℕ, sumDims (ss.map (·.dimX)) = .ok dx ∧
      sumDims (ss.map (·.dimY)) = .ok dy ∧ 0 < dx ∧ 0 < dy ∧
      s = { dimX := .ok dx, dimY := .ok dy,
            sample := fun n rng => do
              let parts ← sampleAll n ((List.ofFn (R.split (castToRng R rng) ss.length)).zip ss)
              let x ← hstack parts.1
              let y ← hstack parts.2
              .ok (x, y),
            mi := (ss.map (·.mi)).sum } := by
  unfold concatenation at h
  cases hx : sumDims (ss.map (·.dimX)) with
  | error e => simp only [hx] at h; exact absurd h (by nofun)
  | ok dx =>
    cases hy : sumDims (ss.map (·.dimY)) with
    | error e => simp only [hx, hy] at h; exact absurd h (by nofun)
    | ok dy =>
      simp only [hx, hy] at h
      have h' : (Except.bind (validateDimensions dx dy) fun _ => _) = Except.ok s := h
      rcases validateDimensions_cases dx dy with hv | hv
      · have hh := validateDimensions_ok hv
        refine ⟨dx, dy, rfl, rfl, by omega, by omega, ?_⟩
        rw [hv] at h'
        exact (Except.ok.inj h').symm
      · rw [hv] at h'
        exact absurd h' (by nofun)

theorem concatenation_of (R : JaxRandom Key) {ss : List (Sampler Key)} {dx dy : ℕ}
    (hx : sumDims (ss.map (·.dimX)) = .ok dx) (hy : sumDims (ss.map (·.dimY)) = .ok dy) (p1 : 0 < dx) (p2 : 0 < dy) :
    concatenation R ss = .ok
      { dimX := .ok dx, dimY := .ok dy,
        sample := fun n rng => do
          let parts ← sampleAll n ((List.ofFn (R.split (castToRng R rng) ss.length)).zip ss)
          let x ← hstack parts.1
          let y ← hstack parts.2
          .ok (x, y),
        mi := (ss.map (·.mi)).sum } := by
  unfold concatenation
  simp only [hx, hy]
  have hv := validateDimensions_of (a := dx) (b := dy) (by omega) (by omega)
  show (Except.bind (validateDimensions dx dy) fun _ => _) = _
  rw [hv]
  rfl

theorem splitMultinormal_inv {R : JaxRandom Key} {dimX dimY : ℤ} {cov : Arr} {mean : Option (List ℝ)}
    {s : Sampler Key} (h : splitMultinormal R dimX dimY cov mean = .ok s) :
    ∃ dx dy : ℕ, (dx : ℤ) = dimX ∧ (dy : ℤ) = dimY ∧ 0 < dx ∧ 0 < dy ∧
      ∃ μ : Fin (dx + dy) → ℝ, μ = toVec (dx + dy) (mean.getD (List.replicate (dx + dy) 0)) ∧
      s.dimX = .ok dx ∧ s.dimY = .ok dy ∧ ∀ n rng,
        s.sample n rng = .ok
          ((rowsOf (R.multivariateNormal (castToRng R rng) n (dx + dy) μ (toMatrix (dx + dy) cov))).map (·.take dx),
           (rowsOf (R.multivariateNormal (castToRng R rng) n (dx + dy) μ (toMatrix (dx + dy) cov))).map
             (·.drop dx)) := by
  unfold splitMultinormal at h
  have h' : (Except.bind (validateDimensions dimX dimY) fun _ => _) = Except.ok s := h
  rcases validateDimensions_cases dimX dimY with hv | hv
  swap
  · rw [hv] at h'; exact absurd h' (by nofun)
  have hh := validateDimensions_ok hv
  rw [hv] at h'
  simp only [Except.bind] at h'
  split_ifs at h'
  have hc : ∀ {n : ℕ} (m : Matrix (Fin n) (Fin n) ℝ),
      canBeCovariance m = .ok () ∨ canBeCovariance m = .error .valueError := by
    intro n m
    unfold canBeCovariance
    split_ifs <;> simp
  have h2 : (Except.bind (canBeCovariance (toMatrix (dimX.toNat + dimY.toNat) cov)) fun _ =>
      Except.bind (canBeCovariance (blockX _)) fun _ => Except.bind (canBeCovariance (blockY _)) fun _ => _)
      = Except.ok s := h'
  rcases hc (toMatrix (dimX.toNat + dimY.toNat) cov) with h3 | h3
  swap
  · rw [h3] at h2; exact absurd h2 (by nofun)
  rw [h3] at h2
  rcases hc (blockX (toMatrix (dimX.toNat + dimY.toNat) cov)) with h4 | h4
  swap
  · simp only [Except.bind, h4] at h2; exact absurd h2 (by nofun)
  rcases hc (blockY (toMatrix (dimX.toNat + dimY.toNat) cov)) with h5 | h5
  swap
  · simp only [Except.bind, h4, h5] at h2; exact absurd h2 (by nofun)
  simp only [Except.bind, h4, h5] at h2
  have h6 := (Except.ok.inj h2).symm
  subst h6
  exact ⟨dimX.toNat, dimY.toNat, by omega, by omega, by omega, by omega, _, rfl, rfl, rfl, fun _ _ => rfl⟩

theorem bivariateNormal_inv {R : JaxRandom Key} {c sx sy mx my : ℝ} {s : Sampler Key}
    (h : bivariateNormal R c sx sy mx my = .ok s) : ∃ s', splitMultinormal R 1 1
        [[sx ^ 2, c * sx * sy], [c * sx * sy, sy ^ 2]] (some [mx, my]) = .ok s' ∧
      s = { dimX := .ok 1, dimY := .ok 1, sample := fun n rng => s'.sample n rng,
            mi := -0.5 * Real.log (1 - c ^ 2) } := by
  unfold bivariateNormal at h
  split_ifs at h
  cases hs : splitMultinormal R 1 1 [[sx ^ 2, c * sx * sy], [c * sx * sy, sy ^ 2]] (some [mx, my]) with
  | error e => simp only [hs] at h; exact absurd h (by nofun)
  | ok s' =>
    simp only [hs] at h
    exact ⟨s', rfl, (Except.ok.inj h).symm⟩

end BMI.Samplers
