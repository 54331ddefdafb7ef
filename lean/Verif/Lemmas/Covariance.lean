import Verif.Lemmas.SamplerInv
import Mathlib.Analysis.Matrix.PosDef

/-! When `_can_be_covariance` and the multinormal constructor succeed. -/

namespace BMI.Samplers

variable {Key : Type}

theorem eigvals_symm {n : ℕ} {m : Matrix (Fin n) (Fin n) ℝ} (h : m.IsHermitian) :
    eigvals m = Finset.univ.val.map fun i => (h.eigenvalues i : ℂ) := by
  unfold eigvals
  have e : (m.map Complex.ofReal).charpoly = m.charpoly.map Complex.ofRealHom := Matrix.charpoly_map m Complex.ofRealHom
  rw [e, h.charpoly_eq, Polynomial.map_prod, Polynomial.roots_prod]
  · simp
  · simp [Finset.prod_ne_zero_iff, Polynomial.X_sub_C_ne_zero]

theorem numpyPos_ofReal (x : ℝ) : numpyPos (x : ℂ) ↔ 0 < x := by simp [numpyPos]

theorem canBeCovariance_iff {n : ℕ} (hn : 0 < n) {m : Matrix (Fin n) (Fin n) ℝ} (h : m.IsHermitian) :
    canBeCovariance m = .ok () ↔ m.PosDef := by
  unfold canBeCovariance
  rw [if_neg (fun hc => hc ⟨0, hn⟩ ⟨0, hn⟩ rfl), h.posDef_iff_eigenvalues_pos, eigvals_symm h]
  have : (∀ z ∈ Finset.univ.val.map fun i => (h.eigenvalues i : ℂ), numpyPos z) ↔ ∀ i, 0 < h.eigenvalues i := by
    simp [numpyPos_ofReal]
  rw [← this]
  by_cases hh : ∀ z ∈ Finset.univ.val.map fun i => (h.eigenvalues i : ℂ), numpyPos z
  · rw [if_neg (not_not.2 hh)]
    exact ⟨fun _ => hh, fun _ => rfl⟩
  · rw [if_pos hh]
    exact ⟨fun h => absurd h (by nofun), fun h => absurd h hh⟩

theorem canBeCovariance_cases {n : ℕ} (m : Matrix (Fin n) (Fin n) ℝ) :
    canBeCovariance m = .ok () ∨ canBeCovariance m = .error .valueError := by
  unfold canBeCovariance
  split_ifs <;> simp

theorem blockX_posDef {dx dy : ℕ} {m : Matrix (Fin (dx + dy)) (Fin (dx + dy)) ℝ} (h : m.PosDef) : (blockX m).PosDef :=
  h.submatrix (Fin.castAdd_injective dx dy)

theorem blockY_posDef {dx dy : ℕ} {m : Matrix (Fin (dx + dy)) (Fin (dx + dy)) ℝ} (h : m.PosDef) : (blockY m).PosDef :=
  h.submatrix (Fin.natAdd_injective dy dx)

/-- The constructor, once every check has passed. -/
theorem splitMultinormal_of_checks (R : JaxRandom Key) (dx dy : ℕ) (hx : 0 < dx) (hy : 0 < dy) (cov : Arr)
    (mean : Option (List ℝ)) (hmean : (mean.getD (List.replicate (dx + dy) 0)).length = dx + dy)
    (hs : hasShape cov (dx + dy) (dx + dy)) (h1 : canBeCovariance (toMatrix (dx + dy) cov) = .ok ())
    (h2 : canBeCovariance (blockX (toMatrix (dx + dy) cov)) = .ok ())
    (h3 : canBeCovariance (blockY (toMatrix (dx + dy) cov)) = .ok ()) :
    splitMultinormal R dx dy cov mean = .ok
      { dimX := .ok dx
        dimY := .ok dy
        sample := fun n rng =>
          .ok ((rowsOf (R.multivariateNormal (castToRng R rng) n (dx + dy)
                  (toVec (dx + dy) (mean.getD (List.replicate (dx + dy) 0))) (toMatrix (dx + dy) cov))).map (·.take dx),
               (rowsOf (R.multivariateNormal (castToRng R rng) n (dx + dy)
                  (toVec (dx + dy) (mean.getD (List.replicate (dx + dy) 0))) (toMatrix (dx + dy) cov))).map (·.drop dx))
        mi := multinormalMI (toMatrix (dx + dy) cov) } := by
  unfold splitMultinormal
  show (Except.bind (validateDimensions dx dy) fun _ => _) = _
  rw [validateDimensions_of (by omega) (by omega)]
  simp only [Except.bind, Int.toNat_natCast]
  rw [if_neg (by simpa using hmean), if_neg (by simpa using hs)]
  show (Except.bind (canBeCovariance _) fun _ => Except.bind (canBeCovariance (blockX _)) fun _ =>
    Except.bind (canBeCovariance (blockY _)) fun _ => _) = _
  rw [h1]
  simp only [Except.bind, h2, h3]

theorem splitMultinormal_of (R : JaxRandom Key) (dx dy : ℕ) (hx : 0 < dx) (hy : 0 < dy) (cov : Arr)
    (mean : Option (List ℝ)) (hmean : (mean.getD (List.replicate (dx + dy) 0)).length = dx + dy)
    (hs : hasShape cov (dx + dy) (dx + dy)) (hpos : (toMatrix (dx + dy) cov).PosDef) :
    splitMultinormal R dx dy cov mean = .ok
      { dimX := .ok dx
        dimY := .ok dy
        sample := fun n rng =>
          .ok ((rowsOf (R.multivariateNormal (castToRng R rng) n (dx + dy)
                  (toVec (dx + dy) (mean.getD (List.replicate (dx + dy) 0))) (toMatrix (dx + dy) cov))).map (·.take dx),
               (rowsOf (R.multivariateNormal (castToRng R rng) n (dx + dy)
                  (toVec (dx + dy) (mean.getD (List.replicate (dx + dy) 0))) (toMatrix (dx + dy) cov))).map (·.drop dx))
        mi := multinormalMI (toMatrix (dx + dy) cov) } :=
  splitMultinormal_of_checks R dx dy hx hy cov mean hmean hs ((canBeCovariance_iff (by omega) hpos.1).2 hpos)
    ((canBeCovariance_iff hx (blockX_posDef hpos).1).2 (blockX_posDef hpos))
    ((canBeCovariance_iff hy (blockY_posDef hpos).1).2 (blockY_posDef hpos))

/-- Success of the constructor gives every check; otherwise the error is a `ValueError`. -/
theorem splitMultinormal_checks (R : JaxRandom Key) (dimX dimY : ℤ) (cov : Arr) (mean : Option (List ℝ)) :
    (∃ s, splitMultinormal R dimX dimY cov mean = .ok s ∧ 1 ≤ dimX ∧ 1 ≤ dimY ∧
      (mean.getD (List.replicate (dimX.toNat + dimY.toNat) 0)).length = dimX.toNat + dimY.toNat ∧
      hasShape cov (dimX.toNat + dimY.toNat) (dimX.toNat + dimY.toNat) ∧
      canBeCovariance (toMatrix (dimX.toNat + dimY.toNat) cov) = .ok ()) ∨
    splitMultinormal R dimX dimY cov mean = .error .valueError := by
  unfold splitMultinormal
  rcases validateDimensions_cases dimX dimY with hv | hv
  swap
  · right
    show (Except.bind (validateDimensions dimX dimY) fun _ => _) = _
    rw [hv]; rfl
  obtain ⟨hx, hy⟩ := validateDimensions_ok hv
  show (∃ s, (Except.bind (validateDimensions dimX dimY) fun _ => _) = Except.ok s ∧ _) ∨
    (Except.bind (validateDimensions dimX dimY) fun _ => _) = _
  rw [hv]
  simp only [Except.bind]
  by_cases h1 : (mean.getD (List.replicate (dimX.toNat + dimY.toNat) 0)).length = dimX.toNat + dimY.toNat
  swap
  · rw [if_pos h1]
    exact .inr rfl
  by_cases h2 : hasShape cov (dimX.toNat + dimY.toNat) (dimX.toNat + dimY.toNat)
  swap
  · rw [if_neg (not_not.2 h1), if_pos h2]
    exact .inr rfl
  rw [if_neg (not_not.2 h1), if_neg (not_not.2 h2)]
  rcases canBeCovariance_cases (toMatrix (dimX.toNat + dimY.toNat) cov) with h3 | h3
  swap
  · right
    show (Except.bind (canBeCovariance _) fun _ => _) = _
    rw [h3]; rfl
  rcases canBeCovariance_cases (blockX (toMatrix (dimX.toNat + dimY.toNat) cov)) with h4 | h4
  swap
  · right
    show (Except.bind (canBeCovariance _) fun _ => Except.bind (canBeCovariance (blockX _)) fun _ => _) = _
    rw [h3]
    simp only [Except.bind, h4]
  rcases canBeCovariance_cases (blockY (toMatrix (dimX.toNat + dimY.toNat) cov)) with h5 | h5
  swap
  · right
    show (Except.bind (canBeCovariance _) fun _ => Except.bind (canBeCovariance (blockX _)) fun _ =>
      Except.bind (canBeCovariance (blockY _)) fun _ => _) = _
    rw [h3]
    simp only [Except.bind, h4, h5]
  left
  show ∃ s, (Except.bind (canBeCovariance _) fun _ => Except.bind (canBeCovariance (blockX _)) fun _ =>
      Except.bind (canBeCovariance (blockY _)) fun _ => _) = Except.ok s ∧ _
  rw [h3]
  simp only [Except.bind, h4, h5]
  exact ⟨_, rfl, hx, hy, h1, h2, trivial⟩

end BMI.Samplers
