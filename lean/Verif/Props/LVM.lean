import Verif.Lemmas.MatrixUtils
import Verif.Spec.MatrixUtils
import Mathlib.Analysis.Matrix.Order

/-! Properties C15 and C16 (Gaussian latent-variable models), over /repo/src/bmi/samplers/_matrix_utils.py:111-412. -/

namespace BMI.MatrixUtils

open BMI.Samplers Matrix

/-! ## Helpers -/

theorem denseCovariance_apply (m : GaussianLVM) (p q : Fin (m.dimX + m.dimY)) : m.denseCovariance p q
    = m.alpha ^ 2 + (if (p : ℕ) < m.dimX ∧ (q : ℕ) < m.dimX then m.betaX ^ 2 else 0)
      + (if m.dimX ≤ (p : ℕ) ∧ m.dimX ≤ (q : ℕ) then m.betaY ^ 2 else 0) := by
  show (if m.dimX ≤ (p : ℕ) ∧ m.dimX ≤ (q : ℕ) then
      (if (p : ℕ) < m.dimX ∧ (q : ℕ) < m.dimX then m.alpha ^ 2 + m.betaX ^ 2 else m.alpha ^ 2) + m.betaY ^ 2
    else (if (p : ℕ) < m.dimX ∧ (q : ℕ) < m.dimX then m.alpha ^ 2 + m.betaX ^ 2 else m.alpha ^ 2)) = _
  split_ifs <;> ring

/-- The closed form of the covariance. -/
theorem covariance_entries (m : GaussianLVM) (hx : m.nInteracting ≤ m.dimX) (hy : m.nInteracting ≤ m.dimY) :
    ∃ c, m.covariance = .ok c ∧
      (∀ i j : Fin m.dimX, c (Fin.castAdd _ i) (Fin.castAdd _ j) = m.alpha ^ 2 + m.betaX ^ 2 + if (i : ℕ) = j then
        m.epsilonX ^ 2 + (if (i : ℕ) < m.nInteracting then m.lambd ^ 2 else m.etaX ^ 2) else 0) ∧
      (∀ i j : Fin m.dimY, c (Fin.natAdd _ i) (Fin.natAdd _ j) = m.alpha ^ 2 + m.betaY ^ 2 + if (i : ℕ) = j then
        m.epsilonY ^ 2 + (if (i : ℕ) < m.nInteracting then m.lambd ^ 2 else m.etaY ^ 2) else 0) ∧
      (∀ (i : Fin m.dimX) (j : Fin m.dimY), c (Fin.castAdd _ i) (Fin.natAdd _ j)
        = m.alpha ^ 2 + if (i : ℕ) = j ∧ (i : ℕ) < m.nInteracting then m.lambd ^ 2 else 0) ∧
      (∀ (i : Fin m.dimX) (j : Fin m.dimY), c (Fin.natAdd _ j) (Fin.castAdd _ i)
        = m.alpha ^ 2 + if (i : ℕ) = j ∧ (i : ℕ) < m.nInteracting then m.lambd ^ 2 else 0) := by
  unfold GaussianLVM.covariance
  show ∃ c, (List.foldlM _ _ _ >>= fun a => List.foldlM _ a _ >>= fun a => List.foldlM _ a _ >>= fun a =>
    List.foldlM _ a _ >>= fun a => List.foldlM _ a _) = Except.ok c ∧ _
  simp only [← List.foldlM_append]
  rw [foldlM_addEntry]
  · refine ⟨_, rfl, fun i j => ?_, fun i j => ?_, fun i j => ?_, fun i j => ?_⟩ <;> beta_reduce <;>
      rw [denseCovariance_apply] <;>
      simp only [increments_append, List.range_eq_range', increments_diag] <;>
      rw [← List.range_eq_range', increments_pairs _ _ _ hx] <;>
      simp only [Fin.val_castAdd, Fin.val_natAdd] <;>
      have := i.2 <;> have := j.2
    · rw [if_pos (by omega), if_neg (by omega), if_neg (c := _ ∧ m.dimX ≤ (i : ℕ) ∧ _) (by omega),
        if_neg (c := _ ∧ m.nInteracting + m.dimX ≤ (i : ℕ) ∧ _) (by omega)]
      by_cases h1 : (i : ℕ) = j
      · rw [if_pos (by omega), if_pos h1]
        by_cases h2 : (i : ℕ) < m.nInteracting
        · rw [if_pos (by omega), if_neg (by omega), if_pos h2]
          ring
        · rw [if_neg (by omega), if_pos (by omega), if_neg h2]
          ring
      · rw [if_neg (by omega), if_neg (by omega), if_neg (by omega), if_neg h1]
        ring
    · rw [if_neg (by omega), if_pos (by omega), if_neg (c := _ ∧ 0 ≤ _ ∧ _) (by omega)]
      by_cases h1 : (i : ℕ) = j
      · rw [if_pos (by omega), if_pos h1]
        by_cases h2 : (i : ℕ) < m.nInteracting
        · rw [if_pos (by omega), if_neg (by omega), if_neg (by omega), if_pos h2]
          ring
        · rw [if_neg (by omega), if_neg (by omega), if_pos (by omega), if_neg h2]
          ring
      · rw [if_neg (by omega), if_neg (by omega), if_neg (by omega), if_neg (by omega), if_neg h1]
        ring
    · rw [if_neg (by omega), if_neg (by omega), if_neg (by omega), if_neg (by omega)]
      by_cases h1 : (i : ℕ) = j ∧ (i : ℕ) < m.nInteracting
      · rw [if_pos (by omega), if_neg (by omega), if_neg (by omega), if_pos h1]
        ring
      · rw [if_neg (by omega), if_neg (by omega), if_neg (by omega), if_neg h1]
        ring
    · rw [if_neg (by omega), if_neg (by omega), if_neg (by omega), if_neg (by omega)]
      by_cases h1 : (i : ℕ) = j ∧ (i : ℕ) < m.nInteracting
      · rw [if_pos (by omega), if_neg (by omega), if_neg (by omega), if_pos h1]
        ring
      · rw [if_neg (by omega), if_neg (by omega), if_neg (by omega), if_neg h1]
        ring
  · intro w hw
    simp only [List.mem_append, List.mem_map, List.mem_flatMap, List.mem_range, List.mem_range'_1, List.mem_cons,
      List.not_mem_nil, or_false] at hw
    rcases hw with ⟨i, hi, rfl⟩ | ⟨i, hi, rfl⟩ | ⟨i, hi, rfl | rfl | rfl | rfl⟩ | ⟨i, hi, rfl⟩ | ⟨i, hi, rfl⟩ <;>
      (dsimp only; omega)

theorem length_zCoefficients (m : GaussianLVM) (i : ℕ) : (m.zCoefficients i).length = m.nInteracting := by
  unfold GaussianLVM.zCoefficients
  dsimp only
  split_ifs <;> simp [length_zeros]

theorem length_mixingX (m : GaussianLVM) (i : ℕ) : (m.mixingX i).length = m.nLatent := by
  unfold GaussianLVM.mixingX GaussianLVM.nLatent
  dsimp only
  split_ifs <;> simp [length_zeros, length_zCoefficients] <;> omega

theorem length_mixingY (m : GaussianLVM) (i : ℕ) : (m.mixingY i).length = m.nLatent := by
  unfold GaussianLVM.mixingY GaussianLVM.nLatent
  dsimp only
  split_ifs <;> simp [length_zeros, length_zCoefficients] <;> omega

theorem dot_z (m : GaussianLVM) (i j : ℕ) :
    dot (m.zCoefficients i) (m.zCoefficients j) = if i = j ∧ i < m.nInteracting then m.lambd ^ 2 else 0 := by
  unfold GaussianLVM.zCoefficients
  dsimp only
  split_ifs with h1 h2 h3 h3 <;> simp only [dot_set, dot_zeros_left, dot_zeros_right] <;> (try split_ifs) <;>
    first | omega | rfl | ring

theorem dot_ends (k n i j : ℕ) (v : ℝ) (hi : i < n) (hj : j < n) :
    dot (if i ≥ k then (zeros (n - k)).set (i - k) v else zeros (n - k))
      (if j ≥ k then (zeros (n - k)).set (j - k) v else zeros (n - k)) = if i = j ∧ k ≤ i then v ^ 2 else 0 := by
  split_ifs with h1 h2 h3 h3 <;> simp only [dot_set, dot_zeros_left, dot_zeros_right] <;> (try split_ifs) <;>
    first | omega | rfl | ring

theorem length_ends (k n i : ℕ) (v : ℝ) :
    (if i ≥ k then (zeros (n - k)).set (i - k) v else zeros (n - k)).length = n - k := by
  split_ifs <;> simp [length_zeros]

theorem dot_mixingX (m : GaussianLVM) (i j : ℕ) (hi : i < m.dimX) (hj : j < m.dimX) :
    dot (m.mixingX i) (m.mixingX j) = m.alpha ^ 2 + m.betaX ^ 2 + if i = j then
        m.epsilonX ^ 2 + (if i < m.nInteracting then m.lambd ^ 2 else m.etaX ^ 2) else 0 := by
  unfold GaussianLVM.mixingX
  dsimp only
  rw [dot_append, dot_append, dot_append, dot_append, dot_append, dot_z, dot_set, dot_ends _ _ _ _ _ hi hj,
    dot_zeros_left, dot_zeros_left]
  · have : dot [m.alpha, m.betaX, 0] [m.alpha, m.betaX, 0] = m.alpha ^ 2 + m.betaX ^ 2 := by
      simp [dot]
      ring
    rw [this]
    split_ifs <;> first | omega | ring
  all_goals simp [length_zeros, length_zCoefficients, -ge_iff_le, length_ends]

theorem dot_mixingY (m : GaussianLVM) (i j : ℕ) (hi : i < m.dimY) (hj : j < m.dimY) :
    dot (m.mixingY i) (m.mixingY j) = m.alpha ^ 2 + m.betaY ^ 2 + if i = j then
        m.epsilonY ^ 2 + (if i < m.nInteracting then m.lambd ^ 2 else m.etaY ^ 2) else 0 := by
  unfold GaussianLVM.mixingY
  dsimp only
  rw [dot_append, dot_append, dot_append, dot_append, dot_append, dot_z, dot_set, dot_ends _ _ _ _ _ hi hj,
    dot_zeros_left, dot_zeros_left]
  · have : dot [m.alpha, 0, m.betaY] [m.alpha, 0, m.betaY] = m.alpha ^ 2 + m.betaY ^ 2 := by
      simp [dot]
      ring
    rw [this]
    split_ifs <;> first | omega | ring
  all_goals simp [length_zeros, length_zCoefficients, -ge_iff_le, length_ends]

theorem dot_mixingXY (m : GaussianLVM) (i j : ℕ) :
    dot (m.mixingX i) (m.mixingY j) = m.alpha ^ 2 + if i = j ∧ i < m.nInteracting then m.lambd ^ 2 else 0 := by
  unfold GaussianLVM.mixingX GaussianLVM.mixingY
  dsimp only
  rw [dot_append, dot_append, dot_append, dot_append, dot_append, dot_z, dot_zeros_left, dot_zeros_left, dot_zeros_right,
    dot_zeros_right]
  · have : dot [m.alpha, m.betaX, 0] [m.alpha, 0, m.betaY] = m.alpha ^ 2 := by
      simp [dot]
      ring
    rw [this]
    ring
  all_goals simp [length_zeros, length_zCoefficients, -ge_iff_le, length_ends]

/-! ## C15 -/

/-- What `__post_init__` guarantees. -/
def GaussianLVM.Valid (m : GaussianLVM) : Prop := m.nInteracting ≤ m.dimX ∧ m.nInteracting ≤ m.dimY

/-- **C15**: the constructor accepts exactly `0 ≤ n_interacting ≤ min(dim_x, dim_y)`; missing parameters of Y are those
of X. -/
theorem gaussianLVM_spec (dimX dimY nInteracting : ℤ) (alpha lambd epsilonX : ℝ) (epsilonY : Option ℝ) (betaX : ℝ)
    (betaY : Option ℝ) (etaX : ℝ) (etaY : Option ℝ) :
    (0 ≤ nInteracting ∧ nInteracting ≤ dimX ∧ nInteracting ≤ dimY →
      ∃ m, gaussianLVM dimX dimY nInteracting alpha lambd epsilonX epsilonY betaX betaY etaX etaY = .ok m ∧ m.Valid ∧
        (m.dimX : ℤ) = dimX ∧ (m.dimY : ℤ) = dimY ∧ (m.nInteracting : ℤ) = nInteracting ∧ m.alpha = alpha ∧
        m.lambd = lambd ∧ m.epsilonX = epsilonX ∧ m.betaX = betaX ∧ m.etaX = etaX ∧
        (epsilonY = none → m.epsilonY = epsilonX) ∧ (∀ e, epsilonY = some e → m.epsilonY = e) ∧
        (betaY = none → m.betaY = betaX) ∧ (∀ e, betaY = some e → m.betaY = e) ∧
        (etaY = none → m.etaY = etaX) ∧ (∀ e, etaY = some e → m.etaY = e)) ∧
    (¬ (0 ≤ nInteracting ∧ nInteracting ≤ dimX ∧ nInteracting ≤ dimY) →
      gaussianLVM dimX dimY nInteracting alpha lambd epsilonX epsilonY betaX betaY etaX etaY = .error .valueError) := by
  constructor
  · rintro ⟨h1, h2, h3⟩
    unfold gaussianLVM
    rw [if_neg (by simp; omega)]
    refine ⟨_, rfl, ⟨by simp; omega, by simp; omega⟩, by simp; omega, by simp; omega, by simp; omega, rfl, rfl, rfl, rfl,
      rfl, ?_, ?_, ?_, ?_, ?_, ?_⟩ <;> intros <;> simp [*]
  · intro h
    unfold gaussianLVM
    rw [if_pos]
    rw [le_min_iff]
    exact h

/-- The coefficient of latent variable `l` in the coordinate `p`. -/
def coefficient {m : GaussianLVM} (rows : Arr) : Matrix (Fin (m.dimX + m.dimY)) (Fin m.nLatent) ℝ :=
  fun p l => (rows.getD p []).getD l 0

/-- **C15**: `mixing` has a row of length `n_latent` for every coordinate, and `covariance` is the covariance of these
combinations of independent standard latent variables. -/
theorem covariance_eq_mixing (m : GaussianLVM) (hm : m.Valid) (h0 : 0 < m.dimX + m.dimY) :
    ∃ rows c, m.mixing = .ok rows ∧ m.covariance = .ok c ∧ rows.length = m.dimX + m.dimY ∧
      (∀ row ∈ rows, row.length = m.nLatent) ∧ c = coefficient (m := m) rows * (coefficient (m := m) rows)ᵀ := by
  obtain ⟨c, hc, hxx, hyy, hxy, hyx⟩ := covariance_entries m hm.1 hm.2
  refine ⟨_, c, if_neg h0.ne', hc, by simp, ?_, ?_⟩
  · intro row hr
    simp only [List.mem_append, List.mem_map, List.mem_range] at hr
    obtain ⟨i, -, rfl⟩ | ⟨i, -, rfl⟩ := hr
    · exact length_mixingX m i
    · exact length_mixingY m i
  · have ex : ∀ i : Fin m.dimX, ((List.range m.dimX).map m.mixingX ++ (List.range m.dimY).map m.mixingY).getD
        (Fin.castAdd m.dimY i) [] = m.mixingX i := by
      intro i
      simp [List.getD_eq_getElem?_getD, List.getElem?_append, i.2]
    have ey : ∀ i : Fin m.dimY, ((List.range m.dimX).map m.mixingX ++ (List.range m.dimY).map m.mixingY).getD
        (Fin.natAdd m.dimX i) [] = m.mixingY i := by
      intro i
      simp [List.getD_eq_getElem?_getD, List.getElem?_append, i.2]
    ext p q
    rw [Matrix.mul_apply]
    have e : ∀ l, (coefficient (m := m) ((List.range m.dimX).map m.mixingX ++ (List.range m.dimY).map m.mixingY))ᵀ l q
        = coefficient (m := m) ((List.range m.dimX).map m.mixingX ++ (List.range m.dimY).map m.mixingY) q l := fun l => rfl
    simp only [e]
    show _ = ∑ l : Fin m.nLatent, List.getD (List.getD _ _ _) _ _ * List.getD (List.getD _ _ _) _ _
    induction p using Fin.addCases with
    | left i =>
      induction q using Fin.addCases with
      | left j =>
        rw [hxx, ex, ex, ← dot_eq_sum _ _ _ (length_mixingX m i) (length_mixingX m j), dot_mixingX m i j i.2 j.2]
      | right j =>
        rw [hxy, ex, ey, ← dot_eq_sum _ _ _ (length_mixingX m i) (length_mixingY m j), dot_mixingXY m i j]
    | right j =>
      induction q using Fin.addCases with
      | left i =>
        rw [hyx, ex, ey, ← dot_eq_sum _ _ _ (length_mixingY m j) (length_mixingX m i), dot_comm, dot_mixingXY m i j]
      | right i =>
        rw [hyy, ey, ey, ← dot_eq_sum _ _ _ (length_mixingY m j) (length_mixingY m i), dot_mixingY m j i j.2 i.2]

/-- **C15**: `n_latent = 3 + 2 (dim_x + dim_y) - n_interacting`, as documented. -/
theorem nLatent_eq (m : GaussianLVM) (hm : m.Valid) : (m.nLatent : ℤ) = 3 + 2 * (m.dimX + m.dimY) - m.nInteracting := by
  have := hm.1
  have := hm.2
  unfold GaussianLVM.nLatent
  omega

/-- A model with every kind of interaction. -/
example : ∃ m rows c, gaussianLVM 3 2 1 0.4 1 0.5 none 0.3 (some 0.7) 1.2 none = .ok m ∧ m.mixing = .ok rows ∧
    m.covariance = .ok c ∧ c = coefficient (m := m) rows * (coefficient (m := m) rows)ᵀ ∧ m.nLatent = 12 := by
  obtain ⟨m, h1, h2, h3, h4, h5, -⟩ := (gaussianLVM_spec 3 2 1 0.4 1 0.5 none 0.3 (some 0.7) 1.2 none).1 (by norm_num)
  obtain ⟨rows, c, h6, h7, -, -, h8⟩ := covariance_eq_mixing m h2 (by omega)
  exact ⟨m, rows, c, h1, h6, h7, h8, by have := nLatent_eq m h2; omega⟩

theorem covariance_posSemidef (m : GaussianLVM) (hm : m.Valid) {c} (hc : m.covariance = .ok c) : c.PosSemidef := by
  rcases Nat.eq_zero_or_pos (m.dimX + m.dimY) with h0 | h0
  · haveI : IsEmpty (Fin (m.dimX + m.dimY)) := by
      rw [h0]
      infer_instance
    have : c = 0 := Subsingleton.elim _ _
    rw [this]
    exact PosSemidef.zero
  · obtain ⟨rows, c', -, hc', -, -, h⟩ := covariance_eq_mixing m hm h0
    obtain rfl : c = c' := by
      rw [hc] at hc'
      exact Except.ok.inj hc'
    rw [h, ← conjTranspose_eq_transpose_of_trivial]
    exact posSemidef_self_mul_conjTranspose _

/-- **C15**: `covariance` is positive-semidefinite, and positive-definite when each coordinate has noise of its own. -/
theorem covariance_posDef (m : GaussianLVM) (hm : m.Valid) :
    ∃ c, m.covariance = .ok c ∧ c.PosSemidef ∧ (m.epsilonX ≠ 0 → m.epsilonY ≠ 0 → c.PosDef) := by
  obtain ⟨c, hc, hxx, hyy, hxy, hyx⟩ := covariance_entries m hm.1 hm.2
  refine ⟨c, hc, covariance_posSemidef m hm hc, fun hex hey => ?_⟩
  obtain ⟨c', hc', hxx', hyy', hxy', hyx'⟩ :=
    covariance_entries { m with epsilonX := 0, epsilonY := 0 } hm.1 hm.2
  have hpsd := covariance_posSemidef { m with epsilonX := 0, epsilonY := 0 } hm hc'
  have hd : (diagonal (Fin.append (fun _ : Fin m.dimX => m.epsilonX ^ 2) (fun _ : Fin m.dimY => m.epsilonY ^ 2))).PosDef := by
    rw [posDef_diagonal_iff]
    intro p
    induction p using Fin.addCases with
    | left i => simpa using sq_pos_of_ne_zero hex
    | right i => simpa using sq_pos_of_ne_zero hey
  have he : c = diagonal (Fin.append (fun _ : Fin m.dimX => m.epsilonX ^ 2) (fun _ : Fin m.dimY => m.epsilonY ^ 2)) + c' := by
    ext p q
    rw [Matrix.add_apply, diagonal_apply]
    induction p using Fin.addCases with
    | left i =>
      induction q using Fin.addCases with
      | left j =>
        rw [hxx, hxx']
        by_cases h : (i : ℕ) = j
        · obtain rfl := Fin.ext h
          simp
          ring
        · have : Fin.castAdd m.dimY i ≠ Fin.castAdd m.dimY j := by simpa [Fin.ext_iff] using h
          simp [h, this]
      | right j =>
        have : Fin.castAdd m.dimY i ≠ Fin.natAdd m.dimX j := by simp [Fin.ext_iff]; omega
        rw [hxy, hxy', if_neg this, zero_add]
    | right j =>
      induction q using Fin.addCases with
      | left i =>
        have : Fin.natAdd m.dimX j ≠ Fin.castAdd m.dimY i := by simp [Fin.ext_iff]; omega
        rw [hyx, hyx', if_neg this, zero_add]
      | right i =>
        rw [hyy, hyy']
        by_cases h : (j : ℕ) = i
        · obtain rfl := Fin.ext h
          simp
          ring
        · have : Fin.natAdd m.dimX j ≠ Fin.natAdd m.dimX i := by simpa [Fin.ext_iff] using h
          simp [h, this]
  rw [he]
  exact hd.add_posSemidef hpsd

/-- **C15**: when no variance is zero, `correlation` has ones on the diagonal, is symmetric and positive-semidefinite, and
is the covariance divided by the standard deviations. -/
theorem correlation_spec (m : GaussianLVM) (hm : m.Valid) :
    ∃ c r, m.covariance = .ok c ∧ m.correlation = .ok r ∧
      (∀ p q, r p q = c p q / (√(c p p) * √(c q q))) ∧ r.PosSemidef ∧ ((∀ p, c p p ≠ 0) → ∀ p, r p p = 1) := by
  obtain ⟨c, hc, hpsd, -⟩ := covariance_posDef m hm
  refine ⟨c, fun p q => c p q / √(c p p * c q q), hc, ?_, ?_, ?_, ?_⟩
  · unfold GaussianLVM.correlation
    rw [hc]
    rfl
  · intro p q
    show c p q / √(c p p * c q q) = _
    rw [Real.sqrt_mul (hpsd.diag_nonneg (i := p))]
  · have e : (fun p q => c p q / √(c p p * c q q) : Matrix _ _ ℝ)
        = (diagonal fun p => (√(c p p))⁻¹)ᴴ * c * diagonal fun p => (√(c p p))⁻¹ := by
      ext p q
      rw [mul_diagonal, conjTranspose_eq_transpose_of_trivial, diagonal_transpose, diagonal_mul]
      show c p q / √(c p p * c q q) = _
      rw [Real.sqrt_mul (hpsd.diag_nonneg (i := p)), div_eq_mul_inv, mul_inv]
      ring
    rw [e]
    exact hpsd.conjTranspose_mul_mul_same _
  · intro h p
    show c p p / √(c p p * c p p) = 1
    rw [Real.sqrt_mul_self (hpsd.diag_nonneg (i := p)), div_self (h p)]

/-- The default noise makes the covariance positive-definite and the variances positive. -/
example : ∃ m c r, gaussianLVM 3 2 1 0.4 1 1 none 0 none 0 none = .ok m ∧ m.covariance = .ok c ∧ c.PosDef ∧
    m.correlation = .ok r ∧ ∀ p, r p p = 1 := by
  obtain ⟨m, h1, h2, h3, h4, h5, -, -, h6, -, -, h7, -⟩ := (gaussianLVM_spec 3 2 1 0.4 1 1 none 0 none 0 none).1 (by norm_num)
  obtain ⟨c, h8, -, h9⟩ := covariance_posDef m h2
  obtain ⟨c', r, h8', h10, -, -, h11⟩ := correlation_spec m h2
  obtain rfl : c = c' := by
    rw [h8] at h8'
    exact Except.ok.inj h8'
  have hp := h9 (by rw [h6]; norm_num) (by rw [h7 rfl]; norm_num)
  exact ⟨m, c, r, h1, h8, hp, h10, h11 fun p => hp.diag_pos.ne'⟩

/-! ## C16 -/

/-- **C16**: in the dense parametrisation any two distinct coordinates are correlated by `correlation_strength`. -/
theorem dense_correlation (dimX dimY : ℤ) (hx : 0 ≤ dimX) (hy : 0 ≤ dimY) (alpha epsilon : ℝ)
    (h : alpha ≠ 0 ∨ epsilon ≠ 0) :
    ∃ m r, denseLVM dimX dimY alpha epsilon = .ok m ∧ (m.dimX : ℤ) = dimX ∧ (m.dimY : ℤ) = dimY ∧ m.correlation = .ok r ∧
      ∀ p q, r p q = if p = q then 1 else m.correlationStrength := by
  obtain ⟨m, h1, h2, h3, h4, h5, h6, h7, h8, h9, h10, -, h11, -, h12, -, h13⟩ :=
    (gaussianLVM_spec dimX dimY 0 alpha 0 epsilon (some epsilon) 0 (some 0) 0 (some 0)).1 ⟨le_rfl, hx, hy⟩
  obtain ⟨c, hc, hxx, hyy, hxy, hyx⟩ := covariance_entries m h2.1 h2.2
  obtain ⟨c', r, hc', hr, hrr, -, -⟩ := correlation_spec m h2
  obtain rfl : c = c' := by
    rw [hc] at hc'
    exact Except.ok.inj hc'
  have hpos : 0 < alpha ^ 2 + epsilon ^ 2 := by
    rcases h with h | h <;> positivity
  have hn : m.nInteracting = 0 := by omega
  have hcc : ∀ p q, c p q = alpha ^ 2 + if p = q then epsilon ^ 2 else 0 := by
    intro p q
    induction p using Fin.addCases with
    | left i =>
      induction q using Fin.addCases with
      | left j => simp [hxx, h6, h9, h8, hn, h10, Fin.ext_iff]
      | right j =>
        have : Fin.castAdd m.dimY i ≠ Fin.natAdd m.dimX j := by simp [Fin.ext_iff]; omega
        simp [hxy, h6, hn, this]
    | right j =>
      induction q using Fin.addCases with
      | left i =>
        have : Fin.natAdd m.dimX j ≠ Fin.castAdd m.dimY i := by simp [Fin.ext_iff]; omega
        simp [hyx, h6, hn, this]
      | right i => simp [hyy, h6, h12 0 rfl, h11 _ rfl, hn, h13 _ rfl, Fin.ext_iff]
  refine ⟨m, r, h1, h3, h4, hr, fun p q => ?_⟩
  rw [hrr, hcc p p, hcc q q, hcc p q, if_pos rfl, if_pos rfl, Real.mul_self_sqrt hpos.le]
  unfold GaussianLVM.correlationStrength
  rw [h6, h8]
  split_ifs
  · exact div_self hpos.ne'
  · rw [add_zero]

/-- **C16**: in the sparse parametrisation `Xᵢ` and `Yᵢ` are correlated by `correlation_interacting` for
`i < n_interacting`, and no other coordinates of X and Y are correlated. -/
theorem sparse_correlation (dimX dimY n : ℤ) (hn : 0 ≤ n) (hx : n ≤ dimX) (hy : n ≤ dimY) (beta lambd epsilon : ℝ)
    (eta : Option ℝ) :
    ∃ m r, sparseLVM dimX dimY n beta lambd epsilon eta = .ok m ∧ (m.dimX : ℤ) = dimX ∧ (m.dimY : ℤ) = dimY ∧
      m.correlation = .ok r ∧
      ∀ (i : Fin m.dimX) (j : Fin m.dimY), r (Fin.castAdd _ i) (Fin.natAdd _ j)
        = if (i : ℕ) = j ∧ (i : ℤ) < n then m.correlationInteracting else 0 := by
  obtain ⟨m, h1, h2, h3, h4, h5, h6, h7, h8, h9, h10, -, h11, -, h12, -, h13⟩ :=
    (gaussianLVM_spec dimX dimY n 0 lambd epsilon (some epsilon) beta (some beta) (eta.getD lambd)
      (some (eta.getD lambd))).1 ⟨hn, hx, hy⟩
  obtain ⟨c, hc, hxx, hyy, hxy, hyx⟩ := covariance_entries m h2.1 h2.2
  obtain ⟨c', r, hc', hr, hrr, -, -⟩ := correlation_spec m h2
  obtain rfl : c = c' := by
    rw [hc] at hc'
    exact Except.ok.inj hc'
  refine ⟨m, r, h1, h3, h4, hr, fun i j => ?_⟩
  rw [hrr, hxy, hxx, hyy, h6]
  by_cases h : (i : ℕ) = j ∧ (i : ℤ) < n
  · have hi : (i : ℕ) < m.nInteracting := by omega
    have hj : (j : ℕ) < m.nInteracting := by omega
    rw [if_pos ⟨h.1, hi⟩, if_pos h, if_pos rfl, if_pos rfl, if_pos hi, if_pos hj, h11 _ rfl, h12 _ rfl, h8, h9, h7,
      Real.mul_self_sqrt (by positivity)]
    unfold GaussianLVM.correlationInteracting
    rw [h7, h8, h9]
    congr 1 <;> ring
  · rw [if_neg (by omega), if_neg h]
    simp

/-- With the default `eta` all coordinates have the same variance. -/
theorem sparse_variance (dimX dimY n : ℤ) (hn : 0 ≤ n) (hx : n ≤ dimX) (hy : n ≤ dimY) (beta lambd epsilon : ℝ) :
    ∃ m c, sparseLVM dimX dimY n beta lambd epsilon none = .ok m ∧ m.covariance = .ok c ∧
      ∀ p, c p p = beta ^ 2 + epsilon ^ 2 + lambd ^ 2 := by
  obtain ⟨m, h1, h2, h3, h4, h5, h6, h7, h8, h9, h10, -, h11, -, h12, -, h13⟩ :=
    (gaussianLVM_spec dimX dimY n 0 lambd epsilon (some epsilon) beta (some beta) lambd (some lambd)).1 ⟨hn, hx, hy⟩
  obtain ⟨c, hc, hxx, hyy, hxy, hyx⟩ := covariance_entries m h2.1 h2.2
  refine ⟨m, c, h1, hc, fun p => ?_⟩
  induction p using Fin.addCases with
  | left i =>
    rw [hxx, if_pos rfl, h6, h7, h8, h9, h10, ite_self]
    ring
  | right i =>
    rw [hyy, if_pos rfl, h6, h7, h11 _ rfl, h12 _ rfl, h13 _ rfl, ite_self]
    ring

example : ∃ m r, sparseLVM 3 4 2 0 1 1 none = .ok m ∧ m.correlation = .ok r ∧ m.correlationInteracting = 1 / 2 := by
  obtain ⟨m, r, h1, h2, h3, h4, h5⟩ := sparse_correlation 3 4 2 (by norm_num) (by norm_num) (by norm_num) 0 1 1 none
  refine ⟨m, r, h1, h4, ?_⟩
  have h : m = _ := (Except.ok.inj h1).symm
  unfold GaussianLVM.correlationInteracting
  rw [h]
  norm_num

example : ∃ m r, denseLVM 3 4 1 2 = .ok m ∧ m.correlation = .ok r ∧ ∀ p q, r p q = if p = q then 1 else 1 / 5 := by
  obtain ⟨m, r, h1, h2, h3, h4, h5⟩ := dense_correlation 3 4 (by norm_num) (by norm_num) 1 2 (by norm_num)
  have h : m = _ := (Except.ok.inj h1).symm
  have : m.correlationStrength = 1 / 5 := by
    unfold GaussianLVM.correlationStrength
    rw [h]
    norm_num
  exact ⟨m, r, h1, h4, fun p q => by rw [h5, this]⟩

end BMI.MatrixUtils
