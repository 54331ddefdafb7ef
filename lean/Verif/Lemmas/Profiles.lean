import Verif.Props.PmiProfile
import Verif.Props.Integration
import Verif.Spec.Profiles
import Verif.Model.Profiles

/-! Pointwise mutual information of distributions in the plane. -/

namespace BMI.Profiles

open MeasureTheory ProbabilityTheory BMI.Samplers BMI.Bmm BMI.Student BMI.MixtureTasks Matrix

variable {Key : Type} [MeasurableSpace Key] {T : Tfp Key} {κ : Measure Key} {dx dy : ℕ}

/-- The logarithms of the densities of a normal distribution. -/
theorem normal_logs (hT : IdealTfp T κ) (R : JaxRandom Key) {mean : Fin (dx + dy) → ℝ}
    {cov : Matrix (Fin (dx + dy)) (Fin (dx + dy)) ℝ} (hpos : cov.PosDef) {J : JointDistribution Key}
    (hJ : multivariateNormalDistribution R T dx dy (rowsOf cov) (some (List.ofFn mean)) = .ok J) :
    (∀ z, J.distJoint.logProb (List.ofFn z) = (logDensity mean cov z : ℝ)) ∧
    (∀ x, J.distX.logProb (List.ofFn x) = (logDensity (parts mean).1 (blockX cov) x : ℝ)) ∧
    ∀ y, J.distY.logProb (List.ofFn y) = (logDensity (parts mean).2 (blockY cov) y : ℝ) := by
  have e : J.distJoint = constructNormal T (dx + dy) (List.ofFn mean) (rowsOf cov) ∧
      J.distX = constructNormal T dx ((List.ofFn mean).take dx) (((rowsOf cov).take dx).map (·.take dx)) ∧
      J.distY = constructNormal T dy ((List.ofFn mean).drop dx) (((rowsOf cov).drop dx).map (·.drop dx)) := by
    unfold multivariateNormalDistribution at hJ
    rw [if_neg (by simp)] at hJ
    simp only [Option.getD_some] at hJ
    cases hs : splitMultinormal R dx dy (rowsOf cov) (some (List.ofFn mean)) with
    | error e =>
      simp only [hs] at hJ
      cases hJ
    | ok s =>
      simp only [hs] at hJ
      obtain rfl := Except.ok.inj hJ
      exact ⟨rfl, rfl, rfl⟩
  obtain ⟨e1, e2, e3⟩ := e
  have hj := normal_logProb hT (d := dx + dy) (List.ofFn mean) (rowsOf cov) (by rwa [toMatrix_rowsOf])
  rw [toVec_ofFn, toMatrix_rowsOf] at hj
  have hX := normal_logProb hT (d := dx) ((List.ofFn mean).take dx) (((rowsOf cov).take dx).map (·.take dx))
    (by rw [take_blocks]; exact blockX_posDef hpos)
  rw [take_blocks, take_ofFn, toVec_ofFn] at hX
  have hY := normal_logProb hT (d := dy) ((List.ofFn mean).drop dx) (((rowsOf cov).drop dx).map (·.drop dx))
    (by rw [drop_blocks]; exact blockY_posDef hpos)
  rw [drop_blocks, drop_ofFn, toVec_ofFn] at hY
  refine ⟨fun z => e1 ▸ hj z, fun x => ?_, fun y => ?_⟩
  · rw [e2, take_ofFn]
    exact hX x
  · rw [e3, drop_ofFn]
    exact hY y

/-- The logarithms of the densities of a Student distribution. -/
theorem student_logs {State : Type} (hT : IdealTfp T κ) (R : JaxRandom Key) (N : NpRandom State) {mean : Fin (dx + dy) → ℝ}
    {cov : Matrix (Fin (dx + dy)) (Fin (dx + dy)) ℝ} (hpos : cov.PosDef) {df : ℝ} (hdf : 0 < df) {J : JointDistribution Key}
    (hJ : multivariateStudentDistribution R N T dx dy df (rowsOf cov) (some (List.ofFn mean)) = .ok J) :
    (∀ z, J.distJoint.logProb (List.ofFn z) = (studentLog mean cov df z : ℝ)) ∧
    (∀ x, J.distX.logProb (List.ofFn x) = (studentLog (parts mean).1 (blockX cov) df x : ℝ)) ∧
    ∀ y, J.distY.logProb (List.ofFn y) = (studentLog (parts mean).2 (blockY cov) df y : ℝ) := by
  have e : J.distJoint = constructStudent T (dx + dy) (List.ofFn mean) (rowsOf cov) df ∧
      J.distX = constructStudent T dx ((List.ofFn mean).take dx) (((rowsOf cov).take dx).map (·.take dx)) df ∧
      J.distY = constructStudent T dy ((List.ofFn mean).drop dx) (((rowsOf cov).drop dx).map (·.drop dx)) df := by
    unfold multivariateStudentDistribution at hJ
    rw [if_neg (by simp)] at hJ
    simp only [Option.getD_some] at hJ
    cases hs : splitStudentT R N dx dy df (rowsOf cov) (some (List.ofFn mean)) with
    | error e =>
      simp only [hs] at hJ
      cases hJ
    | ok s =>
      simp only [hs] at hJ
      obtain rfl := Except.ok.inj hJ
      exact ⟨rfl, rfl, rfl⟩
  obtain ⟨e1, e2, e3⟩ := e
  have hj := student_logProb hT (d := dx + dy) (List.ofFn mean) (rowsOf cov) (by rwa [toMatrix_rowsOf]) hdf
  rw [toVec_ofFn, toMatrix_rowsOf] at hj
  have hX := student_logProb hT (d := dx) ((List.ofFn mean).take dx) (((rowsOf cov).take dx).map (·.take dx))
    (by rw [take_blocks]; exact blockX_posDef hpos) hdf
  rw [take_blocks, take_ofFn, toVec_ofFn] at hX
  have hY := student_logProb hT (d := dy) ((List.ofFn mean).drop dx) (((rowsOf cov).drop dx).map (·.drop dx))
    (by rw [drop_blocks]; exact blockY_posDef hpos) hdf
  rw [drop_blocks, drop_ofFn, toVec_ofFn] at hY
  refine ⟨fun z => e1 ▸ hj z, fun x => ?_, fun y => ?_⟩
  · rw [e2, take_ofFn]
    exact hX x
  · rw [e3, drop_ofFn]
    exact hY y

/-! ## Two variables -/

theorem pair_pos {c : ℝ} (hc : |c| < 1) : (!![1, c; c, 1] : Matrix (Fin 2) (Fin 2) ℝ).PosDef := by
  rw [unit_pair]
  exact pair_posDef one_pos one_pos hc

theorem quad_pair {c : ℝ} (hc : |c| < 1) (v : Fin 2 → ℝ) :
    quad 0 !![1, c; c, 1] v = (v 0 ^ 2 - 2 * c * v 0 * v 1 + v 1 ^ 2) / (1 - c ^ 2) := by
  have h : 1 - c ^ 2 ≠ 0 := by nlinarith [abs_lt.1 hc, (sq_lt_one_iff_abs_lt_one c).2 hc]
  have hinv : (!![1, c; c, 1] : Matrix (Fin 2) (Fin 2) ℝ)⁻¹
      = !![1 / (1 - c ^ 2), -c / (1 - c ^ 2); -c / (1 - c ^ 2), 1 / (1 - c ^ 2)] := by
    refine Matrix.inv_eq_left_inv ?_
    ext i j
    fin_cases i <;> fin_cases j <;> simp [Matrix.mul_apply, Fin.sum_univ_two] <;> field_simp <;> ring
  unfold quad
  rw [hinv]
  simp [dotProduct, Matrix.mulVec, Fin.sum_univ_two]
  field_simp
  ring

theorem quad_number {s : ℝ} (hs : s ≠ 0) (m v : Fin 1 → ℝ) (A : Matrix (Fin 1) (Fin 1) ℝ) (hA : A 0 0 = s) :
    quad m A v = (v 0 - m 0) ^ 2 / s := by
  have : A⁻¹ 0 0 = s⁻¹ := by
    have h : A⁻¹ = Matrix.of fun _ _ => s⁻¹ := by
      refine Matrix.inv_eq_left_inv ?_
      ext i j
      rw [Subsingleton.elim i 0, Subsingleton.elim j 0, Matrix.mul_apply]
      simp [hA, hs]
    rw [h]
    rfl
  unfold quad dotProduct Matrix.mulVec dotProduct
  simp only [Finset.univ_unique, Fin.default_eq_zero, Finset.sum_singleton, this, Pi.sub_apply]
  field_simp

theorem blocks_pair (a b c : ℝ) : (blockX (dx := 1) (dy := 1) !![a, c; c, b]) 0 0 = a ∧
    (blockY (dx := 1) (dy := 1) !![a, c; c, b]) 0 0 = b := ⟨rfl, rfl⟩

/-- The pointwise mutual information of a normal pair. -/
theorem normalPmi_eq (hT : IdealTfp T κ) (R : JaxRandom Key) {c : ℝ} (hc : |c| < 1) {J : JointDistribution Key}
    (hJ : multivariateNormalDistribution R T 1 1 (rowsOf (!![1, c; c, 1] : Matrix (Fin 2) (Fin 2) ℝ)) none = .ok J) (x y : ℝ) :
    J.pmiAt [x] [y] = (normalPmi c x y : EReal) := by
  have hJ' := (normal_default R T 1 1 _).symm.trans hJ
  obtain ⟨h1, h2, h3⟩ := normal_logs (dx := 1) (dy := 1) hT R (mean := 0) (cov := !![1, c; c, 1]) (pair_pos hc) hJ'
  have hd : (0 : ℝ) < 1 - c ^ 2 := by nlinarith [(sq_lt_one_iff_abs_lt_one c).2 hc]
  have e1 := h1 ![x, y]
  have e2 := h2 ![x]
  have e3 := h3 ![y]
  have l1 : List.ofFn ![x, y] = [x, y] := by simp
  have l2 : ∀ t : ℝ, List.ofFn ![t] = [t] := fun t => by simp
  rw [l2] at e2 e3
  erw [l1] at e1
  unfold JointDistribution.pmiAt
  show J.distJoint.logProb [x, y] - (J.distX.logProb [x] + J.distY.logProb [y]) = _
  rw [e1, e2, e3, ← EReal.coe_add, ← EReal.coe_sub]
  congr 1
  unfold logDensity normalPmi
  have q1 := quad_number one_ne_zero (parts (0 : Fin (1 + 1) → ℝ)).1 ![x] (blockX (dx := 1) (dy := 1) !![1, c; c, 1]) rfl
  have q2 := quad_number one_ne_zero (parts (0 : Fin (1 + 1) → ℝ)).2 ![y] (blockY (dx := 1) (dy := 1) !![1, c; c, 1]) rfl
  rw [q1, q2]
  erw [quad_pair hc ![x, y]]
  have d1 : (blockX (dx := 1) (dy := 1) !![1, c; c, 1]).det = 1 := by rw [Matrix.det_fin_one]; rfl
  have d2 : (blockY (dx := 1) (dy := 1) !![1, c; c, 1]).det = 1 := by rw [Matrix.det_fin_one]; rfl
  have d3 : (!![1, c; c, 1] : Matrix (Fin (1 + 1)) (Fin (1 + 1)) ℝ).det = 1 - c ^ 2 := by
    have := Matrix.det_fin_two (!![1, c; c, 1] : Matrix (Fin 2) (Fin 2) ℝ)
    refine this.trans ?_
    simp
    ring
  rw [d1, d2, d3]
  simp [parts]
  field_simp
  ring

/-- The pointwise mutual information of a Student pair. -/
theorem studentPmi_eq {State : Type} (hT : IdealTfp T κ) (R : JaxRandom Key) (N : NpRandom State) {c : ℝ} (hc : |c| < 1) {ν : ℝ}
    (hν : 0 < ν) {J : JointDistribution Key}
    (hJ : multivariateStudentDistribution R N T 1 1 ν (rowsOf (!![1, c; c, 1] : Matrix (Fin 2) (Fin 2) ℝ))
      (some (List.ofFn (0 : Fin (1 + 1) → ℝ))) = .ok J) (x y : ℝ) :
    J.pmiAt [x] [y] = (studentPmi ν c x y : EReal) := by
  obtain ⟨h1, h2, h3⟩ := student_logs (dx := 1) (dy := 1) hT R N (mean := 0) (cov := !![1, c; c, 1]) (pair_pos hc) hν hJ
  have hd : (0 : ℝ) < 1 - c ^ 2 := by nlinarith [(sq_lt_one_iff_abs_lt_one c).2 hc]
  have e1 := h1 ![x, y]
  have e2 := h2 ![x]
  have e3 := h3 ![y]
  have l1 : List.ofFn ![x, y] = [x, y] := by simp
  have l2 : ∀ t : ℝ, List.ofFn ![t] = [t] := fun t => by simp
  rw [l2] at e2 e3
  erw [l1] at e1
  unfold JointDistribution.pmiAt
  show J.distJoint.logProb [x, y] - (J.distX.logProb [x] + J.distY.logProb [y]) = _
  rw [e1, e2, e3, ← EReal.coe_add, ← EReal.coe_sub]
  congr 1
  unfold studentLog studentPmi
  have q1 := quad_number one_ne_zero (parts (0 : Fin (1 + 1) → ℝ)).1 ![x] (blockX (dx := 1) (dy := 1) !![1, c; c, 1]) rfl
  have q2 := quad_number one_ne_zero (parts (0 : Fin (1 + 1) → ℝ)).2 ![y] (blockY (dx := 1) (dy := 1) !![1, c; c, 1]) rfl
  rw [q1, q2]
  erw [quad_pair hc ![x, y]]
  have d1 : (blockX (dx := 1) (dy := 1) !![1, c; c, 1]).det = 1 := by rw [Matrix.det_fin_one]; rfl
  have d2 : (blockY (dx := 1) (dy := 1) !![1, c; c, 1]).det = 1 := by rw [Matrix.det_fin_one]; rfl
  have d3 : (!![1, c; c, 1] : Matrix (Fin (1 + 1)) (Fin (1 + 1)) ℝ).det = 1 - c ^ 2 := by
    have := Matrix.det_fin_two (!![1, c; c, 1] : Matrix (Fin 2) (Fin 2) ℝ)
    refine this.trans ?_
    simp
    ring
  rw [d1, d2, d3]
  simp [parts]
  ring_nf

/-- A round normal distribution: the logarithm of the density is a sum. -/
theorem round_logs (hT : IdealTfp T κ) (R : JaxRandom Key) {s : ℝ} (hs : 0 < s) (a b : ℝ) {J : JointDistribution Key}
    (hJ : multivariateNormalDistribution R T 1 1 (rowsOf (s • (1 : Matrix (Fin 2) (Fin 2) ℝ))) (some [a, b]) = .ok J) (x y : ℝ) :
    J.distJoint.logProb [x, y] = ((-(Real.log s + Real.log (2 * Real.pi)) / 2 - (x - a) ^ 2 / s / 2
        + (-(Real.log s + Real.log (2 * Real.pi)) / 2 - (y - b) ^ 2 / s / 2) : ℝ) : EReal) ∧
    J.distX.logProb [x] = ((-(Real.log s + Real.log (2 * Real.pi)) / 2 - (x - a) ^ 2 / s / 2 : ℝ) : EReal) ∧
    J.distY.logProb [y] = ((-(Real.log s + Real.log (2 * Real.pi)) / 2 - (y - b) ^ 2 / s / 2 : ℝ) : EReal) := by
  have hpos : (s • (1 : Matrix (Fin 2) (Fin 2) ℝ)).PosDef := by
    have := Matrix.PosDef.diagonal (d := fun _ : Fin 2 => s) fun _ => hs
    rwa [show Matrix.diagonal (fun _ : Fin 2 => s) = s • (1 : Matrix (Fin 2) (Fin 2) ℝ) from (Matrix.smul_one_eq_diagonal s).symm] at this
  have l1 : List.ofFn ![x, y] = [x, y] := by simp
  have l0 : List.ofFn ![a, b] = [a, b] := by simp
  have l2 : ∀ t : ℝ, List.ofFn ![t] = [t] := fun t => by simp
  rw [← l0] at hJ
  obtain ⟨h1, h2, h3⟩ := normal_logs (dx := 1) (dy := 1) hT R (mean := ![a, b]) (cov := s • 1) hpos hJ
  have e1 := h1 ![x, y]
  have e2 := h2 ![x]
  have e3 := h3 ![y]
  rw [l2] at e2 e3
  erw [l1] at e1
  have b1 : (blockX (dx := 1) (dy := 1) (s • (1 : Matrix (Fin 2) (Fin 2) ℝ))) 0 0 = s := by
    show (s • (1 : Matrix (Fin 2) (Fin 2) ℝ)) 0 0 = s
    simp
  have b2 : (blockY (dx := 1) (dy := 1) (s • (1 : Matrix (Fin 2) (Fin 2) ℝ))) 0 0 = s := by
    show (s • (1 : Matrix (Fin 2) (Fin 2) ℝ)) 1 1 = s
    simp
  have q1 := quad_number hs.ne' (parts (dx := 1) (dy := 1) ![a, b]).1 ![x] _ b1
  have q2 := quad_number hs.ne' (parts (dx := 1) (dy := 1) ![a, b]).2 ![y] _ b2
  have q3 : quad ![a, b] (s • (1 : Matrix (Fin 2) (Fin 2) ℝ)) ![x, y] = (x - a) ^ 2 / s + (y - b) ^ 2 / s := by
    have hinv : (s • (1 : Matrix (Fin 2) (Fin 2) ℝ))⁻¹ = s⁻¹ • 1 := by
      refine Matrix.inv_eq_left_inv ?_
      rw [smul_mul_smul_comm, inv_mul_cancel₀ hs.ne', one_smul, one_mul]
    unfold quad
    rw [hinv]
    simp [dotProduct, Matrix.smul_mulVec, Fin.sum_univ_two]
    field_simp
  have d3 : (s • (1 : Matrix (Fin 2) (Fin 2) ℝ)).det = s * s := by simp [sq]
  rw [e1, e2, e3]
  unfold logDensity
  rw [q1, q2, Matrix.det_fin_one, Matrix.det_fin_one, b1, b2]
  erw [q3, d3]
  rw [Real.log_mul hs.ne' hs.ne']
  refine ⟨congrArg _ ?_, congrArg _ ?_, congrArg _ ?_⟩ <;> simp [parts] <;> ring

end BMI.Profiles
