import Verif.Lemmas.Student

/-! Mutual information of the two parts of a Student-t vector. -/

namespace BMI.Samplers

open MeasureTheory ProbabilityTheory

/-- Differential entropy of the Student-t law of dimension `k` with identity dispersion. -/
noncomputable def studentEntropy (k : ℕ) (ν : ℝ) : ℝ :=
  Real.log (Real.Gamma (ν / 2)) - Real.log (Real.Gamma ((ν + k) / 2)) + k / 2 * Real.log (ν * Real.pi)
    + (ν + k) / 2 * (logDeriv Real.Gamma ((ν + k) / 2) - logDeriv Real.Gamma (ν / 2))

/-- The joint law of the two parts of a Student-t vector. -/
noncomputable def splitStudent (dx dy : ℕ) (loc : Fin (dx + dy) → ℝ) (S : Matrix (Fin (dx + dy)) (Fin (dx + dy)) ℝ) (ν : ℝ) :
    Measure ((Fin dx → ℝ) × (Fin dy → ℝ)) := (studentLaw loc S ν).map parts

variable {dx dy : ℕ} (loc : Fin (dx + dy) → ℝ) {S : Matrix (Fin (dx + dy)) (Fin (dx + dy)) ℝ} {ν : ℝ}

theorem splitStudent_prob (S : Matrix (Fin (dx + dy)) (Fin (dx + dy)) ℝ) (hν : 0 < ν) :
    IsProbabilityMeasure (splitStudent dx dy loc S ν) := by
  haveI := studentLaw_prob loc S hν
  exact Measure.isProbabilityMeasure_map (measurable_parts dx dy).aemeasurable

theorem splitStudent_fst (h : S.PosSemidef) (hν : 0 < ν) :
    (splitStudent dx dy loc S ν).fst = studentLaw (parts loc).1 (blockX S) ν := by
  unfold splitStudent Measure.fst
  rw [Measure.map_map measurable_fst (measurable_parts dx dy)]
  let B : Matrix (Fin dx) (Fin (dx + dy)) ℝ := (1 : Matrix _ _ ℝ).submatrix (Fin.castAdd dy) id
  have hB : ∀ z, B.mulVec z = (parts z).1 := by
    intro z
    funext i
    simp [B, Matrix.mulVec, dotProduct, Matrix.one_apply, parts]
  have e : B * S * B.transpose = blockX S := by
    ext i j
    simp [B, Matrix.mul_apply, Matrix.one_apply, blockX]
  have := studentLaw_map loc h hν B
  rw [e] at this
  simp only [hB] at this
  exact this

theorem splitStudent_snd (h : S.PosSemidef) (hν : 0 < ν) :
    (splitStudent dx dy loc S ν).snd = studentLaw (parts loc).2 (blockY S) ν := by
  unfold splitStudent Measure.snd
  rw [Measure.map_map measurable_snd (measurable_parts dx dy)]
  let B : Matrix (Fin dy) (Fin (dx + dy)) ℝ := (1 : Matrix _ _ ℝ).submatrix (Fin.natAdd dx) id
  have hB : ∀ z, B.mulVec z = (parts z).2 := by
    intro z
    funext i
    simp [B, Matrix.mulVec, dotProduct, Matrix.one_apply, parts]
  have e : B * S * B.transpose = blockY S := by
    ext i j
    simp [B, Matrix.mul_apply, Matrix.one_apply, blockY]
  have := studentLaw_map loc h hν B
  rw [e] at this
  simp only [hB] at this
  exact this

theorem splitStudent_density (h : S.PosDef) (hν : 0 < ν) :
    splitStudent dx dy loc S ν = (volume.prod volume).withDensity fun z =>
      ENNReal.ofReal (Real.exp (studentLog loc S ν ((partsEquiv dx dy).symm z))) := by
  have := map_withDensity_equiv (partsEquiv dx dy) (partsEquiv_volume dx dy)
    fun z => ENNReal.ofReal (Real.exp (studentLog loc S ν z))
  rw [← studentLaw_density loc h hν] at this
  exact this

theorem splitStudent_mi (h : S.PosDef) (hν : 0 < ν) :
    mutualInfo (splitStudent dx dy loc S ν)
        = ENNReal.ofReal ((Real.log (blockX S).det + Real.log (blockY S).det - Real.log S.det) / 2
          + (studentEntropy dx ν + studentEntropy dy ν - studentEntropy (dx + dy) ν)) ∧
      0 ≤ (Real.log (blockX S).det + Real.log (blockY S).det - Real.log S.det) / 2
          + (studentEntropy dx ν + studentEntropy dy ν - studentEntropy (dx + dy) ν) := by
  have hx := blockX_posDef h
  have hy := blockY_posDef h
  haveI := splitStudent_prob loc S hν
  have hP := splitStudent_density loc h hν
  have hfst := splitStudent_fst loc h.posSemidef hν
  have hsnd := splitStudent_snd loc h.posSemidef hν
  set P := splitStudent dx dy loc S ν with hPdef
  set e := partsEquiv dx dy
  let ld : (Fin dx → ℝ) × (Fin dy → ℝ) → ℝ := fun z => studentLog loc S ν (e.symm z)
  let la := studentLog (parts loc).1 (blockX S) ν
  let lb := studentLog (parts loc).2 (blockY S) ν
  have mld : Measurable ld := (continuous_studentLog loc h hν).measurable.comp e.symm.measurable
  have mla : Measurable la := (continuous_studentLog _ hx hν).measurable
  have mlb : Measurable lb := (continuous_studentLog _ hy hν).measurable
  let q : (Fin dx → ℝ) × (Fin dy → ℝ) → ℝ := fun z => studentX loc S ν (e.symm z)
  let qx := studentX (parts loc).1 (blockX S) ν
  let qy := studentX (parts loc).2 (blockY S) ν
  have mq : Measurable q := (continuous_studentX loc h hν).measurable.comp e.symm.measurable
  have mqx : Measurable qx := (continuous_studentX _ hx hν).measurable
  have mqy : Measurable qy := (continuous_studentX _ hy hν).measurable
  have iq : Integrable q P := by
    rw [hPdef]
    unfold splitStudent
    refine (integrable_map_measure mq.aestronglyMeasurable (measurable_parts dx dy).aemeasurable).2 ?_
    refine (integral_studentX loc h hν).1.congr (Filter.Eventually.of_forall fun z => ?_)
    simp only [q, Function.comp_apply]
    rw [← partsEquiv_apply, MeasurableEquiv.symm_apply_apply]
  have vq : ∫ z, q z ∂P = logDeriv Real.Gamma ((ν + (dx + dy : ℕ)) / 2) - logDeriv Real.Gamma (ν / 2) := by
    rw [hPdef]
    unfold splitStudent
    rw [integral_map (measurable_parts dx dy).aemeasurable mq.aestronglyMeasurable, ← (integral_studentX loc h hν).2]
    congr 1
    funext z
    simp only [q]
    rw [← partsEquiv_apply, MeasurableEquiv.symm_apply_apply]
  have iqx : Integrable (fun z : (Fin dx → ℝ) × (Fin dy → ℝ) => qx z.1) P := by
    refine (integrable_map_measure mqx.aestronglyMeasurable measurable_fst.aemeasurable).1 ?_
    show Integrable qx P.fst
    rw [hfst]
    exact (integral_studentX _ hx hν).1
  have iqy : Integrable (fun z : (Fin dx → ℝ) × (Fin dy → ℝ) => qy z.2) P := by
    refine (integrable_map_measure mqy.aestronglyMeasurable measurable_snd.aemeasurable).1 ?_
    show Integrable qy P.snd
    rw [hsnd]
    exact (integral_studentX _ hy hν).1
  have vqx : ∫ z, qx z.1 ∂P = logDeriv Real.Gamma ((ν + dx) / 2) - logDeriv Real.Gamma (ν / 2) := by
    have h1 : ∫ x, qx x ∂P.fst = ∫ z, qx z.1 ∂P := integral_map measurable_fst.aemeasurable mqx.aestronglyMeasurable
    rw [← h1, hfst]
    exact (integral_studentX _ hx hν).2
  have vqy : ∫ z, qy z.2 ∂P = logDeriv Real.Gamma ((ν + dy) / 2) - logDeriv Real.Gamma (ν / 2) := by
    have h1 : ∫ x, qy x ∂P.snd = ∫ z, qy z.2 ∂P := integral_map measurable_snd.aemeasurable mqy.aestronglyMeasurable
    rw [← h1, hsnd]
    exact (integral_studentX _ hy hν).2
  let c : ℝ := (Real.log (blockX S).det + Real.log (blockY S).det - Real.log S.det) / 2
    + (Real.log (Real.Gamma ((ν + (dx + dy : ℕ)) / 2)) - Real.log (Real.Gamma ((ν + dx) / 2))
      - Real.log (Real.Gamma ((ν + dy) / 2)) + Real.log (Real.Gamma (ν / 2)))
  have hlog : ∀ z : (Fin dx → ℝ) × (Fin dy → ℝ),
      Real.log (Real.exp (ld z) / (Real.exp (la z.1) * Real.exp (lb z.2)))
        = c + ((ν + dx) / 2 * qx z.1 + (ν + dy) / 2 * qy z.2 - (ν + (dx + dy : ℕ)) / 2 * q z) := by
    intro z
    rw [← Real.exp_add, ← Real.exp_sub, Real.log_exp]
    simp only [ld, la, lb, studentLog, studentX, c, q, qx, qy]
    push_cast
    ring
  have i1 : Integrable (fun z : (Fin dx → ℝ) × (Fin dy → ℝ) => (ν + dx) / 2 * qx z.1 + (ν + dy) / 2 * qy z.2) P :=
    (iqx.const_mul _).add (iqy.const_mul _)
  have i2 : Integrable (fun z : (Fin dx → ℝ) × (Fin dy → ℝ) =>
      (ν + dx) / 2 * qx z.1 + (ν + dy) / 2 * qy z.2 - (ν + (dx + dy : ℕ)) / 2 * q z) P := i1.sub (iq.const_mul _)
  have i3 : Integrable (fun z : (Fin dx → ℝ) × (Fin dy → ℝ) =>
      c + ((ν + dx) / 2 * qx z.1 + (ν + dy) / 2 * qy z.2 - (ν + (dx + dy : ℕ)) / 2 * q z)) P :=
    (integrable_const c).add i2
  have v3 : ∫ z, c + ((ν + dx) / 2 * qx z.1 + (ν + dy) / 2 * qy z.2 - (ν + (dx + dy : ℕ)) / 2 * q z) ∂P
      = (Real.log (blockX S).det + Real.log (blockY S).det - Real.log S.det) / 2
          + (studentEntropy dx ν + studentEntropy dy ν - studentEntropy (dx + dy) ν) := by
    rw [integral_add (integrable_const c) i2, integral_const, integral_sub i1 (iq.const_mul _),
      integral_add (iqx.const_mul _) (iqy.const_mul _), integral_const_mul, integral_const_mul, integral_const_mul, vq, vqx,
      vqy]
    simp only [probReal_univ, one_smul, c, studentEntropy]
    push_cast
    ring
  have main := mutualInfo_of_density volume volume P (fun z => Real.exp (ld z)) (fun x => Real.exp (la x))
    (fun y => Real.exp (lb y)) (by fun_prop) (by fun_prop) (by fun_prop) (fun _ => (Real.exp_pos _).le)
    (fun _ => (Real.exp_pos _).le) (fun _ => (Real.exp_pos _).le) hP
    (by rw [hfst, studentLaw_density _ hx hν]) (by rw [hsnd, studentLaw_density _ hy hν]) (by simpa only [hlog] using i3)
  simp only [hlog, v3] at main
  exact main

theorem blockX_one : blockX (1 : Matrix (Fin (dx + dy)) (Fin (dx + dy)) ℝ) = 1 := by
  ext i j
  simp [blockX, Matrix.one_apply]

theorem blockY_one : blockY (1 : Matrix (Fin (dx + dy)) (Fin (dx + dy)) ℝ) = 1 := by
  ext i j
  simp [blockY, Matrix.one_apply]

/-- With identity dispersion the mutual information is the correction term. -/
theorem splitStudent_mi_one (dx dy : ℕ) (hν : 0 < ν) :
    mutualInfo (splitStudent dx dy 0 1 ν)
      = ENNReal.ofReal (studentEntropy dx ν + studentEntropy dy ν - studentEntropy (dx + dy) ν) ∧
      0 ≤ studentEntropy dx ν + studentEntropy dy ν - studentEntropy (dx + dy) ν := by
  have := splitStudent_mi (dx := dx) (dy := dy) 0 Matrix.PosDef.one hν
  rw [blockX_one, blockY_one, Matrix.det_one, Matrix.det_one, Matrix.det_one] at this
  simpa using this

theorem partsEquiv_symm (z : (Fin dx → ℝ) × (Fin dy → ℝ)) : (partsEquiv dx dy).symm z = Fin.append z.1 z.2 := by
  rw [MeasurableEquiv.symm_apply_eq, partsEquiv_apply]
  simp [parts]

theorem continuous_append : Continuous fun z : (Fin dx → ℝ) × (Fin dy → ℝ) => Fin.append z.1 z.2 := by
  refine continuous_pi fun i => ?_
  refine Fin.addCases (fun j => ?_) (fun j => ?_) i
  · simp only [Fin.append_left]
    fun_prop
  · simp only [Fin.append_right]
    fun_prop

theorem quad_one {d : ℕ} (z : Fin d → ℝ) : quad 0 1 z = ∑ i, z i * z i := by
  simp [quad, dotProduct]

/-- The two parts of a Student-t vector are never independent: the correction is positive. -/
theorem studentEntropy_lt (hx : 0 < dx) (hy : 0 < dy) (hν : 0 < ν) :
    0 < studentEntropy dx ν + studentEntropy dy ν - studentEntropy (dx + dy) ν := by
  obtain ⟨h1, h2⟩ := splitStudent_mi_one dx dy hν
  refine lt_of_le_of_ne h2 fun h0 => ?_
  rw [← h0, ENNReal.ofReal_zero] at h1
  haveI hprob := splitStudent_prob (dx := dx) (dy := dy) 0 1 hν
  have hd := splitStudent_density (dx := dx) (dy := dy) 0 Matrix.PosDef.one hν
  have p0 : parts (0 : Fin (dx + dy) → ℝ) = (0, 0) := rfl
  rw [mutualInfo_eq_zero_iff, splitStudent_fst 0 Matrix.PosDef.one.posSemidef hν,
    splitStudent_snd 0 Matrix.PosDef.one.posSemidef hν, blockX_one, blockY_one,
    hd, studentLaw_density _ Matrix.PosDef.one hν, studentLaw_density _ Matrix.PosDef.one hν, p0] at h1
  have c1 := (continuous_studentLog (d := dx) 0 Matrix.PosDef.one hν)
  have c2 := (continuous_studentLog (d := dy) 0 Matrix.PosDef.one hν)
  have c3 := (continuous_studentLog (d := dx + dy) 0 Matrix.PosDef.one hν)
  simp only [partsEquiv_symm] at h1 hd
  have c4 : Continuous fun z : (Fin dx → ℝ) × (Fin dy → ℝ) => studentLog 0 1 ν (Fin.append z.1 z.2) :=
    c3.comp (continuous_append (dx := dx) (dy := dy))
  rw [prod_withDensity c1.measurable.exp.ennreal_ofReal c2.measurable.exp.ennreal_ofReal, withDensity_eq_iff
    c4.measurable.exp.ennreal_ofReal.aemeasurable] at h1
  · have c5 : Continuous fun z : (Fin dx → ℝ) × (Fin dy → ℝ) =>
        ENNReal.ofReal (Real.exp (studentLog 0 1 ν (Fin.append z.1 z.2))) :=
      ENNReal.continuous_ofReal.comp (Real.continuous_exp.comp c4)
    have c6 : Continuous fun z : (Fin dx → ℝ) × (Fin dy → ℝ) =>
        ENNReal.ofReal (Real.exp (studentLog 0 1 ν z.1)) * ENNReal.ofReal (Real.exp (studentLog 0 1 ν z.2)) := by
      simp only [← ENNReal.ofReal_mul (Real.exp_pos _).le]
      refine ENNReal.continuous_ofReal.comp ?_
      exact (Real.continuous_exp.comp (c1.comp continuous_fst)).mul (Real.continuous_exp.comp (c2.comp continuous_snd))
    have h3 := (Continuous.ae_eq_iff_eq (volume.prod volume) c5 c6).1 h1
    have h4 : ∀ z : (Fin dx → ℝ) × (Fin dy → ℝ),
        studentLog 0 1 ν (Fin.append z.1 z.2) = studentLog 0 1 ν z.1 + studentLog 0 1 ν z.2 := by
      intro z
      have := congrFun h3 z
      rw [← ENNReal.ofReal_mul (Real.exp_pos _).le, ← Real.exp_add,
        ENNReal.ofReal_eq_ofReal_iff (Real.exp_pos _).le (Real.exp_pos _).le, Real.exp_eq_exp] at this
      exact this
    have a := h4 (0, 0)
    have b := h4 (fun _ => 1, 0)
    simp only [studentLog, quad_one, Fin.sum_univ_add, Fin.append_left, Fin.append_right, Pi.zero_apply, mul_zero,
      Finset.sum_const_zero, add_zero, zero_div, Real.log_one, sub_zero, mul_one, Finset.sum_const, Finset.card_univ,
      Fintype.card_fin, nsmul_eq_mul] at a b
    have hl : 0 < Real.log (1 + dx / ν) := by
      refine Real.log_pos ?_
      have : (0 : ℝ) < dx := by exact_mod_cast hx
      have := div_pos this hν
      linarith
    have hy' : (0 : ℝ) < dy := by exact_mod_cast hy
    have : (dy : ℝ) * Real.log (1 + dx / ν) = 0 := by
      push_cast at a b
      linarith
    exact (mul_pos hy' hl).ne' this
  · exact ((c1.measurable.exp.ennreal_ofReal.comp measurable_fst).mul
      (c2.measurable.exp.ennreal_ofReal.comp measurable_snd)).aemeasurable
  · rw [← setLIntegral_univ, ← withDensity_apply _ MeasurableSet.univ, ← hd, measure_univ]
    exact ENNReal.one_ne_top

end BMI.Samplers
