import Verif.Lemmas.GaussianDensity
import Verif.Lemmas.Covariance

/-! Mutual information of the two parts of a non-degenerate normal vector. -/

namespace BMI.Samplers

open MeasureTheory ProbabilityTheory

/-- The two parts of a vector. -/
def parts {dx dy : ℕ} (z : Fin (dx + dy) → ℝ) : (Fin dx → ℝ) × (Fin dy → ℝ) :=
  (fun i => z (Fin.castAdd dy i), fun i => z (Fin.natAdd dx i))

/-- The joint law of the two parts of a normal vector. -/
noncomputable def splitNormal (dx dy : ℕ) (mean : Fin (dx + dy) → ℝ) (cov : Matrix (Fin (dx + dy)) (Fin (dx + dy)) ℝ) :
    Measure ((Fin dx → ℝ) × (Fin dy → ℝ)) := (normalLaw mean cov).map parts

/-- Splitting a vector, as a measurable equivalence. -/
noncomputable def partsEquiv (dx dy : ℕ) : (Fin (dx + dy) → ℝ) ≃ᵐ (Fin dx → ℝ) × (Fin dy → ℝ) :=
  (MeasurableEquiv.piCongrLeft (fun _ => ℝ) (finSumFinEquiv (m := dx) (n := dy))).symm.trans
    (MeasurableEquiv.sumPiEquivProdPi fun _ => ℝ)

theorem partsEquiv_apply (dx dy : ℕ) (z : Fin (dx + dy) → ℝ) : partsEquiv dx dy z = parts z := rfl

theorem partsEquiv_volume (dx dy : ℕ) : MeasurePreserving (partsEquiv dx dy) volume (volume.prod volume) :=
  (volume_measurePreserving_sumPiEquivProdPi fun _ : Fin dx ⊕ Fin dy => ℝ).comp
    (volume_measurePreserving_piCongrLeft (fun _ => ℝ) (finSumFinEquiv (m := dx) (n := dy))).symm

theorem measurable_parts (dx dy : ℕ) : Measurable (parts : (Fin (dx + dy) → ℝ) → _) := (partsEquiv dx dy).measurable

variable {dx dy : ℕ} (mean : Fin (dx + dy) → ℝ) {cov : Matrix (Fin (dx + dy)) (Fin (dx + dy)) ℝ}

instance {d : ℕ} (mean : Fin d → ℝ) (cov : Matrix (Fin d) (Fin d) ℝ) : IsProbabilityMeasure (normalLaw mean cov) :=
  Measure.isProbabilityMeasure_map (by fun_prop)

instance (cov : Matrix (Fin (dx + dy)) (Fin (dx + dy)) ℝ) : IsProbabilityMeasure (splitNormal dx dy mean cov) :=
  Measure.isProbabilityMeasure_map (measurable_parts dx dy).aemeasurable

theorem splitNormal_fst (h : cov.PosSemidef) :
    (splitNormal dx dy mean cov).fst = normalLaw (parts mean).1 (blockX cov) := by
  unfold splitNormal Measure.fst
  rw [Measure.map_map measurable_fst (measurable_parts dx dy)]
  let B : Matrix (Fin dx) (Fin (dx + dy)) ℝ := (1 : Matrix _ _ ℝ).submatrix (Fin.castAdd dy) id
  have hB : ∀ z, B.mulVec z = (parts z).1 := by
    intro z
    funext i
    simp [B, Matrix.mulVec, dotProduct, Matrix.one_apply, parts]
  have e : B * cov * B.transpose = blockX cov := by
    ext i j
    simp [B, Matrix.mul_apply, Matrix.one_apply, blockX]
  have := normalLaw_map mean h 0 B
  rw [e] at this
  simp only [hB, zero_add] at this
  exact this

theorem splitNormal_snd (h : cov.PosSemidef) :
    (splitNormal dx dy mean cov).snd = normalLaw (parts mean).2 (blockY cov) := by
  unfold splitNormal Measure.snd
  rw [Measure.map_map measurable_snd (measurable_parts dx dy)]
  let B : Matrix (Fin dy) (Fin (dx + dy)) ℝ := (1 : Matrix _ _ ℝ).submatrix (Fin.natAdd dx) id
  have hB : ∀ z, B.mulVec z = (parts z).2 := by
    intro z
    funext i
    simp [B, Matrix.mulVec, dotProduct, Matrix.one_apply, parts]
  have e : B * cov * B.transpose = blockY cov := by
    ext i j
    simp [B, Matrix.mul_apply, Matrix.one_apply, blockY]
  have := normalLaw_map mean h 0 B
  rw [e] at this
  simp only [hB, zero_add] at this
  exact this

theorem splitNormal_mi (h : cov.PosDef) :
    mutualInfo (splitNormal dx dy mean cov)
        = ENNReal.ofReal ((Real.log (blockX cov).det + Real.log (blockY cov).det - Real.log cov.det) / 2) ∧
      0 ≤ (Real.log (blockX cov).det + Real.log (blockY cov).det - Real.log cov.det) / 2 := by
  have hx := blockX_posDef h
  have hy := blockY_posDef h
  set P := splitNormal dx dy mean cov with hPdef
  set e := partsEquiv dx dy
  let ld : (Fin dx → ℝ) × (Fin dy → ℝ) → ℝ := fun z => logDensity mean cov (e.symm z)
  let la := logDensity (parts mean).1 (blockX cov)
  let lb := logDensity (parts mean).2 (blockY cov)
  have mld : Measurable ld := (continuous_logDensity mean cov).measurable.comp e.symm.measurable
  have mla : Measurable la := (continuous_logDensity _ _).measurable
  have mlb : Measurable lb := (continuous_logDensity _ _).measurable
  have hP : P = (volume.prod volume).withDensity fun z => ENNReal.ofReal (Real.exp (ld z)) := by
    have := map_withDensity_equiv e (partsEquiv_volume dx dy) fun z => ENNReal.ofReal (Real.exp (logDensity mean cov z))
    rw [← normalLaw_density mean h] at this
    exact this
  have hfst : P.fst = volume.withDensity fun x => ENNReal.ofReal (Real.exp (la x)) := by
    rw [hPdef, splitNormal_fst mean h.posSemidef, normalLaw_density _ hx]
  have hsnd : P.snd = volume.withDensity fun y => ENNReal.ofReal (Real.exp (lb y)) := by
    rw [hPdef, splitNormal_snd mean h.posSemidef, normalLaw_density _ hy]
  let c := (Real.log (blockX cov).det + Real.log (blockY cov).det - Real.log cov.det) / 2
  let q : (Fin dx → ℝ) × (Fin dy → ℝ) → ℝ := fun z => quad mean cov (e.symm z)
  let qx := quad (parts mean).1 (blockX cov)
  let qy := quad (parts mean).2 (blockY cov)
  have hlog : ∀ z : (Fin dx → ℝ) × (Fin dy → ℝ),
      Real.log (Real.exp (ld z) / (Real.exp (la z.1) * Real.exp (lb z.2))) = c + (qx z.1 + qy z.2 - q z) / 2 := by
    intro z
    rw [← Real.exp_add, ← Real.exp_sub, Real.log_exp]
    simp only [ld, la, lb, logDensity, c, q, qx, qy]
    push_cast
    ring
  have mq : Measurable q := (continuous_quad mean cov).measurable.comp e.symm.measurable
  have iq : Integrable q P := by
    rw [hPdef]
    unfold splitNormal
    refine (integrable_map_measure mq.aestronglyMeasurable (measurable_parts dx dy).aemeasurable).2 ?_
    refine (integrable_quad mean h).congr (Filter.Eventually.of_forall fun z => ?_)
    simp only [q, Function.comp_apply]
    rw [← partsEquiv_apply, MeasurableEquiv.symm_apply_apply]
  have vq : ∫ z, q z ∂P = (dx + dy : ℕ) := by
    rw [hPdef]
    unfold splitNormal
    rw [integral_map (measurable_parts dx dy).aemeasurable mq.aestronglyMeasurable, ← integral_quad mean h]
    congr 1
    funext z
    simp only [q]
    rw [← partsEquiv_apply, MeasurableEquiv.symm_apply_apply]
  have mqx : Measurable qx := (continuous_quad _ _).measurable
  have mqy : Measurable qy := (continuous_quad _ _).measurable
  have iqx : Integrable (fun z : (Fin dx → ℝ) × (Fin dy → ℝ) => qx z.1) P := by
    refine (integrable_map_measure mqx.aestronglyMeasurable measurable_fst.aemeasurable).1 ?_
    show Integrable qx P.fst
    rw [hPdef, splitNormal_fst mean h.posSemidef]
    exact integrable_quad _ hx
  have iqy : Integrable (fun z : (Fin dx → ℝ) × (Fin dy → ℝ) => qy z.2) P := by
    refine (integrable_map_measure mqy.aestronglyMeasurable measurable_snd.aemeasurable).1 ?_
    show Integrable qy P.snd
    rw [hPdef, splitNormal_snd mean h.posSemidef]
    exact integrable_quad _ hy
  have vqx : ∫ z, qx z.1 ∂P = dx := by
    have h1 : ∫ x, qx x ∂P.fst = ∫ z, qx z.1 ∂P := integral_map measurable_fst.aemeasurable mqx.aestronglyMeasurable
    rw [← h1, hPdef, splitNormal_fst mean h.posSemidef]
    exact integral_quad _ hx
  have vqy : ∫ z, qy z.2 ∂P = dy := by
    have h1 : ∫ x, qy x ∂P.snd = ∫ z, qy z.2 ∂P := integral_map measurable_snd.aemeasurable mqy.aestronglyMeasurable
    rw [← h1, hPdef, splitNormal_snd mean h.posSemidef]
    exact integral_quad _ hy
  have i1 : Integrable (fun z : (Fin dx → ℝ) × (Fin dy → ℝ) => qx z.1 + qy z.2) P := iqx.add iqy
  have i2 : Integrable (fun z : (Fin dx → ℝ) × (Fin dy → ℝ) => qx z.1 + qy z.2 - q z) P := i1.sub iq
  have i3 : Integrable (fun z : (Fin dx → ℝ) × (Fin dy → ℝ) => c + (qx z.1 + qy z.2 - q z) / 2) P :=
    (integrable_const c).add (i2.div_const 2)
  have v3 : ∫ z, c + (qx z.1 + qy z.2 - q z) / 2 ∂P = c := by
    rw [integral_add (integrable_const c) (i2.div_const 2), integral_const, integral_div, integral_sub i1 iq, integral_add iqx iqy, vq, vqx,
      vqy]
    simp
  have main := mutualInfo_of_density volume volume P (fun z => Real.exp (ld z)) (fun x => Real.exp (la x))
    (fun y => Real.exp (lb y)) (by fun_prop) (by fun_prop) (by fun_prop) (fun _ => (Real.exp_pos _).le)
    (fun _ => (Real.exp_pos _).le) (fun _ => (Real.exp_pos _).le) hP hfst hsnd (by simpa only [hlog] using i3)
  simp only [hlog, v3] at main
  exact main

end BMI.Samplers
