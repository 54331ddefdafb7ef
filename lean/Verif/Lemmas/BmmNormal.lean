import Verif.Lemmas.BmmMixture
import Verif.Props.Student

/-! The normal and Student-t distributions of TensorFlow Probability. -/

namespace BMI.Bmm

open MeasureTheory ProbabilityTheory BMI.Samplers BMI.Student
open scoped MatrixOrder Matrix.Norms.L2Operator

variable {Key : Type} [MeasurableSpace Key] {T : Tfp Key} {κ : Measure Key}

/-- The Cholesky factor as it is used. -/
theorem cholesky_facts (hT : IdealTfp T κ) {d : ℕ} {S : Matrix (Fin d) (Fin d) ℝ} (hS : S.PosDef) :
    ∃ L : Matrix (Fin d) (Fin d) ℝ, lowerTriangular (T.cholesky S) = L ∧ L * L.transpose = S ∧ L.det ≠ 0 ∧
      Real.log |L.det| = Real.log S.det / 2 := by
  obtain ⟨h1, h2⟩ := hT.cholesky S hS
  have hL : lowerTriangular (T.cholesky S) = T.cholesky S := by
    ext i j
    simp only [lowerTriangular, Matrix.of_apply]
    split_ifs with h
    · rfl
    · exact (h1 i j (not_le.1 h)).symm
  have hd : S.det = (T.cholesky S).det ^ 2 := by
    conv_lhs => rw [← h2]
    rw [Matrix.det_mul, Matrix.det_transpose, sq]
  have hne : (T.cholesky S).det ≠ 0 := by
    intro h
    have := hS.det_pos
    rw [hd, h] at this
    simp at this
  refine ⟨_, hL, h2, hne, ?_⟩
  rw [hd, ← sq_abs, Real.log_pow]
  push_cast
  ring

theorem mahalanobis_eq {d : ℕ} {S L : Matrix (Fin d) (Fin d) ℝ} (h : L * L.transpose = S)
    (loc z : Fin d → ℝ) : mahalanobis loc L z = quad loc S z := by
  unfold mahalanobis quad
  rw [← h, Matrix.mul_inv_rev, ← Matrix.mulVec_mulVec, ← Matrix.transpose_nonsing_inv, Matrix.mulVec_transpose,
    dotProduct_comm, ← Matrix.dotProduct_mulVec]
  simp [dotProduct, sq]

theorem normal_logProb (hT : IdealTfp T κ) {d : ℕ} (mean : List ℝ) (cov : Arr) (hS : (toMatrix d cov).PosDef)
    (z : Fin d → ℝ) : (constructNormal T d mean cov).logProb (List.ofFn z)
      = (logDensity (toVec d mean) (toMatrix d cov) z : ℝ) := by
  obtain ⟨L, h1, h2, h3, h4⟩ := cholesky_facts hT hS
  show ((_ : ℝ) : EReal) = _
  rw [h1, toVec_ofFn, mahalanobis_eq h2, h4]
  unfold logDensity
  congr 1
  ring

theorem stdNormal_eq (d : ℕ) : normalLaw (0 : Fin d → ℝ) 1 = stdNormal d := by
  rw [stdNormal_map, CFC.sqrt_one]
  simp

theorem normalLaw_cholesky {d : ℕ} {S L : Matrix (Fin d) (Fin d) ℝ} (h : L * L.transpose = S) (mean : Fin d → ℝ) :
    (stdNormal d).map (fun w => mean + L.mulVec w) = normalLaw mean S := by
  have := normalLaw_map (0 : Fin d → ℝ) Matrix.PosSemidef.one mean L
  rw [stdNormal_eq, Matrix.mulVec_zero, add_zero, Matrix.mul_one, h] at this
  exact this

/-- `construct_multivariate_normal_distribution` stands for the normal law. -/
theorem normal_represents (hT : IdealTfp T κ) {d : ℕ} (mean : List ℝ) (cov : Arr) (hS : (toMatrix d cov).PosDef) :
    Represents κ (constructNormal T d mean cov) d List.ofFn (volume.restrict Set.univ)
      (normalLaw (toVec d mean) (toMatrix d cov)) := by
  haveI := hT.prob
  obtain ⟨L, h1, h2, h3, h4⟩ := cholesky_facts hT hS
  refine ⟨rfl, fun n => ?_, ?_, ?_⟩
  · obtain ⟨hm, hl⟩ := hT.normal n d
    have hL : Measurable fun w : Fin d → ℝ => toVec d mean + L.mulVec w := by
      have : Continuous fun w : Fin d → ℝ => toVec d mean + L.mulVec w := by fun_prop
      exact this.measurable
    obtain ⟨h5, h6⟩ := map_draws (μ := stdNormal d) hm hl hL
    rw [normalLaw_cholesky h2] at h6
    refine ⟨_, h5, fun k => ?_, h6⟩
    show rowsOf _ = _
    rw [h1]
    rfl
  · simp only [normal_logProb hT mean cov hS]
    exact (measurable_coe_real_ereal.comp (continuous_logDensity _ _).measurable).aemeasurable
  · rw [Measure.restrict_univ]
    simp only [normal_logProb hT mean cov hS, EReal.exp_coe]
    exact normalLaw_density _ hS

theorem student_logProb (hT : IdealTfp T κ) {d : ℕ} (mean : List ℝ) (disp : Arr) (hS : (toMatrix d disp).PosDef) {df : ℝ}
    (hdf : 0 < df) (z : Fin d → ℝ) : (constructStudent T d mean disp df).logProb (List.ofFn z)
      = (studentLog (toVec d mean) (toMatrix d disp) df z : ℝ) := by
  obtain ⟨L, h1, h2, h3, h4⟩ := cholesky_facts hT hS
  show ((_ : ℝ) : EReal) = _
  rw [h1, toVec_ofFn, mahalanobis_eq h2, h4]
  unfold studentLog
  rw [Real.log_mul hdf.ne' Real.pi_ne_zero]
  congr 1
  ring

/-- `construct_multivariate_student_distribution` stands for the Student-t law. -/
theorem student_represents (hT : IdealTfp T κ) {d : ℕ} (mean : List ℝ) (disp : Arr) (hS : (toMatrix d disp).PosDef) {df : ℝ}
    (hdf : 0 < df) : Represents κ (constructStudent T d mean disp df) d List.ofFn (volume.restrict Set.univ)
      (studentLaw (toVec d mean) (toMatrix d disp) df) := by
  haveI := hT.prob
  haveI := Fact.mk hdf
  obtain ⟨L, h1, h2, h3, h4⟩ := cholesky_facts hT hS
  refine ⟨rfl, fun n => ?_, ?_, ?_⟩
  · obtain ⟨hm, hl⟩ := hT.normal n d
    obtain ⟨cm, cl⟩ := hT.chi2 n df hdf
    obtain ⟨sm, sl⟩ := hT.split 2
    let row : ℝ × (Fin d → ℝ) → Fin d → ℝ := fun p => toVec d mean + L.mulVec ((√(p.1 / df))⁻¹ • p.2)
    have hLm : Measurable fun w : Fin d → ℝ => L.mulVec w := by
      have : Continuous fun w : Fin d → ℝ => L.mulVec w := by fun_prop
      exact this.measurable
    have hrow : Measurable row := by
      refine measurable_const.add (hLm.comp ?_)
      fun_prop
    have hrl : ((chiSquared df).prod (stdNormal d)).map row = studentLaw (toVec d mean) (toMatrix d disp) df := by
      have e := normalLaw_cholesky h2 0
      simp only [zero_add] at e
      unfold studentLaw
      rw [← e]
      have e2 : (chiSquared df).prod ((stdNormal d).map fun w => L.mulVec w)
          = ((chiSquared df).prod (stdNormal d)).map (Prod.map id fun w => L.mulVec w) := by
        rw [← Measure.map_prod_map _ _ measurable_id hLm, Measure.map_id]
      rw [e2, Measure.map_map (measurable_studentMap _ df) (measurable_id.prodMap hLm)]
      congr 1
      funext p
      simp [row, Matrix.mulVec_smul]
    let both : (Fin 2 → Key) → Fin n → ℝ × (Fin d → ℝ) := fun ks i => (T.chi2 (ks 1) n df i, T.normal (ks 0) n d i)
    have hboth : Measurable both := by
      refine measurable_pi_lambda _ fun i => Measurable.prodMk ?_ ?_
      · exact (measurable_pi_apply i).comp (cm.comp (measurable_pi_apply 1))
      · exact (measurable_pi_apply i).comp (hm.comp (measurable_pi_apply 0))
    have hbl : κ.map (fun k => both (T.split k 2)) = Measure.pi fun _ => (chiSquared df).prod (stdNormal d) := by
      have e1 := (measurePreserving_arrowProdEquivProdArrow ℝ (Fin d → ℝ) (Fin n)
        (fun _ => chiSquared df) (fun _ => stdNormal d)).symm
      have e2 := measurePreserving_finTwoArrow κ
      have e3 : Measurable (fun p : Key × Key => (p.2, p.1)) := measurable_swap
      have hl' : κ.map (fun k => T.normal k n d) = Measure.pi fun _ => stdNormal d := hl
      rw [← e1.map_eq, ← cl, ← hl', Measure.map_prod_map _ _ cm hm, ← Measure.prod_swap, ← e2.map_eq, ← sl,
        Measure.map_map e2.measurable sm, Measure.map_map measurable_swap (e2.measurable.comp sm),
        Measure.map_map (cm.prodMap hm) (measurable_swap.comp (e2.measurable.comp sm)),
        Measure.map_map e1.measurable ((cm.prodMap hm).comp (measurable_swap.comp (e2.measurable.comp sm)))]
      rfl
    obtain ⟨h5, h6⟩ := map_draws (hboth.comp sm) hbl hrow
    rw [hrl] at h6
    refine ⟨_, h5, fun k => ?_, h6⟩
    show rowsOf _ = _
    rw [h1]
    rfl
  · simp only [student_logProb hT mean disp hS hdf]
    exact (measurable_coe_real_ereal.comp (continuous_studentLog _ hS hdf).measurable).aemeasurable
  · rw [Measure.restrict_univ]
    simp only [student_logProb hT mean disp hS hdf, EReal.exp_coe]
    exact studentLaw_density _ hS hdf

theorem pairList_parts {dx dy : ℕ} (z : Fin (dx + dy) → ℝ) : pairList (parts z : (Fin dx → ℝ) × (Fin dy → ℝ)) = List.ofFn z := by
  unfold pairList
  rw [← take_ofFn, ← drop_ofFn, List.take_append_drop]

/-- A distribution of vectors, seen as a distribution of pairs. -/
theorem represents_pair {dx dy : ℕ} {D : Dist Key} {μ : Measure (Fin (dx + dy) → ℝ)} [IsProbabilityMeasure μ]
    (h : Represents κ D (dx + dy) List.ofFn (volume.restrict Set.univ) μ) :
    Represents κ D (dx + dy) (pairList (dx := dx) (dy := dy)) (volume.restrict (Set.univ ×ˢ Set.univ)) (μ.map parts) := by
  have e : ∀ z : (Fin dx → ℝ) × (Fin dy → ℝ), pairList z = List.ofFn ((partsEquiv dx dy).symm z) := by
    intro z
    rw [← pairList_parts, ← partsEquiv_apply, MeasurableEquiv.apply_symm_apply]
  have hv := partsEquiv_volume dx dy
  refine ⟨h.shape, fun n => ?_, ?_, ?_⟩
  · obtain ⟨draw, h1, h2, h3⟩ := h.law n
    obtain ⟨h4, h5⟩ := map_draws h1 h3 (measurable_parts dx dy)
    refine ⟨_, h4, fun k => ?_, h5⟩
    simp only [pairList_parts]
    exact h2 k
  · rw [Set.univ_prod_univ, Measure.restrict_univ]
    simp only [e]
    have h1 := h.measurable
    rw [Measure.restrict_univ] at h1
    have hs := hv.symm
    exact AEMeasurable.comp_quasiMeasurePreserving (g := fun z => D.logProb (List.ofFn z)) h1 hs.quasiMeasurePreserving
  · have h1 := h.density
    rw [Measure.restrict_univ] at h1
    rw [Set.univ_prod_univ, Measure.restrict_univ]
    simp only [e]
    have h2 := map_withDensity_equiv (partsEquiv dx dy) hv fun z => (D.logProb (List.ofFn z)).exp
    rw [← h1] at h2
    exact h2

end BMI.Bmm
