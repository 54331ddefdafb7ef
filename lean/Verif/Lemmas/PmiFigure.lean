import Verif.Lemmas.Profiles
import Verif.Lemmas.BinormalLevels
import Verif.Lemmas.StudentMI
import Verif.Spec.PmiFigure

/-! The pointwise mutual information of Student-t and normal pairs, in the plane. -/

namespace BMI.Samplers

open MeasureTheory

variable {dx dy : ℕ} (loc : Fin (dx + dy) → ℝ) {S : Matrix (Fin (dx + dy)) (Fin (dx + dy)) ℝ} {ν : ℝ}

/-- Logarithm of the density of a Student-t law with respect to the product of the marginals. -/
noncomputable def studentLogRatio (S : Matrix (Fin (dx + dy)) (Fin (dx + dy)) ℝ) (ν : ℝ) (z : (Fin dx → ℝ) × (Fin dy → ℝ)) : ℝ :=
  studentLog loc S ν ((partsEquiv dx dy).symm z) - studentLog (parts loc).1 (blockX S) ν z.1
    - studentLog (parts loc).2 (blockY S) ν z.2

theorem measurable_studentLogRatio (h : S.PosDef) (hν : 0 < ν) : Measurable (studentLogRatio loc S ν) := by
  have h1 : Measurable fun z : (Fin dx → ℝ) × (Fin dy → ℝ) => studentLog loc S ν ((partsEquiv dx dy).symm z) :=
    (continuous_studentLog loc h hν).measurable.comp (partsEquiv dx dy).symm.measurable
  have h2 : Measurable fun z : (Fin dx → ℝ) × (Fin dy → ℝ) => studentLog (parts loc).1 (blockX S) ν z.1 :=
    (continuous_studentLog _ (blockX_posDef h) hν).measurable.comp measurable_fst
  have h3 : Measurable fun z : (Fin dx → ℝ) × (Fin dy → ℝ) => studentLog (parts loc).2 (blockY S) ν z.2 :=
    (continuous_studentLog _ (blockY_posDef h) hν).measurable.comp measurable_snd
  exact (h1.sub h2).sub h3

theorem splitStudent_ratio (h : S.PosDef) (hν : 0 < ν) :
    splitStudent dx dy loc S ν = ((splitStudent dx dy loc S ν).fst.prod (splitStudent dx dy loc S ν).snd).withDensity
      fun z => ENNReal.ofReal (Real.exp (studentLogRatio loc S ν z)) := by
  have hx := blockX_posDef h
  have hy := blockY_posDef h
  have m1 : Measurable fun x => ENNReal.ofReal (Real.exp (studentLog (parts loc).1 (blockX S) ν x)) :=
    (Real.continuous_exp.measurable.comp (continuous_studentLog _ hx hν).measurable).ennreal_ofReal
  have m2 : Measurable fun x => ENNReal.ofReal (Real.exp (studentLog (parts loc).2 (blockY S) ν x)) :=
    (Real.continuous_exp.measurable.comp (continuous_studentLog _ hy hν).measurable).ennreal_ofReal
  have m3 : Measurable fun z => ENNReal.ofReal (Real.exp (studentLogRatio loc S ν z)) :=
    (Real.continuous_exp.measurable.comp (measurable_studentLogRatio loc h hν)).ennreal_ofReal
  have m4 : Measurable fun z : (Fin dx → ℝ) × (Fin dy → ℝ) =>
      ENNReal.ofReal (Real.exp (studentLog (parts loc).1 (blockX S) ν z.1)) *
        ENNReal.ofReal (Real.exp (studentLog (parts loc).2 (blockY S) ν z.2)) :=
    (m1.comp measurable_fst).mul (m2.comp measurable_snd)
  rw [splitStudent_fst loc h.posSemidef hν, splitStudent_snd loc h.posSemidef hν, studentLaw_density _ hx hν,
    studentLaw_density _ hy hν, prod_withDensity m1 m2, ← withDensity_mul _ m4 m3, splitStudent_density loc h hν]
  congr 1
  funext z
  simp only [Pi.mul_apply]
  rw [← ENNReal.ofReal_mul (Real.exp_pos _).le, ← ENNReal.ofReal_mul (by positivity), ← Real.exp_add, ← Real.exp_add]
  congr 2
  unfold studentLogRatio
  ring

/-- A law with a positive density meets every open set. -/
theorem openPos_of_density {d : ℕ} {μ : Measure (Fin d → ℝ)} {g : (Fin d → ℝ) → ℝ} (hg : Measurable g)
    (h : μ = volume.withDensity fun z => ENNReal.ofReal (Real.exp (g z))) : μ.IsOpenPosMeasure := by
  refine Measure.AbsolutelyContinuous.isOpenPosMeasure (μ := volume) ?_
  rw [h]
  refine withDensity_absolutelyContinuous' hg.exp.ennreal_ofReal.aemeasurable (Filter.Eventually.of_forall fun z => ?_)
  exact (ENNReal.ofReal_pos.2 (Real.exp_pos _)).ne'

/-- A continuous density is known everywhere. -/
theorem density_unique {d : ℕ} {μ : Measure (Fin d → ℝ)} [IsFiniteMeasure μ] {f : (Fin d → ℝ) → ℝ} {g : (Fin d → ℝ) → ℝ} (hf : Continuous f) (h0 : ∀ z, 0 ≤ f z)
    (hg : Continuous g) (h1 : μ = volume.withDensity fun z => ENNReal.ofReal (f z))
    (h2 : μ = volume.withDensity fun z => ENNReal.ofReal (Real.exp (g z))) : f = fun z => Real.exp (g z) := by
  have hE : Continuous fun z => Real.exp (g z) := Real.continuous_exp.comp hg
  have ae : (fun z => ENNReal.ofReal (f z)) =ᵐ[volume] fun z => ENNReal.ofReal (Real.exp (g z)) :=
    (withDensity_eq_iff_of_sigmaFinite hf.measurable.ennreal_ofReal.aemeasurable hE.measurable.ennreal_ofReal.aemeasurable).1
      (h1.symm.trans h2)
  refine (Continuous.ae_eq_iff_eq volume hf hE).1 ?_
  filter_upwards [ae] with z hz
  exact (ENNReal.ofReal_eq_ofReal_iff (h0 z) (Real.exp_pos _).le).1 hz

end BMI.Samplers

namespace BMI.PmiFigure

open MeasureTheory ProbabilityTheory BMI.Samplers BMI.Profiles

theorem half_posDef : half.PosDef := pair_pos (by rw [abs_of_pos] <;> norm_num)

/-- Points of the plane as pairs of vectors of length one. -/
def flat (z : (Fin 1 → ℝ) × (Fin 1 → ℝ)) : ℝ × ℝ := (z.1 0, z.2 0)

theorem continuous_flat : Continuous flat := by unfold flat; fun_prop

theorem flat_surjective : Function.Surjective flat := fun z => ⟨(fun _ => z.1, fun _ => z.2), rfl⟩

theorem coordinates_eq (μ : Measure (Fin (1 + 1) → ℝ)) : coordinates μ = (μ.map parts).map flat := by
  rw [Measure.map_map continuous_flat.measurable (measurable_parts 1 1)]
  rfl

theorem flat_fst (Q : Measure ((Fin 1 → ℝ) × (Fin 1 → ℝ))) : (Q.map flat).fst = Q.fst.map fun x => x 0 := by
  unfold Measure.fst
  rw [Measure.map_map measurable_fst continuous_flat.measurable, Measure.map_map (measurable_pi_apply 0) measurable_fst]
  rfl

theorem flat_snd (Q : Measure ((Fin 1 → ℝ) × (Fin 1 → ℝ))) : (Q.map flat).snd = Q.snd.map fun x => x 0 := by
  unfold Measure.snd
  rw [Measure.map_map measurable_snd continuous_flat.measurable, Measure.map_map (measurable_pi_apply 0) measurable_snd]
  rfl

/-- From pairs of vectors of length one to pairs of numbers. -/
theorem isThePmi_of {Q : Measure ((Fin 1 → ℝ) × (Fin 1 → ℝ))} [IsProbabilityMeasure Q] {r : ℝ → ℝ → ℝ}
    (hr : Continuous fun z : ℝ × ℝ => r z.1 z.2)
    (hQ : Q = (Q.fst.prod Q.snd).withDensity fun z => ENNReal.ofReal (Real.exp (r (z.1 0) (z.2 0))))
    (o1 : Q.fst.IsOpenPosMeasure) (o2 : Q.snd.IsOpenPosMeasure) : IsThePmi (Q.map flat) r := by
  have hprod : (Q.map flat).fst.prod (Q.map flat).snd = (Q.fst.prod Q.snd).map flat := by
    rw [flat_fst, flat_snd, Measure.map_prod_map _ _ (measurable_pi_apply 0) (measurable_pi_apply 0)]
    rfl
  have ratio : IsLogRatio (Q.map flat) fun z => r z.1 z.2 := by
    unfold IsLogRatio
    rw [hprod]
    conv_lhs => rw [hQ]
    refine Measure.ext fun s hs => ?_
    rw [Measure.map_apply continuous_flat.measurable hs, withDensity_apply _ (continuous_flat.measurable hs), withDensity_apply _ hs,
      setLIntegral_map hs hr.measurable.exp.ennreal_ofReal continuous_flat.measurable]
    rfl
  refine ⟨hr, ratio, fun r' hr' h' => ?_⟩
  haveI : IsProbabilityMeasure (Q.map flat) := Measure.isProbabilityMeasure_map continuous_flat.measurable.aemeasurable
  haveI : ((Q.map flat).fst.prod (Q.map flat).snd).IsOpenPosMeasure := by
    rw [hprod]
    exact continuous_flat.isOpenPosMeasure_map flat_surjective
  unfold IsLogRatio at h' ratio
  have ae := (withDensity_eq_iff_of_sigmaFinite (μ := (Q.map flat).fst.prod (Q.map flat).snd)
    hr'.measurable.exp.ennreal_ofReal.aemeasurable hr.measurable.exp.ennreal_ofReal.aemeasurable).1 (h'.symm.trans ratio)
  have := (Continuous.ae_eq_iff_eq ((Q.map flat).fst.prod (Q.map flat).snd) hr' hr).1 (by
    filter_upwards [ae] with z hz
    exact Real.exp_injective ((ENNReal.ofReal_eq_ofReal_iff (Real.exp_pos _).le (Real.exp_pos _).le).1 hz))
  funext x y
  exact congrFun this (x, y)

theorem symm_flat (z : (Fin 1 → ℝ) × (Fin 1 → ℝ)) : (partsEquiv 1 1).symm z = ![z.1 0, z.2 0] := by
  rw [partsEquiv_symm]
  funext i
  fin_cases i <;> rfl

theorem half_blocks : (blockX (dx := 1) (dy := 1) half) 0 0 = 1 ∧ (blockY (dx := 1) (dy := 1) half) 0 0 = 1 := ⟨rfl, rfl⟩

theorem half_quad (v : Fin 2 → ℝ) : quad 0 half v = (v 0 ^ 2 - 2 * (1 / 2) * v 0 * v 1 + v 1 ^ 2) / (1 - (1 / 2) ^ 2) :=
  quad_pair (by rw [abs_of_pos] <;> norm_num) v

theorem half_det : half.det = 1 - (1 / 2) ^ 2 := by
  unfold half
  rw [Matrix.det_fin_two]
  norm_num [Matrix.of_apply]

theorem one_quad (v : Fin 1 → ℝ) (A : Matrix (Fin 1) (Fin 1) ℝ) (hA : A 0 0 = 1) : quad 0 A v = v 0 ^ 2 := by
  have := quad_number one_ne_zero 0 v A hA
  rw [this]
  simp

theorem one_det (A : Matrix (Fin 1) (Fin 1) ℝ) (hA : A 0 0 = 1) : A.det = 1 := by rw [Matrix.det_fin_one, hA]

/-- The logarithms of the three Student-t densities. -/
theorem studentPmi_logs {ν : ℝ} (A B : Matrix (Fin 1) (Fin 1) ℝ) (hA : A 0 0 = 1) (hB : B 0 0 = 1) (x y : ℝ) :
    studentLog 0 half ν ![x, y] - studentLog 0 A ν ![x] - studentLog 0 B ν ![y] = studentPmi ν (1 / 2) x y := by
  unfold studentLog studentPmi
  rw [half_quad, one_quad _ _ hA, one_quad _ _ hB, half_det, one_det _ hA, one_det _ hB]
  simp
  ring_nf

/-- The logarithms of the three normal densities. -/
theorem normalPmi_logs (A B : Matrix (Fin 1) (Fin 1) ℝ) (hA : A 0 0 = 1) (hB : B 0 0 = 1) (x y : ℝ) :
    logDensity 0 half ![x, y] - logDensity 0 A ![x] - logDensity 0 B ![y] = normalPmi (1 / 2) x y := by
  unfold logDensity normalPmi
  rw [half_quad, one_quad _ _ hA, one_quad _ _ hB, half_det, one_det _ hA, one_det _ hB]
  simp
  ring_nf

theorem continuous_normalPmi : Continuous fun z : ℝ × ℝ => normalPmi (1 / 2) z.1 z.2 := by
  unfold normalPmi
  fun_prop

theorem continuous_studentPmi {ν : ℝ} (hν : 0 < ν) : Continuous fun z : ℝ × ℝ => studentPmi ν (1 / 2) z.1 z.2 := by
  have h1 : ∀ t : ℝ, 1 + t ^ 2 / ν ≠ 0 := fun t => by positivity
  have h2 : ∀ z : ℝ × ℝ, 1 + (z.1 ^ 2 - 2 * (1 / 2) * z.1 * z.2 + z.2 ^ 2) / (1 - (1 / 2) ^ 2) / ν ≠ 0 := fun z => by
    have : 0 ≤ z.1 ^ 2 - 2 * (1 / 2) * z.1 * z.2 + z.2 ^ 2 := by nlinarith [sq_nonneg (z.1 - z.2), sq_nonneg z.1, sq_nonneg z.2]
    have : 0 ≤ (z.1 ^ 2 - 2 * (1 / 2) * z.1 * z.2 + z.2 ^ 2) / (1 - (1 / 2) ^ 2) / ν := by
      refine div_nonneg (div_nonneg this (by norm_num)) hν.le
    positivity
  unfold studentPmi
  refine Continuous.sub (Continuous.add continuous_const (continuous_const.mul (Continuous.add ?_ ?_))) (continuous_const.mul ?_)
  · exact Continuous.log (by fun_prop) fun z => h1 z.1
  · exact Continuous.log (by fun_prop) fun z => h1 z.2
  · exact Continuous.log (by fun_prop) h2

theorem parts_zero : (parts (0 : Fin (1 + 1) → ℝ)).1 = 0 ∧ (parts (0 : Fin (1 + 1) → ℝ)).2 = 0 := ⟨rfl, rfl⟩

theorem one_vec (v : Fin 1 → ℝ) : v = ![v 0] := by
  funext i
  rw [Subsingleton.elim i 0]
  rfl

/-- The pointwise mutual information of a Student-t pair. -/
theorem student_pmi {ν : ℝ} (hν : 0 < ν) : IsThePmi (coordinates (studentLaw 0 half ν)) (studentPmi ν (1 / 2)) := by
  have hb := half_blocks
  have h : (half : Matrix (Fin (1 + 1)) (Fin (1 + 1)) ℝ).PosDef := half_posDef
  haveI := splitStudent_prob (dx := 1) (dy := 1) 0 half hν
  have e := coordinates_eq (studentLaw (0 : Fin (1 + 1) → ℝ) half ν)
  refine Eq.mpr (congrArg (IsThePmi · _) e) ?_
  refine isThePmi_of (Q := splitStudent 1 1 0 half ν) (continuous_studentPmi hν) ?_ ?_ ?_
  · refine (splitStudent_ratio (dx := 1) (dy := 1) 0 h hν).trans ?_
    congr 1
    funext z
    have : studentLogRatio (dx := 1) (dy := 1) 0 half ν z = studentPmi ν (1 / 2) (z.1 0) (z.2 0) := by
      unfold studentLogRatio
      rw [symm_flat, parts_zero.1, parts_zero.2, one_vec z.1, one_vec z.2]
      exact studentPmi_logs _ _ hb.1 hb.2 _ _
    rw [this]
  · rw [splitStudent_fst (dx := 1) (dy := 1) 0 h.posSemidef hν]
    exact openPos_of_density (continuous_studentLog _ (blockX_posDef h) hν).measurable (studentLaw_density _ (blockX_posDef h) hν)
  · rw [splitStudent_snd (dx := 1) (dy := 1) 0 h.posSemidef hν]
    exact openPos_of_density (continuous_studentLog _ (blockY_posDef h) hν).measurable (studentLaw_density _ (blockY_posDef h) hν)

/-- The pointwise mutual information of a normal pair. -/
theorem normal_pmi : IsThePmi (coordinates (normalLaw 0 half)) (normalPmi (1 / 2)) := by
  have hb := half_blocks
  have h : (half : Matrix (Fin (1 + 1)) (Fin (1 + 1)) ℝ).PosDef := half_posDef
  have e := coordinates_eq (normalLaw (0 : Fin (1 + 1) → ℝ) half)
  haveI : IsProbabilityMeasure (splitNormal 1 1 0 half) := inferInstance
  refine Eq.mpr (congrArg (IsThePmi · _) e) ?_
  refine isThePmi_of (Q := splitNormal 1 1 0 half) continuous_normalPmi ?_ ?_ ?_
  · refine (splitNormal_ratio (dx := 1) (dy := 1) 0 h).trans ?_
    congr 1
    funext z
    have : logRatio (dx := 1) (dy := 1) 0 half z = normalPmi (1 / 2) (z.1 0) (z.2 0) := by
      unfold logRatio
      rw [symm_flat, parts_zero.1, parts_zero.2, one_vec z.1, one_vec z.2]
      exact normalPmi_logs _ _ hb.1 hb.2 _ _
    rw [this]
  · rw [splitNormal_fst (dx := 1) (dy := 1) 0 h.posSemidef]
    exact openPos_of_density (continuous_logDensity _ _).measurable (normalLaw_density _ (blockX_posDef h))
  · rw [splitNormal_snd (dx := 1) (dy := 1) 0 h.posSemidef]
    exact openPos_of_density (continuous_logDensity _ _).measurable (normalLaw_density _ (blockY_posDef h))

end BMI.PmiFigure
