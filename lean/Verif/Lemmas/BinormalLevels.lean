import Verif.Lemmas.StrictDpi
import Verif.Props.Multinormal

/-! The density of a binormal law with respect to the product of its marginals takes every value with probability zero. -/

namespace BMI.Samplers

open MeasureTheory ProbabilityTheory

variable {dx dy : ℕ} (mean : Fin (dx + dy) → ℝ) {cov : Matrix (Fin (dx + dy)) (Fin (dx + dy)) ℝ}

/-- Logarithm of the density with respect to the product of the marginals. -/
noncomputable def logRatio (cov : Matrix (Fin (dx + dy)) (Fin (dx + dy)) ℝ) (z : (Fin dx → ℝ) × (Fin dy → ℝ)) : ℝ :=
  logDensity mean cov ((partsEquiv dx dy).symm z) - logDensity (parts mean).1 (blockX cov) z.1
    - logDensity (parts mean).2 (blockY cov) z.2

theorem measurable_logRatio : Measurable (logRatio mean cov) := by
  have h1 : Measurable fun z : (Fin dx → ℝ) × (Fin dy → ℝ) => logDensity mean cov ((partsEquiv dx dy).symm z) :=
    (continuous_logDensity mean cov).measurable.comp (partsEquiv dx dy).symm.measurable
  have h2 : Measurable fun z : (Fin dx → ℝ) × (Fin dy → ℝ) => logDensity (parts mean).1 (blockX cov) z.1 :=
    (continuous_logDensity _ _).measurable.comp measurable_fst
  have h3 : Measurable fun z : (Fin dx → ℝ) × (Fin dy → ℝ) => logDensity (parts mean).2 (blockY cov) z.2 :=
    (continuous_logDensity _ _).measurable.comp measurable_snd
  exact (h1.sub h2).sub h3

theorem splitNormal_ratio (h : cov.PosDef) :
    splitNormal dx dy mean cov = ((splitNormal dx dy mean cov).fst.prod (splitNormal dx dy mean cov).snd).withDensity
      fun z => ENNReal.ofReal (Real.exp (logRatio mean cov z)) := by
  have hx := blockX_posDef h
  have hy := blockY_posDef h
  have m1 : Measurable fun x => ENNReal.ofReal (Real.exp (logDensity (parts mean).1 (blockX cov) x)) :=
    (Real.continuous_exp.measurable.comp (continuous_logDensity _ _).measurable).ennreal_ofReal
  have m2 : Measurable fun x => ENNReal.ofReal (Real.exp (logDensity (parts mean).2 (blockY cov) x)) :=
    (Real.continuous_exp.measurable.comp (continuous_logDensity _ _).measurable).ennreal_ofReal
  have m3 : Measurable fun z => ENNReal.ofReal (Real.exp (logRatio mean cov z)) :=
    (Real.continuous_exp.measurable.comp (measurable_logRatio mean)).ennreal_ofReal
  have m4 : Measurable fun z : (Fin dx → ℝ) × (Fin dy → ℝ) =>
      ENNReal.ofReal (Real.exp (logDensity (parts mean).1 (blockX cov) z.1)) *
        ENNReal.ofReal (Real.exp (logDensity (parts mean).2 (blockY cov) z.2)) :=
    (m1.comp measurable_fst).mul (m2.comp measurable_snd)
  have hP : splitNormal dx dy mean cov = (volume.prod volume).withDensity
      fun z => ENNReal.ofReal (Real.exp (logDensity mean cov ((partsEquiv dx dy).symm z))) := by
    have := map_withDensity_equiv (partsEquiv dx dy) (partsEquiv_volume dx dy)
      fun z => ENNReal.ofReal (Real.exp (logDensity mean cov z))
    rw [← normalLaw_density mean h] at this
    exact this
  rw [splitNormal_fst mean h.posSemidef, splitNormal_snd mean h.posSemidef, normalLaw_density _ hx, normalLaw_density _ hy,
    prod_withDensity m1 m2, ← withDensity_mul _ m4 m3, hP]
  congr 1
  funext z
  simp only [Pi.mul_apply]
  rw [← ENNReal.ofReal_mul (Real.exp_pos _).le, ← ENNReal.ofReal_mul (by positivity), ← Real.exp_add, ← Real.exp_add]
  congr 2
  unfold logRatio
  ring

/-- The roots of a polynomial of degree two. -/
theorem roots_finite (a b d : ℝ) (ha : a ≠ 0) : {y : Fin 1 → ℝ | a * y 0 ^ 2 + b * y 0 + d = 0}.Finite := by
  rcases Set.eq_empty_or_nonempty {y : Fin 1 → ℝ | a * y 0 ^ 2 + b * y 0 + d = 0} with h | ⟨w, hw⟩
  · rw [h]
    exact Set.finite_empty
  · refine (Set.toFinite {w, fun _ => -b / a - w 0}).subset fun y hy => ?_
    simp only [Set.mem_setOf_eq] at hy hw
    have e : (y 0 - w 0) * (a * (y 0 + w 0) + b) = 0 := by linear_combination hy - hw
    rcases mul_eq_zero.1 e with e | e
    · left
      funext i
      rw [Subsingleton.elim i 0]
      linarith
    · right
      rw [Set.mem_singleton_iff]
      funext i
      rw [Subsingleton.elim i 0]
      field_simp
      linarith

theorem logRatio_binormal (c : ℝ) (h1 : -1 < c) (h2 : c < 1) : ∃ k : ℝ, ∀ z : (Fin 1 → ℝ) × (Fin 1 → ℝ),
    logRatio (dx := 1) (dy := 1) ![0, 0] (bivariateCov c 1 1) z
      = k + (-c ^ 2 * (z.1 0 ^ 2 + z.2 0 ^ 2) + 2 * c * z.1 0 * z.2 0) / (2 * (1 - c ^ 2)) := by
  have hc : 1 - c ^ 2 ≠ 0 := by nlinarith
  have q1 : ∀ (m v : Fin 1 → ℝ) (A : Matrix (Fin 1) (Fin 1) ℝ), m 0 = 0 → A 0 0 = 1 → quad m A v = v 0 ^ 2 := by
    intro m v A hm hA
    have : A = 1 := by
      ext i j
      rw [Subsingleton.elim i 0, Subsingleton.elim j 0, hA]
      rfl
    unfold quad
    rw [this, inv_one, Matrix.one_mulVec]
    simp [dotProduct, hm]
    ring
  have hinv : (bivariateCov c 1 1)⁻¹ = !![1 / (1 - c ^ 2), -c / (1 - c ^ 2); -c / (1 - c ^ 2), 1 / (1 - c ^ 2)] := by
    refine Matrix.inv_eq_left_inv ?_
    unfold bivariateCov
    ext i j
    fin_cases i <;> fin_cases j <;> simp [Matrix.mul_apply, Fin.sum_univ_two] <;> field_simp <;> ring
  have q2 : ∀ v : Fin 2 → ℝ, quad ![0, 0] (bivariateCov c 1 1) v
      = (v 0 ^ 2 - 2 * c * v 0 * v 1 + v 1 ^ 2) / (1 - c ^ 2) := by
    intro v
    unfold quad
    rw [hinv]
    simp [dotProduct, Matrix.mulVec, Fin.sum_univ_two]
    field_simp
    ring
  have p0 : ∀ z : (Fin 1 → ℝ) × (Fin 1 → ℝ), (partsEquiv 1 1).symm z 0 = z.1 0 := fun z => by
    have : (parts ((partsEquiv 1 1).symm z)).1 0 = z.1 0 := by
      rw [← partsEquiv_apply, MeasurableEquiv.apply_symm_apply]
    exact this
  have p1 : ∀ z : (Fin 1 → ℝ) × (Fin 1 → ℝ), (partsEquiv 1 1).symm z 1 = z.2 0 := fun z => by
    have : (parts ((partsEquiv 1 1).symm z)).2 0 = z.2 0 := by
      rw [← partsEquiv_apply, MeasurableEquiv.apply_symm_apply]
    exact this
  refine ⟨-(Real.log (bivariateCov c 1 1).det + (2 : ℕ) * Real.log (2 * Real.pi)) / 2
    + (Real.log (blockX (dx := 1) (dy := 1) (bivariateCov c 1 1)).det + (1 : ℕ) * Real.log (2 * Real.pi)) / 2
    + (Real.log (blockY (dx := 1) (dy := 1) (bivariateCov c 1 1)).det + (1 : ℕ) * Real.log (2 * Real.pi)) / 2,
    fun z => ?_⟩
  unfold logRatio logDensity
  have e2 := q2 ((partsEquiv 1 1).symm z)
  rw [p0, p1] at e2
  rw [q1 _ z.1 _ (by rfl) (by simp [blockX, bivariateCov]), q1 _ z.2 _ (by rfl) (by simp [blockY, bivariateCov])]
  erw [e2]
  field_simp
  ring

/-- Every value of the density has probability zero. -/
theorem binormal_levels (c : ℝ) (h1 : -1 < c) (h2 : c < 1) (h0 : c ≠ 0) (v : ENNReal) :
    ((splitNormal 1 1 ![0, 0] (bivariateCov c 1 1)).fst.prod (splitNormal 1 1 ![0, 0] (bivariateCov c 1 1)).snd)
      {z | ENNReal.ofReal (Real.exp (logRatio (dx := 1) (dy := 1) ![0, 0] (bivariateCov c 1 1) z)) = v} = 0 := by
  obtain ⟨k, hk⟩ := logRatio_binormal c h1 h2
  have hpos := bivariateCov_posDef c 1 1 one_pos one_pos h1 h2
  have hc : 1 - c ^ 2 ≠ 0 := by nlinarith
  have m3 : Measurable fun z => ENNReal.ofReal (Real.exp (logRatio (dx := 1) (dy := 1) ![0, 0] (bivariateCov c 1 1) z)) :=
    (Real.continuous_exp.measurable.comp (measurable_logRatio _)).ennreal_ofReal
  have hm : MeasurableSet {z | ENNReal.ofReal (Real.exp (logRatio (dx := 1) (dy := 1) ![0, 0] (bivariateCov c 1 1) z)) = v} :=
    m3 (measurableSet_singleton v)
  rw [Measure.measure_prod_null hm]
  refine Filter.Eventually.of_forall fun x => ?_
  have hfin : (Prod.mk x ⁻¹' {z | ENNReal.ofReal (Real.exp (logRatio (dx := 1) (dy := 1) ![0, 0] (bivariateCov c 1 1) z)) = v}
      : Set (Fin 1 → ℝ)).Finite := by
    refine (roots_finite (-c ^ 2 / (2 * (1 - c ^ 2))) (2 * c * x 0 / (2 * (1 - c ^ 2)))
      (k - c ^ 2 * x 0 ^ 2 / (2 * (1 - c ^ 2)) - Real.log v.toReal)
      (div_ne_zero (neg_ne_zero.2 (pow_ne_zero 2 h0)) (mul_ne_zero two_ne_zero hc))).subset fun y hy => ?_
    simp only [Set.mem_preimage, Set.mem_setOf_eq] at hy ⊢
    have e : logRatio (dx := 1) (dy := 1) ![0, 0] (bivariateCov c 1 1) (x, y) = Real.log v.toReal := by
      rw [← hy, ENNReal.toReal_ofReal (Real.exp_pos _).le, Real.log_exp]
    rw [hk] at e
    rw [← e]
    field_simp
    ring
  have hac : (splitNormal 1 1 ![0, 0] (bivariateCov c 1 1)).snd ≪ volume := by
    have e := splitNormal_snd (dx := 1) (dy := 1) ![0, 0] (cov := bivariateCov c 1 1) hpos.posSemidef
    rw [normalLaw_density _ (blockY_posDef (dx := 1) (dy := 1) hpos)] at e
    rw [e]
    exact withDensity_absolutelyContinuous _ _
  exact hac (hfin.measure_zero volume)

/-- Maps with countably many values lose some information of a dependent binormal pair. -/
theorem binormal_map_lt (c : ℝ) (h1 : -1 < c) (h2 : c < 1) (h0 : c ≠ 0) {X' Y' : Type*} [MeasurableSpace X']
    [MeasurableSpace Y'] {f : (Fin 1 → ℝ) → X'} {g : (Fin 1 → ℝ) → Y'} (hf : Measurable f) (hg : Measurable g)
    (hfr : (Set.range f).Countable) (hgr : (Set.range g).Countable) :
    mutualInfo ((splitNormal 1 1 ![0, 0] (bivariateCov c 1 1)).map (Prod.map f g))
      < mutualInfo (splitNormal 1 1 ![0, 0] (bivariateCov c 1 1)) := by
  have hpos := bivariateCov_posDef c 1 1 one_pos one_pos h1 h2
  refine mutualInfo_map_lt _ hf hg hfr hgr ?_ _
    (Real.continuous_exp.measurable.comp (measurable_logRatio _)).ennreal_ofReal (splitNormal_ratio _ hpos)
    (binormal_levels c h1 h2 h0)
  have := (splitNormal_mi (dx := 1) (dy := 1) ![0, 0] hpos).1
  exact this ▸ ENNReal.ofReal_ne_top

end BMI.Samplers
