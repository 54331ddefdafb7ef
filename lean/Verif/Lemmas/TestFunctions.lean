import Verif.Lemmas.Gaussian
import Verif.Lemmas.MixtureMI
import Verif.Spec.MixtureTasks

/-! Means of sines and cosines under mixtures of normal laws. -/

namespace BMI.Chernoff

open MeasureTheory ProbabilityTheory BMI.Samplers BMI.Bmm BMI.MixtureTasks BMI.Student

/-- A linear functional of both variables. -/
def lin {dx dy : ℕ} (u : Fin (dx + dy) → ℝ) (z : (Fin dx → ℝ) × (Fin dy → ℝ)) : ℝ :=
  ∑ i, u (Fin.castAdd dy i) * z.1 i + ∑ i, u (Fin.natAdd dx i) * z.2 i

theorem measurable_lin {dx dy : ℕ} (u : Fin (dx + dy) → ℝ) : Measurable (lin u) := by
  unfold lin
  fun_prop

theorem lin_halves {dx dy : ℕ} (u z : Fin (dx + dy) → ℝ) : lin u (halves dx dy z) = u ⬝ᵥ z := by
  unfold lin halves dotProduct
  rw [Fin.sum_univ_add]

theorem normal_prob {d : ℕ} (mean : Fin d → ℝ) (cov : Matrix (Fin d) (Fin d) ℝ) : IsProbabilityMeasure (normalLaw mean cov) := by
  unfold normalLaw
  exact Measure.isProbabilityMeasure_map (by fun_prop)

theorem normal_trig {d : ℕ} (mean : Fin d → ℝ) {cov : Matrix (Fin d) (Fin d) ℝ} (h : cov.PosSemidef) (u : Fin d → ℝ) :
    ∫ z, Real.cos (u ⬝ᵥ z) ∂(normalLaw mean cov) = Real.cos (u ⬝ᵥ mean) * Real.exp (-(u ⬝ᵥ cov.mulVec u / 2)) ∧
    ∫ z, Real.sin (u ⬝ᵥ z) ∂(normalLaw mean cov) = Real.sin (u ⬝ᵥ mean) * Real.exp (-(u ⬝ᵥ cov.mulVec u / 2)) := by
  have hcont : Continuous fun z : Fin d → ℝ => u ⬝ᵥ z := by fun_prop
  let L : StrongDual ℝ (Fin d → ℝ) := ⟨{ toFun := fun z => u ⬝ᵥ z, map_add' := dotProduct_add u, map_smul' := fun c z => by simp }, hcont⟩
  have hL : coeffs L = u := by
    funext i
    show u ⬝ᵥ Pi.single i 1 = u i
    simp
  have h1 := charFunDual_normalLaw mean h L
  rw [hL, charFunDual_apply] at h1
  have hP := normal_prob mean cov
  have hi : Integrable (fun z : Fin d → ℝ => Complex.exp ((L z : ℝ) * Complex.I)) (normalLaw mean cov) := by
    refine (integrable_const (1 : ℝ)).mono' (by fun_prop) (Filter.Eventually.of_forall fun z => ?_)
    rw [Complex.norm_exp_ofReal_mul_I]
  have e : ((u ⬝ᵥ mean : ℝ) * Complex.I - (u ⬝ᵥ cov.mulVec u : ℝ) / 2 : ℂ) = ((-(u ⬝ᵥ cov.mulVec u / 2) : ℝ) : ℂ) + (u ⬝ᵥ mean : ℝ) * Complex.I := by
    push_cast
    ring
  rw [e, Complex.exp_add, ← Complex.ofReal_exp, Complex.exp_mul_I] at h1
  constructor
  · have h2 := integral_re hi
    rw [h1] at h2
    have h3 : ∀ z, RCLike.re (Complex.exp ((L z : ℝ) * Complex.I)) = Real.cos (u ⬝ᵥ z) := fun z => Complex.exp_ofReal_mul_I_re (L z)
    simp only [h3] at h2
    rw [h2, ← Complex.ofReal_cos, ← Complex.ofReal_sin]
    generalize Real.cos (u ⬝ᵥ mean) = a
    generalize Real.sin (u ⬝ᵥ mean) = b
    generalize Real.exp (-(u ⬝ᵥ cov.mulVec u / 2)) = c
    simp [mul_comm]
  · have h2 := integral_im hi
    rw [h1] at h2
    have h3 : ∀ z, RCLike.im (Complex.exp ((L z : ℝ) * Complex.I)) = Real.sin (u ⬝ᵥ z) := fun z => Complex.exp_ofReal_mul_I_im (L z)
    simp only [h3] at h2
    rw [h2, ← Complex.ofReal_cos, ← Complex.ofReal_sin]
    generalize Real.cos (u ⬝ᵥ mean) = a
    generalize Real.sin (u ⬝ᵥ mean) = b
    generalize Real.exp (-(u ⬝ᵥ cov.mulVec u / 2)) = c
    simp [mul_comm]

/-- Cosines and sines under a mixture of normal components. -/
theorem mixture_trig {m dx dy : ℕ} (p : Fin m → ℝ) (h0 : ∀ j, 0 ≤ p j) (mean : Fin m → Fin (dx + dy) → ℝ)
    (cov : Fin m → Matrix (Fin (dx + dy)) (Fin (dx + dy)) ℝ) (h : ∀ j, (cov j).PosDef) (u : Fin (dx + dy) → ℝ) :
    ∫ z, Real.cos (lin u z) ∂(mixtureLaw p fun j => component dx dy (mean j) (cov j))
      = ∑ j, p j * (Real.cos (u ⬝ᵥ mean j) * Real.exp (-(u ⬝ᵥ (cov j).mulVec u / 2))) ∧
    ∫ z, Real.sin (lin u z) ∂(mixtureLaw p fun j => component dx dy (mean j) (cov j))
      = ∑ j, p j * (Real.sin (u ⬝ᵥ mean j) * Real.exp (-(u ⬝ᵥ (cov j).mulVec u / 2))) := by
  have hm : Measurable (halves dx dy) := by
    unfold halves
    fun_prop
  have hP : ∀ j, IsProbabilityMeasure (component dx dy (mean j) (cov j)) := fun j => by
    have hP := normal_prob (mean j) (cov j)
    exact Measure.isProbabilityMeasure_map hm.aemeasurable
  have hc : Measurable fun z : (Fin dx → ℝ) × (Fin dy → ℝ) => Real.cos (lin u z) := Real.measurable_cos.comp (measurable_lin u)
  have hs : Measurable fun z : (Fin dx → ℝ) × (Fin dy → ℝ) => Real.sin (lin u z) := Real.measurable_sin.comp (measurable_lin u)
  refine ⟨?_, ?_⟩
  · rw [(integral_mixture p h0 _ _ fun j _ => (integrable_const (1 : ℝ)).mono' hc.aestronglyMeasurable
      (Filter.Eventually.of_forall fun z => Real.abs_cos_le_one _)).2]
    refine Finset.sum_congr rfl fun j _ => ?_
    unfold component
    rw [integral_map hm.aemeasurable hc.aestronglyMeasurable]
    simp only [lin_halves]
    rw [(normal_trig (mean j) (h j).posSemidef u).1]
  · rw [(integral_mixture p h0 _ _ fun j _ => (integrable_const (1 : ℝ)).mono' hs.aestronglyMeasurable
      (Filter.Eventually.of_forall fun z => Real.abs_sin_le_one _)).2]
    refine Finset.sum_congr rfl fun j _ => ?_
    unfold component
    rw [integral_map hm.aemeasurable hs.aestronglyMeasurable]
    simp only [lin_halves]
    rw [(normal_trig (mean j) (h j).posSemidef u).2]

/-- Functions of one variable each, under the product of the marginals. -/
theorem integral_apart {X Y : Type} [MeasurableSpace X] [MeasurableSpace Y] (P : Measure (X × Y)) [IsProbabilityMeasure P] {f : X → ℝ} {g : Y → ℝ}
    (hf : Measurable f) (hg : Measurable g) : ∫ z, f z.1 * g z.2 ∂(P.fst.prod P.snd) = (∫ z, f z.1 ∂P) * ∫ z, g z.2 ∂P := by
  rw [integral_prod_mul, Measure.fst, Measure.snd, integral_map measurable_fst.aemeasurable hf.aestronglyMeasurable,
    integral_map measurable_snd.aemeasurable hg.aestronglyMeasurable]

end BMI.Chernoff
