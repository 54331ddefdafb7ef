import Verif.Lemmas.Profiles
import Verif.Props.MixtureTasksMI

/-! The law in the shape of the letter U, and images of densities under injective functions. -/

namespace BMI.Profiles

open MeasureTheory ProbabilityTheory BMI.Samplers BMI.Bmm BMI.Student BMI.MixtureTasks Matrix

/-- A component with independent variables. -/
theorem component_product (a b u v : ℝ) (hu : 0 < u) (hv : 0 < v) : component 1 1 ![a, b] !![u, 0; 0, v]
    = (normalLaw (fun _ : Fin 1 => a) (Matrix.diagonal fun _ => u)).prod
        (normalLaw (fun _ : Fin 1 => b) (Matrix.diagonal fun _ => v)) := by
  have h := (splitNormal_diagonal (dx := 1) (dy := 1) ![a, b] ![u, v] (fun i => by fin_cases i <;> assumption)).2
  have e : (Matrix.diagonal ![u, v] : Matrix (Fin (1 + 1)) (Fin (1 + 1)) ℝ) = !![u, 0; 0, v] := by
    ext i j
    fin_cases i <;> fin_cases j <;> rfl
  rw [e] at h
  refine h.trans ?_
  have s1 : ∀ (f g : Fin 1 → ℝ), f 0 = g 0 → f = g := fun f g h => funext fun i => by rw [Subsingleton.elim i 0, h]
  rw [s1 (parts (dx := 1) (dy := 1) ![a, b]).1 (fun _ => a) rfl, s1 (parts (dx := 1) (dy := 1) ![a, b]).2 (fun _ => b) rfl,
    s1 (parts (dx := 1) (dy := 1) ![u, v]).1 (fun _ => u) rfl, s1 (parts (dx := 1) (dy := 1) ![u, v]).2 (fun _ => v) rfl]

theorem lawOfU_eq : lawOfU = mixtureLaw ![1 / 3, 1 / 3, 1 / 3] fun j : Fin 3 =>
    (normalLaw (fun _ : Fin 1 => (![-3, 0, 3] : Fin 3 → ℝ) j) (Matrix.diagonal fun _ => (![1 / 5, 1, 1 / 5] : Fin 3 → ℝ) j)).prod
      (normalLaw (fun _ : Fin 1 => (![0, -3] : Fin 2 → ℝ) ((![0, 1, 0] : Fin 3 → Fin 2) j))
        (Matrix.diagonal fun _ => (![1, 1 / 5] : Fin 2 → ℝ) ((![0, 1, 0] : Fin 3 → Fin 2) j))) := by
  unfold lawOfU
  congr 1
  funext j
  fin_cases j
  · exact component_product (-3) 0 (1 / 5) 1 (by norm_num) one_pos
  · exact component_product 0 (-3) 1 (1 / 5) one_pos (by norm_num)
  · exact component_product 3 0 (1 / 5) 1 (by norm_num) one_pos

theorem third_nonneg : ∀ j : Fin 3, 0 ≤ (![1 / 3, 1 / 3, 1 / 3] : Fin 3 → ℝ) j := fun j => by fin_cases j <;> norm_num

theorem third_sum : ∑ j : Fin 3, (![1 / 3, 1 / 3, 1 / 3] : Fin 3 → ℝ) j = 1 := by
  simp [Fin.sum_univ_three]
  norm_num

instance : IsProbabilityMeasure lawOfU := by
  rw [lawOfU_eq]
  exact mixtureLaw_prob third_nonneg (by rw [List.sum_ofFn, third_sum]) _

/-- The mutual information is at most `log 2`: the two upright strokes have the same `Y`. -/
theorem lawOfU_le : mutualInfo lawOfU ≤ ENNReal.ofReal (Real.log 2) := by
  rw [lawOfU_eq]
  have := mutualInfo_grouped_le (r := 2) ![1 / 3, 1 / 3, 1 / 3] third_nonneg third_sum
    (fun j : Fin 3 => normalLaw (fun _ : Fin 1 => (![-3, 0, 3] : Fin 3 → ℝ) j)
      (Matrix.diagonal fun _ => (![1 / 5, 1, 1 / 5] : Fin 3 → ℝ) j))
    (fun s : Fin 2 => normalLaw (fun _ : Fin 1 => (![0, -3] : Fin 2 → ℝ) s)
      (Matrix.diagonal fun _ => (![1, 1 / 5] : Fin 2 → ℝ) s)) ![0, 1, 0]
  exact_mod_cast this

/-- The mutual information is positive, although the variables are not correlated. -/
theorem lawOfU_pos : 0 < mutualInfo lawOfU := by
  rw [pos_iff_ne_zero]
  intro h
  have hz := integral_mul_of_zero (f := fun x : Fin 1 → ℝ => x 0 * x 0) (g := fun y : Fin 1 → ℝ => y 0) h
    (by fun_prop) (by fun_prop)
  have hsd : ∀ u : ℝ, 0 < u → (Matrix.diagonal fun _ : Fin 1 => u).PosSemidef := fun u hu =>
    (Matrix.PosDef.diagonal fun _ => hu).posSemidef
  have hu : ∀ j : Fin 3, 0 < (![1 / 5, 1, 1 / 5] : Fin 3 → ℝ) j := fun j => by fin_cases j <;> norm_num
  have hv : ∀ j : Fin 2, 0 < (![1, 1 / 5] : Fin 2 → ℝ) j := fun j => by fin_cases j <;> norm_num
  have mX := fun j : Fin 3 => normalLaw_moments (fun _ : Fin 1 => (![-3, 0, 3] : Fin 3 → ℝ) j) (hsd _ (hu j)) 0 0
  have mY := fun s : Fin 2 => normalLaw_moments (fun _ : Fin 1 => (![0, -3] : Fin 2 → ℝ) s) (hsd _ (hv s)) 0 0
  rw [lawOfU_eq] at hz
  set A : Fin 3 → Measure (Fin 1 → ℝ) := fun j => normalLaw (fun _ : Fin 1 => (![-3, 0, 3] : Fin 3 → ℝ) j)
      (Matrix.diagonal fun _ => (![1 / 5, 1, 1 / 5] : Fin 3 → ℝ) j) with hA
  set B : Fin 2 → Measure (Fin 1 → ℝ) := fun s => normalLaw (fun _ : Fin 1 => (![0, -3] : Fin 2 → ℝ) s)
      (Matrix.diagonal fun _ => (![1, 1 / 5] : Fin 2 → ℝ) s) with hB
  set g : Fin 3 → Fin 2 := ![0, 1, 0] with hg
  have i1 := (integral_mixture ![1 / 3, 1 / 3, 1 / 3] third_nonneg (fun j => (A j).prod (B (g j)))
    (fun z => z.1 0 * z.1 0 * z.2 0) fun j _ => (mX j).2.2.1.mul_prod (mY (g j)).1).2
  have i2 := (integral_mixture ![1 / 3, 1 / 3, 1 / 3] third_nonneg (fun j => (A j).prod (B (g j)))
    (fun z => z.1 0 * z.1 0) fun j _ => (mX j).2.2.1.comp_fst (B (g j))).2
  have i3 := (integral_mixture ![1 / 3, 1 / 3, 1 / 3] third_nonneg (fun j => (A j).prod (B (g j)))
    (fun z => z.2 0) fun j _ => (mY (g j)).1.comp_snd (A j)).2
  have k1 : ∀ j, ∫ z, z.1 0 * z.1 0 * z.2 0 ∂((A j).prod (B (g j))) = (∫ x, x 0 * x 0 ∂(A j)) * ∫ y, y 0 ∂(B (g j)) := fun j =>
    integral_prod_mul (fun x : Fin 1 → ℝ => x 0 * x 0) (fun y : Fin 1 → ℝ => y 0)
  have k2 : ∀ j, ∫ z, z.1 0 * z.1 0 ∂((A j).prod (B (g j))) = ∫ x, x 0 * x 0 ∂(A j) := fun j => by
    have := integral_fun_fst (μ := A j) (ν := B (g j)) (fun x : Fin 1 → ℝ => x 0 * x 0)
    simpa using this
  have k3 : ∀ j, ∫ z, z.2 0 ∂((A j).prod (B (g j))) = ∫ y, y 0 ∂(B (g j)) := fun j => by
    have := integral_fun_snd (μ := A j) (ν := B (g j)) (fun y : Fin 1 → ℝ => y 0)
    simpa using this
  rw [i1, i2, i3] at hz
  have eA : ∀ j, ∫ x, x 0 * x 0 ∂(A j) = (![-3, 0, 3] : Fin 3 → ℝ) j * (![-3, 0, 3] : Fin 3 → ℝ) j
      + (![1 / 5, 1, 1 / 5] : Fin 3 → ℝ) j := fun j => (mX j).2.2.2
  have eB : ∀ s, ∫ y, y 0 ∂(B s) = (![0, -3] : Fin 2 → ℝ) s := fun s => (mY s).2.1
  clear_value A B
  simp only [k1, k2, k3, eA, eB] at hz
  rw [Fin.sum_univ_three, Fin.sum_univ_three, Fin.sum_univ_three, hg] at hz
  simp at hz
  norm_num at hz

/-! ## Images -/

/-- A density that factors through a function. -/
theorem map_withDensity_factor {A B : Type} [MeasurableSpace A] [MeasurableSpace B] (μ : Measure A) {F : A → B}
    (hF : Measurable F) {r : B → ENNReal} (hr : Measurable r) :
    (μ.withDensity fun z => r (F z)).map F = (μ.map F).withDensity r := by
  ext s hs
  rw [Measure.map_apply hF hs, withDensity_apply _ (hF hs), withDensity_apply _ hs, ← lintegral_indicator (hF hs),
    ← lintegral_indicator hs, lintegral_map (hr.indicator hs) hF]
  rfl

/-- A logarithm of the density, moved along functions with inverses. -/
theorem IsLogRatio.map {X Y X' Y' : Type} [MeasurableSpace X] [MeasurableSpace Y] [MeasurableSpace X'] [MeasurableSpace Y']
    {P : Measure (X × Y)} [IsProbabilityMeasure P] {r : X × Y → ℝ} (hr : Measurable r) (h : IsLogRatio P r) {f : X → X'}
    {g : Y → Y'} (hf : Measurable f) (hg : Measurable g) {f' : X' → X} {g' : Y' → Y} (hf' : Measurable f') (hg' : Measurable g')
    (h1 : ∀ x, f' (f x) = x) (h2 : ∀ y, g' (g y) = y) :
    IsLogRatio (P.map (Prod.map f g)) fun w => r (f' w.1, g' w.2) := by
  unfold IsLogRatio at *
  rw [map_fst_prodMap P hf hg, map_snd_prodMap P hf hg, Measure.map_prod_map _ _ hf hg,
    ← map_withDensity_factor _ (hf.prodMap hg) (r := fun w => ENNReal.ofReal (Real.exp (r (f' w.1, g' w.2))))
      (Real.measurable_exp.comp (hr.comp ((hf'.comp measurable_fst).prodMk (hg'.comp measurable_snd)))).ennreal_ofReal]
  have e : (fun z : X × Y => ENNReal.ofReal (Real.exp (r (f' (Prod.map f g z).1, g' (Prod.map f g z).2))))
      = fun z => ENNReal.ofReal (Real.exp (r z)) := by
    funext z
    simp [h1, h2]
  rw [e, ← h]

end BMI.Profiles
