import Verif.Props.MixtureTasksRefuse
import Verif.Lemmas.StudentCov

/-! Property C63: when the mutual information of the mixture tasks vanishes. -/

namespace BMI.MixtureTasks

open MeasureTheory ProbabilityTheory BMI.Samplers BMI.Bmm BMI.Student BMI.MatrixUtils

/-! ## Moments -/

/-- Without mutual information, expectations of products are products of expectations. -/
theorem integral_mul_of_zero {X Y : Type} [MeasurableSpace X] [MeasurableSpace Y] {P : Measure (X × Y)} [IsProbabilityMeasure P]
    (h : mutualInfo P = 0) {f : X → ℝ} {g : Y → ℝ} (hf : Measurable f) (hg : Measurable g) :
    ∫ z, f z.1 * g z.2 ∂P = (∫ z, f z.1 ∂P) * ∫ z, g z.2 ∂P := by
  have h1 : ∫ z, f z.1 ∂P = ∫ x, f x ∂P.fst := by
    rw [Measure.fst, integral_map (by fun_prop) hf.aestronglyMeasurable]
  have h2 : ∫ z, g z.2 ∂P = ∫ y, g y ∂P.snd := by
    rw [Measure.snd, integral_map (by fun_prop) hg.aestronglyMeasurable]
  rw [h1, h2]
  conv_lhs => rw [(mutualInfo_eq_zero_iff P).1 h]
  exact integral_prod_mul f g

theorem normalLaw_shift {d : ℕ} (mean : Fin d → ℝ) {cov : Matrix (Fin d) (Fin d) ℝ} (h : cov.PosSemidef) :
    normalLaw mean cov = (normalLaw 0 cov).map (mean + ·) := by
  have := normalLaw_map 0 h mean (1 : Matrix (Fin d) (Fin d) ℝ)
  simp only [Matrix.one_mulVec, Matrix.transpose_one, Matrix.one_mul, Matrix.mul_one, add_zero] at this
  exact this.symm

/-- The first two moments of a normal law. -/
theorem normalLaw_moments {d : ℕ} (mean : Fin d → ℝ) {cov : Matrix (Fin d) (Fin d) ℝ} (h : cov.PosSemidef) (i j : Fin d) :
    Integrable (fun z => z i) (normalLaw mean cov) ∧ ∫ z, z i ∂(normalLaw mean cov) = mean i ∧
    Integrable (fun z => z i * z j) (normalLaw mean cov) ∧
    ∫ z, z i * z j ∂(normalLaw mean cov) = mean i * mean j + cov i j := by
  have hm : Measurable (mean + · : (Fin d → ℝ) → Fin d → ℝ) := measurable_const_add mean
  have li : ∀ i, Integrable (fun z : Fin d → ℝ => z i) (normalLaw 0 cov) := fun i =>
    (normalLaw_memLp (S := cov) i).integrable one_le_two
  have lij : Integrable (fun z : Fin d → ℝ => z i * z j) (normalLaw 0 cov) :=
    (normalLaw_memLp (S := cov) i).integrable_mul (normalLaw_memLp (S := cov) j)
  have e : ∀ z : Fin d → ℝ, (mean + z) i * (mean + z) j = mean i * mean j + (mean i * z j + (mean j * z i + z i * z j)) := fun z => by
    simp only [Pi.add_apply]
    ring
  have g1 : Integrable (fun z : Fin d → ℝ => (mean + z) i) (normalLaw 0 cov) := (integrable_const _).add (li i)
  have g2 : Integrable (fun z : Fin d → ℝ => (mean + z) i * (mean + z) j) (normalLaw 0 cov) := by
    simp only [e]
    exact (integrable_const _).add (((li j).const_mul _).add (((li i).const_mul _).add lij))
  have m1 : Measurable fun z : Fin d → ℝ => z i := measurable_pi_apply i
  have m2 : Measurable fun z : Fin d → ℝ => z i * z j := (measurable_pi_apply i).mul (measurable_pi_apply j)
  rw [normalLaw_shift mean h]
  refine ⟨(integrable_map_measure m1.aestronglyMeasurable hm.aemeasurable).2 g1, ?_,
    (integrable_map_measure m2.aestronglyMeasurable hm.aemeasurable).2 g2, ?_⟩
  · rw [integral_map hm.aemeasurable m1.aestronglyMeasurable]
    show ∫ z, (mean i + z i) ∂(normalLaw 0 cov) = _
    rw [integral_add (integrable_const _) (li i), normalLaw_integral]
    simp
  · rw [integral_map hm.aemeasurable m2.aestronglyMeasurable]
    simp only [e]
    have k1 : Integrable (fun z : Fin d → ℝ => mean j * z i + z i * z j) (normalLaw 0 cov) := ((li i).const_mul _).add lij
    have k2 : Integrable (fun z : Fin d → ℝ => mean i * z j + (mean j * z i + z i * z j)) (normalLaw 0 cov) :=
      ((li j).const_mul _).add k1
    rw [integral_add (integrable_const _) k2, integral_add ((li j).const_mul _) k1, integral_add ((li i).const_mul _) lij,
      integral_const, integral_const_mul, integral_const_mul, normalLaw_integral, normalLaw_integral, normalLaw_integral_mul h]
    simp

/-- The covariance of the `i`-th entry of `X` and the `j`-th of `Y` in a component. -/
theorem component_moments {dx dy : ℕ} (mean : Fin (dx + dy) → ℝ) {cov : Matrix (Fin (dx + dy)) (Fin (dx + dy)) ℝ}
    (h : cov.PosSemidef) (i : Fin dx) (j : Fin dy) :
    (Integrable (fun z => z.1 i) (component dx dy mean cov) ∧
      ∫ z, z.1 i ∂(component dx dy mean cov) = mean (Fin.castAdd dy i)) ∧
    (Integrable (fun z => z.2 j) (component dx dy mean cov) ∧
      ∫ z, z.2 j ∂(component dx dy mean cov) = mean (Fin.natAdd dx j)) ∧
    Integrable (fun z => z.1 i * z.2 j) (component dx dy mean cov) ∧
    ∫ z, z.1 i * z.2 j ∂(component dx dy mean cov)
      = mean (Fin.castAdd dy i) * mean (Fin.natAdd dx j) + cov (Fin.castAdd dy i) (Fin.natAdd dx j) := by
  obtain ⟨a1, a2, a3, a4⟩ := normalLaw_moments mean h (Fin.castAdd dy i) (Fin.natAdd dx j)
  obtain ⟨b1, b2, -⟩ := normalLaw_moments mean h (Fin.natAdd dx j) (Fin.castAdd dy i)
  have hm : AEMeasurable (halves dx dy) (normalLaw mean cov) := (measurable_parts dx dy).aemeasurable
  unfold component
  refine ⟨⟨(integrable_map_measure (by fun_prop) hm).2 a1, ?_⟩, ⟨(integrable_map_measure (by fun_prop) hm).2 b1, ?_⟩,
    (integrable_map_measure (by fun_prop) hm).2 a3, ?_⟩
  · rw [integral_map hm (by fun_prop)]
    exact a2
  · rw [integral_map hm (by fun_prop)]
    exact b2
  · rw [integral_map hm (by fun_prop)]
    exact a4

/-- A mixture of normal laws whose entries are correlated encodes information. -/
theorem mixture_correlated {m dx dy : ℕ} (p : Fin m → ℝ) (h0 : ∀ j, 0 ≤ p j) (h1 : ∑ j, p j = 1)
    (mean : Fin m → Fin (dx + dy) → ℝ) (cov : Fin m → Matrix (Fin (dx + dy)) (Fin (dx + dy)) ℝ) (hc : ∀ j, (cov j).PosSemidef)
    (a : Fin dx) (b : Fin dy) (h : mutualInfo (mixtureLaw p fun j => component dx dy (mean j) (cov j)) = 0) :
    ∑ j, p j * (mean j (Fin.castAdd dy a) * mean j (Fin.natAdd dx b) + cov j (Fin.castAdd dy a) (Fin.natAdd dx b))
      = (∑ j, p j * mean j (Fin.castAdd dy a)) * ∑ j, p j * mean j (Fin.natAdd dx b) := by
  haveI : IsProbabilityMeasure (mixtureLaw p fun j => component dx dy (mean j) (cov j)) :=
    mixtureLaw_prob h0 (by rw [List.sum_ofFn, h1]) _
  have e := integral_mul_of_zero h (measurable_pi_apply a) (measurable_pi_apply b)
  have i1 := (integral_mixture p h0 (fun j => component dx dy (mean j) (cov j)) (fun z => z.1 a * z.2 b)
    fun j _ => (component_moments (mean j) (hc j) a b).2.2.1).2
  have i2 := (integral_mixture p h0 (fun j => component dx dy (mean j) (cov j)) (fun z => z.1 a)
    fun j _ => (component_moments (mean j) (hc j) a b).1.1).2
  have i3 := (integral_mixture p h0 (fun j => component dx dy (mean j) (cov j)) (fun z => z.2 b)
    fun j _ => (component_moments (mean j) (hc j) a b).2.1.1).2
  rw [i1, i2, i3] at e
  simp only [(component_moments (mean _) (hc _) a b).1.2, (component_moments (mean _) (hc _) a b).2.1.2,
    (component_moments (mean _) (hc _) a b).2.2.2] at e
  exact e

/-! ## The tasks -/

/-- **C63**: the AI distribution encodes information. -/
theorem lawAi_mi_pos : mutualInfo lawAi ≠ 0 := by
  intro h
  have hc : ∀ j, |(strokes j).2.2| < 1 := fun j => by
    fin_cases j <;> norm_num [strokes, abs_of_pos, abs_of_neg]
  have hv : ∀ j, 0 < (strokes j).2.1.1 ∧ 0 < (strokes j).2.1.2 := fun j => by fin_cases j <;> norm_num [strokes]
  have e := mixture_correlated (dx := 1) (dy := 1) (fun _ : Fin 6 => 1 / 6) (fun _ => by norm_num) (by norm_num)
    (fun j => ![(strokes j).1.1, (strokes j).1.2]) _ (fun j => (pair_posDef (hv j).1 (hv j).2 (hc j)).posSemidef) 0 0 h
  have c0 : Fin.castAdd 1 (0 : Fin 1) = (0 : Fin 2) := rfl
  have c1 : Fin.natAdd 1 (0 : Fin 1) = (1 : Fin 2) := rfl
  simp only [c0, c1, Fin.sum_univ_succ, Fin.sum_univ_zero, strokes] at e
  simp at e
  norm_num at e

/-- **C63**: the Galaxy distribution encodes information unless the two balls coincide. -/
theorem lawGalaxy_mi_zero_iff {Key : Type} [MeasurableSpace Key] {T : Tfp Key} {κ : Measure Key} (hT : IdealTfp T κ)
    (R : JaxRandom Key) (speed d : ℝ) : mutualInfo (lawGalaxy speed d) = 0 ↔ d = 0 := by
  obtain ⟨_, _, -, -, h, -⟩ := taskGalaxy_correct hT R speed d 1 one_pos
  rw [h.same]
  have hp0 : ∀ j : Fin 2, 0 ≤ (![1 / 2, 1 / 2] : Fin 2 → ℝ) j := fun j => by fin_cases j <;> norm_num
  have hp1 : ∑ j, (![1 / 2, 1 / 2] : Fin 2 → ℝ) j = 1 := by norm_num [Fin.sum_univ_two]
  refine ⟨fun h => ?_, ?_⟩
  · have e := mixture_correlated (dx := 2) (dy := 1) ![1 / 2, 1 / 2] hp0 hp1 (fun j _ => ![-(d / 2), d / 2] j) (fun _ => 1)
      (fun _ => Matrix.PosSemidef.one) 0 0 h
    simp only [Fin.sum_univ_two] at e
    rw [Matrix.one_apply_ne (by decide)] at e
    simp at e
    nlinarith
  · rintro rfl
    have e : lawBalls 0 = component 2 1 0 1 := by
      unfold lawBalls
      rw [← mixtureLaw_const ![1 / 2, 1 / 2] hp0 hp1 (component 2 1 0 1)]
      congr 1
      funext j
      congr 1
      funext i
      fin_cases j <;> simp
    rw [e]
    have := (splitNormal_diagonal (dx := 2) (dy := 1) 0 1 fun _ => one_pos).1
    rwa [show Matrix.diagonal (1 : Fin (2 + 1) → ℝ) = 1 from Matrix.diagonal_one] at this

/-- **C63**: with inliers, nothing is encoded only if all points are inliers or the signal encodes nothing. -/
theorem lawInliers_mi_zero_iff {Key : Type} [MeasurableSpace Key] {T : Tfp Key} {κ : Measure Key} (hT : IdealTfp T κ)
    (R : JaxRandom Key) (dx dy k : ℕ) (hx : 0 < dx) (hy : 0 < dy) (hkx : k ≤ dx) (hky : k ≤ dy) (strength ε : ℝ) (h0 : 0 ≤ ε)
    (h1 : ε ≤ 1) : mutualInfo (lawInliers dx dy k strength ε) = 0 ↔ ε = 1 ∨ k = 0 ∨ strength = 0 := by
  obtain ⟨_, -, hW, hf, hs, hle⟩ := taskInliers_correct hT R dx dy k hx hy hkx hky strength ε h0 h1 1 one_pos
  have hc := strength_lt strength
  have hpos := pairs_posDef (dx := dx) (dy := dy) hkx hc
  haveI := hW.prob
  haveI : IsProbabilityMeasure (lawSignal dx dy k strength) := by
    unfold lawSignal
    infer_instance
  refine ⟨fun h => ?_, fun h => ?_⟩
  · by_contra hne
    push Not at hne
    obtain ⟨g1, g2, -⟩ := mutualInfo_contaminated_le (lawSignal dx dy k strength) h0 h1
    have e := (mutualInfo_eq_zero_iff _).1 h
    rw [lawInliers, g1, g2] at e
    have hε : 0 < 1 - ε := sub_pos.2 (lt_of_le_of_ne h1 hne.1)
    have hPQ : lawSignal dx dy k strength = (lawSignal dx dy k strength).fst.prod (lawSignal dx dy k strength).snd := by
      ext S hS
      have e' := congrArg (fun μ => (μ S).toReal) e
      simp only [mixtureLaw, Fin.sum_univ_two, Measure.add_apply, Measure.smul_apply, smul_eq_mul, Matrix.cons_val_zero,
        Matrix.cons_val_one] at e'
      rw [ENNReal.toReal_add (ENNReal.mul_ne_top ENNReal.ofReal_ne_top (measure_ne_top _ _))
        (ENNReal.mul_ne_top ENNReal.ofReal_ne_top (measure_ne_top _ _)), ENNReal.toReal_mul, ENNReal.toReal_mul,
        ENNReal.toReal_ofReal hε.le, ENNReal.toReal_ofReal h0] at e'
      rw [← ENNReal.toReal_eq_toReal_iff' (measure_ne_top _ _) (measure_ne_top _ _)]
      have : (1 - ε) * ((lawSignal dx dy k strength) S).toReal
          = (1 - ε) * (((lawSignal dx dy k strength).fst.prod (lawSignal dx dy k strength).snd) S).toReal := by linarith
      exact mul_left_cancel₀ hε.ne' this
    have hm := (mutualInfo_eq_zero_iff _).2 hPQ
    have hn := splitNormal_mi (dx := dx) (dy := dy) 0 hpos
    rw [pairs_number hkx hky hc] at hn
    have hz : ENNReal.ofReal (-(k / 2 * Real.log (1 - (strength ^ 2 / (1 + strength ^ 2)) ^ 2))) = 0 := hn.1.symm.trans hm
    have hc0 : 0 < (strength ^ 2 / (1 + strength ^ 2)) ^ 2 := by
      have := hne.2.2
      positivity
    have hlog : Real.log (1 - (strength ^ 2 / (1 + strength ^ 2)) ^ 2) < 0 := Real.log_neg (by linarith) (by linarith)
    have hk : (0 : ℝ) < k := by exact_mod_cast Nat.pos_of_ne_zero hne.2.1
    have := ENNReal.ofReal_eq_zero.1 hz
    nlinarith [mul_pos hk (neg_pos.2 hlog)]
  · refine le_antisymm (hle.trans (le_of_eq ?_)) zero_le
    rw [ENNReal.ofReal_eq_zero]
    rcases h with rfl | rfl | rfl <;> simp

/-! ### The X distribution -/

theorem integral_cos_pair {c : ℝ} (hc : |c| < 1) :
    ∫ z, Real.cos (z.1 0 + z.2 0) ∂(component 1 1 0 !![1, c; c, 1]) = Real.exp (-(1 + c)) := by
  have hpos : (!![1, c; c, 1] : Matrix (Fin 2) (Fin 2) ℝ).PosDef := by
    rw [unit_pair]
    exact pair_posDef one_pos one_pos hc
  set L : StrongDual ℝ (Fin 2 → ℝ) := ContinuousLinearMap.proj (R := ℝ) (φ := fun _ : Fin 2 => ℝ) 0 +
    ContinuousLinearMap.proj (R := ℝ) (φ := fun _ : Fin 2 => ℝ) 1 with hL
  have h := charFunDual_normalLaw 0 hpos.posSemidef L
  have hco : coeffs L = ![1, 1] := by
    funext i
    fin_cases i <;> simp [coeffs, hL]
  rw [hco] at h
  have hq : ((![1, 1] : Fin 2 → ℝ) ⬝ᵥ (!![1, c; c, 1] : Matrix (Fin 2) (Fin 2) ℝ).mulVec ![1, 1]) = 2 * (1 + c) := by
    simp [dotProduct, Matrix.mulVec, Fin.sum_univ_two]
    ring
  rw [hq, dotProduct_zero, charFunDual_apply] at h
  have hm : AEMeasurable (halves 1 1) (normalLaw 0 !![1, c; c, 1]) := (measurable_parts 1 1).aemeasurable
  unfold component
  rw [integral_map hm (by fun_prop)]
  have hint : Integrable (fun x : Fin 2 → ℝ => Complex.exp ((L x : ℝ) * Complex.I)) (normalLaw 0 !![1, c; c, 1]) := by
    refine (integrable_const (1 : ℝ)).mono' (by fun_prop) (.of_forall fun x => ?_)
    rw [Complex.norm_exp_ofReal_mul_I]
  have hre := congrArg Complex.re h
  rw [← Complex.reCLM_apply, ← Complex.reCLM.integral_comp_comm hint] at hre
  simp only [Complex.reCLM_apply, Complex.exp_ofReal_mul_I_re] at hre
  refine Eq.trans ?_ (hre.trans ?_)
  · rfl
  · rw [show ((0 : ℝ) : ℂ) * Complex.I - ((2 * (1 + c) : ℝ) : ℂ) / 2 = ((-(1 + c) : ℝ) : ℂ) by push_cast; ring]
    exact Complex.exp_ofReal_re _

/-- **C63**: the two variables of the X distribution are not correlated, and yet they encode information about each other
unless `ρ = 0`. -/
theorem lawX_mi_zero_iff (ρ : ℝ) (hρ : |ρ| < 1) :
    (∫ z, z.1 0 * z.2 0 ∂(lawX ρ) = 0) ∧ (mutualInfo (lawX ρ) = 0 ↔ ρ = 0) := by
  have hc : ∀ j : Fin 2, |(![-ρ, ρ] : Fin 2 → ℝ) j| < 1 := fun j => by fin_cases j <;> simpa using hρ
  have hpos : ∀ j : Fin 2, (!![1, ![-ρ, ρ] j; ![-ρ, ρ] j, 1] : Matrix (Fin 2) (Fin 2) ℝ).PosDef := fun j => by
    rw [unit_pair]
    exact pair_posDef one_pos one_pos (hc j)
  have hp0 : ∀ j : Fin 2, 0 ≤ (![1 / 2, 1 / 2] : Fin 2 → ℝ) j := fun j => by fin_cases j <;> norm_num
  have hp1 : ∑ j, (![1 / 2, 1 / 2] : Fin 2 → ℝ) j = 1 := by norm_num [Fin.sum_univ_two]
  have hone : component 1 1 0 1 = (normalLaw (0 : Fin 1 → ℝ) 1).prod (normalLaw (0 : Fin 1 → ℝ) 1) ∧
      mutualInfo (component 1 1 0 1) = 0 := by
    have := splitNormal_diagonal (dx := 1) (dy := 1) 0 1 fun _ => one_pos
    rw [show Matrix.diagonal (1 : Fin (1 + 1) → ℝ) = 1 from Matrix.diagonal_one] at this
    refine ⟨this.2.trans ?_, this.1⟩
    congr 2 <;> exact Matrix.diagonal_one
  have hmat : (1 : Matrix (Fin 2) (Fin 2) ℝ) = !![1, 0; 0, 1] := by
    ext i j
    fin_cases i <;> fin_cases j <;> rfl
  refine ⟨?_, fun h => ?_, ?_⟩
  · have := (integral_mixture ![1 / 2, 1 / 2] hp0 (fun j : Fin 2 => component 1 1 0 !![1, ![-ρ, ρ] j; ![-ρ, ρ] j, 1])
      (fun z => z.1 0 * z.2 0) fun j _ => (component_moments (dx := 1) (dy := 1) 0 (hpos j).posSemidef 0 0).2.2.1).2
    refine this.trans ?_
    have e : ∀ j : Fin 2, ∫ z, z.1 0 * z.2 0 ∂(component 1 1 0 !![1, ![-ρ, ρ] j; ![-ρ, ρ] j, 1]) = ![-ρ, ρ] j := fun j => by
      refine (component_moments (dx := 1) (dy := 1) 0 (hpos j).posSemidef 0 0).2.2.2.trans ?_
      show (0 : ℝ) * 0 + ![-ρ, ρ] j = _
      ring
    simp only [e]
    simp [Fin.sum_univ_two]
  · have hf : ∀ j : Fin 2, (component 1 1 0 !![1, ![-ρ, ρ] j; ![-ρ, ρ] j, 1]).fst = normalLaw 0 1 := fun j => by
      refine (splitNormal_fst (dx := 1) (dy := 1) 0 (hpos j).posSemidef).trans ?_
      congr 1
      ext a b
      fin_cases a
      fin_cases b
      rfl
    have hsnd : ∀ j : Fin 2, (component 1 1 0 !![1, ![-ρ, ρ] j; ![-ρ, ρ] j, 1]).snd = normalLaw 0 1 := fun j => by
      refine (splitNormal_snd (dx := 1) (dy := 1) 0 (hpos j).posSemidef).trans ?_
      congr 1
      ext a b
      fin_cases a
      fin_cases b
      rfl
    obtain ⟨g1, g2, -⟩ := mutualInfo_mixture_convex ![1 / 2, 1 / 2] hp0 hp1 _ _ _ hf hsnd
    haveI : IsProbabilityMeasure (lawX ρ) := mixtureLaw_prob hp0 (by rw [List.sum_ofFn, hp1]) _
    have e := (mutualInfo_eq_zero_iff _).1 h
    have g1' : (lawX ρ).fst = normalLaw 0 1 := g1
    have g2' : (lawX ρ).snd = normalLaw 0 1 := g2
    rw [g1', g2', ← hone.1, hmat] at e
    have i1 := (integral_mixture ![1 / 2, 1 / 2] hp0 (fun j : Fin 2 => component 1 1 0 !![1, ![-ρ, ρ] j; ![-ρ, ρ] j, 1])
      (fun z => Real.cos (z.1 0 + z.2 0)) fun j _ => (integrable_const (1 : ℝ)).mono' (by fun_prop)
        (.of_forall fun z => by rw [Real.norm_eq_abs]; exact Real.abs_cos_le_one _)).2
    have i2 : ∫ z, Real.cos (z.1 0 + z.2 0) ∂(lawX ρ) = Real.exp (-1) := by
      rw [e, integral_cos_pair (by simp)]
      simp
    have i3 := i1.symm.trans i2
    simp only [integral_cos_pair (hc _)] at i3
    rw [Fin.sum_univ_two] at i3
    simp only [Matrix.cons_val_zero, Matrix.cons_val_one] at i3
    have e1 : Real.exp (-(1 + -ρ)) = Real.exp (-1) * Real.exp ρ := by rw [← Real.exp_add]; ring_nf
    have e2 : Real.exp (-(1 + ρ)) = Real.exp (-1) * Real.exp (-ρ) := by rw [← Real.exp_add]; ring_nf
    rw [e1, e2] at i3
    have hcosh : Real.cosh ρ = 1 := by
      rw [Real.cosh_eq]
      have : Real.exp (-1) * ((Real.exp ρ + Real.exp (-ρ)) / 2) = Real.exp (-1) * 1 := by linarith
      exact mul_left_cancel₀ (Real.exp_pos _).ne' this
    by_contra hne
    exact (Real.one_lt_cosh.2 hne).ne' hcosh
  · rintro rfl
    have e : lawX 0 = component 1 1 0 1 := by
      unfold lawX
      rw [← mixtureLaw_const ![1 / 2, 1 / 2] hp0 hp1 (component 1 1 0 1)]
      congr 1
      funext j
      congr 1
      rw [hmat]
      fin_cases j <;> simp
    rw [e]
    exact hone.2

/-! ### The Waves distribution -/

theorem sum_mod_four (q r : ℕ) (hr : r < 4) :
    (∑ j ∈ Finset.range (4 * q + r), ((j % 4 : ℕ) : ℝ) = 6 * q + r * (r - 1) / 2) ∧
    (∑ j ∈ Finset.range (4 * q + r), (j : ℝ) * ((j % 4 : ℕ) : ℝ)
      = 12 * q ^ 2 + 2 * q + 4 * q * (r * (r - 1) / 2) + (r * (r - 1) * (2 * r - 1)) / 6) := by
  have base : (∑ j ∈ Finset.range (4 * q), ((j % 4 : ℕ) : ℝ) = 6 * q) ∧
      (∑ j ∈ Finset.range (4 * q), (j : ℝ) * ((j % 4 : ℕ) : ℝ) = 12 * q ^ 2 + 2 * q) := by
    induction q with
    | zero => simp
    | succ q ih =>
      have e0 : (4 * q) % 4 = 0 := by omega
      have e1 : (4 * q + 1) % 4 = 1 := by omega
      have e2 : (4 * q + 2) % 4 = 2 := by omega
      have e3 : (4 * q + 3) % 4 = 3 := by omega
      rw [show 4 * (q + 1) = 4 * q + 1 + 1 + 1 + 1 by ring]
      simp only [Finset.sum_range_succ, ih.1, ih.2, e0, e1, e2, e3, add_assoc, Nat.reduceAdd]
      push_cast
      constructor <;> ring
  have e0 : (4 * q) % 4 = 0 := by omega
  have e1 : (4 * q + 1) % 4 = 1 := by omega
  have e2 : (4 * q + 2) % 4 = 2 := by omega
  interval_cases r
  · simp only [add_zero, base.1, base.2]
    constructor <;> push_cast <;> ring
  · simp only [Finset.sum_range_succ, base.1, base.2, e0]
    constructor <;> push_cast <;> ring
  · rw [show 4 * q + 2 = 4 * q + 1 + 1 by ring]
    simp only [Finset.sum_range_succ, base.1, base.2, e0, e1]
    constructor <;> push_cast <;> ring
  · rw [show 4 * q + 3 = 4 * q + 1 + 1 + 1 by ring]
    simp only [Finset.sum_range_succ, base.1, base.2, e0, e1, add_assoc, Nat.reduceAdd, e2]
    constructor <;> push_cast <;> ring

theorem columns_correlated (n : ℕ) (hn : 2 ≤ n) :
    (∑ j ∈ Finset.range n, (j : ℝ)) * ∑ j ∈ Finset.range n, ((j % 4 : ℕ) : ℝ)
      < n * ∑ j ∈ Finset.range n, (j : ℝ) * ((j % 4 : ℕ) : ℝ) := by
  have h1 : ∑ j ∈ Finset.range n, (j : ℝ) = n * (n - 1) / 2 := by
    clear hn
    induction n with
    | zero => simp
    | succ n ih =>
      rw [Finset.sum_range_succ, ih]
      push_cast
      ring
  obtain ⟨q, r, hr, rfl⟩ : ∃ q r, r < 4 ∧ n = 4 * q + r := ⟨n / 4, n % 4, Nat.mod_lt _ (by norm_num), by omega⟩
  obtain ⟨h2, h3⟩ := sum_mod_four q r hr
  rw [h1, h2, h3]
  have hq : (0 : ℝ) ≤ q := Nat.cast_nonneg q
  interval_cases r
  · have : (1 : ℝ) ≤ q := by exact_mod_cast (by omega : 1 ≤ q)
    push_cast
    nlinarith [sq_nonneg (q : ℝ)]
  · have : (1 : ℝ) ≤ q := by exact_mod_cast (by omega : 1 ≤ q)
    push_cast
    nlinarith [sq_nonneg (q : ℝ)]
  · push_cast
    nlinarith [sq_nonneg (q : ℝ)]
  · push_cast
    nlinarith [sq_nonneg (q : ℝ)]

/-- **C63**: the Waves distribution encodes information as soon as there are two components. -/
theorem lawWaves_mi_zero_iff {Key : Type} [MeasurableSpace Key] {T : Tfp Key} {κ : Measure Key} (hT : IdealTfp T κ)
    (R : JaxRandom Key) (n : ℕ) (hn : 0 < n) (amplitude frequency : ℝ) :
    mutualInfo (lawWaves n amplitude frequency) = 0 ↔ n = 1 := by
  obtain ⟨_, _, -, -, h, hle⟩ := taskWaves_correct hT R n hn amplitude frequency 1 one_pos
  refine ⟨fun hz => ?_, ?_⟩
  · rw [h.same] at hz
    by_contra hne
    have hv : ∀ i, 0 < (![1 / 10, 1, 1 / 10] : Fin 3 → ℝ) i := fun i => by fin_cases i <;> norm_num
    have hn' : (0 : ℝ) < n := by exact_mod_cast hn
    have hp1 : ∑ j : Fin n, (fun _ => 1 / (n : ℝ) : Fin n → ℝ) j = 1 := by
      simp
      field_simp
    have e := mixture_correlated (dx := 2) (dy := 1) (fun _ : Fin n => 1 / (n : ℝ)) (fun _ => by positivity) hp1
      (fun j => ![3 / 2 * (j : ℕ), 0, 3 / 2 * ((j : ℕ) % 4 : ℕ)]) (fun _ => Matrix.diagonal ![1 / 10, 1, 1 / 10])
      (fun _ => (Matrix.PosDef.diagonal hv).posSemidef) 0 0 hz
    have c0 : Fin.castAdd 1 (0 : Fin 2) = (0 : Fin 3) := rfl
    have c1 : Fin.natAdd 2 (0 : Fin 1) = (2 : Fin 3) := rfl
    have c2 : ∀ v : Fin 3 → ℝ, Matrix.diagonal v (0 : Fin 3) (2 : Fin 3) = 0 := fun v =>
      Matrix.diagonal_apply_ne _ (by decide)
    simp only [c0, c1, c2, Matrix.cons_val_zero, Matrix.cons_val_two, add_zero, Matrix.tail_cons, Matrix.head_cons] at e
    have e' : (1 / (n : ℝ)) * (9 / 4) * ∑ j : Fin n, ((j : ℕ) : ℝ) * (((j : ℕ) % 4 : ℕ) : ℝ)
        = (1 / (n : ℝ) * (3 / 2) * ∑ j : Fin n, ((j : ℕ) : ℝ)) * (1 / (n : ℝ) * (3 / 2) * ∑ j : Fin n, (((j : ℕ) % 4 : ℕ) : ℝ)) := by
      rw [Finset.mul_sum, Finset.mul_sum, Finset.mul_sum]
      refine Eq.trans (Finset.sum_congr rfl fun j _ => ?_) (e.trans ?_)
      · ring
      · congr 1 <;> exact Finset.sum_congr rfl fun j _ => by ring
    rw [Fin.sum_univ_eq_sum_range (fun j : ℕ => (j : ℝ) * ((j % 4 : ℕ) : ℝ)), Fin.sum_univ_eq_sum_range (fun j : ℕ => (j : ℝ)),
      Fin.sum_univ_eq_sum_range (fun j : ℕ => ((j % 4 : ℕ) : ℝ))] at e'
    have hlt := columns_correlated n (by omega)
    field_simp at e'
    linarith
  · rintro rfl
    exact le_antisymm (hle.trans (by simp)) zero_le

/-! ### Concentric normal distributions -/

/-- **C63**: concentric normal distributions encode information as soon as there are two of them, although no entry of `X`
is correlated with `Y`. -/
theorem lawConcentric_mi_zero_iff {Key : Type} [MeasurableSpace Key] {T : Tfp Key} {κ : Measure Key} (hT : IdealTfp T κ)
    (R : JaxRandom Key) (d n : ℕ) (hd : 0 < d) (hn : 0 < n) :
    (∀ i, (∫ z, z.1 i * z.2 0 ∂(lawConcentric d n) = 0) ∧ ∫ z, z.1 i ∂(lawConcentric d n) = 0) ∧
    (mutualInfo (lawConcentric d n) = 0 ↔ n = 1) := by
  obtain ⟨_, -, hW, hle⟩ := taskConcentric_correct hT R d n hd hn 1 one_pos
  haveI := hW.prob
  have hv : ∀ (j : Fin n) i, 0 < Fin.append (fun _ : Fin d => (((j : ℕ) : ℝ) + 1) ^ 2) (fun _ : Fin 1 => (1 / 10000 : ℝ)) i :=
    fun j i => by
      refine Fin.addCases (fun i => ?_) (fun i => ?_) i
      · rw [Fin.append_left]
        positivity
      · rw [Fin.append_right]
        norm_num
  have hn' : (0 : ℝ) < n := by exact_mod_cast hn
  have hp0 : ∀ j : Fin n, 0 ≤ (fun _ => 1 / (n : ℝ) : Fin n → ℝ) j := fun j => by positivity
  have hmom := fun (j : Fin n) (i : Fin d) => component_moments (dx := d) (dy := 1) (Fin.append 0 fun _ => ((j : ℕ) : ℝ) + 1)
    (Matrix.PosDef.diagonal (hv j)).posSemidef i 0
  refine ⟨fun i => ⟨?_, ?_⟩, fun hz => ?_, ?_⟩
  · refine (integral_mixture (fun _ : Fin n => 1 / (n : ℝ)) hp0 _ (fun z : (Fin d → ℝ) × (Fin 1 → ℝ) => z.1 i * z.2 0)
      fun j _ => (hmom j i).2.2.1).2.trans ?_
    simp only [(hmom _ i).2.2.2]
    refine Finset.sum_eq_zero fun j _ => ?_
    rw [Fin.append_left, Matrix.diagonal_apply_ne _ (by
      intro h
      have := congrArg Fin.val h
      simp at this
      omega)]
    simp
  · refine (integral_mixture (fun _ : Fin n => 1 / (n : ℝ)) hp0 _ (fun z : (Fin d → ℝ) × (Fin 1 → ℝ) => z.1 i)
      fun j _ => (hmom j i).1.1).2.trans ?_
    simp only [(hmom _ i).1.2]
    simp
  · by_contra hne
    set i : Fin d := ⟨0, hd⟩
    have e := integral_mul_of_zero hz (f := fun x => x i * x i) (g := fun y => y 0)
      ((measurable_pi_apply i).mul (measurable_pi_apply i)) (measurable_pi_apply 0)
    have hA : ∀ j : Fin n, Integrable (fun x : Fin d → ℝ => x i * x i) (normalLaw 0 (Matrix.diagonal fun _ : Fin d => (((j : ℕ) : ℝ) + 1) ^ 2)) ∧
        ∫ x : Fin d → ℝ, x i * x i ∂(normalLaw 0 (Matrix.diagonal fun _ : Fin d => (((j : ℕ) : ℝ) + 1) ^ 2)) = (((j : ℕ) : ℝ) + 1) ^ 2 := fun j => by
      have h := normalLaw_moments (0 : Fin d → ℝ) (Matrix.PosDef.diagonal (n := Fin d) (d := fun _ => (((j : ℕ) : ℝ) + 1) ^ 2)
        fun _ => by positivity).posSemidef i i
      refine ⟨h.2.2.1, h.2.2.2.trans ?_⟩
      rw [Matrix.diagonal_apply_eq]
      simp
    have hB : ∀ j : Fin n, Integrable (fun y : Fin 1 → ℝ => y 0) (normalLaw (fun _ => ((j : ℕ) : ℝ) + 1) (Matrix.diagonal fun _ : Fin 1 => (1 / 10000 : ℝ))) ∧
        ∫ y : Fin 1 → ℝ, y 0 ∂(normalLaw (fun _ => ((j : ℕ) : ℝ) + 1) (Matrix.diagonal fun _ : Fin 1 => (1 / 10000 : ℝ))) = ((j : ℕ) : ℝ) + 1 := fun j => by
      have h := normalLaw_moments (fun _ : Fin 1 => ((j : ℕ) : ℝ) + 1) (Matrix.PosDef.diagonal (n := Fin 1) (d := fun _ => (1 / 10000 : ℝ))
        fun _ => by norm_num).posSemidef 0 0
      exact ⟨h.1, h.2.1⟩
    have hprod : ∀ j : Fin n, component d 1 (Fin.append 0 fun _ => ((j : ℕ) : ℝ) + 1)
        (Matrix.diagonal (Fin.append (fun _ => (((j : ℕ) : ℝ) + 1) ^ 2) fun _ => 1 / 10000))
        = (normalLaw 0 (Matrix.diagonal fun _ : Fin d => (((j : ℕ) : ℝ) + 1) ^ 2)).prod
          (normalLaw (fun _ => ((j : ℕ) : ℝ) + 1) (Matrix.diagonal fun _ : Fin 1 => (1 / 10000 : ℝ))) := fun j => by
      refine (splitNormal_diagonal (dx := d) (dy := 1) _ _ (hv j)).2.trans ?_
      congr 2
      · funext a
        simp [parts]
      · congr 1
        funext a
        simp [parts]
      · funext a
        simp [parts]
      · congr 1
        funext a
        simp [parts]
    have hlaw : lawConcentric d n = mixtureLaw (fun _ : Fin n => 1 / (n : ℝ)) fun j : Fin n =>
        (normalLaw 0 (Matrix.diagonal fun _ : Fin d => (((j : ℕ) : ℝ) + 1) ^ 2)).prod
          (normalLaw (fun _ => ((j : ℕ) : ℝ) + 1) (Matrix.diagonal fun _ : Fin 1 => (1 / 10000 : ℝ))) := by
      unfold lawConcentric
      congr 1
      funext j
      exact hprod j
    rw [hlaw] at e
    have i1 := (integral_mixture (fun _ : Fin n => 1 / (n : ℝ)) hp0 (fun j : Fin n =>
        (normalLaw 0 (Matrix.diagonal fun _ : Fin d => (((j : ℕ) : ℝ) + 1) ^ 2)).prod
          (normalLaw (fun _ => ((j : ℕ) : ℝ) + 1) (Matrix.diagonal fun _ : Fin 1 => (1 / 10000 : ℝ))))
      (fun z => (z.1 i * z.1 i) * z.2 0) fun j _ => (hA j).1.mul_prod (hB j).1).2
    have i2 := (integral_mixture (fun _ : Fin n => 1 / (n : ℝ)) hp0 (fun j : Fin n =>
        (normalLaw 0 (Matrix.diagonal fun _ : Fin d => (((j : ℕ) : ℝ) + 1) ^ 2)).prod
          (normalLaw (fun _ => ((j : ℕ) : ℝ) + 1) (Matrix.diagonal fun _ : Fin 1 => (1 / 10000 : ℝ))))
      (fun z => z.1 i * z.1 i) fun j _ => (hA j).1.comp_fst _).2
    have i3 := (integral_mixture (fun _ : Fin n => 1 / (n : ℝ)) hp0 (fun j : Fin n =>
        (normalLaw 0 (Matrix.diagonal fun _ : Fin d => (((j : ℕ) : ℝ) + 1) ^ 2)).prod
          (normalLaw (fun _ => ((j : ℕ) : ℝ) + 1) (Matrix.diagonal fun _ : Fin 1 => (1 / 10000 : ℝ))))
      (fun z => z.2 0) fun j _ => (hB j).1.comp_snd _).2
    rw [i1, i2, i3] at e
    have v1 : ∀ j : Fin n, ∫ z, (z.1 i * z.1 i) * z.2 0 ∂((normalLaw 0 (Matrix.diagonal fun _ : Fin d => (((j : ℕ) : ℝ) + 1) ^ 2)).prod
          (normalLaw (fun _ => ((j : ℕ) : ℝ) + 1) (Matrix.diagonal fun _ : Fin 1 => (1 / 10000 : ℝ))))
        = (((j : ℕ) : ℝ) + 1) ^ 2 * (((j : ℕ) : ℝ) + 1) := fun j => by
      rw [integral_prod_mul (fun x : Fin d → ℝ => x i * x i) (fun y : Fin 1 → ℝ => y 0), (hA j).2, (hB j).2]
    have v2 : ∀ j : Fin n, ∫ z, z.1 i * z.1 i ∂((normalLaw 0 (Matrix.diagonal fun _ : Fin d => (((j : ℕ) : ℝ) + 1) ^ 2)).prod
          (normalLaw (fun _ => ((j : ℕ) : ℝ) + 1) (Matrix.diagonal fun _ : Fin 1 => (1 / 10000 : ℝ))))
        = (((j : ℕ) : ℝ) + 1) ^ 2 := fun j => by
      have := integral_prod_mul (μ := normalLaw 0 (Matrix.diagonal fun _ : Fin d => (((j : ℕ) : ℝ) + 1) ^ 2))
        (ν := normalLaw (fun _ => ((j : ℕ) : ℝ) + 1) (Matrix.diagonal fun _ : Fin 1 => (1 / 10000 : ℝ)))
        (fun x : Fin d → ℝ => x i * x i) (fun _ : Fin 1 → ℝ => (1 : ℝ))
      rw [(hA j).2] at this
      simpa using this
    have v3 : ∀ j : Fin n, ∫ z, z.2 0 ∂((normalLaw 0 (Matrix.diagonal fun _ : Fin d => (((j : ℕ) : ℝ) + 1) ^ 2)).prod
          (normalLaw (fun _ => ((j : ℕ) : ℝ) + 1) (Matrix.diagonal fun _ : Fin 1 => (1 / 10000 : ℝ))))
        = ((j : ℕ) : ℝ) + 1 := fun j => by
      have := integral_prod_mul (μ := normalLaw 0 (Matrix.diagonal fun _ : Fin d => (((j : ℕ) : ℝ) + 1) ^ 2))
        (ν := normalLaw (fun _ => ((j : ℕ) : ℝ) + 1) (Matrix.diagonal fun _ : Fin 1 => (1 / 10000 : ℝ)))
        (fun _ : Fin d → ℝ => (1 : ℝ)) (fun y : Fin 1 → ℝ => y 0)
      rw [(hB j).2] at this
      simpa using this
    simp only [v1, v2, v3, ← Finset.mul_sum] at e
    rw [Fin.sum_univ_eq_sum_range (fun j : ℕ => ((j : ℝ) + 1) ^ 2 * ((j : ℝ) + 1)), Fin.sum_univ_eq_sum_range (fun j : ℕ => ((j : ℝ) + 1) ^ 2),
      Fin.sum_univ_eq_sum_range (fun j : ℕ => (j : ℝ) + 1)] at e
    have s1 : ∀ m : ℕ, ∑ j ∈ Finset.range m, ((j : ℝ) + 1) = (m : ℝ) * (m + 1) / 2 := fun m => by
      induction m with
      | zero => simp
      | succ m ih =>
        rw [Finset.sum_range_succ, ih]
        push_cast
        ring
    have s2 : ∀ m : ℕ, ∑ j ∈ Finset.range m, ((j : ℝ) + 1) ^ 2 = (m : ℝ) * (m + 1) * (2 * m + 1) / 6 := fun m => by
      induction m with
      | zero => simp
      | succ m ih =>
        rw [Finset.sum_range_succ, ih]
        push_cast
        ring
    have s3 : ∀ m : ℕ, ∑ j ∈ Finset.range m, ((j : ℝ) + 1) ^ 2 * ((j : ℝ) + 1) = ((m : ℝ) * (m + 1) / 2) ^ 2 := fun m => by
      induction m with
      | zero => simp
      | succ m ih =>
        rw [Finset.sum_range_succ, ih]
        push_cast
        ring
    rw [s1, s2, s3] at e
    have h2 : (2 : ℝ) ≤ n := by exact_mod_cast (by omega : 2 ≤ n)
    field_simp at e
    nlinarith
  · rintro rfl
    exact le_antisymm (hle.trans (by simp)) zero_le

/-- The default tasks encode information: the X distribution with correlation 0.9, Galaxy, Waves with 12 components, three
concentric distributions, and the sparse task with 20% inliers. -/
example (R : JaxRandom PathKey) : mutualInfo (lawX 0.9) ≠ 0 ∧ mutualInfo lawAi ≠ 0 ∧ mutualInfo (lawGalaxy 0.5 3) ≠ 0 ∧
    mutualInfo (lawWaves 12 5 3) ≠ 0 ∧ mutualInfo (lawConcentric 5 3) ≠ 0 ∧ mutualInfo (lawInliers 5 4 2 2 0.2) ≠ 0 := by
  refine ⟨fun h => ?_, lawAi_mi_pos, fun h => ?_, fun h => ?_, fun h => ?_, fun h => ?_⟩
  · have := (lawX_mi_zero_iff 0.9 (by norm_num [abs_of_pos])).2.1 h
    norm_num at this
  · have := (lawGalaxy_mi_zero_iff path_ideal R 0.5 3).1 h
    norm_num at this
  · have := (lawWaves_mi_zero_iff path_ideal R 12 (by norm_num) 5 3).1 h
    norm_num at this
  · have := (lawConcentric_mi_zero_iff path_ideal R 5 3 (by norm_num) (by norm_num)).2.1 h
    norm_num at this
  · have := (lawInliers_mi_zero_iff path_ideal R 5 4 2 (by norm_num) (by norm_num) (by norm_num) (by norm_num) 2 0.2
      (by norm_num) (by norm_num)).1 h
    norm_num at this

end BMI.MixtureTasks
