import Verif.Lemmas.KdeMoments
import Verif.Lemmas.BmmMoments
import Verif.Props.MixtureTasks
import Mathlib.Analysis.SpecialFunctions.Log.NegMulLog

/-! Mixtures of laws with densities have densities. -/

namespace BMI.Kde

open MeasureTheory ProbabilityTheory Filter Topology BMI.Kde.Spec BMI.Samplers BMI.Bmm

variable {d m : ℕ}

theorem hill_convex : ConvexOn ℝ (Set.Ici 0) fun t : ℝ => max 0 (t * Real.log t) :=
  (convexOn_const (0 : ℝ) (convex_Ici 0)).sup Real.convexOn_mul_log

theorem hill_eq {t : ℝ} (ht : 0 ≤ t) : t * max 0 (Real.log t) = max 0 (t * Real.log t) := by
  rw [mul_max_of_nonneg _ _ ht, mul_zero]

/-- The integral of the positive part of the logarithm of a density, as an integral of the density. -/
theorem peak_iff {Q : Measure (Fin d → ℝ)} {f : (Fin d → ℝ) → ℝ} (hf : Measurable f) (h0 : ∀ u, 0 ≤ f u)
    (hQ : Q = volume.withDensity fun u => ENNReal.ofReal (f u)) :
    Integrable (fun u => max 0 (Real.log (f u))) Q ↔ Integrable (fun u => max 0 (f u * Real.log (f u))) volume := by
  rw [hQ, integrable_withDensity_iff hf.ennreal_ofReal (.of_forall fun u => ENNReal.ofReal_lt_top)]
  refine integrable_congr (.of_forall fun u => ?_)
  simp only
  rw [ENNReal.toReal_ofReal (h0 u), mul_comm, hill_eq (h0 u)]

theorem memLp_mixture {Ω : Type} [MeasurableSpace Ω] (p : Fin m → ℝ) (μ : Fin m → Measure Ω) {g : Ω → ℝ} {q : ENNReal} (h0 : q ≠ 0) (hq : q ≠ ⊤)
    (hg : Measurable g) (h : ∀ j, MemLp g q (μ j)) : MemLp g q (mixtureLaw p μ) := by
  rw [← integrable_norm_rpow_iff hg.aestronglyMeasurable h0 hq]
  exact mixtureLaw_integrable p μ fun j => (h j).integrable_norm_rpow h0 hq

theorem regular_mixture {p : Fin m → ℝ} (h0 : ∀ j, 0 ≤ p j) (h1 : ∑ j, p j = 1) {Q : Fin m → Measure (Fin d → ℝ)} (h : ∀ j, Regular (Q j)) :
    Regular (mixtureLaw p Q) := by
  choose f fm f0 fd fp using fun j => (h j).density
  set g : (Fin d → ℝ) → ℝ := fun u => ∑ j, p j * f j u with hg
  have gm : Measurable g := Finset.measurable_sum _ fun j _ => (fm j).const_mul _
  have g0 : ∀ u, 0 ≤ g u := fun u => Finset.sum_nonneg fun j _ => mul_nonneg (h0 j) (f0 j u)
  have gd : mixtureLaw p Q = volume.withDensity fun u => ENNReal.ofReal (g u) := by
    ext A hA
    rw [withDensity_apply _ hA]
    unfold mixtureLaw
    rw [Measure.finset_sum_apply]
    simp only [Measure.smul_apply, smul_eq_mul]
    have e : ∀ u, ENNReal.ofReal (g u) = ∑ j, ENNReal.ofReal (p j) * ENNReal.ofReal (f j u) := fun u => by
      rw [hg]
      simp only
      rw [ENNReal.ofReal_sum_of_nonneg fun j _ => mul_nonneg (h0 j) (f0 j u)]
      exact Finset.sum_congr rfl fun j _ => ENNReal.ofReal_mul (h0 j)
    simp only [e]
    rw [lintegral_finset_sum _ fun j _ => (fm j).ennreal_ofReal.const_mul _]
    refine Finset.sum_congr rfl fun j _ => ?_
    rw [lintegral_const_mul _ (fm j).ennreal_ofReal, fd j, withDensity_apply _ hA]
  refine ⟨⟨g, gm, g0, gd, (peak_iff gm g0 gd).2 ?_⟩, fun c => mixtureLaw_integrable p Q fun j => (h j).tail c⟩
  refine (integrable_finset_sum Finset.univ fun j _ => ((peak_iff (fm j) (f0 j) (fd j)).1 (fp j)).const_mul (p j)).mono'
    (measurable_const.max (gm.mul gm.log)).aestronglyMeasurable (.of_forall fun u => ?_)
  rw [Real.norm_eq_abs, abs_of_nonneg (le_max_left _ _)]
  have := hill_convex.map_sum_le (t := Finset.univ) (w := p) (p := fun j => f j u) (fun j _ => h0 j) h1 (fun j _ => f0 j u)
  simpa using this

theorem side_mixture {p : Fin m → ℝ} (h0 : ∀ j, 0 ≤ p j) (h1 : ∑ j, p j = 1) {Q : Fin m → Measure (Fin d → ℝ)} {r : ENNReal} (h : ∀ j, Side r (Q j)) :
    Side r (mixtureLaw p Q) := by
  haveI := fun j => (h j).prob
  exact ⟨mixtureLaw_prob h0 (by rw [List.sum_ofFn, h1]) Q, regular_mixture h0 h1 fun j => (h j).regular, fun q hq0 hq hr c =>
    memLp_mixture p Q hq0 hq (measurable_pi_apply c) fun j => (h j).moment q hq0 hq hr c⟩

/-! ## Waves -/

theorem side_shift {Q : Measure (Fin d → ℝ)} {r : ENNReal} (h : Side r Q) (a : Fin d → ℝ) : Side r (Q.map fun u => u + a) := by
  haveI := h.prob
  have hm : Measurable fun u : Fin d → ℝ => u + a := measurable_id.add_const a
  have hl : ∀ (c : Fin d) (u : Fin d → ℝ), |(u + a) c| ≤ (1 + |a c|) * (1 + ∑ i, |u i|) := fun c u => by
    have h1 := abs_add_le (u c) (a c)
    have h2 := single_le u c
    have h3 : 0 ≤ |a c| * ∑ i, |u i| := mul_nonneg (abs_nonneg _) (Finset.sum_nonneg fun i _ => abs_nonneg _)
    rw [Pi.add_apply]
    nlinarith
  exact side_map hm (regular_preserving h.regular (measurePreserving_add_right volume a) (add_left_injective a) fun c =>
      tail_linear h.regular.tail ((measurable_pi_apply c).comp hm) (hl c)) fun p h0 hp hr c =>
    moment_linear (h.moment p h0 hp hr) ((measurable_pi_apply c).comp hm) (hl c)

theorem side_units {Q : Measure (Fin d → ℝ)} {r : ENNReal} (h : Side r Q) {s : Fin d → ℝ} (hs : ∀ c, 0 < s c) : Side r (Q.map (units s)) := by
  haveI := h.prob
  refine side_map (measurable_units s) (units_regular h.regular hs) fun p h0 hp hr c => ?_
  refine moment_linear (h.moment p h0 hp hr) ((measurable_pi_apply c).comp (measurable_units s)) (B := (s c)⁻¹) fun u => ?_
  have h2 := single_le u c
  have h3 := inv_pos.2 (hs c)
  unfold units
  rw [abs_div, abs_of_pos (hs c), div_eq_inv_mul]
  exact mul_le_mul_of_nonneg_left (by linarith) h3.le

/-- The waves shear the plane. -/
theorem shear_deriv (a f : ℝ) (x : Fin 2 → ℝ) :
    HasFDerivAt (fun x : Fin 2 → ℝ => (![x 0 + a * Real.sin (f * x 1), x 1] : Fin 2 → ℝ))
      (Matrix.toLin' (!![1, a * (f * Real.cos (f * x 1)); 0, 1] : Matrix (Fin 2) (Fin 2) ℝ)).toContinuousLinearMap x := by
  rw [hasFDerivAt_pi']
  have p0 := (ContinuousLinearMap.proj (R := ℝ) (φ := fun _ : Fin 2 => ℝ) 0).hasFDerivAt (x := x)
  have p1 := (ContinuousLinearMap.proj (R := ℝ) (φ := fun _ : Fin 2 => ℝ) 1).hasFDerivAt (x := x)
  intro i
  fin_cases i
  · refine (p0.add (((p1.const_mul f).sin).const_mul a)).congr_fderiv ?_
    ext v
    simp [Matrix.toLin'_apply, Matrix.mulVec, dotProduct, Fin.sum_univ_two]
    ring
  · refine p1.congr_fderiv ?_
    ext v
    simp [Matrix.toLin'_apply, Matrix.mulVec, dotProduct, Fin.sum_univ_two]

theorem shear_preserving (a f : ℝ) :
    MeasurePreserving (fun x : Fin 2 → ℝ => (![x 0 + a * Real.sin (f * x 1), x 1] : Fin 2 → ℝ)) volume volume := by
  obtain ⟨m1, m2, -⟩ := MixtureTasks.waves_facts a f
  refine ⟨m1, ?_⟩
  have hm := map_withDensity_abs_det_fderiv_eq_addHaar (volume : Measure (Fin 2 → ℝ)) (s := Set.univ) MeasurableSet.univ.nullMeasurableSet
    (fun x _ => (shear_deriv a f x).hasFDerivWithinAt) m2.injOn
  have hd : ∀ x : Fin 2 → ℝ, |((Matrix.toLin' (!![1, a * (f * Real.cos (f * x 1)); 0, 1] : Matrix (Fin 2) (Fin 2) ℝ)).toContinuousLinearMap :
      (Fin 2 → ℝ) →L[ℝ] (Fin 2 → ℝ)).det| = 1 := fun x => by
    unfold ContinuousLinearMap.det
    rw [LinearMap.coe_toContinuousLinearMap, LinearMap.det_toLin', Matrix.det_fin_two_of]
    norm_num
  have hs : Function.Surjective fun x : Fin 2 → ℝ => (![x 0 + a * Real.sin (f * x 1), x 1] : Fin 2 → ℝ) := fun y =>
    ⟨![y 0 - a * Real.sin (f * y 1), y 1], by ext i; fin_cases i <;> simp⟩
  simp only [hd] at hm
  rw [Measure.restrict_univ, Set.image_univ, hs.range_eq, Measure.restrict_univ, ENNReal.ofReal_one, withDensity_const, one_smul] at hm
  exact hm

theorem side_shear {Q : Measure (Fin 2 → ℝ)} {r : ENNReal} (h : Side r Q) (a f : ℝ) :
    Side r (Q.map fun x : Fin 2 → ℝ => (![x 0 + a * Real.sin (f * x 1), x 1] : Fin 2 → ℝ)) := by
  haveI := h.prob
  have hp := shear_preserving a f
  have hl : ∀ (c : Fin 2) (u : Fin 2 → ℝ), |(![u 0 + a * Real.sin (f * u 1), u 1] : Fin 2 → ℝ) c| ≤ (1 + |a|) * (1 + ∑ i, |u i|) := fun c u => by
    have h0 := single_le u 0
    have h1 := single_le u 1
    have h2 : |a * Real.sin (f * u 1)| ≤ |a| := by
      rw [abs_mul]
      exact mul_le_of_le_one_right (abs_nonneg a) (Real.abs_sin_le_one _)
    have h3 : 0 ≤ |a| * ∑ i, |u i| := mul_nonneg (abs_nonneg _) (Finset.sum_nonneg fun i _ => abs_nonneg _)
    have h4 := abs_nonneg a
    fin_cases c
    · show |u 0 + a * Real.sin (f * u 1)| ≤ _
      have := abs_add_le (u 0) (a * Real.sin (f * u 1))
      nlinarith
    · show |u 1| ≤ _
      nlinarith
  exact side_map hp.measurable (regular_preserving h.regular hp (MixtureTasks.waves_facts a f).2.1 fun c =>
      tail_linear h.regular.tail ((measurable_pi_apply c).comp hp.measurable) (hl c)) fun p h0 hp' hr c =>
    moment_linear (h.moment p h0 hp' hr) ((measurable_pi_apply c).comp hp.measurable) (hl c)

end BMI.Kde
