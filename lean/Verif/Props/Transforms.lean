import Verif.Props.Spiral
import Verif.Props.Compose
import Verif.Props.Multinormal

/-! Property C09: the transforms of the benchmark are injective, and the transformed tasks report the mutual
information of what they sample.  Over /repo/src/bmi/transforms and /repo/src/bmi/benchmark/tasks. -/

namespace BMI.Samplers

open MeasureTheory ProbabilityTheory Matrix

variable {Key : Type}

/-! ## Functions of one number -/

/-- **C09**: half-cube keeps signs and takes `|x|` to `|x|^(3/2)`, so it is injective. -/
theorem halfCube_injective : (∀ x : ℝ, 0 ≤ x → halfCube x = x ^ (1.5 : ℝ)) ∧
    (∀ x, halfCube (-x) = -halfCube x) ∧ Function.Injective halfCube := by
  refine ⟨fun x hx => ?_, fun x => by simp [halfCube], ?_⟩
  · rw [halfCube_eq, signedPow, abs_of_nonneg hx]
    rcases hx.eq_or_lt with rfl | h
    · rw [Real.zero_rpow (by norm_num)]; simp
    · simp [sign_pos h]
  · have : halfCube = signedPow 1.5 := funext halfCube_eq
    rw [this]
    exact signedPow_injective (by norm_num)

/-- **C09**: the wiggly transforms are strictly increasing. -/
theorem wiggly_strictMono : StrictMono wigglyX ∧ StrictMono wigglyY := ⟨wigglyX_strictMono, wigglyY_strictMono⟩

/-- **C09**: `normal_cdf` is the distribution function of the standard normal law, is strictly increasing, and takes
values strictly between 0 and 1. -/
theorem normalCdf_spec : (∀ x, ENNReal.ofReal (normalCdf x) = gaussianReal 0 1 (Set.Iic x)) ∧ StrictMono normalCdf ∧
    ∀ x, 0 < normalCdf x ∧ normalCdf x < 1 :=
  ⟨fun x => by rw [normalCdf_eq_cdf, ofReal_cdf], normalCdf_strictMono, normalCdf_mem⟩

/-- **C09**: `normal_cdf` of a standard normal variable is uniform on the unit interval. -/
theorem normalCdf_uniform : (gaussianReal 0 1).map normalCdf = volume.restrict (Set.Icc 0 1) := by
  haveI : IsProbabilityMeasure ((gaussianReal 0 1).map normalCdf) :=
    Measure.isProbabilityMeasure_map continuous_normalCdf.measurable.aemeasurable
  haveI : IsFiniteMeasure (volume.restrict (Set.Icc (0 : ℝ) 1)) := ⟨by simp⟩
  refine Measure.ext_of_Iic _ _ fun u => ?_
  rw [Measure.map_apply continuous_normalCdf.measurable measurableSet_Iic,
    Measure.restrict_apply measurableSet_Iic]
  rcases le_or_gt u 0 with h0 | h0
  · have e1 : normalCdf ⁻¹' Set.Iic u = ∅ := by
      ext x
      simpa using h0.trans_lt (normalCdf_mem x).1
    have e2 : Set.Iic u ∩ Set.Icc 0 1 ⊆ {0} := fun x hx => le_antisymm (hx.1.trans h0) hx.2.1
    rw [e1, measure_empty]
    exact (measure_mono_null e2 (by simp)).symm
  rcases le_or_gt 1 u with h1 | h1
  · have e1 : normalCdf ⁻¹' Set.Iic u = Set.univ := by
      ext x
      simpa using (normalCdf_mem x).2.le.trans h1
    have e2 : Set.Iic u ∩ Set.Icc 0 1 = Set.Icc 0 1 := Set.inter_eq_right.2 fun x hx => hx.2.trans h1
    rw [e1, e2]
    simp
  · have hl : Filter.Tendsto normalCdf Filter.atBot (nhds 0) := by
      rw [show normalCdf = cdf (gaussianReal 0 1) from funext normalCdf_eq_cdf]
      exact tendsto_cdf_atBot _
    have hr : Filter.Tendsto normalCdf Filter.atTop (nhds 1) := by
      rw [show normalCdf = cdf (gaussianReal 0 1) from funext normalCdf_eq_cdf]
      exact tendsto_cdf_atTop _
    obtain ⟨a, ha⟩ := (hl.eventually (gt_mem_nhds h0)).exists
    obtain ⟨b, hb⟩ := (hr.eventually (lt_mem_nhds h1)).exists
    obtain ⟨x, hx⟩ := mem_range_of_exists_le_of_exists_ge continuous_normalCdf ⟨a, ha.le⟩ ⟨b, hb.le⟩
    have e1 : normalCdf ⁻¹' Set.Iic u = Set.Iic x := by
      ext y
      simp only [Set.mem_preimage, Set.mem_Iic, ← hx, normalCdf_strictMono.le_iff_le]
    have e2 : Set.Iic u ∩ Set.Icc 0 1 = Set.Icc 0 u := by
      ext y
      simp only [Set.mem_inter_iff, Set.mem_Iic, Set.mem_Icc]
      exact ⟨fun h => ⟨h.2.1, h.1⟩, fun h => ⟨h.2, h.1, h.2.trans h1.le⟩⟩
    rw [e1, e2, ← normalCdf_spec.1 x, hx]
    simp

/-- **C09**: the power transform with a positive exponent is injective; with the exponent 0, which is accepted too, it
is not. -/
theorem power_injective_iff (alpha : ℝ) (h : 0 ≤ alpha) : Function.Injective (signedPow alpha) ↔ 0 < alpha := by
  refine ⟨fun hi => ?_, signedPow_injective⟩
  rcases h.eq_or_lt with rfl | h
  · have : signedPow 0 1 = signedPow 0 2 := by simp [signedPow]
    exact absurd (hi this) (by norm_num)
  · exact h

/-- The exponent of a task in the tests. -/
example : Function.Injective (signedPow 0.5) := (power_injective_iff 0.5 (by norm_num)).2 (by norm_num)

/-! ## Functions of a row -/

/-- **C09**: the Swiss roll is injective on the unit interval, for which it is documented (and down to -1/2). -/
theorem swissroll_injective (x y : ℝ) (hx : -1 / 2 ≤ x) (hy : -1 / 2 ≤ y) (h : swissroll2d [x] = swissroll2d [y]) :
    x = y := by
  refine roll_injOn hx hy ?_
  simpa [swissroll2d, rollAngle] using h

example : swissroll2d [0] ≠ swissroll2d [1] := fun h =>
  zero_ne_one (swissroll_injective 0 1 (by norm_num) (by norm_num) h)

/-- **C09**: the Swiss roll is not injective on the real line: it must not be applied to an unbounded variable. -/
theorem swissroll_not_injective : ∃ x y : ℝ, x ≠ y ∧ swissroll2d [x] = swissroll2d [y] := by
  refine ⟨-1 / 3, -2 / 3, by norm_num, ?_⟩
  have h1 : 1.5 * Real.pi * (1 + 2 * (-1 / 3 : ℝ)) = Real.pi / 2 := by ring
  have h2 : 1.5 * Real.pi * (1 + 2 * (-2 / 3 : ℝ)) = -(Real.pi / 2) := by ring
  simp only [swissroll2d, List.getD_cons_zero, h1, h2, Real.cos_neg, Real.sin_neg, Real.cos_pi_div_two,
    Real.sin_pi_div_two]
  norm_num

/-- **C09**: both transforms of the waves task are injective on rows of length two. -/
theorem waves_injective (amplitude frequency a b c d : ℝ) :
    (waves amplitude frequency [a, b] = waves amplitude frequency [c, d] → a = c ∧ b = d) ∧
      (wavesShrink [a, b] = wavesShrink [c, d] → a = c ∧ b = d) := by
  constructor
  · intro h
    simp only [waves, List.getD_cons_zero, List.getD_cons_succ, List.cons.injEq, and_true, zero_mul, add_zero] at h
    obtain ⟨h1, rfl⟩ := h
    exact ⟨by linarith, rfl⟩
  · intro h
    simp only [wavesShrink, List.getD_cons_zero, List.getD_cons_succ, List.cons.injEq, and_true] at h
    exact ⟨by linarith [h.1], by linarith [h.2]⟩

/-! ## Tasks -/

theorem coordinatewise_correct [MeasurableSpace Key] (R : JaxRandom Key) (κ : Measure Key) [IsProbabilityMeasure κ]
    (base : Sampler Key) {dx dy : ℕ} (P : Measure ((Fin dx → ℝ) × (Fin dy → ℝ))) (hP : Correct R κ base dx dy P)
    (tx ty : Transform) (f g : ℝ → ℝ) (hf : Measurable f) (hg : Measurable g) (hfi : Function.Injective f)
    (hgi : Function.Injective g) (htx : Acts tx fun (v : Fin dx → ℝ) i => f (v i))
    (hty : Acts ty fun (v : Fin dy → ℝ) i => g (v i)) :
    ∃ s, transformed base tx ty 0 0 = .ok s ∧ s.mi = base.mi ∧
      Correct R κ s dx dy (P.map (Prod.map (fun v i => f (v i)) fun v i => g (v i))) :=
  transformed_correct R κ base P hP tx ty 0 0 le_rfl le_rfl (by simp) (by simp) _ _
    (measurable_pi_lambda _ fun i => hf.comp (measurable_pi_apply i))
    (measurable_pi_lambda _ fun i => hg.comp (measurable_pi_apply i)) htx hty Set.univ Set.univ MeasurableSet.univ
    MeasurableSet.univ (by simp) (by simp) (fun x _ y _ h => funext fun i => hfi (congrFun h i))
    (fun x _ y _ h => funext fun i => hgi (congrFun h i))

/-- **C09**: the half-cube task. -/
theorem halfCubeTask_correct [MeasurableSpace Key] (R : JaxRandom Key) (κ : Measure Key) [IsProbabilityMeasure κ]
    (base : Sampler Key) {dx dy : ℕ} (P : Measure ((Fin dx → ℝ) × (Fin dy → ℝ))) (hP : Correct R κ base dx dy P) :
    ∃ s, halfCubeTask base = .ok s ∧ s.mi = base.mi ∧
      Correct R κ s dx dy (P.map (Prod.map (fun v i => v i * √|v i|) fun v i => v i * √|v i|)) :=
  coordinatewise_correct R κ base P hP _ _ halfCube halfCube (by unfold halfCube; fun_prop)
    (by unfold halfCube; fun_prop) halfCube_injective.2.2 halfCube_injective.2.2 (acts_map dx halfCube)
    (acts_map dy halfCube)

/-- **C09**: the asinh task. -/
theorem asinhTask_correct [MeasurableSpace Key] (R : JaxRandom Key) (κ : Measure Key) [IsProbabilityMeasure κ]
    (base : Sampler Key) {dx dy : ℕ} (P : Measure ((Fin dx → ℝ) × (Fin dy → ℝ))) (hP : Correct R κ base dx dy P) :
    ∃ s, asinhTask base = .ok s ∧ s.mi = base.mi ∧
      Correct R κ s dx dy (P.map (Prod.map (fun v i => Real.arsinh (v i)) fun v i => Real.arsinh (v i))) :=
  coordinatewise_correct R κ base P hP _ _ Real.arsinh Real.arsinh Real.continuous_arsinh.measurable
    Real.continuous_arsinh.measurable Real.arsinh_injective Real.arsinh_injective (acts_map dx Real.arsinh)
    (acts_map dy Real.arsinh)

/-- **C09**: the wiggly task. -/
theorem wigglyTask_correct [MeasurableSpace Key] (R : JaxRandom Key) (κ : Measure Key) [IsProbabilityMeasure κ]
    (base : Sampler Key) {dx dy : ℕ} (P : Measure ((Fin dx → ℝ) × (Fin dy → ℝ))) (hP : Correct R κ base dx dy P) :
    ∃ s, wigglyTask base = .ok s ∧ s.mi = base.mi ∧
      Correct R κ s dx dy (P.map (Prod.map (fun v i => wigglyX (v i)) fun v i => wigglyY (v i))) :=
  coordinatewise_correct R κ base P hP _ _ wigglyX wigglyY continuous_wigglyX.measurable
    continuous_wigglyY.measurable wigglyX_strictMono.injective wigglyY_strictMono.injective (acts_map dx wigglyX)
    (acts_map dy wigglyY)

/-- **C09**: the normal-CDF task. -/
theorem normalCdfTask_correct [MeasurableSpace Key] (R : JaxRandom Key) (κ : Measure Key) [IsProbabilityMeasure κ]
    (base : Sampler Key) {dx dy : ℕ} (P : Measure ((Fin dx → ℝ) × (Fin dy → ℝ))) (hP : Correct R κ base dx dy P) :
    ∃ s, normalCdfTask base = .ok s ∧ s.mi = base.mi ∧
      Correct R κ s dx dy (P.map (Prod.map (fun v i => cdf (gaussianReal 0 1) (v i))
        fun v i => cdf (gaussianReal 0 1) (v i))) := by
  have h := coordinatewise_correct R κ base P hP (.row (List.map normalCdf)) (.row (List.map normalCdf)) normalCdf
    normalCdf continuous_normalCdf.measurable continuous_normalCdf.measurable normalCdf_strictMono.injective
    normalCdf_strictMono.injective (acts_map dx normalCdf) (acts_map dy normalCdf)
  simp only [← normalCdf_eq_cdf]
  exact h

/-- **C09**: the power task, for a positive exponent. -/
theorem powerTask_correct [MeasurableSpace Key] (R : JaxRandom Key) (κ : Measure Key) [IsProbabilityMeasure κ]
    (base : Sampler Key) {dx dy : ℕ} (P : Measure ((Fin dx → ℝ) × (Fin dy → ℝ))) (hP : Correct R κ base dx dy P)
    (alpha : ℝ) (hα : 0 < alpha) :
    ∃ s, powerTask base alpha = .ok s ∧ s.mi = base.mi ∧
      Correct R κ s dx dy (P.map (Prod.map (fun v i => SignType.sign (v i) * |v i| ^ alpha)
        fun v i => SignType.sign (v i) * |v i| ^ alpha)) :=
  coordinatewise_correct R κ base P hP _ _ (signedPow alpha) (signedPow alpha) (measurable_signedPow alpha)
    (measurable_signedPow alpha) (signedPow_injective hα) (signedPow_injective hα) (acts_map dx (signedPow alpha))
    (acts_map dy (signedPow alpha))

/-- **C09**: the power task, for a negative exponent, when almost surely no coordinate is 0. -/
theorem powerTask_correct_neg [MeasurableSpace Key] (R : JaxRandom Key) (κ : Measure Key) [IsProbabilityMeasure κ]
    (base : Sampler Key) {dx dy : ℕ} (P : Measure ((Fin dx → ℝ) × (Fin dy → ℝ))) (hP : Correct R κ base dx dy P)
    (alpha : ℝ) (hα : alpha < 0) (hx : ∀ᵐ x ∂P.fst, ∀ i, x i ≠ 0) (hy : ∀ᵐ y ∂P.snd, ∀ i, y i ≠ 0) :
    ∃ s, powerTask base alpha = .ok s ∧ s.mi = base.mi ∧
      Correct R κ s dx dy (P.map (Prod.map (fun v i => SignType.sign (v i) * |v i| ^ alpha)
        fun v i => SignType.sign (v i) * |v i| ^ alpha)) := by
  have hm : ∀ d : ℕ, MeasurableSet {x : Fin d → ℝ | ∀ i, x i ≠ 0} := fun d => by
    have e : {x : Fin d → ℝ | ∀ i, x i ≠ 0} = ⋂ i, (fun x => x i) ⁻¹' {0}ᶜ := by ext x; simp
    rw [e]
    exact MeasurableSet.iInter fun i => (measurable_pi_apply i) (measurableSet_singleton 0).compl
  exact transformed_correct R κ base P hP _ _ 0 0 le_rfl le_rfl (by simp) (by simp)
    (fun v i => signedPow alpha (v i)) (fun v i => signedPow alpha (v i))
    (measurable_pi_lambda _ fun i => (measurable_signedPow alpha).comp (measurable_pi_apply i))
    (measurable_pi_lambda _ fun i => (measurable_signedPow alpha).comp (measurable_pi_apply i))
    (acts_map dx (signedPow alpha)) (acts_map dy (signedPow alpha)) _ _ (hm dx) (hm dy) hx hy
    (fun x hx y hy h => funext fun i => signedPow_injOn hα.ne (hx i) (hy i) (congrFun h i))
    (fun x hx y hy h => funext fun i => signedPow_injOn hα.ne (hx i) (hy i) (congrFun h i))

/-- The Swiss roll as a curve. -/
noncomputable def rollCurve (v : Fin 1 → ℝ) : Fin 2 → ℝ :=
  ![rollAngle (v 0) * Real.cos (rollAngle (v 0)) / 21, rollAngle (v 0) * Real.sin (rollAngle (v 0)) / 21]

/-- **C09**: the Swiss-roll task, over a one-dimensional `X` with values in the unit interval. -/
theorem swissrollTask_correct [MeasurableSpace Key] (R : JaxRandom Key) (κ : Measure Key) [IsProbabilityMeasure κ]
    (base : Sampler Key) {dy : ℕ} (P : Measure ((Fin 1 → ℝ) × (Fin dy → ℝ))) (hP : Correct R κ base 1 dy P)
    (hx : ∀ᵐ x ∂P.fst, x 0 ∈ Set.Icc (0 : ℝ) 1) :
    ∃ s, swissrollTask base = .ok s ∧ s.mi = base.mi ∧ Correct R κ s 2 dy (P.map (Prod.map rollCurve id)) := by
  have hc : Continuous rollCurve := by
    refine continuous_pi fun i => ?_
    fin_cases i
    · show Continuous fun v : Fin 1 → ℝ => rollAngle (v 0) * Real.cos (rollAngle (v 0)) / 21
      unfold rollAngle; fun_prop
    · show Continuous fun v : Fin 1 → ℝ => rollAngle (v 0) * Real.sin (rollAngle (v 0)) / 21
      unfold rollAngle; fun_prop
  have ha : Acts (.row swissroll2d) rollCurve := fun n a => rowsOf_map a _ _ fun v => by
    simp [swissroll2d, rollCurve, rollAngle, List.ofFn_succ]
  obtain ⟨s, h1, h2, h3⟩ := transformed_correct R κ base P hP (.row swissroll2d) .none 1 0 (by norm_num) le_rfl
    (by norm_num) (by simp) rollCurve id hc.measurable measurable_id ha (fun n a => rfl)
    {x | x 0 ∈ Set.Icc (0 : ℝ) 1} Set.univ ((measurable_pi_apply 0) measurableSet_Icc) MeasurableSet.univ hx (by simp)
    (fun x hx y hy h => by
      have h0 := congrFun h 0
      have h1 := congrFun h 1
      simp only [rollCurve, Matrix.cons_val_zero, Matrix.cons_val_one] at h0 h1
      have : x 0 = y 0 := roll_injOn (Set.mem_Ici.2 (by linarith [hx.1])) (Set.mem_Ici.2 (by linarith [hy.1]))
        (Prod.ext h0 h1)
      funext i
      rw [Subsingleton.elim i 0, this])
    Function.injective_id.injOn
  refine ⟨s, ?_, h2, h3⟩
  unfold swissrollTask
  rw [hP.shape.2.2.1]
  exact h1

/-- **C09**: the Swiss-roll task over anything but a one-dimensional `X` is rejected. -/
theorem swissrollTask_rejects (base : Sampler Key) (d : ℕ) (h : base.dimX = .ok d) (hd : d ≠ 1) :
    swissrollTask base = .error .assertionError := by
  unfold swissrollTask
  rw [h]
  show (if d ≠ 1 then Except.error Err.assertionError else _) = _
  rw [if_pos hd]

theorem turn_eq_exp {n : ℕ} {i j : Fin n} (hij : i < j) (c : ℝ) (x : Fin n → ℝ) :
    turn i j (c * sumSq x) x = windBy ((planeGen i j).map (· * c)) x := by
  rw [← exp_planeGen_mulVec i j hij.ne, sumSq_eq]
  unfold windBy
  have e : ((planeGen i j).map (· * c)).map (· * (x ⬝ᵥ x)) = (c * (x ⬝ᵥ x)) • planeGen i j := by
    ext a b; simp; ring
  rw [e]

theorem spiral_acts {n : ℕ} {i j : Fin n} (hij : i < j) (c : ℝ) :
    Acts (.row (SpiralObj.row ⟨n, 1, (planeGen i j).map (· * c)⟩)) fun x => turn i j (c * sumSq x) x :=
  fun _ a => rowsOf_map a (SpiralObj.row ⟨n, 1, (planeGen i j).map (· * c)⟩) (fun x => turn i j (c * sumSq x) x)
    fun v => by rw [SpiralObj.row_ofFn, Matrix.one_mulVec, turn_eq_exp hij]

theorem turn_injective {n : ℕ} {i j : Fin n} (hij : i < j) (c : ℝ) :
    Function.Injective fun x : Fin n → ℝ => turn i j (c * sumSq x) x := by
  simp only [turn_eq_exp hij]
  exact (windBy_bijective (map_mul_skew (planeGen_skew i j) c)).1

theorem measurable_turn {n : ℕ} {i j : Fin n} (hij : i < j) (c : ℝ) :
    Measurable fun x : Fin n → ℝ => turn i j (c * sumSq x) x := by
  simp only [turn_eq_exp hij]
  exact (continuous_windBy _).measurable

theorem fin_two_val (d : ℕ) : ((2 : Fin (d + 3)) : ℕ) = 2 := Nat.mod_eq_of_lt (show 2 < d + 3 by omega)

theorem one_lt_two_fin (d : ℕ) : (1 : Fin (d + 3)) < 2 := by
  rw [Fin.lt_def, fin_two_val]
  simp

/-- **C09**: the spiral task.  `X` has its first two coordinates turned by an angle proportional to `‖X‖²`, `Y` the
second and third by an angle proportional to `‖Y‖²`. -/
theorem spiralTask_correct [MeasurableSpace Key] (R : JaxRandom Key) (κ : Measure Key) [IsProbabilityMeasure κ]
    (base : Sampler Key) {dx dy : ℕ} (P : Measure ((Fin (dx + 2) → ℝ) × (Fin (dy + 3) → ℝ)))
    (hP : Correct R κ base (dx + 2) (dy + 3) P) (speed : ℝ) (normalize : Bool) :
    ∃ s, spiralTask base speed normalize = .ok s ∧ s.mi = base.mi ∧
      Correct R κ s (dx + 2) (dy + 3) (P.map (Prod.map
        (fun x => turn 0 1 ((if normalize then speed / (dx + 2 : ℕ) else speed) * sumSq x) x)
        fun y => turn 1 2 ((if normalize then speed / (dy + 3 : ℕ) else speed) * sumSq y) y)) := by
  have h01 : (0 : Fin (dx + 2)) < 1 := by simp
  have h12 : (1 : Fin (dy + 3)) < 2 := one_lt_two_fin dy
  generalize hcx : (if normalize then speed / (dx + 2 : ℕ) else speed) = cx
  generalize hcy : (if normalize then speed / (dy + 3 : ℕ) else speed) = cy
  obtain ⟨s, h1, h2, h3⟩ := transformed_correct R κ base P hP
    (.row (SpiralObj.row ⟨dx + 2, 1, (planeGen 0 1).map (· * cx)⟩))
    (.row (SpiralObj.row ⟨dy + 3, 1, (planeGen 1 2).map (· * cy)⟩)) 0 0 le_rfl le_rfl (by simp) (by simp) _ _
    (measurable_turn h01 cx) (measurable_turn h12 cy) (spiral_acts h01 cx) (spiral_acts h12 cy) Set.univ Set.univ
    MeasurableSet.univ MeasurableSet.univ (by simp) (by simp) (turn_injective h01 cx).injOn
    (turn_injective h12 cy).injOn
  refine ⟨s, ?_, h2, h3⟩
  have e1 : soGenerator (dx + 2) 0 1 = .ok (planeGen 0 1) := by
    simpa using soGenerator_eq_planeGen (0 : Fin (dx + 2)) 1 h01
  have e2 : soGenerator (dy + 3) 1 2 = .ok (planeGen 1 2) := by
    have := soGenerator_eq_planeGen (1 : Fin (dy + 3)) 2 h12
    rw [fin_two_val] at this
    simpa using this
  unfold spiralTask
  rw [hP.shape.2.2.1, hP.shape.2.2.2.1]
  show (if ¬ dx + 2 > 1 then Except.error Err.assertionError else
    (if ¬ dy + 3 > 2 then Except.error Err.assertionError else
      Except.bind (soGenerator (dx + 2) 0 1) fun gx => Except.bind (soGenerator (dy + 3) 1 2) fun gy => _)) = _
  rw [if_neg (by omega), if_neg (by omega), e1, e2]
  show Except.bind (spiral ⟨dx + 2, dx + 2, planeGen 0 1⟩ none (if normalize then speed / (dx + 2 : ℕ) else speed)) _ = _
  rw [hcx, spiral_none]
  show Except.bind (spiral ⟨dy + 3, dy + 3, planeGen 1 2⟩ none (if normalize then speed / (dy + 3 : ℕ) else speed)) _ = _
  rw [hcy, spiral_none]
  exact h1

/-- **C09**: the spiral task needs `dim_x ≥ 2` and `dim_y ≥ 3`. -/
theorem spiralTask_rejects (base : Sampler Key) (dx dy : ℕ) (hx : base.dimX = .ok dx) (hy : base.dimY = .ok dy)
    (h : dx < 2 ∨ dy < 3) (speed : ℝ) (normalize : Bool) :
    spiralTask base speed normalize = .error .assertionError := by
  unfold spiralTask
  rw [hx, hy]
  show (if ¬ dx > 1 then Except.error Err.assertionError else
    (if ¬ dy > 2 then Except.error Err.assertionError else _)) = _
  by_cases h1 : dx > 1
  · rw [if_neg (not_not.2 h1), if_pos (by omega)]
  · rw [if_pos h1]

/-- **C09**: the rotate task needs `dim_x ≥ 3` and `dim_y ≥ 3`. -/
theorem rotateTask_rejects (base : Sampler Key) (dx dy : ℕ) (hx : base.dimX = .ok dx) (hy : base.dimY = .ok dy)
    (h : dx < 3 ∨ dy < 3) : rotateTask base = .error .assertionError := by
  unfold rotateTask
  rw [hx, hy]
  show (if ¬ dx > 2 then Except.error Err.assertionError else
    (if ¬ dy > 2 then Except.error Err.assertionError else _)) = _
  by_cases h1 : dx > 2
  · rw [if_neg (not_not.2 h1), if_pos (by omega)]
  · rw [if_pos h1]

/-- The rotation of the rotate task for `X`: the exponential of `2 A₀₁ - A₁₂ - A₀₂`. -/
noncomputable def rotX (d : ℕ) : Matrix (Fin (d + 3)) (Fin (d + 3)) ℝ :=
  NormedSpace.exp ((2 : ℝ) • planeGen 0 1 - planeGen 1 2 - planeGen 0 2)

/-- The rotation of the rotate task for `Y`: the exponential of `A₀₁ + 2 A₁₂`. -/
noncomputable def rotY (d : ℕ) : Matrix (Fin (d + 3)) (Fin (d + 3)) ℝ :=
  NormedSpace.exp (planeGen 0 1 + (2 : ℝ) • planeGen 1 2)

theorem rot_orthogonal (d : ℕ) : (rotX d)ᵀ * rotX d = 1 ∧ (rotY d)ᵀ * rotY d = 1 := by
  constructor
  · refine exp_skew_orthogonal ?_
    simp only [Matrix.transpose_sub, Matrix.transpose_smul, planeGen_skew]
    module
  · refine exp_skew_orthogonal ?_
    simp only [Matrix.transpose_add, Matrix.transpose_smul, planeGen_skew]
    module

theorem rowMul_acts {n : ℕ} (m : Matrix (Fin n) (Fin n) ℝ) : Acts (.row (rowMul m)) fun x => x ᵥ* m :=
  fun _ a => rowsOf_map a (rowMul m) (fun x => x ᵥ* m) fun v => by rw [rowMul, toVec_ofFn']

theorem vecMul_injective_of_orthogonal {n : ℕ} {m : Matrix (Fin n) (Fin n) ℝ} (h : mᵀ * m = 1) :
    Function.Injective fun x : Fin n → ℝ => x ᵥ* m := by
  have hu : IsUnit m := (Matrix.isUnit_iff_isUnit_det _).2 (Matrix.isUnit_det_of_left_inverse h)
  exact Matrix.vecMul_injective_iff_isUnit.2 hu

/-- **C09**: the rotate task.  Both variables are multiplied by orthogonal matrices. -/
theorem rotateTask_correct [MeasurableSpace Key] (R : JaxRandom Key) (κ : Measure Key) [IsProbabilityMeasure κ]
    (base : Sampler Key) {dx dy : ℕ} (P : Measure ((Fin (dx + 3) → ℝ) × (Fin (dy + 3) → ℝ)))
    (hP : Correct R κ base (dx + 3) (dy + 3) P) :
    ∃ s, rotateTask base = .ok s ∧ s.mi = base.mi ∧
      Correct R κ s (dx + 3) (dy + 3) (P.map (Prod.map (fun x => x ᵥ* rotX dx) fun y => y ᵥ* rotY dy)) := by
  have hm : ∀ {n : ℕ} (m : Matrix (Fin n) (Fin n) ℝ), Measurable fun x : Fin n → ℝ => x ᵥ* m := fun m =>
    (continuous_id.matrix_vecMul continuous_const).measurable
  obtain ⟨s, h1, h2, h3⟩ := transformed_correct R κ base P hP (.row (rowMul (rotX dx))) (.row (rowMul (rotY dy)))
    0 0 le_rfl le_rfl (by simp) (by simp) _ _ (hm _) (hm _) (rowMul_acts _) (rowMul_acts _) Set.univ Set.univ
    MeasurableSet.univ MeasurableSet.univ (by simp) (by simp)
    (vecMul_injective_of_orthogonal (rot_orthogonal dx).1).injOn
    (vecMul_injective_of_orthogonal (rot_orthogonal dy).2).injOn
  refine ⟨s, ?_, h2, h3⟩
  have e1 : ∀ d, soGenerator (d + 3) 0 1 = .ok (planeGen 0 1) := fun d => by
    simpa using soGenerator_eq_planeGen (0 : Fin (d + 3)) 1 (by simp [Fin.lt_def])
  have e2 : ∀ d, soGenerator (d + 3) 1 2 = .ok (planeGen 1 2) := fun d => by
    have := soGenerator_eq_planeGen (1 : Fin (d + 3)) 2 (one_lt_two_fin d)
    rw [fin_two_val] at this
    simpa using this
  have e3 : ∀ d, soGenerator (d + 3) 0 2 = .ok (planeGen 0 2) := fun d => by
    have := soGenerator_eq_planeGen (0 : Fin (d + 3)) 2 (by rw [Fin.lt_def, fin_two_val]; simp)
    rw [fin_two_val] at this
    simpa using this
  unfold rotateTask
  rw [hP.shape.2.2.1, hP.shape.2.2.2.1]
  show (if ¬ dx + 3 > 2 then Except.error Err.assertionError else
    (if ¬ dy + 3 > 2 then Except.error Err.assertionError else
      Except.bind (soGenerator (dx + 3) 0 1) fun a => Except.bind (soGenerator (dx + 3) 1 2) fun b =>
      Except.bind (soGenerator (dx + 3) 0 2) fun c => Except.bind (soGenerator (dy + 3) 0 1) fun a' =>
      Except.bind (soGenerator (dy + 3) 1 2) fun b' => _)) = _
  rw [if_neg (by omega), if_neg (by omega), e1, e2, e3, e1, e2]
  show transformed base (.row (rowMul (NormedSpace.exp ((2 : ℝ) • planeGen 0 1 - (1 : ℝ) • planeGen 1 2
    - (1 : ℝ) • planeGen 0 2)))) (.row (rowMul (NormedSpace.exp ((1 : ℝ) • planeGen 0 1 + (2 : ℝ) • planeGen 1 2))))
    0 0 = _
  rw [one_smul, one_smul, one_smul]
  exact h1

/-- **C09**: the galaxy transform. -/
theorem galaxy_correct [MeasurableSpace Key] (R : JaxRandom Key) (κ : Measure Key) [IsProbabilityMeasure κ]
    (base : Sampler Key) {dy : ℕ} (P : Measure ((Fin 2 → ℝ) × (Fin dy → ℝ))) (hP : Correct R κ base 2 dy P)
    (speed : ℝ) :
    ∃ s, galaxyTransforms base speed = .ok s ∧ s.mi = base.mi ∧
      Correct R κ s 2 dy (P.map (Prod.map (fun x => turn 0 1 (speed * sumSq x) x) id)) := by
  have h01 : (0 : Fin 2) < 1 := by decide
  obtain ⟨s, h1, h2, h3⟩ := transformed_correct R κ base P hP
    (.row (SpiralObj.row ⟨2, 1, (planeGen 0 1).map (· * speed)⟩)) .none 0 0 le_rfl le_rfl (by simp) (by simp) _ id
    (measurable_turn h01 speed) measurable_id (spiral_acts h01 speed) (fun n a => rfl) Set.univ Set.univ
    MeasurableSet.univ MeasurableSet.univ (by simp) (by simp) (turn_injective h01 speed).injOn
    Function.injective_id.injOn
  refine ⟨s, ?_, h2, h3⟩
  have e : (!![0, -1; 1, 0] : Matrix (Fin 2) (Fin 2) ℝ) = planeGen 0 1 := by
    ext i j
    fin_cases i <;> fin_cases j <;> simp [planeGen]
  unfold galaxyTransforms
  rw [e, spiral_none]
  exact h1

/-- **C09**: the transforms of the waves task. -/
theorem waves_correct [MeasurableSpace Key] (R : JaxRandom Key) (κ : Measure Key) [IsProbabilityMeasure κ]
    (base : Sampler Key) {dy : ℕ} (P : Measure ((Fin 2 → ℝ) × (Fin dy → ℝ))) (hP : Correct R κ base 2 dy P)
    (amplitude frequency : ℝ) :
    ∃ s, wavesTransforms base amplitude frequency = .ok s ∧ s.mi = base.mi ∧
      Correct R κ s 2 dy (P.map (Prod.map
        (fun x => ![0.1 * (x 0 + amplitude * Real.sin (frequency * x 1)) - 0.8, 0.5 * x 1]) id)) := by
  let f : (Fin 2 → ℝ) → Fin 2 → ℝ := fun x => ![x 0 + amplitude * Real.sin (frequency * x 1), x 1]
  let g : (Fin 2 → ℝ) → Fin 2 → ℝ := fun x => ![0.1 * x 0 - 0.8, 0.5 * x 1]
  have hf : Measurable f := by
    refine measurable_pi_lambda _ fun i => ?_
    fin_cases i
    · show Measurable fun x : Fin 2 → ℝ => x 0 + amplitude * Real.sin (frequency * x 1)
      fun_prop
    · exact measurable_pi_apply 1
  have hg : Measurable g := by
    refine measurable_pi_lambda _ fun i => ?_
    fin_cases i
    · show Measurable fun x : Fin 2 → ℝ => 0.1 * x 0 - 0.8
      fun_prop
    · show Measurable fun x : Fin 2 → ℝ => 0.5 * x 1
      fun_prop
  have af : Acts (.row (waves amplitude frequency)) f := fun n a => rowsOf_map a _ _ fun v => by
    simp [waves, f, List.ofFn_succ]
  have ag : Acts (.row wavesShrink) g := fun n a => rowsOf_map a _ _ fun v => by
    simp [wavesShrink, g, List.ofFn_succ]
  have jf : Function.Injective f := by
    intro x y h
    have h0 : x 0 + amplitude * Real.sin (frequency * x 1) = y 0 + amplitude * Real.sin (frequency * y 1) :=
      congrFun h 0
    have h1 : x 1 = y 1 := congrFun h 1
    rw [h1] at h0
    funext i
    fin_cases i
    · exact add_right_cancel h0
    · exact h1
  have jg : Function.Injective g := by
    intro x y h
    have h0 : 0.1 * x 0 - 0.8 = 0.1 * y 0 - 0.8 := congrFun h 0
    have h1 : 0.5 * x 1 = 0.5 * y 1 := congrFun h 1
    funext i
    fin_cases i
    · show x 0 = y 0
      linarith
    · show x 1 = y 1
      linarith
  obtain ⟨s, h1, h2, h3⟩ := transformed_correct R κ base P hP (.row (waves amplitude frequency)) .none 0 0 le_rfl le_rfl
    (by simp) (by simp) f id hf measurable_id af (fun n a => rfl) Set.univ Set.univ MeasurableSet.univ
    MeasurableSet.univ (by simp) (by simp) jf.injOn Function.injective_id.injOn
  obtain ⟨t, h4, h5, h6⟩ := transformed_correct R κ s _ h3 (.row wavesShrink) .none 0 0 le_rfl le_rfl
    (by simp) (by simp) g id hg measurable_id ag (fun n a => rfl) Set.univ Set.univ MeasurableSet.univ
    MeasurableSet.univ (by simp) (by simp) jg.injOn Function.injective_id.injOn
  refine ⟨t, ?_, h5.trans h2, ?_⟩
  · unfold wavesTransforms
    rw [h1]
    exact h4
  · rw [Measure.map_map (hg.prodMap measurable_id) (hf.prodMap measurable_id)] at h6
    exact h6

/-- The spiral and rotate tasks over a multinormal base. -/
example : ∃ base s t, splitMultinormal tree 3 3 (rowsOf (1 : Matrix (Fin 6) (Fin 6) ℝ)) (some (List.ofFn (n := 6) 1)) = .ok base ∧
    spiralTask base 0.5 true = .ok s ∧ rotateTask s = .ok t ∧ t.mi = base.mi ∧ ∃ P, Correct tree treeLaw t 3 3 P := by
  haveI := tree_ideal.prob
  obtain ⟨base, h1, h2⟩ := splitMultinormal_correct tree treeLaw tree_ideal 3 3 (by norm_num) (by norm_num) 1 1
    Matrix.PosDef.one
  obtain ⟨s, h3, h4, h5⟩ := spiralTask_correct (dx := 1) (dy := 0) tree treeLaw base _ h2 0.5 true
  obtain ⟨t, h6, h7, h8⟩ := rotateTask_correct (dx := 0) (dy := 0) tree treeLaw s _ h5
  exact ⟨base, s, t, h1, h3, h6, h7.trans h4, _, h8⟩

/-- The galaxy and waves transforms over a multinormal base. -/
example : ∃ base s t, splitMultinormal tree 2 1 (rowsOf (1 : Matrix (Fin 3) (Fin 3) ℝ)) (some (List.ofFn (n := 3) 1)) = .ok base ∧
    galaxyTransforms base 0.5 = .ok s ∧ wavesTransforms s 5 3 = .ok t ∧ t.mi = base.mi ∧
      ∃ P, Correct tree treeLaw t 2 1 P := by
  haveI := tree_ideal.prob
  obtain ⟨base, h1, h2⟩ := splitMultinormal_correct tree treeLaw tree_ideal 2 1 (by norm_num) (by norm_num) 1 1
    Matrix.PosDef.one
  obtain ⟨s, h3, h4, h5⟩ := galaxy_correct tree treeLaw base _ h2 0.5
  obtain ⟨t, h6, h7, h8⟩ := waves_correct tree treeLaw s _ h5 5 3
  exact ⟨base, s, t, h1, h3, h6, h7.trans h4, _, h8⟩

/-- The Swiss-roll task of the benchmark: over the normal-CDF task, over the bivariate normal task with correlation
0.75. -/
example : ∃ a b s, bivariateNormal tree 0.75 1 1 0 0 = .ok a ∧ normalCdfTask a = .ok b ∧ swissrollTask b = .ok s ∧
    s.mi = a.mi ∧ ∃ P, Correct tree treeLaw s 2 1 P := by
  haveI := tree_ideal.prob
  obtain ⟨a, h1, h2⟩ := bivariateNormal_correct tree treeLaw tree_ideal 0.75 1 1 0 0 (by norm_num) (by norm_num)
    (by norm_num) (by norm_num)
  obtain ⟨b, h3, h4, h5⟩ := normalCdfTask_correct tree treeLaw a _ h2
  obtain ⟨s, h6, h7, h8⟩ := swissrollTask_correct tree treeLaw b _ h5 (by
    simp only [← normalCdf_eq_cdf]
    have hm : Measurable fun (v : Fin 1 → ℝ) i => normalCdf (v i) :=
      measurable_pi_lambda _ fun i => continuous_normalCdf.measurable.comp (measurable_pi_apply i)
    exact (ae_map_iff measurable_fst.aemeasurable ((measurable_pi_apply 0) measurableSet_Icc)).2
      ((ae_map_iff (hm.prodMap hm).aemeasurable (measurable_fst ((measurable_pi_apply 0) measurableSet_Icc))).2
        (Filter.Eventually.of_forall fun x => ⟨(normalCdf_mem _).1.le, (normalCdf_mem _).2.le⟩)))
  exact ⟨a, b, s, h1, h3, h6, h7.trans h4, _, h8⟩

end BMI.Samplers
