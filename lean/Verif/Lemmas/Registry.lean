import Verif.Spec.Registry
import Verif.Props.NormalTasks
import Verif.Props.Transforms
import Verif.Props.BimodalStrict

/-! Lemmas about honest samplers: transforms of them, and the samplers at the bottom of the towers. -/

namespace BMI.Registry

open MeasureTheory ProbabilityTheory BMI.Samplers BMI.Student BMI.TaskIds Matrix

variable {K : Type} [MeasurableSpace K] {κ : Measure K} {init : ℤ → K} {ok : Set ℤ} {sizes : Set ℕ}

theorem honest_transformed {base : Sampler K} {p : Part} (h : Honest κ init ok sizes base p) (tx ty : Transform) (ax ay : ℤ)
    {ex ey : ℕ} (hax : 0 ≤ ax) (hay : 0 ≤ ay) (hex : (ex : ℤ) = p.dx + ax) (hey : (ey : ℤ) = p.dy + ay)
    (f : (Fin p.dx → ℝ) → (Fin ex → ℝ)) (g : (Fin p.dy → ℝ) → (Fin ey → ℝ)) (hf : Measurable f) (hg : Measurable g)
    (htx : Acts tx f) (hty : Acts ty g) (S : Set (Fin p.dx → ℝ)) (T : Set (Fin p.dy → ℝ)) (hS : MeasurableSet S)
    (hT : MeasurableSet T) (hPS : ∀ᵐ x ∂p.law.fst, x ∈ S) (hPT : ∀ᵐ y ∂p.law.snd, y ∈ T) (hfS : Set.InjOn f S)
    (hgT : Set.InjOn g T) :
    ∃ s, transformed base tx ty ax ay = .ok s ∧ s.mi = base.mi ∧
      Honest κ init ok sizes s ⟨ex, ey, p.law.map (Prod.map f g)⟩ := by
  have hp := h.prob
  have hs := transformed_of (tx := tx) (ty := ty) hax hay h.dimX h.dimY h.posX h.posY
  have hfg : Measurable (Prod.map f g) := hf.prodMap hg
  have hprob : IsProbabilityMeasure (p.law.map (Prod.map f g)) := Measure.isProbabilityMeasure_map hfg.aemeasurable
  have hx := h.posX
  have hy := h.posY
  refine ⟨_, hs, rfl, hprob, by show 0 < ex; omega, by show 0 < ey; omega, ?_, ?_, ?_, ?_, h.nonneg, ?_⟩
  · show Except.ok _ = Except.ok ex
    congr 1
    omega
  · show Except.ok _ = Except.ok ey
    congr 1
    omega
  · intro n z hz
    simp only [h.seeds n z hz]
  · intro n hn
    obtain ⟨draw, m, e, l⟩ := h.law n hn
    have hfg' : Measurable (fun (z : Fin n → (Fin p.dx → ℝ) × (Fin p.dy → ℝ)) i => Prod.map f g (z i)) :=
      measurable_pi_lambda _ fun i => hfg.comp (measurable_pi_apply i)
    refine ⟨fun k i => Prod.map f g (draw k i), hfg'.comp m, fun k => ?_, ?_⟩
    · simp only [e k]
      show Except.ok _ = _
      rw [htx, hty]
      rfl
    · have h2 := Measure.pi_map_pi (μ := fun _ : Fin n => p.law) (f := fun _ => Prod.map f g) (fun _ => hfg.aemeasurable)
      rw [← h2, ← l, Measure.map_map hfg' m]
      rfl
  · show mutualInfo (p.law.map (Prod.map f g)) = ENNReal.ofReal base.mi
    rw [← h.mi]
    exact mutualInfo_map_eq_of_injOn p.law hf hg hS hT hPS hPT hfS hgT

theorem honest_each {base : Sampler K} {p : Part} (h : Honest κ init ok sizes base p) (tx ty : Transform) (f g : ℝ → ℝ)
    (hf : Measurable f) (hg : Measurable g) (hfi : Function.Injective f) (hgi : Function.Injective g)
    (htx : Acts tx fun (v : Fin p.dx → ℝ) i => f (v i)) (hty : Acts ty fun (v : Fin p.dy → ℝ) i => g (v i)) :
    ∃ s, transformed base tx ty 0 0 = .ok s ∧ s.mi = base.mi ∧ Honest κ init ok sizes s (each f g p) :=
  honest_transformed h tx ty 0 0 le_rfl le_rfl (by simp) (by simp) _ _
    (measurable_pi_lambda _ fun i => hf.comp (measurable_pi_apply i))
    (measurable_pi_lambda _ fun i => hg.comp (measurable_pi_apply i)) htx hty Set.univ Set.univ MeasurableSet.univ
    MeasurableSet.univ (by simp) (by simp) (fun x _ y _ h => funext fun i => hfi (congrFun h i))
    (fun x _ y _ h => funext fun i => hgi (congrFun h i))

theorem honest_swissroll {base : Sampler K} {p : Part} (h : Honest κ init ok sizes base p) (h1 : p.dx = 1)
    (hu : ∀ᵐ z ∂p.law, ∀ i, z.1 i ∈ Set.Icc (0 : ℝ) 1) :
    ∃ s, swissrollTask base = .ok s ∧ s.mi = base.mi ∧ Honest κ init ok sizes s (rolled p) := by
  obtain ⟨dx, dy, P⟩ := p
  obtain rfl : dx = 1 := h1
  have hc : Continuous rollCurve := by
    refine continuous_pi fun i => ?_
    fin_cases i
    · show Continuous fun v : Fin 1 → ℝ => rollAngle (v 0) * Real.cos (rollAngle (v 0)) / 21
      unfold rollAngle; fun_prop
    · show Continuous fun v : Fin 1 → ℝ => rollAngle (v 0) * Real.sin (rollAngle (v 0)) / 21
      unfold rollAngle; fun_prop
  have ha : Acts (.row swissroll2d) rollCurve := fun n a => rowsOf_map a _ _ fun v => by
    simp [swissroll2d, rollCurve, rollAngle, List.ofFn_succ]
  obtain ⟨s, h1, h2, h3⟩ := honest_transformed h (.row swissroll2d) .none 1 0 (by norm_num) le_rfl
    (by norm_num) (by simp) rollCurve id hc.measurable measurable_id ha (fun n a => rfl)
    {x | x 0 ∈ Set.Icc (0 : ℝ) 1} Set.univ ((measurable_pi_apply 0) measurableSet_Icc) MeasurableSet.univ
    ((ae_map_iff measurable_fst.aemeasurable ((measurable_pi_apply 0) measurableSet_Icc)).2 (hu.mono fun z hz => hz 0))
    (by simp)
    (fun x hx y hy h => by
      have h0 := congrFun h 0
      have h1 := congrFun h 1
      simp only [rollCurve, Matrix.cons_val_zero, Matrix.cons_val_one] at h0 h1
      have : x 0 = y 0 := roll_injOn (Set.mem_Ici.2 (by linarith [hx.1])) (Set.mem_Ici.2 (by linarith [hy.1]))
        (Prod.ext h0 h1)
      funext i
      rw [Subsingleton.elim i 0, this])
    Function.injective_id.injOn
  refine ⟨s, ?_, h2, ?_⟩
  · unfold swissrollTask
    rw [h.dimX]
    exact h1
  · have e : (fun (x : Fin 1 → ℝ) (i : Fin (1 + 1)) => if i = 0 then (rollPoint (∑ j, x j)).1 else (rollPoint (∑ j, x j)).2)
        = rollCurve := by
      funext x i
      fin_cases i <;> norm_num [rollCurve, rollPoint, rollAngle]
    show Honest κ init ok sizes s ⟨1 + 1, dy, P.map (Prod.map _ id)⟩
    rw [e]
    exact h3

theorem whirl_eq {n : ℕ} (i j : Fin n) (c : ℝ) : (whirl i j c : (Fin n → ℝ) → _) = fun x => turn i j (c * sumSq x) x := by
  funext x
  rw [whirl, dif_pos ⟨i.2, j.2⟩]

theorem honest_spiral {base : Sampler K} {p : Part} (h : Honest κ init ok sizes base p) (hx : 2 ≤ p.dx) (hy : 3 ≤ p.dy)
    (speed : ℝ) (normalize : Bool) :
    ∃ s, spiralTask base speed normalize = .ok s ∧ s.mi = base.mi ∧
      Honest κ init ok sizes s (whirled speed normalize p) := by
  obtain ⟨dx', dy', P⟩ := p
  obtain ⟨dx, rfl⟩ : ∃ d, dx' = d + 2 := ⟨dx' - 2, by simp only at hx; omega⟩
  obtain ⟨dy, rfl⟩ : ∃ d, dy' = d + 3 := ⟨dy' - 3, by simp only at hy; omega⟩
  have h01 : (0 : Fin (dx + 2)) < 1 := by simp
  have h12 : (1 : Fin (dy + 3)) < 2 := one_lt_two_fin dy
  unfold whirled
  simp only
  generalize hcx : (if normalize then speed / ((dx + 2 : ℕ) : ℝ) else speed) = cx
  generalize hcy : (if normalize then speed / ((dy + 3 : ℕ) : ℝ) else speed) = cy
  obtain ⟨s, h1, h2, h3⟩ := honest_transformed h
    (.row (SpiralObj.row ⟨dx + 2, 1, (planeGen 0 1).map (· * cx)⟩))
    (.row (SpiralObj.row ⟨dy + 3, 1, (planeGen 1 2).map (· * cy)⟩)) 0 0 le_rfl le_rfl (by simp) (by simp) _ _
    (measurable_turn h01 cx) (measurable_turn h12 cy) (spiral_acts h01 cx) (spiral_acts h12 cy) Set.univ Set.univ
    MeasurableSet.univ MeasurableSet.univ (by simp) (by simp) (turn_injective h01 cx).injOn
    (turn_injective h12 cy).injOn
  have w1 := whirl_eq (0 : Fin (dx + 2)) 1 cx
  have w2 := whirl_eq (1 : Fin (dy + 3)) 2 cy
  rw [fin_two_val] at w2
  simp only [Fin.val_zero, Fin.val_one] at w1 w2
  refine ⟨s, ?_, h2, by rw [w1, w2]; exact h3⟩
  have e1 : soGenerator (dx + 2) 0 1 = .ok (planeGen 0 1) := by
    simpa using soGenerator_eq_planeGen (0 : Fin (dx + 2)) 1 h01
  have e2 : soGenerator (dy + 3) 1 2 = .ok (planeGen 1 2) := by
    have := soGenerator_eq_planeGen (1 : Fin (dy + 3)) 2 h12
    rw [fin_two_val] at this
    simpa using this
  unfold spiralTask
  rw [h.dimX, h.dimY]
  show (if ¬ dx + 2 > 1 then Except.error Err.assertionError else
    (if ¬ dy + 3 > 2 then Except.error Err.assertionError else
      Except.bind (soGenerator (dx + 2) 0 1) fun gx => Except.bind (soGenerator (dy + 3) 1 2) fun gy => _)) = _
  rw [if_neg (by omega), if_neg (by omega), e1, e2]
  show Except.bind (spiral ⟨dx + 2, dx + 2, planeGen 0 1⟩ none (if normalize then speed / (dx + 2 : ℕ) else speed)) _ = _
  rw [hcx, spiral_none]
  show Except.bind (spiral ⟨dy + 3, dy + 3, planeGen 1 2⟩ none (if normalize then speed / (dy + 3 : ℕ) else speed)) _ = _
  rw [hcy, spiral_none]
  exact h1

theorem gen_eq {n : ℕ} (i j : Fin n) (hij : i ≠ j) : gen n i j = planeGen i j := by
  ext a b
  have hv : (i : ℕ) ≠ j := fun e => hij (Fin.ext e)
  simp only [gen, planeGen, Matrix.of_apply, Matrix.sub_apply, Matrix.single_apply, ← Fin.ext_iff]
  by_cases h1 : a = j ∧ b = i
  · obtain ⟨rfl, rfl⟩ := h1
    simp [hij, hij.symm]
  · by_cases h2 : a = i ∧ b = j
    · obtain ⟨rfl, rfl⟩ := h2
      simp [hij, hij.symm]
    · rw [if_neg h1, if_neg h2, if_neg (fun e => h1 ⟨e.1.symm, e.2.symm⟩), if_neg (fun e => h2 ⟨e.1.symm, e.2.symm⟩), sub_zero]

theorem honest_rotate {base : Sampler K} {p : Part} (h : Honest κ init ok sizes base p) (hx : 3 ≤ p.dx) (hy : 3 ≤ p.dy) :
    ∃ s, rotateTask base = .ok s ∧ s.mi = base.mi ∧ Honest κ init ok sizes s (rotated p) := by
  obtain ⟨dx', dy', P⟩ := p
  obtain ⟨dx, rfl⟩ : ∃ d, dx' = d + 3 := ⟨dx' - 3, by simp only at hx; omega⟩
  obtain ⟨dy, rfl⟩ : ∃ d, dy' = d + 3 := ⟨dy' - 3, by simp only at hy; omega⟩
  have hm : ∀ {n : ℕ} (m : Matrix (Fin n) (Fin n) ℝ), Measurable fun x : Fin n → ℝ => x ᵥ* m := fun m =>
    (continuous_id.matrix_vecMul continuous_const).measurable
  obtain ⟨s, h1, h2, h3⟩ := honest_transformed h (.row (rowMul (rotX dx))) (.row (rowMul (rotY dy)))
    0 0 le_rfl le_rfl (by simp) (by simp) _ _ (hm _) (hm _) (rowMul_acts _) (rowMul_acts _) Set.univ Set.univ
    MeasurableSet.univ MeasurableSet.univ (by simp) (by simp)
    (vecMul_injective_of_orthogonal (rot_orthogonal dx).1).injOn
    (vecMul_injective_of_orthogonal (rot_orthogonal dy).2).injOn
  have g01 : ∀ d, gen (d + 3) 0 1 = planeGen 0 1 := fun d => by
    simpa using gen_eq (0 : Fin (d + 3)) 1 (by simp [Fin.ext_iff])
  have g12 : ∀ d, gen (d + 3) 1 2 = planeGen 1 2 := fun d => by
    have := gen_eq (1 : Fin (d + 3)) 2 (one_lt_two_fin d).ne
    rw [fin_two_val] at this
    simpa using this
  have g02 : ∀ d, gen (d + 3) 0 2 = planeGen 0 2 := fun d => by
    have := gen_eq (0 : Fin (d + 3)) 2 (by rw [Ne, Fin.ext_iff, fin_two_val]; simp)
    rw [fin_two_val] at this
    simpa using this
  refine ⟨s, ?_, h2, ?_⟩
  · have e1 : ∀ d, soGenerator (d + 3) 0 1 = .ok (planeGen 0 1) := fun d => by
      simpa using soGenerator_eq_planeGen (0 : Fin (d + 3)) 1 (by simp [Fin.lt_def])
    have e2 : ∀ d, soGenerator (d + 3) 1 2 = .ok (planeGen 1 2) := fun d => by
      have := soGenerator_eq_planeGen (1 : Fin (d + 3)) 2 (one_lt_two_fin d)
      rw [fin_two_val] at this
      simpa using this
    have e3 : ∀ d, soGenerator (d + 3) 0 2 = .ok (planeGen 0 2) := fun d => by
      have := soGenerator_eq_planeGen (0 : Fin (d + 3)) 2 (by rw [Fin.lt_def, fin_two_val]; simp)
      rw [fin_two_val] at this
      simpa using this
    unfold rotateTask
    rw [h.dimX, h.dimY]
    show (if ¬ dx + 3 > 2 then Except.error Err.assertionError else
      (if ¬ dy + 3 > 2 then Except.error Err.assertionError else
        Except.bind (soGenerator (dx + 3) 0 1) fun a => Except.bind (soGenerator (dx + 3) 1 2) fun b =>
        Except.bind (soGenerator (dx + 3) 0 2) fun c => Except.bind (soGenerator (dy + 3) 0 1) fun a' =>
        Except.bind (soGenerator (dy + 3) 1 2) fun b' => _)) = _
    rw [if_neg (by omega), if_neg (by omega), e1, e2, e3, e1, e2]
    show transformed base (.row (rowMul (NormedSpace.exp ((2 : ℝ) • planeGen 0 1 - (1 : ℝ) • planeGen 1 2
      - (1 : ℝ) • planeGen 0 2)))) (.row (rowMul (NormedSpace.exp ((1 : ℝ) • planeGen 0 1 + (2 : ℝ) • planeGen 1 2))))
      0 0 = _
    rw [one_smul, one_smul, one_smul]
    exact h1
  · unfold rotated
    simp only [g01, g12, g02]
    exact h3

/-! ## The bottom of the towers -/

theorem honest_of_correct {R : JaxRandom K} {s : Sampler K} {dx dy : ℕ} {P : Measure ((Fin dx → ℝ) × (Fin dy → ℝ))}
    (h : Correct R κ s dx dy P) : Honest κ R.prngKey Set.univ Set.univ s ⟨dx, dy, P⟩ :=
  ⟨h.prob, h.shape.1, h.shape.2.1, h.shape.2.2.1, h.shape.2.2.2.1, fun n z _ => h.seeds n z, fun n _ => h.law n, h.nonneg, h.mi⟩

/-- Sampling a Student-t sampler with a seed. -/
theorem student_seeds {Key State : Type} {R : JaxRandom Key} {N : NpRandom State} {dimX dimY : ℤ} {df : ℝ} {S : Arr}
    {mean : Option (List ℝ)} {t : StudentT State} (h : splitStudentT R N dimX dimY df S mean = .ok t) (n : ℕ) (z : ℤ)
    (hz : z ∈ Set.Ico (0 : ℤ) (2 ^ 32)) : t.sampler.sample n (.seed z) = t.sampler.sample n (.key (N.randomState z)) := by
  unfold splitStudentT at h
  simp only [bind, Except.bind] at h
  split at h
  · simp at h
  · split at h
    · simp at h
    · split at h
      · simp at h
      · obtain rfl := Except.ok.inj h
        simp only [bind, Except.bind, checkRandomState, if_pos (show 0 ≤ z ∧ z < 2 ^ 32 from hz)]

theorem honest_of_student {State : Type} [MeasurableSpace State] {N : NpRandom State} {μ : Measure State} {s : Sampler State}
    {dx dy : ℕ} {P : Measure ((Fin dx → ℝ) × (Fin dy → ℝ))} (h : CorrectStudent μ s dx dy P) (hp : IsProbabilityMeasure P)
    (hx : 0 < dx) (hy : 0 < dy)
    (hs : ∀ n, ∀ z ∈ Set.Ico (0 : ℤ) (2 ^ 32), s.sample n (.seed z) = s.sample n (.key (N.randomState z))) :
    Honest μ N.randomState (Set.Ico 0 (2 ^ 32)) {n | n ≠ 1} s ⟨dx, dy, P⟩ :=
  ⟨hp, hx, hy, h.dimX, h.dimY, hs, h.law, h.nonneg, h.mi⟩

end BMI.Registry
