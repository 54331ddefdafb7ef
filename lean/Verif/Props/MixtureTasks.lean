import Verif.Lemmas.MixtureTasks

/-! Property C63: the mixture tasks (/repo/src/bmi/benchmark/tasks/mixtures.py). -/

namespace BMI.MixtureTasks

open MeasureTheory ProbabilityTheory BMI.Samplers BMI.Bmm BMI.Student BMI.MatrixUtils

variable {Key : Type} [MeasurableSpace Key] {T : Tfp Key} {κ : Measure Key}

/-! ## The X distribution -/

theorem canonical_pair (c : ℝ) : ∃ m, canonicalCorrelation [c] 0 = .ok m ∧
    rowsOf m = rowsOf (!![1, c; c, 1] : Matrix (Fin 2) (Fin 2) ℝ) := by
  obtain ⟨m, h1, h2⟩ := canonicalCorrelation_spec [c] 0 le_rfl
  refine ⟨m, h1, ?_⟩
  have h00 : m (0 : Fin 2) (0 : Fin 2) = 1 := (h2.xx 0 0).trans (if_pos rfl)
  have h01 : m (0 : Fin 2) (1 : Fin 2) = c := (h2.xy 0 (0 : Fin 1)).trans (if_pos rfl)
  have h10 : m (1 : Fin 2) (0 : Fin 2) = c := (h2.yx 0 (0 : Fin 1)).trans (if_pos rfl)
  have h11 : m (1 : Fin 2) (1 : Fin 2) = 1 := (h2.yy (0 : Fin 1) (0 : Fin 1)).trans (if_pos rfl)
  show (List.ofFn fun i : Fin 2 => List.ofFn fun j : Fin 2 => m i j) = _
  simp [List.ofFn_succ, rowsOf, h00, h01, h10, h11]

/-- **C63**, X: the components have standard normal marginals, so the mixture has them, too, and encodes at most what one
component encodes. -/
theorem taskX_correct (hT : IdealTfp T κ) (R : JaxRandom Key) (ρ : ℝ) (hρ : |ρ| < 1) (size : ℕ) (hs : 0 < size) :
    ∃ s, taskX R T ρ size = .ok s ∧ Wraps R κ s size (lawX ρ) ∧
      (lawX ρ).fst = normalLaw 0 1 ∧ (lawX ρ).snd = normalLaw 0 1 ∧
      mutualInfo (lawX ρ) ≤ ENNReal.ofReal (-(1 / 2) * Real.log (1 - ρ ^ 2)) := by
  have hc : ∀ j : Fin 2, |(![-ρ, ρ] : Fin 2 → ℝ) j| < 1 := fun j => by fin_cases j <;> simpa using hρ
  have hpos : ∀ j : Fin 2, (!![1, ![-ρ, ρ] j; ![-ρ, ρ] j, 1] : Matrix (Fin 2) (Fin 2) ℝ).PosDef := fun j => by
    rw [unit_pair]
    exact pair_posDef one_pos one_pos (hc j)
  choose J h1 h2 h3 using fun j : Fin 2 => normal_component hT R 1 1 one_pos one_pos 0 _ (hpos j)
  have hp0 : ∀ j : Fin 2, 0 ≤ (![1 / 2, 1 / 2] : Fin 2 → ℝ) j := fun j => by fin_cases j <;> norm_num
  have hp1 : ∑ j, (![1 / 2, 1 / 2] : Fin 2 → ℝ) j = 1 := by norm_num [Fin.sum_univ_two]
  obtain ⟨M, s, h4, h5, h6⟩ := wraps_mixture hT R one_pos one_pos ![1 / 2, 1 / 2] hp0 hp1 J _ h2 h3 size hs
  refine ⟨s, ?_, h6, ?_⟩
  · obtain ⟨m, a1, a2⟩ := canonical_pair (-1 * ρ)
    obtain ⟨m', b1, b2⟩ := canonical_pair (1 * ρ)
    have e0 : multivariateNormalDistribution R T 1 1 (rowsOf m) (some [0, 0]) = .ok (J 0) := by
      rw [a2]
      have := h1 0
      simpa using this
    have e1 : multivariateNormalDistribution R T 1 1 (rowsOf m') (some [0, 0]) = .ok (J 1) := by
      rw [b2]
      have := h1 1
      simpa using this
    unfold taskX
    simp only [List.mapM_cons, List.mapM_nil, a1, b1, bind, Except.bind, e0, e1, pure, Except.pure]
    have e2 : mixture T [0.5, 0.5] [J 0, J 1] = .ok M := by
      rw [← h4]
      norm_num [List.ofFn_succ]
    rw [e2]
    exact h5
  · have hf : ∀ j : Fin 2, (component 1 1 0 !![1, ![-ρ, ρ] j; ![-ρ, ρ] j, 1]).fst = normalLaw 0 1 := fun j => by
      refine (splitNormal_fst (dx := 1) (dy := 1) 0 (hpos j).posSemidef).trans ?_
      congr 1
      ext a b
      fin_cases a
      fin_cases b
      rfl
    have hsnd : ∀ j : Fin 2, (component 1 1 0 !![1, ![-ρ, ρ] j; ![-ρ, ρ] j, 1]).snd = normalLaw 0 1 := fun j => by
      refine (splitNormal_snd (dx := 1) (dy := 1) 0 (hpos j).posSemidef).trans ?_
      congr 1
      ext a b
      fin_cases a
      fin_cases b
      rfl
    obtain ⟨g1, g2, g3⟩ := mutualInfo_mixture_convex ![1 / 2, 1 / 2] hp0 hp1 _ _ _ hf hsnd
    refine ⟨g1, g2, g3.trans (le_of_eq ?_)⟩
    have hm : ∀ j : Fin 2, mutualInfo (component 1 1 0 !![1, ![-ρ, ρ] j; ![-ρ, ρ] j, 1])
        = ENNReal.ofReal (-(1 / 2) * Real.log (1 - ρ ^ 2)) := fun j => by
      rw [unit_pair, (pair_mi one_pos one_pos (hc j) 0).1]
      fin_cases j <;> simp
    simp only [hm, ← Finset.sum_mul]
    rw [sum_ofFn_ofReal hp0 (by rw [List.sum_ofFn, hp1]), one_mul]

/-! ## The AI distribution -/

theorem diag_pair (a b : ℝ) : diag [a, b] = [[a, 0], [0, b]] := by
  have : [a, b] = List.ofFn ![a, b] := by simp
  rw [this, diag_ofFn]
  simp [rowsOf, List.ofFn_succ, Matrix.diagonal_apply]

theorem aiComponents_eq : aiComponents = List.ofFn fun j : Fin 6 =>
    (List.ofFn ![(strokes j).1.1, (strokes j).1.2],
      rowsOf (!![(strokes j).2.1.1, (strokes j).2.2 * √((strokes j).2.1.1 * (strokes j).2.1.2);
        (strokes j).2.2 * √((strokes j).2.1.1 * (strokes j).2.1.2), (strokes j).2.1.2] : Matrix (Fin 2) (Fin 2) ℝ)) := by
  have e1 : (0.04 : ℝ) = 1 / 25 := by norm_num
  have e2 : (0.2 : ℝ) = 1 / 5 := by norm_num
  have e3 : (0.95 : ℝ) = 19 / 20 := by norm_num
  have e4 : (0.01 : ℝ) = 1 / 100 := by norm_num
  have e5 : (0.05 : ℝ) = 1 / 20 := by norm_num
  have e6 : (0.001 : ℝ) = 1 / 1000 := by norm_num
  have e7 : (0.03 : ℝ) = 3 / 100 := by norm_num
  have e8 : (0.8 : ℝ) = 4 / 5 := by norm_num
  have e9 : (1.2 : ℝ) = 6 / 5 := by norm_num
  have e10 : (0.4 : ℝ) = 2 / 5 := by norm_num
  have e11 : (1.0 : ℝ) = 1 := by norm_num
  have e12 : (0.0 : ℝ) = 0 := by norm_num
  unfold aiComponents
  simp only [e1, e2, e3, e4, e5, e6, e7, e8, e9, e10, e11, e12, diag_pair]
  simp only [List.ofFn_succ, List.ofFn_zero, strokes, rowsOf]
  simp [neg_div, mul_comm]

/-- **C63**, AI. -/
theorem taskAi_correct (hT : IdealTfp T κ) (R : JaxRandom Key) (size : ℕ) (hs : 0 < size) :
    ∃ s, taskAi R T size = .ok s ∧ Wraps R κ s size lawAi ∧
      (mutualInfo lawAi).toReal ≤ Real.log 6 + 1 / 3 * (-(1 / 2) * Real.log (1 - (19 / 20) ^ 2)) := by
  have hc : ∀ j, |(strokes j).2.2| < 1 := fun j => by
    fin_cases j <;> norm_num [strokes, abs_of_pos, abs_of_neg]
  have hv : ∀ j, 0 < (strokes j).2.1.1 ∧ 0 < (strokes j).2.1.2 := fun j => by fin_cases j <;> norm_num [strokes]
  choose J h1 h2 h3 using fun j : Fin 6 => normal_component hT R 1 1 one_pos one_pos
    ![(strokes j).1.1, (strokes j).1.2] _ (pair_posDef (hv j).1 (hv j).2 (hc j))
  have hp0 : ∀ j : Fin 6, 0 ≤ (fun _ => 1 / 6 : Fin 6 → ℝ) j := fun j => by norm_num
  have hp1 : ∑ j : Fin 6, (fun _ => 1 / 6 : Fin 6 → ℝ) j = 1 := by norm_num
  obtain ⟨M, s, h4, h5, h6⟩ := wraps_mixture hT R one_pos one_pos (fun _ => 1 / 6) hp0 hp1 J _ h2 h3 size hs
  refine ⟨s, ?_, h6, ?_⟩
  · have hJ : aiComponents.mapM (fun c => multivariateNormalDistribution R T 1 1 c.2 (some c.1)) = .ok (List.ofFn J) := by
      rw [aiComponents_eq]
      exact mapM_ofFn h1
    unfold taskAi
    simp only [hJ, bind, Except.bind]
    have e2 : mixture T (List.replicate 6 (1 / 6)) (List.ofFn J) = .ok M := by
      rw [← h4, List.ofFn_const]
    rw [e2]
    exact h5
  · have hm : ∀ j, mutualInfo (component 1 1 ![(strokes j).1.1, (strokes j).1.2]
        !![(strokes j).2.1.1, (strokes j).2.2 * √((strokes j).2.1.1 * (strokes j).2.1.2);
          (strokes j).2.2 * √((strokes j).2.1.1 * (strokes j).2.1.2), (strokes j).2.1.2])
        = ENNReal.ofReal (-(1 / 2) * Real.log (1 - (strokes j).2.2 ^ 2)) ∧ 0 ≤ -(1 / 2) * Real.log (1 - (strokes j).2.2 ^ 2) :=
      fun j => pair_mi (hv j).1 (hv j).2 (hc j) _
    obtain ⟨-, -, -, -, -, h7, -⟩ := mixture_mi_le hT (fun _ => 1 / 6) hp0 hp1 J _ h2
      fun j => by rw [(hm j).1]; exact ENNReal.ofReal_ne_top
    refine h7.trans (le_of_eq ?_)
    have hr : ∀ j, (mutualInfo (component 1 1 ![(strokes j).1.1, (strokes j).1.2]
        !![(strokes j).2.1.1, (strokes j).2.2 * √((strokes j).2.1.1 * (strokes j).2.1.2);
          (strokes j).2.2 * √((strokes j).2.1.1 * (strokes j).2.1.2), (strokes j).2.1.2])).toReal
        = -(1 / 2) * Real.log (1 - (strokes j).2.2 ^ 2) := fun j => by rw [(hm j).1, ENNReal.toReal_ofReal (hm j).2]
    simp only [hr]
    simp only [Fin.sum_univ_succ, strokes, Fin.sum_univ_zero]
    simp
    ring

/-! ## The Galaxy distribution -/

theorem canonical_identity : ∃ m, canonicalCorrelation [0.0] 1 = .ok m ∧ rowsOf m = rowsOf (1 : Matrix (Fin 3) (Fin 3) ℝ) := by
  obtain ⟨m, h1, h2⟩ := canonicalCorrelation_spec [0.0] 1 (by norm_num)
  refine ⟨m, h1, ?_⟩
  have h00 : m (0 : Fin 3) (0 : Fin 3) = 1 := (h2.xx 0 0).trans (if_pos rfl)
  have h01 : m (0 : Fin 3) (1 : Fin 3) = 0 := ((h2.xy 0 (0 : Fin 2)).trans (if_pos rfl)).trans (by norm_num)
  have h02 : m (0 : Fin 3) (2 : Fin 3) = 0 := (h2.xy 0 (1 : Fin 2)).trans (if_neg (by simp))
  have h10 : m (1 : Fin 3) (0 : Fin 3) = 0 := ((h2.yx 0 (0 : Fin 2)).trans (if_pos rfl)).trans (by norm_num)
  have h20 : m (2 : Fin 3) (0 : Fin 3) = 0 := (h2.yx 0 (1 : Fin 2)).trans (if_neg (by simp))
  have h11 : m (1 : Fin 3) (1 : Fin 3) = 1 := (h2.yy (0 : Fin 2) (0 : Fin 2)).trans (if_pos rfl)
  have h12 : m (1 : Fin 3) (2 : Fin 3) = 0 := (h2.yy (0 : Fin 2) (1 : Fin 2)).trans (if_neg (by decide))
  have h21 : m (2 : Fin 3) (1 : Fin 3) = 0 := (h2.yy (1 : Fin 2) (0 : Fin 2)).trans (if_neg (by decide))
  have h22 : m (2 : Fin 3) (2 : Fin 3) = 1 := (h2.yy (1 : Fin 2) (1 : Fin 2)).trans (if_pos rfl)
  show (List.ofFn fun i : Fin 3 => List.ofFn fun j : Fin 3 => m i j) = _
  simp [List.ofFn_succ, rowsOf, h00, h01, h02, h10, h11, h12, h20, h21, h22]

/-- **C63**, Galaxy. -/
theorem taskGalaxy_correct (hT : IdealTfp T κ) (R : JaxRandom Key) (speed d : ℝ) (size : ℕ) (hs : 0 < size) :
    ∃ base t, taskGalaxy R T speed d size = .ok (base, t) ∧ Wraps R κ base size (lawBalls d) ∧
      Bends R κ t base (lawBalls d) (lawGalaxy speed d) ∧
      mutualInfo (lawGalaxy speed d) ≤ ENNReal.ofReal (Real.log 2) := by
  choose J h1 h2 h3 using fun j : Fin 2 => normal_component hT R 2 1 two_pos one_pos (fun _ => ![-(d / 2), d / 2] j) 1
    Matrix.PosDef.one
  have hp0 : ∀ j : Fin 2, 0 ≤ (![1 / 2, 1 / 2] : Fin 2 → ℝ) j := fun j => by fin_cases j <;> norm_num
  have hp1 : ∑ j, (![1 / 2, 1 / 2] : Fin 2 → ℝ) j = 1 := by norm_num [Fin.sum_univ_two]
  obtain ⟨M, base, h4, h5, h6⟩ := wraps_mixture hT R two_pos one_pos ![1 / 2, 1 / 2] hp0 hp1 J _ h2 h3 size hs
  have h01 : (0 : Fin 2) < 1 := by decide
  obtain ⟨t, h7, h8⟩ := bends_of hT.prob R h5 two_pos one_pos h6 (measurable_turn h01 speed) (turn_injective h01 speed)
    (spiral_acts h01 speed)
  have hsum : ∀ x : Fin 2 → ℝ, sumSq x = x 0 ^ 2 + x 1 ^ 2 := fun x => Fin.sum_univ_two _
  simp only [hsum] at h8
  refine ⟨base, t, ?_, h6, h8, ?_⟩
  · obtain ⟨m, a1, a2⟩ := canonical_identity
    have e : ∀ j : Fin 2, multivariateNormalDistribution R T 2 1 (rowsOf m)
        (some ([![-1, 1] j, ![-1, 1] j, ![-1, 1] j].map (· * d / 2))) = .ok (J j) := by
      intro j
      rw [a2]
      have e1 : [![-1, 1] j, ![-1, 1] j, ![-1, 1] j].map (· * d / 2) = List.ofFn fun _ : Fin 3 => ![-(d / 2), d / 2] j := by
        fin_cases j <;> simp [List.ofFn_succ, neg_div]
      rw [e1]
      exact h1 j
    have e0 := e 0
    have e1 := e 1
    simp only [Matrix.cons_val_zero, Matrix.cons_val_one] at e0 e1
    unfold taskGalaxy
    simp only [List.mapM_cons, List.mapM_nil, a1, bind, Except.bind, e0, e1, pure, Except.pure]
    have e2 : mixture T [0.5, 0.5] [J 0, J 1] = .ok M := by
      rw [← h4]
      norm_num [List.ofFn_succ]
    rw [e2]
    simp only [h5]
    have e3 : galaxyTransforms (asSampler R base) speed = .ok t := by
      have e : (!![0, -1; 1, 0] : Matrix (Fin 2) (Fin 2) ℝ) = planeGen 0 1 := by
        ext i j
        fin_cases i <;> fin_cases j <;> simp [planeGen]
      unfold galaxyTransforms
      rw [e, spiral_none]
      exact h7
    rw [e3]
  · have h := (h8.same.symm ▸ le_refl _ : mutualInfo (lawGalaxy speed d) ≤ mutualInfo (lawBalls d))
    refine h.trans ?_
    obtain ⟨-, -, -, h9⟩ := mixture_of_products_mi_le hT ![1 / 2, 1 / 2] hp0 hp1 J _ h2 fun j => by
      have := (splitNormal_diagonal (dx := 2) (dy := 1) (fun _ => ![-(d / 2), d / 2] j) 1 fun _ => one_pos).1
      rwa [show Matrix.diagonal (1 : Fin (2 + 1) → ℝ) = 1 from Matrix.diagonal_one] at this
    exact_mod_cast h9

/-! ## The Waves distribution -/

theorem range_ofFn (n : ℕ) : List.range n = List.ofFn fun i : Fin n => (i : ℕ) := by
  refine List.ext_getElem (by simp) fun i h1 h2 => by simp

theorem uniform_ofFn (n : ℕ) : (List.replicate (n : ℤ).toNat (1 : ℝ)).map (· / ((n : ℤ) : ℝ))
    = List.ofFn fun _ : Fin n => 1 / (n : ℝ) := by
  simp [List.ofFn_const]

theorem waves_facts (amplitude frequency : ℝ) :
    let f : (Fin 2 → ℝ) → Fin 2 → ℝ := fun x => ![x 0 + amplitude * Real.sin (frequency * x 1), x 1]
    Measurable f ∧ Function.Injective f ∧ Acts (.row (waves amplitude frequency)) f := by
  intro f
  refine ⟨measurable_pi_lambda _ fun i => ?_, fun x y h => ?_, fun n a => rowsOf_map a _ _ fun v => ?_⟩
  · fin_cases i
    · show Measurable fun x : Fin 2 → ℝ => x 0 + amplitude * Real.sin (frequency * x 1)
      fun_prop
    · exact measurable_pi_apply 1
  · have h0 : x 0 + amplitude * Real.sin (frequency * x 1) = y 0 + amplitude * Real.sin (frequency * y 1) :=
      congrFun h 0
    have h1 : x 1 = y 1 := congrFun h 1
    rw [h1] at h0
    funext i
    fin_cases i
    · exact add_right_cancel h0
    · exact h1
  · simp [waves, f, List.ofFn_succ]

theorem shrink_facts :
    let g : (Fin 2 → ℝ) → Fin 2 → ℝ := fun x => ![x 0 / 10 - 4 / 5, x 1 / 2]
    Measurable g ∧ Function.Injective g ∧ Acts (.row wavesShrink) g := by
  intro g
  refine ⟨measurable_pi_lambda _ fun i => ?_, fun x y h => ?_, fun n a => rowsOf_map a _ _ fun v => ?_⟩
  · fin_cases i
    · show Measurable fun x : Fin 2 → ℝ => x 0 / 10 - 4 / 5
      fun_prop
    · show Measurable fun x : Fin 2 → ℝ => x 1 / 2
      fun_prop
  · have h0 : x 0 / 10 - 4 / 5 = y 0 / 10 - 4 / 5 := congrFun h 0
    have h1 : x 1 / 2 = y 1 / 2 := congrFun h 1
    funext i
    fin_cases i
    · show x 0 = y 0
      linarith
    · show x 1 = y 1
      linarith
  · simp only [wavesShrink, g, List.ofFn_succ, List.ofFn_zero]
    norm_num
    constructor <;> ring

/-- **C63**, Waves.  Since the centre of `Y` takes at most four values, at most `log 4` is encoded, whatever the number of
components. -/
theorem taskWaves_correct (hT : IdealTfp T κ) (R : JaxRandom Key) (n : ℕ) (hn : 0 < n) (amplitude frequency : ℝ) (size : ℕ)
    (hs : 0 < size) :
    ∃ base t, taskWaves R T n amplitude frequency size = .ok (base, t) ∧ Wraps R κ base size (lawColumns n) ∧
      Bends R κ t base (lawColumns n) (lawWaves n amplitude frequency) ∧
      mutualInfo (lawWaves n amplitude frequency) ≤ ENNReal.ofReal (Real.log (min n 4 : ℕ)) := by
  have hv : ∀ i, 0 < (![1 / 10, 1, 1 / 10] : Fin 3 → ℝ) i := fun i => by fin_cases i <;> norm_num
  choose J h1 h2 h3 using fun j : Fin n => normal_component hT R 2 1 two_pos one_pos
    ![3 / 2 * (j : ℕ), 0, 3 / 2 * ((j : ℕ) % 4 : ℕ)] (Matrix.diagonal ![1 / 10, 1, 1 / 10]) (Matrix.PosDef.diagonal hv)
  have hn' : (0 : ℝ) < n := by exact_mod_cast hn
  have hp0 : ∀ j : Fin n, 0 ≤ (fun _ => 1 / (n : ℝ) : Fin n → ℝ) j := fun j => by positivity
  have hp1 : ∑ j : Fin n, (fun _ => 1 / (n : ℝ) : Fin n → ℝ) j = 1 := by
    simp
    field_simp
  obtain ⟨M, base, h4, h5, h6⟩ := wraps_mixture hT R two_pos one_pos (fun _ => 1 / (n : ℝ)) hp0 hp1 J _ h2 h3 size hs
  change Wraps R κ base size (lawColumns n) at h6
  obtain ⟨hf, jf, af⟩ := waves_facts amplitude frequency
  obtain ⟨hg, jg, ag⟩ := shrink_facts
  obtain ⟨t₁, h7, h8⟩ := bends_of hT.prob R h5 two_pos one_pos h6 hf jf af
  have hf' : Measurable (Prod.map (fun x : Fin 2 → ℝ => ![x 0 + amplitude * Real.sin (frequency * x 1), x 1])
    (id : (Fin 1 → ℝ) → Fin 1 → ℝ)) := hf.prodMap measurable_id
  have hg' : Measurable (Prod.map (fun x : Fin 2 → ℝ => ![x 0 / 10 - 4 / 5, x 1 / 2])
    (id : (Fin 1 → ℝ) → Fin 1 → ℝ)) := hg.prodMap measurable_id
  haveI := h6.prob
  haveI := Measure.isProbabilityMeasure_map (μ := lawColumns n) hf'.aemeasurable
  obtain ⟨t, h9, h10, h11, h12, h13⟩ := draws_transformed R h8.dimX h8.dimY two_pos one_pos h8.draws hg ag
  have hlaw : ((lawColumns n).map (Prod.map (fun x => ![x 0 + amplitude * Real.sin (frequency * x 1), x 1]) id)).map
      (Prod.map (fun x => ![x 0 / 10 - 4 / 5, x 1 / 2]) id) = lawWaves n amplitude frequency := by
    rw [Measure.map_map hg' hf']
    rfl
  have hmi : mutualInfo (lawWaves n amplitude frequency) = mutualInfo (lawColumns n) := by
    rw [← hlaw]
    refine (mutualInfo_map_eq_of_injOn _ hg measurable_id MeasurableSet.univ MeasurableSet.univ (by simp) (by simp) jg.injOn
      Function.injective_id.injOn).trans h8.same
  refine ⟨base, t, ?_, h6, ⟨h10, h11, hlaw ▸ h13, hmi, ?_⟩, ?_⟩
  · have hJ : (List.range (n : ℤ).toNat).mapM (fun x : ℕ => multivariateNormalDistribution R T 2 1 (diag [0.1, 1.0, 0.1])
        (some ([(x : ℝ), 0, ((x % 4 : ℕ) : ℝ)].map (· * 1.5)))) = .ok (List.ofFn J) := by
      rw [Int.toNat_natCast, range_ofFn]
      refine mapM_ofFn fun j => ?_
      have e1 : diag [0.1, 1.0, 0.1] = rowsOf (Matrix.diagonal (![1 / 10, 1, 1 / 10] : Fin 3 → ℝ)) := by
        rw [← diag_ofFn]
        norm_num [List.ofFn_succ]
      have e2 : [((j : ℕ) : ℝ), 0, (((j : ℕ) % 4 : ℕ) : ℝ)].map (· * 1.5)
          = List.ofFn (![3 / 2 * (j : ℕ), 0, 3 / 2 * ((j : ℕ) % 4 : ℕ)] : Fin 3 → ℝ) := by
        have h15 : (1.5 : ℝ) = 3 / 2 := by norm_num
        simp [List.ofFn_succ, h15, mul_comm]
      rw [e1, e2]
      exact h1 j
    unfold taskWaves
    rw [if_neg (by simpa using hn.ne')]
    simp only [hJ, bind, Except.bind]
    rw [uniform_ofFn, h4]
    simp only [h5]
    have e3 : wavesTransforms (asSampler R base) amplitude frequency = .ok t := by
      unfold wavesTransforms
      rw [h7]
      exact h9
    rw [e3]
  · obtain ⟨v, hv, hm⟩ := h8.number
    exact ⟨v, hv, h12.trans hm⟩
  · rw [hmi]
    rcases le_total n 4 with h | h
    · rw [min_eq_left h]
      obtain ⟨-, -, -, h14⟩ := mixture_of_products_mi_le hT (fun _ => 1 / (n : ℝ)) hp0 hp1 J _ h2 fun j =>
        (splitNormal_diagonal (dx := 2) (dy := 1) _ _ hv).1
      exact h14
    · rw [min_eq_right h]
      have e : lawColumns n = mixtureLaw (fun _ => 1 / (n : ℝ)) fun j : Fin n =>
          (normalLaw (![3 / 2 * (j : ℕ), 0] : Fin 2 → ℝ) (Matrix.diagonal ![1 / 10, 1])).prod
            ((fun s : Fin 4 => normalLaw (fun _ : Fin 1 => 3 / 2 * ((s : ℕ) : ℝ)) (Matrix.diagonal fun _ => 1 / 10))
              ⟨(j : ℕ) % 4, Nat.mod_lt _ (by norm_num)⟩) := by
        unfold lawColumns
        congr 1
        funext j
        refine (splitNormal_diagonal (dx := 2) (dy := 1) _ _ hv).2.trans ?_
        congr 2
        · ext i
          fin_cases i <;> rfl
        · congr 1
          ext i
          fin_cases i <;> rfl
        · ext i
          fin_cases i
          rfl
        · congr 1
          ext i
          fin_cases i
          rfl
      rw [e]
      exact mutualInfo_grouped_le _ hp0 hp1 (fun j : Fin n => normalLaw (![3 / 2 * (j : ℕ), 0] : Fin 2 → ℝ)
        (Matrix.diagonal ![1 / 10, 1])) (fun s : Fin 4 => normalLaw (fun _ : Fin 1 => 3 / 2 * ((s : ℕ) : ℝ))
        (Matrix.diagonal fun _ => 1 / 10)) fun j => ⟨(j : ℕ) % 4, Nat.mod_lt _ (by norm_num)⟩

/-! ## Concentric normal distributions -/

/-- **C63**, concentric normal distributions. -/
theorem taskConcentric_correct (hT : IdealTfp T κ) (R : JaxRandom Key) (d n : ℕ) (hd : 0 < d) (hn : 0 < n) (size : ℕ)
    (hs : 0 < size) :
    ∃ s, taskConcentric R T d n size = .ok s ∧ Wraps R κ s size (lawConcentric d n) ∧
      mutualInfo (lawConcentric d n) ≤ ENNReal.ofReal (Real.log n) := by
  have hv : ∀ (j : Fin n) i, 0 < Fin.append (fun _ : Fin d => (((j : ℕ) : ℝ) + 1) ^ 2) (fun _ : Fin 1 => (1 / 10000 : ℝ)) i :=
    fun j i => by
      refine Fin.addCases (fun i => ?_) (fun i => ?_) i
      · rw [Fin.append_left]
        positivity
      · rw [Fin.append_right]
        norm_num
  choose J h1 h2 h3 using fun j : Fin n => normal_component hT R d 1 hd one_pos
    (Fin.append 0 fun _ => ((j : ℕ) : ℝ) + 1) _ (Matrix.PosDef.diagonal (hv j))
  have hn' : (0 : ℝ) < n := by exact_mod_cast hn
  have hp0 : ∀ j : Fin n, 0 ≤ (fun _ => 1 / (n : ℝ) : Fin n → ℝ) j := fun j => by positivity
  have hp1 : ∑ j : Fin n, (fun _ => 1 / (n : ℝ) : Fin n → ℝ) j = 1 := by
    simp
    field_simp
  obtain ⟨M, s, h4, h5, h6⟩ := wraps_mixture hT R hd one_pos (fun _ => 1 / (n : ℝ)) hp0 hp1 J _ h2 h3 size hs
  refine ⟨s, ?_, h6, ?_⟩
  · have hJ : ((List.range (n : ℤ).toNat).map (1 + ·)).mapM (fun i : ℕ =>
        multivariateNormalDistribution R T d 1 (diag (List.replicate (d : ℤ).toNat ((i : ℝ) ^ 2) ++ [0.0001]))
          (some (List.replicate (d : ℤ).toNat 0.0 ++ [1.0 * (i : ℝ)]))) = .ok (List.ofFn J) := by
      rw [Int.toNat_natCast, Int.toNat_natCast, range_ofFn, List.map_ofFn]
      refine mapM_ofFn fun j => ?_
      have e1 : diag (List.replicate d (((1 + (j : ℕ) : ℕ) : ℝ) ^ 2) ++ [0.0001])
          = rowsOf (Matrix.diagonal (Fin.append (fun _ : Fin d => (((j : ℕ) : ℝ) + 1) ^ 2) fun _ : Fin 1 => (1 / 10000 : ℝ))) := by
        rw [← diag_ofFn, List.ofFn_fin_append, List.ofFn_const]
        congr 2
        · push_cast
          rw [add_comm]
        · norm_num [List.ofFn_succ]
      have e2 : List.replicate d 0.0 ++ [1.0 * ((1 + (j : ℕ) : ℕ) : ℝ)]
          = List.ofFn (Fin.append (0 : Fin d → ℝ) fun _ : Fin 1 => ((j : ℕ) : ℝ) + 1) := by
        rw [List.ofFn_fin_append]
        congr 1
        · show _ = List.ofFn fun _ => (0 : ℝ)
          rw [List.ofFn_const]
          norm_num
        · norm_num [List.ofFn_succ]
          ring
      show multivariateNormalDistribution R T d 1 (diag (List.replicate d (((1 + (j : ℕ) : ℕ) : ℝ) ^ 2) ++ [0.0001]))
          (some (List.replicate d 0.0 ++ [1.0 * ((1 + (j : ℕ) : ℕ) : ℝ)])) = _
      rw [e1, e2]
      exact h1 j
    unfold taskConcentric
    rw [if_neg (by simpa using hn.ne')]
    simp only [hJ, bind, Except.bind]
    rw [uniform_ofFn, h4]
    exact h5
  · obtain ⟨-, -, -, h7⟩ := mixture_of_products_mi_le hT (fun _ => 1 / (n : ℝ)) hp0 hp1 J _ h2 fun j =>
      (splitNormal_diagonal (dx := d) (dy := 1) _ _ (hv j)).1
    exact h7

/-! ## The sparse task with inliers -/

theorem normal_default (R : JaxRandom Key) (T : Tfp Key) (dx dy : ℕ) (cov : Arr) :
    multivariateNormalDistribution R T dx dy cov none
      = multivariateNormalDistribution R T dx dy cov (some (List.ofFn (0 : Fin (dx + dy) → ℝ))) := by
  have e : List.replicate ((dx : ℤ) + dy).toNat (0 : ℝ) = List.ofFn (0 : Fin (dx + dy) → ℝ) := by
    show _ = List.ofFn fun _ => (0 : ℝ)
    rw [List.ofFn_const]
    congr 1
  unfold multivariateNormalDistribution
  rw [if_neg (by omega), if_neg (by simp), Option.getD_none, Option.getD_some, e]

/-- **C63**, sparse with inliers: the marginals stay those of the signal, and at most the fraction `1 - ε` of its mutual
information is left. -/
theorem taskInliers_correct (hT : IdealTfp T κ) (R : JaxRandom Key) (dx dy k : ℕ) (hx : 0 < dx) (hy : 0 < dy) (hkx : k ≤ dx)
    (hky : k ≤ dy) (strength ε : ℝ) (h0 : 0 ≤ ε) (h1 : ε ≤ 1) (size : ℕ) (hs : 0 < size) :
    ∃ s, taskInliers R T dx dy k strength ε size = .ok s ∧ Wraps R κ s size (lawInliers dx dy k strength ε) ∧
      (lawInliers dx dy k strength ε).fst = normalLaw 0 1 ∧ (lawInliers dx dy k strength ε).snd = normalLaw 0 1 ∧
      mutualInfo (lawInliers dx dy k strength ε)
        ≤ ENNReal.ofReal ((1 - ε) * -(k / 2 * Real.log (1 - (strength ^ 2 / (1 + strength ^ 2)) ^ 2))) := by
  have hc := strength_lt strength
  have hpos := pairs_posDef (dx := dx) (dy := dy) hkx hc
  obtain ⟨J, a1, a2, a3⟩ := normal_component hT R dx dy hx hy 0 _ hpos
  change Consistent κ J Set.univ Set.univ (lawSignal dx dy k strength) at a2
  change Tame J (lawSignal dx dy k strength) at a3
  haveI := a2.prob
  obtain ⟨K, b1, -, b2⟩ := product_consistent hT MeasurableSet.univ MeasurableSet.univ a2.x a2.y
  have hmf : Integrable (fun z => ‖z‖ ^ 4) (lawSignal dx dy k strength).fst := by
    rw [Measure.fst, integrable_map_measure (by fun_prop) (by fun_prop)]
    refine a3.moment.mono' (by fun_prop) (.of_forall fun z => ?_)
    rw [Real.norm_eq_abs, Function.comp, abs_of_nonneg (by positivity)]
    exact pow_le_pow_left₀ (norm_nonneg _) (norm_fst_le z) 4
  have hms : Integrable (fun z => ‖z‖ ^ 4) (lawSignal dx dy k strength).snd := by
    rw [Measure.snd, integrable_map_measure (by fun_prop) (by fun_prop)]
    refine a3.moment.mono' (by fun_prop) (.of_forall fun z => ?_)
    rw [Real.norm_eq_abs, Function.comp, abs_of_nonneg (by positivity)]
    exact pow_le_pow_left₀ (norm_nonneg _) (norm_snd_le z) 4
  have b3 := tame_product T a2.x.shape a2.y.shape a3.x a3.y hmf hms b1
  have hp0 : ∀ j : Fin 2, 0 ≤ (![1 - ε, ε] : Fin 2 → ℝ) j := fun j => by fin_cases j <;> simp [h0, h1]
  have hp1 : ∑ j, (![1 - ε, ε] : Fin 2 → ℝ) j = 1 := by simp [Fin.sum_univ_two]
  obtain ⟨M, s, h4, h5, h6⟩ := wraps_mixture hT R hx hy ![1 - ε, ε] hp0 hp1 ![J, K]
    ![lawSignal dx dy k strength, (lawSignal dx dy k strength).fst.prod (lawSignal dx dy k strength).snd]
    (fun j => by fin_cases j; exacts [a2, b2]) (fun j => by fin_cases j; exacts [a3, b3]) size hs
  obtain ⟨hf, hsn, hle⟩ := mutualInfo_contaminated_le (lawSignal dx dy k strength) h0 h1
  refine ⟨s, ?_, h6, hf.trans ?_, hsn.trans ?_, hle.trans (le_of_eq ?_)⟩
  · obtain ⟨m, c, c1, -, C, c3, -, r, c4, c5⟩ := lvm_covariance dx dy k hkx hky 0 strength 0 strength
    rw [sparse_is_pairs hkx hky strength c3] at c5
    unfold taskInliers
    rw [if_neg (not_not.2 ⟨h0, h1⟩)]
    simp only [c1, bind, Except.bind, c4, c5, normal_default, a1, b1]
    have e : mixture T [1 - ε, ε] [J, K] = .ok M := by
      rw [← h4]
      simp
    rw [e]
    exact h5
  · refine (splitNormal_fst 0 hpos.posSemidef).trans ?_
    congr 1
    ext i j
    simp [blockX, (pairs_isCanonical dx dy k hkx _).xx, Matrix.one_apply]
  · refine (splitNormal_snd 0 hpos.posSemidef).trans ?_
    congr 1
    ext i j
    simp [blockY, (pairs_isCanonical dx dy k hkx _).yy, Matrix.one_apply]
  · have h := (splitNormal_mi (dx := dx) (dy := dy) 0 hpos).1
    rw [pairs_number hkx hky hc] at h
    rw [ENNReal.ofReal_mul (by linarith)]
    congr 1

/-- The hypotheses are satisfiable: the tasks with their default arguments, over a source of randomness which draws from all
the laws exactly. -/
example (R : JaxRandom PathKey) : (∃ s, taskX R path 0.9 100000 = .ok s ∧ Wraps R pathLaw s 100000 (lawX 0.9)) ∧
    (∃ s, taskAi R path 100000 = .ok s ∧ Wraps R pathLaw s 100000 lawAi) ∧
    (∃ base t, taskGalaxy R path 0.5 3 100000 = .ok (base, t) ∧ Bends R pathLaw t base (lawBalls 3) (lawGalaxy 0.5 3)) ∧
    (∃ base t, taskWaves R path 12 5 3 100000 = .ok (base, t) ∧ Bends R pathLaw t base (lawColumns 12) (lawWaves 12 5 3)) ∧
    (∃ s, taskConcentric R path 5 3 100000 = .ok s ∧ Wraps R pathLaw s 100000 (lawConcentric 5 3)) ∧
    (∃ s, taskInliers R path 5 4 2 2 0.2 100000 = .ok s ∧ Wraps R pathLaw s 100000 (lawInliers 5 4 2 2 0.2)) := by
  obtain ⟨s1, a1, a2, -⟩ := taskX_correct path_ideal R 0.9 (by norm_num [abs_of_pos]) 100000 (by norm_num)
  obtain ⟨s2, b1, b2, -⟩ := taskAi_correct path_ideal R 100000 (by norm_num)
  obtain ⟨s3, t3, c1, -, c2, -⟩ := taskGalaxy_correct path_ideal R 0.5 3 100000 (by norm_num)
  obtain ⟨s4, t4, d1, -, d2, -⟩ := taskWaves_correct path_ideal R 12 (by norm_num) 5 3 100000 (by norm_num)
  obtain ⟨s5, e1, e2, -⟩ := taskConcentric_correct path_ideal R 5 3 (by norm_num) (by norm_num) 100000 (by norm_num)
  obtain ⟨s6, f1, f2, -⟩ := taskInliers_correct path_ideal R 5 4 2 (by norm_num) (by norm_num) (by norm_num) (by norm_num) 2 0.2
    (by norm_num) (by norm_num) 100000 (by norm_num)
  exact ⟨⟨s1, a1, a2⟩, ⟨s2, b1, b2⟩, ⟨s3, t3, c1, c2⟩, ⟨s4, t4, d1, d2⟩, ⟨s5, e1, e2⟩, ⟨s6, f1, f2⟩⟩

end BMI.MixtureTasks
