import Verif.Lemmas.Fitting

/-! Property C76: the example distributions and the figures with fitted mixtures
(/repo/workflows/projects/Mixtures/example_distributions.py, /repo/workflows/projects/Mixtures/fitting_gmm.smk). -/

namespace BMI.Fitting

open MeasureTheory ProbabilityTheory BMI.Samplers BMI.Bmm BMI.Student BMI.MatrixUtils BMI.MixtureTasks BMI.Gmm BMI.Gallery BMI.Workflow
open BMI.Integration (pmi_of_tame sample_draws normal_indep pathRandom)

variable {Key : Type} [MeasurableSpace Key] {T : Tfp Key} {κ : Measure Key}

/-! ## The X distribution -/

theorem halves_nonneg : ∀ j : Fin 2, 0 ≤ (![1 / 2, 1 / 2] : Fin 2 → ℝ) j := fun j => by fin_cases j <;> norm_num

theorem halves_sum : ∑ j, (![1 / 2, 1 / 2] : Fin 2 → ℝ) j = 1 := by norm_num [Fin.sum_univ_two]

theorem cross_posDef (j : Fin 2) :
    (!![1, (![-(9 / 10), 9 / 10] : Fin 2 → ℝ) j; (![-(9 / 10), 9 / 10] : Fin 2 → ℝ) j, 1] : Matrix (Fin 2) (Fin 2) ℝ).PosDef := by
  rw [unit_pair]
  refine pair_posDef one_pos one_pos ?_
  fin_cases j <;> norm_num [abs_of_pos, abs_of_neg]

/-- **C76**, X. -/
theorem exampleX (hT : IdealTfp T κ) (R₀ : JaxRandom Key) (size : ℕ) (hs : 0 < size) :
    ∃ J, IsExample κ (fun R => createX R T size) size id smallX J := by
  obtain ⟨J, M, h1, h2, h3, h4, -⟩ := mixture_of hT R₀ (dx := 1) (dy := 1) one_pos one_pos ![1 / 2, 1 / 2] halves_nonneg halves_sum
    (fun _ => 0) (fun j => (3 / 10 : ℝ) • !![1, ![-(9 / 10), 9 / 10] j; ![-(9 / 10), 9 / 10] j, 1])
    fun j => (cross_posDef j).smul (by norm_num)
  obtain ⟨s, h5, h6⟩ := sampler_of one_pos one_pos h3 hs
  refine ⟨M, example_of hs h3 h4 measurable_id Function.injective_id fun R => ⟨s, asSampler R s, h5, ?_, h6 R⟩⟩
  obtain ⟨m, a1, a2⟩ := canonical_pair (-1 * 0.9)
  obtain ⟨m', b1, b2⟩ := canonical_pair (1 * 0.9)
  have e0 : multivariateNormalDistribution R T 1 1 ((rowsOf m).map (·.map (0.3 * ·))) (some (List.replicate 2 0)) = .ok (J 0) := by
    rw [a2]
    have := h1 R 0
    norm_num [rowsOf, List.ofFn_succ] at this ⊢
    exact this
  have e1 : multivariateNormalDistribution R T 1 1 ((rowsOf m').map (·.map (0.3 * ·))) (some (List.replicate 2 0)) = .ok (J 1) := by
    rw [b2]
    have := h1 R 1
    norm_num [rowsOf, List.ofFn_succ] at this ⊢
    exact this
  unfold createX
  simp only [List.mapM_cons, List.mapM_nil, a1, b1, bind, Except.bind, e0, e1, pure, Except.pure]
  have e2 : mixture T [0.5, 0.5] [J 0, J 1] = .ok M := by
    rw [← h2]
    norm_num [List.ofFn_succ]
  rw [e2]
  simp only [h5]

/-! ## The Galaxy distribution -/

theorem shrink_acts : Measurable (fun x : Fin 2 → ℝ => (3 / 10 : ℝ) • x) ∧ Function.Injective (fun x : Fin 2 → ℝ => (3 / 10 : ℝ) • x) ∧
    Acts (.row (·.map (0.3 * ·))) fun x : Fin 2 → ℝ => (3 / 10 : ℝ) • x := by
  refine ⟨by fun_prop, fun x y h => ?_, fun n a => rowsOf_map a _ _ fun v => ?_⟩
  · exact smul_right_injective _ (by norm_num : (3 / 10 : ℝ) ≠ 0) h
  · norm_num [List.ofFn_succ]

/-- **C76**, Galaxy. -/
theorem exampleGalaxy (hT : IdealTfp T κ) (R₀ : JaxRandom Key) (size : ℕ) (hs : 0 < size) :
    ∃ J, IsExample κ (fun R => createGalaxy R T size) size swirl (lawBalls 3) J := by
  obtain ⟨J, M, h1, h2, h3, h4, -⟩ := mixture_of hT R₀ (dx := 2) (dy := 1) two_pos one_pos ![1 / 2, 1 / 2] halves_nonneg halves_sum
    (fun j _ => ![-(3 / 2), 3 / 2] j) (fun _ => 1) fun _ => Matrix.PosDef.one
  obtain ⟨s, h5, h6⟩ := sampler_of two_pos one_pos h3 hs
  have h01 : (0 : Fin 2) < 1 := by decide
  have hsum : ∀ x : Fin 2 → ℝ, sumSq x = x 0 ^ 2 + x 1 ^ 2 := fun x => Fin.sum_univ_two _
  have hsw : swirl = fun x => (3 / 10 : ℝ) • turn 0 1 (1 / 2 * sumSq x) x := by
    funext x
    rw [hsum]
    rfl
  obtain ⟨s1, s2, s3⟩ := shrink_acts
  have hm : Measurable swirl := hsw ▸ s1.comp (measurable_turn h01 (1 / 2))
  have hinj : Function.Injective swirl := hsw ▸ s2.comp (turn_injective h01 (1 / 2))
  refine ⟨M, example_of hs h3 h4 hm hinj fun R => ?_⟩
  obtain ⟨t₁, g1, g2⟩ := (h6 R).transformed two_pos one_pos (spiral_acts h01 (1 / 2))
  obtain ⟨t, g3, g4⟩ := g2.transformed two_pos one_pos s3
  refine ⟨s, t, h5, ?_, hsw ▸ g4⟩
  obtain ⟨m, a1, a2⟩ := canonical_identity
  have e : ∀ j : Fin 2, multivariateNormalDistribution R T 2 1 (rowsOf m)
      (some ([![-1, 1] j, ![-1, 1] j, ![-1, 1] j].map (· * 1.5))) = .ok (J j) := by
    intro j
    rw [a2]
    have e1 : [![-1, 1] j, ![-1, 1] j, ![-1, 1] j].map (· * 1.5) = List.ofFn fun _ : Fin 3 => (![-(3 / 2), 3 / 2] : Fin 2 → ℝ) j := by
      fin_cases j <;> norm_num [List.ofFn_succ]
    rw [e1]
    exact h1 R j
  have e0 := e 0
  have e1 := e 1
  simp only [Matrix.cons_val_zero, Matrix.cons_val_one] at e0 e1
  unfold createGalaxy
  simp only [List.mapM_cons, List.mapM_nil, a1, bind, Except.bind, e0, e1, pure, Except.pure]
  have e2 : mixture T [0.5, 0.5] [J 0, J 1] = .ok M := by
    rw [← h2]
    norm_num [List.ofFn_succ]
  have e3 : (!![0, -1; 1, 0] : Matrix (Fin 2) (Fin 2) ℝ) = planeGen 0 1 := by
    ext i j
    fin_cases i <;> fin_cases j <;> simp [planeGen]
  have e4 : (0.5 : ℝ) = 1 / 2 := by norm_num
  rw [e2]
  simp only [h5]
  rw [e3, e4, spiral_none]
  simp only
  rw [g1]
  simp only
  rw [g3]

/-! ## The AI distribution -/

/-- **C76**, AI. -/
theorem exampleAi (hT : IdealTfp T κ) (R₀ : JaxRandom Key) (size : ℕ) (hs : 0 < size) :
    ∃ J, IsExample κ (fun R => createAi R T size) size id lawAi J := by
  have hc : ∀ j, |(strokes j).2.2| < 1 := fun j => by
    fin_cases j <;> norm_num [strokes, abs_of_pos, abs_of_neg]
  have hv : ∀ j, 0 < (strokes j).2.1.1 ∧ 0 < (strokes j).2.1.2 := fun j => by fin_cases j <;> norm_num [strokes]
  obtain ⟨J, M, h1, h2, h3, h4, -⟩ := mixture_of hT R₀ (dx := 1) (dy := 1) one_pos one_pos (fun _ : Fin 6 => 1 / 6)
    (fun _ => by norm_num) (by norm_num) (fun j => ![(strokes j).1.1, (strokes j).1.2]) _
    (fun j => pair_posDef (hv j).1 (hv j).2 (hc j))
  obtain ⟨s, h5, h6⟩ := sampler_of one_pos one_pos h3 hs
  refine ⟨M, example_of hs h3 h4 measurable_id Function.injective_id fun R => ⟨s, asSampler R s, h5, ?_, h6 R⟩⟩
  unfold createAi
  rw [aiComponents_eq, MixtureTasks.mapM_ofFn fun j => h1 R j]
  have e : List.replicate 6 (1 / 6 : ℝ) = List.ofFn fun _ : Fin 6 => (1 / 6 : ℝ) := by rw [List.ofFn_const]
  simp only [bind, Except.bind]
  rw [e, h2]
  simp only [h5]

/-! ## The Waves distribution -/

/-- **C76**, Waves, for any number of components. -/
theorem exampleWaves (hT : IdealTfp T κ) (R₀ : JaxRandom Key) (n : ℕ) (hn : 0 < n) (size : ℕ) (hs : 0 < size) :
    ∃ J, IsExample κ (fun R => createWaves R T n size) size ripple (lawColumns n) J := by
  have hv : ∀ i, 0 < (![1 / 10, 1, 1 / 10] : Fin 3 → ℝ) i := fun i => by fin_cases i <;> norm_num
  have hn' : (0 : ℝ) < n := by exact_mod_cast hn
  have hp0 : ∀ j : Fin n, 0 ≤ (fun _ => 1 / (n : ℝ) : Fin n → ℝ) j := fun j => by positivity
  have hp1 : ∑ j : Fin n, (fun _ => 1 / (n : ℝ) : Fin n → ℝ) j = 1 := by
    simp
    field_simp
  obtain ⟨J, M, h1, h2, h3, h4, -⟩ := mixture_of hT R₀ (dx := 2) (dy := 1) two_pos one_pos (fun _ => 1 / (n : ℝ)) hp0 hp1
    (fun j : Fin n => ![3 / 2 * (j : ℕ), 0, 3 / 2 * ((j : ℕ) % 4 : ℕ)]) (fun _ => Matrix.diagonal ![1 / 10, 1, 1 / 10])
    (fun _ => Matrix.PosDef.diagonal hv)
  obtain ⟨s, h5, h6⟩ := sampler_of two_pos one_pos h3 hs
  obtain ⟨hf, jf, af⟩ := waves_facts 5 3
  obtain ⟨hg, jg, ag⟩ := shrink_facts
  refine ⟨M, example_of hs h3 h4 (f := ripple) (hg.comp hf) (jg.comp jf) fun R => ?_⟩
  obtain ⟨t₁, g1, g2⟩ := (h6 R).transformed two_pos one_pos af
  obtain ⟨t, g3, g4⟩ := g2.transformed two_pos one_pos ag
  refine ⟨s, t, h5, ?_, g4⟩
  have hJ : (List.range (n : ℤ).toNat).mapM (fun x : ℕ => multivariateNormalDistribution R T 2 1 (diag [0.1, 1.0, 0.1])
      (some ([(x : ℝ), 0, ((x % 4 : ℕ) : ℝ)].map (· * 1.5)))) = .ok (List.ofFn J) := by
    rw [Int.toNat_natCast, range_ofFn]
    refine MixtureTasks.mapM_ofFn fun j => ?_
    have e1 : diag [0.1, 1.0, 0.1] = rowsOf (Matrix.diagonal (![1 / 10, 1, 1 / 10] : Fin 3 → ℝ)) := by
      rw [← diag_ofFn]
      norm_num [List.ofFn_succ]
    have e2 : [((j : ℕ) : ℝ), 0, (((j : ℕ) % 4 : ℕ) : ℝ)].map (· * 1.5)
        = List.ofFn (![3 / 2 * (j : ℕ), 0, 3 / 2 * ((j : ℕ) % 4 : ℕ)] : Fin 3 → ℝ) := by
      have h15 : (1.5 : ℝ) = 3 / 2 := by norm_num
      simp [List.ofFn_succ, h15, mul_comm]
    rw [e1, e2]
    exact h1 R j
  unfold createWaves
  rw [if_neg (by simpa using hn.ne')]
  simp only [hJ, bind, Except.bind]
  rw [uniform_ofFn, h2]
  have e5 : (5.0 : ℝ) = 5 := by norm_num
  simp only [h5]
  rw [e5, g1]
  simp only
  rw [g3]

/-! ## The mutual information -/

theorem smallX_eq : smallX = (lawX (9 / 10)).map (Prod.map (fun x => √(3 / 10) • x) fun y => √(3 / 10) • y) := by
  have hm : Measurable (Prod.map (fun x : Fin 1 → ℝ => √(3 / 10) • x) fun y : Fin 1 → ℝ => √(3 / 10) • y) := by fun_prop
  unfold smallX lawX
  rw [mixtureLaw_map _ _ hm]
  congr 1
  funext j
  unfold MixtureTasks.component
  have hh : Measurable (halves 1 1) := measurable_parts 1 1
  rw [Measure.map_map hm hh]
  have e := normalLaw_map 0 (cross_posDef j).posSemidef 0 (√(3 / 10) • (1 : Matrix (Fin 2) (Fin 2) ℝ))
  have hs : √(3 / 10 : ℝ) * √(3 / 10) = 3 / 10 := Real.mul_self_sqrt (by norm_num)
  have e1 : ∀ C : Matrix (Fin 2) (Fin 2) ℝ, √(3 / 10) • (1 : Matrix (Fin 2) (Fin 2) ℝ) * C * (√(3 / 10) • (1 : Matrix (Fin 2) (Fin 2) ℝ)).transpose
      = (3 / 10 : ℝ) • C := fun C => by
    rw [Matrix.transpose_smul, Matrix.transpose_one, Matrix.smul_mul, Matrix.one_mul, Matrix.mul_smul, Matrix.mul_one, smul_smul, hs]
  have e2 : (fun x : Fin 2 → ℝ => 0 + (√(3 / 10) • (1 : Matrix (Fin 2) (Fin 2) ℝ)).mulVec x) = fun x => √(3 / 10) • x := by
    funext x
    rw [Matrix.smul_mulVec, Matrix.one_mulVec, zero_add]
  rw [e1, e2, Matrix.mulVec_zero, add_zero] at e
  erw [← e]
  rw [Measure.map_map hh (by fun_prop)]
  rfl

theorem smallX_mi : mutualInfo smallX = mutualInfo (lawX (9 / 10)) := by
  have hi : Function.Injective fun x : Fin 1 → ℝ => √(3 / 10 : ℝ) • x :=
    smul_right_injective _ (Real.sqrt_pos.2 (by norm_num)).ne'
  haveI : IsProbabilityMeasure (lawX (9 / 10)) := mixtureLaw_prob halves_nonneg (by rw [List.sum_ofFn, halves_sum]) _
  rw [smallX_eq]
  exact mutualInfo_map_eq_of_injOn _ (by fun_prop) (by fun_prop) MeasurableSet.univ MeasurableSet.univ (by simp) (by simp) hi.injOn
    hi.injOn

theorem toReal_bounds {a : ENNReal} {b c : ℝ} (h0 : a ≠ 0) (h : a ≤ ENNReal.ofReal b) (hc : b < c) : 0 < a.toReal ∧ a.toReal < c := by
  have ht : a ≠ ⊤ := ne_top_of_le_ne_top ENNReal.ofReal_ne_top h
  have hp := ENNReal.toReal_pos h0 ht
  have := ENNReal.toReal_mono ENNReal.ofReal_ne_top h
  refine ⟨hp, ?_⟩
  rcases le_total 0 b with hb | hb
  · rw [ENNReal.toReal_ofReal hb] at this
    linarith
  · rw [ENNReal.ofReal_of_nonpos hb, ENNReal.toReal_zero] at this
    linarith

/-- **C76**: in every example the variables depend on each other; the mutual information is on the axis of the figure for X, Galaxy and
Waves. -/
theorem on_axis (hT : IdealTfp T κ) (R₀ : JaxRandom Key) :
    (0 < (mutualInfo smallX).toReal ∧ (mutualInfo smallX).toReal < 1) ∧
    (0 < (mutualInfo (lawBalls 3)).toReal ∧ (mutualInfo (lawBalls 3)).toReal < 1) ∧
    (0 < (mutualInfo (lawColumns 12)).toReal ∧ (mutualInfo (lawColumns 12)).toReal < 1.5) ∧
    0 < (mutualInfo lawAi).toReal ∧
    (mutualInfo lawAi).toReal ≤ Real.log 6 + 1 / 3 * (-(1 / 2) * Real.log (1 - (19 / 20) ^ 2)) := by
  have hρ : |(9 / 10 : ℝ)| < 1 := by norm_num [abs_of_pos]
  obtain ⟨_, -, -, -, -, x1⟩ := taskX_correct hT R₀ (9 / 10) hρ 1 one_pos
  obtain ⟨_, _, -, -, g1, g2⟩ := taskGalaxy_correct hT R₀ 1 3 1 one_pos
  obtain ⟨_, _, -, -, w1, w2⟩ := taskWaves_correct hT R₀ 12 (by norm_num) 1 1 1 one_pos
  obtain ⟨_, -, aw, a1⟩ := taskAi_correct hT R₀ 1 one_pos
  have x0 : mutualInfo (lawX (9 / 10)) ≠ 0 := fun h => by
    have := (lawX_mi_zero_iff (9 / 10) hρ).2.1 h
    norm_num at this
  have g0 : mutualInfo (lawGalaxy 1 3) ≠ 0 := fun h => by
    have := (lawGalaxy_mi_zero_iff hT R₀ 1 3).1 h
    norm_num at this
  have w0 : mutualInfo (lawWaves 12 1 1) ≠ 0 := fun h => by
    have := (lawWaves_mi_zero_iff hT R₀ 12 (by norm_num) 1 1).1 h
    norm_num at this
  rw [g1.same] at g0 g2
  rw [w1.same] at w0 w2
  have l2 := Real.log_two_lt_d9
  refine ⟨smallX_mi ▸ toReal_bounds x0 x1 ?_, toReal_bounds g0 g2 (by linarith), toReal_bounds w0 w2 ?_,
    ENNReal.toReal_pos lawAi_mi_pos aw.finite, a1⟩
  · have h : Real.exp (-2) < 1 - (9 / 10 : ℝ) ^ 2 := by
      have h1 := Real.exp_one_gt_d9
      have h2 : Real.exp (-2) = (Real.exp 1 * Real.exp 1)⁻¹ := by
        rw [← Real.exp_add, ← Real.exp_neg]
        norm_num
      rw [h2]
      refine (inv_lt_comm₀ (by positivity) (by norm_num)).2 ?_
      norm_num
      nlinarith
    have := (Real.lt_log_iff_exp_lt (by norm_num)).2 h
    linarith
  · have e : Real.log ((min 12 4 : ℕ) : ℝ) = 2 * Real.log 2 := by
      have : ((min 12 4 : ℕ) : ℝ) = 2 ^ 2 := by norm_num
      rw [this, Real.log_pow]
      norm_num
    rw [e]
    norm_num
    linarith

/-! ## The figure -/

theorem mapM_ok {A B E : Type} {f : A → Except E B} {g : A → B} (l : List A) (h : ∀ a ∈ l, f a = .ok (g a)) : l.mapM f = .ok (l.map g) := by
  induction l with
  | nil => rfl
  | cons a l ih =>
    rw [List.mapM_cons, h a (by simp), ih fun b hb => h b (by simp [hb])]
    rfl

theorem getD_lt {A : Type} {l : List A} {i : ℕ} (d : A) (h : i < l.length) : l.getD i d = l[i] := by
  rw [List.getD_eq_getElem?_getD, List.getElem?_eq_getElem h, Option.getD_some]

theorem mapM_range {A B E : Type} {f : ℕ → Except E B} {g : A → B} (l : List A) (h : ∀ (i : ℕ) (hi : i < l.length), f i = .ok (g l[i])) :
    (List.range l.length).mapM f = .ok (l.map g) := by
  rcases l with _ | ⟨a, l⟩
  · rfl
  · rw [mapM_ok (g := fun i => g ((a :: l).getD i a)) _ fun i hi => by
      have hi := List.mem_range.1 hi
      rw [h i hi, getD_lt _ hi]]
    congr 1
    refine List.ext_getElem (by simp) fun i h1 h2 => ?_
    have : i < (a :: l).length := by simpa using h2
    simp only [List.getElem_map, List.getElem_range]
    rw [getD_lt _ this]

theorem lift_bind {A B : Type} (a : Except Err A) (g : A → Except Err B) : (lift a >>= fun x => lift (g x)) = lift (a >>= g) := by
  cases a <;> rfl

theorem hstack_pair {n dx dy : ℕ} (a : Fin n → Fin dx → ℝ) (b : Fin n → Fin dy → ℝ) :
    hstack [rowsOf a, rowsOf b] = .ok (List.ofFn fun i => List.ofFn (a i) ++ List.ofFn (b i)) := by
  show (if (rowsOf a).length = (rowsOf b).length then Except.ok (hcat (rowsOf a) (rowsOf b)) else .error Err.valueError) = _
  rw [if_pos (by simp [rowsOf])]
  unfold hcat rowsOf
  rw [zipWith_ofFn]

theorem model_prior {K : ℕ} (hK : 0 < K) (d : ℕ) : model d K none (jitter := 1e-6) = .ok (thePrior K d) := by
  unfold model thePrior
  have h1 : (1e-6 : ℝ) = 1 / 1000000 := by norm_num
  simp [hK.ne', bind, Except.bind, h1]

theorem npIndex_nat {α : Type} (l : List α) (i : ℕ) : npIndex l i = l[i]? := by
  unfold npIndex
  rw [if_neg (by omega), if_neg (by omega), Int.toNat_natCast]

/-- **C76**: negative numbers of samples count from the last sample. -/
theorem approx_counts_back (nuts : Nuts Key) (R : JaxRandom Key) (T : Tfp Key) (name n k : List Char) {samples : List Draw}
    (h : fitModel nuts R T (fill fitPat [name, n, k]) = .ok samples) {j : ℕ} (h1 : 1 ≤ j) (h2 : j ≤ samples.length) :
    approxDist nuts R T name n k (intStr (-j)) = approxDist nuts R T name n k (intStr ((samples.length - j : ℕ) : ℤ)) := by
  have e : npIndex samples (-j) = npIndex samples ((samples.length - j : ℕ) : ℤ) := by
    rw [npIndex_nat, npIndex, if_neg (by omega), if_pos (by omega)]
    congr 1
    omega
  unfold approxDist
  simp only [h, pyInt_intStr, orRaise, bind, Except.bind, e]

theorem number_ok (n : ℕ) : intStr n ≠ [] ∧ '-' ∉ intStr n ∧ '\n' ∉ intStr n := by
  obtain ⟨h1, h2⟩ := intStr_digits (z := n) (by omega)
  exact ⟨h1, digits_ne _ h2 (by decide), digits_ne _ h2 (by decide)⟩

theorem zero_str : (['0'] : List Char) = intStr ((0 : ℕ) : ℤ) := by decide

/-- A figure from an example. -/
theorem shows_of (hT : IdealTfp T κ) (R₀ : JaxRandom Key) (nuts : Nuts Key) {name : String} {n K : ℕ} (hn : 0 < n) (hK : 0 < K) {dx : ℕ}
    (hdx : 0 < dx) {create : JaxRandom Key → Except Err (ExampleDistribution Key)} {size : ℕ} {f : (Fin dx → ℝ) → Fin dx → ℝ}
    {P : Measure ((Fin dx → ℝ) × (Fin 1 → ℝ))} {J : JointDistribution Key} (hE : IsExample κ create size f P J)
    (hget : ∀ R E, create R = .ok E → ∃ ds, distributions R T = .ok ds ∧ ds.get name = some E)
    (hname : name.toList ≠ [] ∧ '-' ∉ name.toList ∧ '\n' ∉ name.toList) {range : ℝ × ℝ} (hr : posteriorRanges.get name = some range)
    {shown : (Fin n → Fin dx → ℝ) → (Fin n → Fin 1 → ℝ) → List ((ℝ × ℝ) × Option ℝ)}
    (hshow : ∀ x y, visualisePoints (rowsOf x) (rowsOf y) = .ok (shown x y)) :
    Shows κ nuts T name n K shown f P range := by
  obtain ⟨z, hz, -, hzs⟩ := hE.draws n hn
  obtain ⟨p, hp, hp1, hp2⟩ := hE.profile 100000 (by norm_num)
  have hfit : ∀ l : Latent (thePrior K (dx + 1)).concentration.length (dx + 1), ∃ (M : JointDistribution Key) (q : Key → List EReal)
      (w : Key → Fin n → (Fin dx → ℝ) × (Fin 1 → ℝ)), l.Supported →
      (∀ R : JaxRandom Key, sampleIntoBmm R T (l.draw (1 / 1000000)).mu (l.draw (1 / 1000000)).cov (l.draw (1 / 1000000)).pi dx (1 : ℕ) = .ok M) ∧
      (∀ k, pmiProfile k M (100000 : ℕ) = .ok (q k)) ∧ (∀ k, M.sample n k = .ok (rowsOf fun i => (w k i).1, rowsOf fun i => (w k i).2)) ∧
      mutualInfo (l.law (1 / 1000000) dx 1) ≠ ⊤ ∧ IsProfile κ 100000 (l.law (1 / 1000000) dx 1) q ∧
      MeanIs κ q (mutualInfo (l.law (1 / 1000000) dx 1)).toReal ∧
      MeasurePreserving w κ (Measure.pi fun _ => l.law (1 / 1000000) dx 1) := fun l => by
    by_cases hl : l.Supported
    · obtain ⟨M, m1, m2, m3⟩ := fitted hT R₀ hdx one_pos hl (jitter := 1 / 1000000) (by norm_num)
      haveI := m2.prob
      have hne := (pmi_density m2).2.2.2.1.2 ((m3.memLp (pmi_density m2).2.2.1).integrable one_le_two)
      obtain ⟨q, q1, q2, q3⟩ := profile_of m2 (r := fun w => Integration.pmiOf M (List.ofFn w.1) (List.ofFn w.2))
        (pmi_of_tame m2 m3).2 hne (n := 100000) (by norm_num)
      obtain ⟨w, w1, w2⟩ := sample_draws m2 n hn
      exact ⟨M, q, w, fun _ => ⟨m1, q1, w2, hne, q2, q3, w1⟩⟩
    · exact ⟨J, fun _ => [], fun _ _ => (0, 0), fun h => absurd h hl⟩
  choose M q w hM using hfit
  refine ⟨z, p, q, w, hz, hp1, hp2, fun l hl => (hM l hl).2.2.2, fun R latents hnuts hlen hsup => ?_⟩
  obtain ⟨E, hc, hEd, -, -, -⟩ := hE.created R
  obtain ⟨ds, hds, hdg⟩ := hget R E hc
  have hkey : String.ofList name.toList = name := String.ofList_toList
  -- wildcards
  have v2 : ∀ v ∈ [name.toList, intStr n], v ≠ [] ∧ '-' ∉ v ∧ '\n' ∉ v := by
    simp only [List.mem_cons, List.not_mem_nil, or_false]
    rintro v (rfl | rfl)
    exacts [hname, number_ok n]
  have v3 : ∀ v ∈ [name.toList, intStr n, intStr K], v ≠ [] ∧ '-' ∉ v ∧ '\n' ∉ v := by
    simp only [List.mem_cons, List.not_mem_nil, or_false]
    rintro v (rfl | rfl | rfl)
    exacts [hname, number_ok n, number_ok K]
  have v4 : ∀ i : ℕ, ∀ v ∈ [name.toList, intStr n, intStr K, intStr i], v ≠ [] ∧ '-' ∉ v ∧ '\n' ∉ v := fun i => by
    simp only [List.mem_cons, List.not_mem_nil, or_false]
    rintro v (rfl | rfl | rfl | rfl)
    exacts [hname, number_ok n, number_ok K, number_ok i]
  -- the data
  have hdata : sampleDist R T (fill dataPat [name.toList, intStr n])
      = .ok (rowsOf fun i => f (z (R.prngKey 0) i).1, rowsOf fun i => (z (R.prngKey 0) i).2) := by
    unfold sampleDist dataPat
    rw [recover _ _ (by decide) _ 1 rfl v2]
    simp only [hds, lift, hkey, hdg, orRaise, pyInt_intStr, bind, Except.bind, Int.toNat_natCast]
    rw [hzs R E hc]
    rfl
  -- the fit
  have hfitted : fitModel nuts R T (fill fitPat [name.toList, intStr n, intStr K]) = .ok (latents.map (Latent.draw (1 / 1000000))) := by
    unfold fitModel fitPat
    rw [recover _ _ (by decide) _ 2 rfl v3]
    simp only [hdata, bind, Except.bind, pyInt_intStr, orRaise, hstack_pair, lift]
    rw [if_neg (by omega)]
    have hd : ((List.ofFn fun i : Fin n => List.ofFn (f (z (R.prngKey 0) i).1) ++ List.ofFn (z (R.prngKey 0) i).2).headD []).length
        = dx + 1 := by
      obtain ⟨m, rfl⟩ : ∃ m, n = m + 1 := ⟨n - 1, by omega⟩
      rw [List.ofFn_succ]
      simp
    rw [hd, Int.toNat_natCast, model_prior hK]
    simp only [hnuts]
    rfl
  have hpath : plotPath name n K = fill plotPat [name.toList, intStr n, intStr K] := by
    unfold plotPath plotPat
    simp only [dashed, fill, List.append_nil]
    rfl
  have hdist : ∀ (i : ℕ) (hi : i < latents.length),
      approxDist nuts R T name.toList (intStr n) (intStr K) (intStr i) = .ok (M latents[i]) := fun i hi => by
    have hl := hsup _ (List.getElem_mem hi)
    unfold approxDist
    have h1 := (hM _ hl).1 R
    simp only [hfitted, hds, lift, hkey, hdg, orRaise, pyInt_intStr, bind, Except.bind, npIndex_nat, List.getElem?_map,
      List.getElem?_eq_getElem hi, Option.map_some, hEd, hE.dimX, hE.dimY]
    rw [h1]
  have hind : ∀ (i : ℕ) (hi : i < latents.length),
      estimatePmi nuts R T (fill individualPat [name.toList, intStr n, intStr K, intStr i]) = .ok (q latents[i] (R.prngKey 2048)) :=
    fun i hi => by
      have hl := hsup _ (List.getElem_mem hi)
      unfold estimatePmi individualPat
      rw [recover _ _ (by decide) _ 3 rfl (v4 i)]
      simp only [hdist i hi, bind, Except.bind]
      have h1 := (hM _ hl).2.1 (R.prngKey 2048)
      have h2 := lift_bind ((M latents[i]).sample 100000 (R.prngKey 2048)) fun xy => (M latents[i]).pmi xy.1 xy.2
      refine h2.trans ?_
      have h3 : ((M latents[i]).sample 100000 (R.prngKey 2048) >>= fun xy => (M latents[i]).pmi xy.1 xy.2)
        = .ok (q latents[i] (R.prngKey 2048)) := h1
      rw [h3]
      rfl
  have hcol : collectPmi nuts R T (fill collectedPat [name.toList, intStr n, intStr K])
      = .ok (latents.map fun l => q l (R.prngKey 2048)) := by
    unfold collectPmi collectedPat
    rw [recover _ _ (by decide) _ 2 rfl v3]
    simp only
    rw [← hlen]
    exact mapM_range latents hind
  have htrue : truePmi R T (fill truePat [name.toList, intStr n]) = .ok (p (R.prngKey 2048)) := by
    unfold truePmi truePat
    rw [recover _ _ (by decide) _ 1 rfl v2]
    simp only [hds, lift, hkey, hdg, orRaise, bind, Except.bind, hEd]
    have h2 := lift_bind (J.sample 100000 (R.prngKey 2048)) fun xy => J.pmi xy.1 xy.2
    refine h2.trans ?_
    have h3 : (J.sample 100000 (R.prngKey 2048) >>= fun xy => J.pmi xy.1 xy.2) = .ok (p (R.prngKey 2048)) := hp (R.prngKey 2048)
    rw [h3]
    rfl
  have h0 : 0 < latents.length := by omega
  have happ : createApproxSample nuts R T (fill approxPat [name.toList, intStr n, intStr K, ['0']])
      = .ok (rowsOf fun i => (w latents[0] (R.prngKey 2048) i).1, rowsOf fun i => (w latents[0] (R.prngKey 2048) i).2) := by
    unfold createApproxSample approxPat
    rw [zero_str, recover _ _ (by decide) _ 3 rfl (v4 0)]
    simp only [hdist 0 h0, bind, Except.bind, pyInt_intStr, orRaise]
    rw [(hM _ (hsup _ (List.getElem_mem h0))).2.2.1]
    rfl
  refine ⟨
    { truePoints := shown (fun i => f (z (R.prngKey 0) i).1) (fun i => (z (R.prngKey 0) i).2)
      approxPoints := shown (fun i => (w latents[0] (R.prngKey 2048) i).1) (fun i => (w latents[0] (R.prngKey 2048) i).2)
      posterior := latents.map (fun l => Bmm.mean (q l (R.prngKey 2048)))
      range := range
      posteriorMean := Bmm.mean (latents.map fun l => Bmm.mean (q l (R.prngKey 2048)))
      trueMi := Bmm.mean (p (R.prngKey 2048))
      profiles := latents.map (fun l => q l (R.prngKey 2048))
      trueProfile := p (R.prngKey 2048) }, latents[0], ?_, ?_, rfl, rfl, rfl, rfl, rfl, rfl, rfl, rfl⟩
  · rw [List.head?_eq_getElem?, List.getElem?_eq_getElem h0]
  · unfold plotPdf
    rw [hpath]
    unfold plotPat
    rw [recover _ _ (by decide) _ 2 rfl v3]
    simp only [htrue, hcol, hdata, happ, hshow, lift, hkey, hr, orRaise, bind, Except.bind, List.map_map]
    rfl

theorem inPlane_shown {n : ℕ} (hn : 0 < n) (x : Fin n → Fin 1 → ℝ) (y : Fin n → Fin 1 → ℝ) :
    visualisePoints (rowsOf x) (rowsOf y) = .ok (inPlane x y) := by
  obtain ⟨m, rfl⟩ : ∃ m, n = m + 1 := ⟨n - 1, by omega⟩
  have hx : ((rowsOf x).headD []).length = 1 := by simp [rowsOf, List.ofFn_succ]
  have hy : ((rowsOf y).headD []).length = 1 := by simp [rowsOf, List.ofFn_succ]
  unfold visualisePoints
  rw [if_neg (by simp [rowsOf]), if_neg (fun h => h hy), if_neg (by rw [hx]; decide), if_pos hx]
  unfold rowsOf inPlane
  rw [zipWith_ofFn]
  simp

theorem coloured_shown {n : ℕ} (hn : 0 < n) (x : Fin n → Fin 2 → ℝ) (y : Fin n → Fin 1 → ℝ) :
    visualisePoints (rowsOf x) (rowsOf y) = .ok (coloured x y) := by
  obtain ⟨m, rfl⟩ : ∃ m, n = m + 1 := ⟨n - 1, by omega⟩
  have hx : ((rowsOf x).headD []).length = 2 := by simp [rowsOf, List.ofFn_succ]
  have hy : ((rowsOf y).headD []).length = 1 := by simp [rowsOf, List.ofFn_succ]
  unfold visualisePoints
  rw [if_neg (by simp [rowsOf]), if_neg (fun h => h hy), if_pos hx]
  unfold rowsOf coloured
  rw [zipWith_ofFn]
  simp

/-- The dictionary of examples. -/
theorem distributions_ok (hT : IdealTfp T κ) (R : JaxRandom Key) : ∃ g a w x, createGalaxy R T 3 = .ok g ∧ createAi R T 3 = .ok a ∧
    createWaves R T 12 3 = .ok w ∧ createX R T 3 = .ok x ∧
    distributions R T = .ok [("Galaxy", g), ("AI", a), ("Waves", w), ("X", x)] := by
  obtain ⟨_, hg⟩ := exampleGalaxy hT R 3 (by norm_num)
  obtain ⟨_, ha⟩ := exampleAi hT R 3 (by norm_num)
  obtain ⟨_, hw⟩ := exampleWaves hT R 12 (by norm_num) 3 (by norm_num)
  obtain ⟨_, hx⟩ := exampleX hT R 3 (by norm_num)
  obtain ⟨g, hg, -⟩ := hg.created R
  obtain ⟨a, ha, -⟩ := ha.created R
  obtain ⟨w, hw, -⟩ := hw.created R
  obtain ⟨x, hx, -⟩ := hx.created R
  have hg : createGalaxy R T 3 = .ok g := hg
  have ha : createAi R T 3 = .ok a := ha
  have hw : createWaves R T 12 3 = .ok w := hw
  have hx : createX R T 3 = .ok x := hx
  refine ⟨g, a, w, x, hg, ha, hw, hx, ?_⟩
  unfold distributions
  simp only [hg, ha, hw, hx, bind, Except.bind]

/-- **C76**: the figures, for every number of points and of components, whatever samples from the support of the prior the library
gives. -/
theorem figures (hT : IdealTfp T κ) (R₀ : JaxRandom Key) (nuts : Nuts Key) (n K : ℕ) (hn : 0 < n) (hK : 0 < K) :
    Shows κ nuts T "X" n K inPlane id smallX (0, 1) ∧ Shows κ nuts T "AI" n K inPlane id lawAi (0, 1) ∧
    Shows κ nuts T "Galaxy" n K coloured swirl (lawBalls 3) (0, 1) ∧
    Shows κ nuts T "Waves" n K coloured ripple (lawColumns 12) (0, 3 / 2) := by
  obtain ⟨_, hg⟩ := exampleGalaxy hT R₀ 3 (by norm_num)
  obtain ⟨_, ha⟩ := exampleAi hT R₀ 3 (by norm_num)
  obtain ⟨_, hw⟩ := exampleWaves hT R₀ 12 (by norm_num) 3 (by norm_num)
  obtain ⟨_, hx⟩ := exampleX hT R₀ 3 (by norm_num)
  refine ⟨?_, ?_, ?_, ?_⟩
  · refine shows_of hT R₀ nuts hn hK one_pos hx (fun R E hE => ?_) (by decide) (by simp [posteriorRanges, Run.Dict.get]) (inPlane_shown hn)
    obtain ⟨g, a, w, x, h1, h2, h3, h4, h5⟩ := distributions_ok hT R
    cases hE.symm.trans h4
    exact ⟨_, h5, by simp [Run.Dict.get]⟩
  · refine shows_of hT R₀ nuts hn hK one_pos ha (fun R E hE => ?_) (by decide) (by simp [posteriorRanges, Run.Dict.get]) (inPlane_shown hn)
    obtain ⟨g, a, w, x, h1, h2, h3, h4, h5⟩ := distributions_ok hT R
    cases hE.symm.trans h2
    exact ⟨_, h5, by simp [Run.Dict.get]⟩
  · refine shows_of hT R₀ nuts hn hK two_pos hg (fun R E hE => ?_) (by decide) (by simp [posteriorRanges, Run.Dict.get])
      (coloured_shown hn)
    obtain ⟨g, a, w, x, h1, h2, h3, h4, h5⟩ := distributions_ok hT R
    cases hE.symm.trans h1
    exact ⟨_, h5, by simp [Run.Dict.get]⟩
  · refine shows_of hT R₀ nuts hn hK two_pos hw (fun R E hE => ?_) (by decide) (by simp [posteriorRanges, Run.Dict.get]; norm_num)
      (coloured_shown hn)
    obtain ⟨g, a, w, x, h1, h2, h3, h4, h5⟩ := distributions_ok hT R
    cases hE.symm.trans h3
    exact ⟨_, h5, by simp [Run.Dict.get]⟩

/-- **C76**: the figures that the two collecting rules ask for are figures of this kind. -/
theorem wanted_figures (hT : IdealTfp T κ) (R : JaxRandom Key) : wanted = [plotPath "AI" 500 10, plotPath "Galaxy" 500 10] ∧
    ∃ ds, distributions R T = .ok ds ∧ wantedAll (ds.map Prod.fst)
      = ["Galaxy", "AI", "Waves", "X"].flatMap fun d => [plotPath d 125 10, plotPath d 250 10, plotPath d 500 10, plotPath d 1000 10] := by
  obtain ⟨g, a, w, x, -, -, -, -, h⟩ := distributions_ok hT R
  exact ⟨by decide, _, h, by simp only [List.map_cons, List.map_nil]; decide⟩

/-- **C76**: there is no figure for another name. -/
theorem figure_unknown (hT : IdealTfp T κ) (nuts : Nuts Key) (R : JaxRandom Key) (name : String) (n K : ℕ)
    (hname : name.toList ≠ [] ∧ '-' ∉ name.toList ∧ '\n' ∉ name.toList) (hx : name ∉ ["Galaxy", "AI", "Waves", "X"]) :
    plotPdf nuts R T (plotPath name n K) = .error (.raised .keyError) := by
  obtain ⟨g, a, w, x, -, -, -, -, h⟩ := distributions_ok hT R
  have v2 : ∀ v ∈ [name.toList, intStr n], v ≠ [] ∧ '-' ∉ v ∧ '\n' ∉ v := by
    simp only [List.mem_cons, List.not_mem_nil, or_false]
    rintro v (rfl | rfl)
    exacts [hname, number_ok n]
  have v3 : ∀ v ∈ [name.toList, intStr n, intStr K], v ≠ [] ∧ '-' ∉ v ∧ '\n' ∉ v := by
    simp only [List.mem_cons, List.not_mem_nil, or_false]
    rintro v (rfl | rfl | rfl)
    exacts [hname, number_ok n, number_ok K]
  simp only [List.mem_cons, List.not_mem_nil, or_false, not_or] at hx
  have hp : plotPath name n K = fill plotPat [name.toList, intStr n, intStr K] := by
    simp [plotPath, plotPat, dashed, fill]
  rw [hp]
  unfold plotPdf
  have e : matchPat plotPat (fill plotPat [name.toList, intStr n, intStr K]) = some [name.toList, intStr n, intStr K] :=
    recover _ _ (by decide) _ 2 rfl v3
  have e2 : matchPat truePat (fill truePat [name.toList, intStr n]) = some [name.toList, intStr n] := recover _ _ (by decide) _ 1 rfl v2
  rw [e]
  unfold truePmi
  simp only [e2, h, lift, bind, Except.bind, String.ofList_toList]
  simp [Run.Dict.get, orRaise, Ne.symm hx.1, Ne.symm hx.2.1, Ne.symm hx.2.2.1, Ne.symm hx.2.2.2]

example : plotPdf (fun _ _ _ _ _ => .ok []) pathRandom path (plotPath "Spiral" 500 10) = .error (.raised .keyError) :=
  figure_unknown path_ideal _ pathRandom _ 500 10 (by decide) (by decide)

example : ∃ J, IsExample pathLaw (fun R => createWaves R path 12 (3 : ℕ)) 3 ripple (lawColumns 12) J :=
  exampleWaves path_ideal pathRandom 12 (by norm_num) 3 (by norm_num)

example : 0 < (mutualInfo (lawBalls 3)).toReal ∧ (mutualInfo (lawBalls 3)).toReal < 1 := (on_axis path_ideal pathRandom).2.1

/-- A library that returns the same sample every time meets the assumptions, so that there is a figure. -/
example : ∃ F, plotPdf (fun _ p _ N _ => .ok (List.replicate N (plainLatent p.concentration.length p.dim))) pathRandom path
    (plotPath "Waves" 500 10) = .ok F ∧ F.posterior.length = 800 := by
  obtain ⟨-, -, -, z, p, q, w, -, -, -, -, h⟩ := figures path_ideal pathRandom
    (fun _ p _ N _ => .ok (List.replicate N (plainLatent p.concentration.length p.dim))) 500 10 (by norm_num) (by norm_num)
  obtain ⟨F, _, -, h1, -, -, -, h2, -⟩ := h pathRandom _ rfl List.length_replicate fun l hl => by
    rw [List.eq_of_mem_replicate hl]
    exact plainLatent_supported (by simp [thePrior]) _
  exact ⟨F, h1, by rw [h2]; exact List.length_map _ |>.trans List.length_replicate⟩

/-- A fit: the last of its samples has two numbers. -/
example : ∃ nuts : Nuts PathKey, ∃ samples, fitModel nuts pathRandom path (fill fitPat ["AI".toList, intStr (500 : ℕ), intStr (10 : ℕ)]) = .ok samples ∧
    samples.length = 800 ∧ approxDist nuts pathRandom path "AI".toList (intStr (500 : ℕ)) (intStr (10 : ℕ)) (intStr (-(1 : ℕ)))
      = approxDist nuts pathRandom path "AI".toList (intStr (500 : ℕ)) (intStr (10 : ℕ)) (intStr (799 : ℕ)) := by
  have key : ∀ n K : ℕ, 0 < n → 0 < K → ∃ (nuts : Nuts PathKey) (samples : List Draw),
      fitModel nuts pathRandom path (fill fitPat ["AI".toList, intStr n, intStr K]) = .ok samples ∧ samples.length = 800 := fun n K hn hK => by
    obtain ⟨g, a, w, x, h1, h2, h3, h4, h5⟩ := distributions_ok path_ideal pathRandom
    obtain ⟨J, hE⟩ := exampleAi path_ideal pathRandom 3 (by norm_num)
    obtain ⟨z, -, -, hz⟩ := hE.draws n hn
    have v2 : ∀ v ∈ ["AI".toList, intStr n], v ≠ [] ∧ '-' ∉ v ∧ '\n' ∉ v := by
      simp only [List.mem_cons, List.not_mem_nil, or_false]
      rintro v (rfl | rfl)
      exacts [by decide, number_ok n]
    have v3 : ∀ v ∈ ["AI".toList, intStr n, intStr K], v ≠ [] ∧ '-' ∉ v ∧ '\n' ∉ v := by
      simp only [List.mem_cons, List.not_mem_nil, or_false]
      rintro v (rfl | rfl | rfl)
      exacts [by decide, number_ok n, number_ok K]
    have hdata : sampleDist pathRandom path (fill dataPat ["AI".toList, intStr n])
        = .ok (rowsOf fun i => (z (pathRandom.prngKey 0) i).1, rowsOf fun i => (z (pathRandom.prngKey 0) i).2) := by
      unfold sampleDist dataPat
      rw [recover _ _ (by decide) _ 1 rfl v2]
      have hg : Run.Dict.get [("Galaxy", g), ("AI", a), ("Waves", w), ("X", x)] (String.ofList "AI".toList) = some a := by
        rw [String.ofList_toList]
        simp [Run.Dict.get]
      simp only [h5, lift, hg, orRaise, pyInt_intStr, bind, Except.bind, Int.toNat_natCast]
      rw [hz _ a h2]
      rfl
    refine ⟨fun _ p _ N _ => .ok (List.replicate N (plainLatent p.concentration.length p.dim)),
      (List.replicate 800 (plainLatent (thePrior K (1 + 1)).concentration.length (1 + 1))).map (Latent.draw (1 / 1000000)), ?_,
      by rw [List.length_map, List.length_replicate]⟩
    unfold fitModel fitPat
    rw [recover _ _ (by decide) _ 2 rfl v3]
    simp only [hdata, bind, Except.bind, pyInt_intStr, orRaise, hstack_pair, lift]
    rw [if_neg (by omega)]
    have hd : ((List.ofFn fun i : Fin n => List.ofFn (z (pathRandom.prngKey 0) i).1 ++ List.ofFn (z (pathRandom.prngKey 0) i).2).headD []).length
        = 1 + 1 := by
      obtain ⟨m, rfl⟩ : ∃ m, n = m + 1 := ⟨n - 1, by omega⟩
      rw [List.ofFn_succ]
      simp
    rw [hd, Int.toNat_natCast, model_prior hK]
    rfl
  obtain ⟨nuts, samples, h1, h2⟩ := key 500 10 (by norm_num) (by norm_num)
  refine ⟨nuts, samples, h1, h2, ?_⟩
  have := approx_counts_back nuts pathRandom path _ _ _ h1 (j := 1) le_rfl (by omega)
  rw [h2] at this
  exact this

end BMI.Fitting
