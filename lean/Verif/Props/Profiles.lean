import Verif.Lemmas.ProfilesU
import Verif.Props.BimodalStrict

/-!
Property C72: figures that draw from Bend and Mix Models with the arguments of `sample` in the wrong order
(/repo/workflows/projects/Mixtures/distinct_profiles.smk, /repo/workflows/projects/Mixtures/pmi_plot_1v1.smk): they are never made;
what they would show with the arguments in the right order.
-/

namespace BMI.Profiles

open MeasureTheory ProbabilityTheory BMI.Samplers BMI.Bmm BMI.Student BMI.MixtureTasks BMI.Search BMI.Workflow BMI.Integration

variable {Key : Type} [MeasurableSpace Key] {T : Tfp Key} {κ : Measure Key}

/-! ## Drawing -/

/-- **C72**, negation: a key made of two numbers in the place of the number of points raises `ValueError`, whatever the
distribution, the number and the key. -/
theorem asWritten_fails {words : Key → List ℤ} (hw : ∀ k, (words k).length = 2) (J : JointDistribution Key) (n : ℤ) (k : Key) :
    asWritten words J n k = .error .valueError := by
  obtain ⟨a, b, h⟩ := List.length_eq_two.1 (hw k)
  simp [asWritten, callSample, Arg.lessThanOne, h, Truth.test, bind, Except.bind]

example : asWritten (fun k : ℕ => [0, (k : ℤ)]) (⟨⟨[2], fun _ n => List.replicate n [0, 0], fun _ => 0⟩,
    ⟨[1], fun _ n => List.replicate n [0], fun _ => 0⟩, ⟨[1], fun _ n => List.replicate n [0], fun _ => 0⟩, 1, 1, none⟩) 10 42
      = .error .valueError := asWritten_fails (fun _ => rfl) _ _ _

/-- **C72**: with the arguments in the order of the signature the points are those of `sample`. -/
theorem inOrder_eq (words : Key → List ℤ) (J : JointDistribution Key) (n : ℤ) (k : Key) : inOrder words J n k = J.sample n k := by
  unfold inOrder callSample
  simp only [Arg.lessThanOne, Truth.test, bind, Except.bind]
  by_cases h : n < 1
  · simp [h, JointDistribution.sample]
  · simp [h]

example (words : ℕ → List ℤ) : inOrder words (⟨⟨[2], fun _ n => List.replicate n [5, 6], fun _ => 0⟩,
    ⟨[1], fun _ n => List.replicate n [5], fun _ => 0⟩, ⟨[1], fun _ n => List.replicate n [6], fun _ => 0⟩, 1, 1, none⟩) 2 42
      = .ok ([[5], [5]], [[6], [6]]) := by
  rw [inOrder_eq]
  rfl

/-! ## The distributions -/

theorem pair_rows (c : ℝ) : [[(1.0 : ℝ), c], [c, 1.0]] = rowsOf (!![1, c; c, 1] : Matrix (Fin 2) (Fin 2) ℝ) := by
  simp [rowsOf, List.ofFn_succ]
  norm_num

theorem corr_lt : |correlation| < 1 := by
  unfold correlation
  norm_num [abs_lt]

/-- A normal pair. -/
theorem pair_ok (hT : IdealTfp T κ) (R₀ : JaxRandom Key) {c : ℝ} (hc : |c| < 1) : ∃ J,
    (∀ R : JaxRandom Key, multivariateNormalDistribution R T 1 1 (rowsOf (!![1, c; c, 1] : Matrix (Fin 2) (Fin 2) ℝ)) none = .ok J) ∧
    Consistent κ J Set.univ Set.univ (lawOfPair c) ∧ Tame J (lawOfPair c) ∧ ∀ x y, J.pmiAt [x] [y] = (normalPmi c x y : EReal) := by
  obtain ⟨J, h1, h2, h3⟩ := normal_component hT R₀ 1 1 one_pos one_pos 0 _ (pair_pos hc)
  have h := (normal_default R₀ T 1 1 _).trans h1
  exact ⟨J, fun R => (normal_indep R R₀ T _ _ _ _).trans h, h2, h3, normalPmi_eq hT R₀ hc h⟩

theorem list_pair (a b : ℝ) : [a, b] = List.ofFn ![a, b] := by simp

theorem posDef_diag {u v : ℝ} (hu : 0 < u) (hv : 0 < v) : (!![u, 0; 0, v] : Matrix (Fin 2) (Fin 2) ℝ).PosDef := by
  have := Matrix.PosDef.diagonal (d := ![u, v]) (fun i => by fin_cases i <;> assumption)
  convert this using 1
  ext i j
  fin_cases i <;> fin_cases j <;> rfl

/-- The mixture in the shape of the letter U. -/
theorem uShape_ok (hT : IdealTfp T κ) (R₀ : JaxRandom Key) : ∃ J, (∀ R : JaxRandom Key, uShape R T = .ok J) ∧
    Consistent κ J Set.univ Set.univ lawOfU ∧ Tame J lawOfU := by
  have hw : width = 1 / 5 := by norm_num [width]
  have d1 : diag [width, 1.0] = rowsOf (!![1 / 5, 0; 0, 1] : Matrix (Fin 2) (Fin 2) ℝ) := by
    rw [diag_pair, hw]
    simp [rowsOf, List.ofFn_succ]
    norm_num
  have d2 : diag [1.0, width] = rowsOf (!![1, 0; 0, 1 / 5] : Matrix (Fin 2) (Fin 2) ℝ) := by
    rw [diag_pair, hw]
    simp [rowsOf, List.ofFn_succ]
    norm_num
  obtain ⟨J1, a1, a2, a3⟩ := normal_component hT R₀ 1 1 one_pos one_pos ![-3, 0] _ (posDef_diag (u := 1 / 5) (v := 1) (by norm_num) one_pos)
  obtain ⟨J2, b1, b2, b3⟩ := normal_component hT R₀ 1 1 one_pos one_pos ![0, -3] _ (posDef_diag (u := 1) (v := 1 / 5) one_pos (by norm_num))
  obtain ⟨J3, c1, c2, c3⟩ := normal_component hT R₀ 1 1 one_pos one_pos ![3, 0] _ (posDef_diag (u := 1 / 5) (v := 1) (by norm_num) one_pos)
  have hC : ∀ j : Fin 3, Consistent κ ((![J1, J2, J3] : Fin 3 → JointDistribution Key) j) Set.univ Set.univ
      ((![component 1 1 ![-3, 0] !![1 / 5, 0; 0, 1], component 1 1 ![0, -3] !![1, 0; 0, 1 / 5],
        component 1 1 ![3, 0] !![1 / 5, 0; 0, 1]] : Fin 3 → Measure ((Fin 1 → ℝ) × (Fin 1 → ℝ))) j) := fun j => by
    fin_cases j <;> assumption
  have hTm : ∀ j : Fin 3, Tame ((![J1, J2, J3] : Fin 3 → JointDistribution Key) j)
      ((![component 1 1 ![-3, 0] !![1 / 5, 0; 0, 1], component 1 1 ![0, -3] !![1, 0; 0, 1 / 5],
        component 1 1 ![3, 0] !![1 / 5, 0; 0, 1]] : Fin 3 → Measure ((Fin 1 → ℝ) × (Fin 1 → ℝ))) j) := fun j => by
    fin_cases j <;> assumption
  obtain ⟨M, hM, -, hMC⟩ := mixture_consistent hT ![1 / 3, 1 / 3, 1 / 3] third_nonneg third_sum _ _ hC
  refine ⟨M, fun R => ?_, hMC, tame_mixture T third_nonneg third_sum hTm hM⟩
  have n : ∀ (cov : Arr) (m : Option (List ℝ)), multivariateNormalDistribution R T 1 1 cov m
      = multivariateNormalDistribution R₀ T 1 1 cov m := fun cov m => normal_indep R R₀ T 1 1 cov m
  have e1 : multivariateNormalDistribution R T 1 1 (diag [width, 1.0]) (some [-3, 0]) = .ok J1 := by
    rw [n, d1, list_pair]
    exact a1
  have e2 : multivariateNormalDistribution R T 1 1 (diag [1.0, width]) (some [0, -3]) = .ok J2 := by
    rw [n, d2, list_pair]
    exact b1
  have e3 : multivariateNormalDistribution R T 1 1 (diag [width, 1.0]) (some [3, 0]) = .ok J3 := by
    rw [n, d1, list_pair]
    exact c1
  have l1 : List.ofFn ![J1, J2, J3] = [J1, J2, J3] := by simp
  have l2 : List.ofFn (![1 / 3, 1 / 3, 1 / 3] : Fin 3 → ℝ) = [1 / 3, 1 / 3, 1 / 3] := by simp
  rw [l1, l2] at hM
  simp only [uShape, e1, e2, e3, bind, Except.bind]
  exact hM

/-! ## distinct_profiles.smk -/

/-- **C72**, negation: no file of the workflow of the distinct profiles is ever made, whatever the random numbers. -/
theorem figure_fails (hT : IdealTfp T κ) {words : Key → List ℤ} (hw : ∀ k, (words k).length = 2) (R : JaxRandom Key) :
    sampleNormal (asWritten words) R T = .error .valueError ∧ sampleUShape (asWritten words) R T = .error .valueError ∧
    figure (asWritten words) R T = .error .valueError := by
  obtain ⟨J, h1, -⟩ := pair_ok hT R corr_lt
  obtain ⟨U, h2, -⟩ := uShape_ok hT R
  have e1 : sampleNormal (asWritten words) R T = .error .valueError := by
    simp only [sampleNormal, bivariateNormal, pair_rows, h1 R, drawProfile, asWritten_fails hw, bind, Except.bind]
  have e2 : sampleUShape (asWritten words) R T = .error .valueError := by
    simp only [sampleUShape, h2 R, drawProfile, asWritten_fails hw, bind, Except.bind]
  refine ⟨e1, e2, ?_⟩
  simp only [figure, e1, bind, Except.bind]

example (R : JaxRandom PathKey) : figure (asWritten fun _ => [0, 0]) R path = .error .valueError :=
  (figure_fails path_ideal (fun _ => rfl) R).2.2

theorem nSamples_eq : nSamples = ((100000 : ℕ) : ℤ) := by norm_num [nSamples]

/-- Points and profile as functions of the key. -/
theorem drawProfile_draws {dx dy : ℕ} {P : Measure ((Fin dx → ℝ) × (Fin dy → ℝ))} {J : JointDistribution Key}
    (hJ : Consistent κ J Set.univ Set.univ P) {r : (Fin dx → ℝ) × (Fin dy → ℝ) → ℝ}
    (hr : ∀ x y, J.pmiAt (List.ofFn x) (List.ofFn y) = (r (x, y) : EReal)) (words : Key → List ℤ) {n : ℕ} (hn : nSamples = (n : ℤ))
    (hpos : 0 < n) :
    ∃ f : Key → Npz, (∀ R : JaxRandom Key, drawProfile (inOrder words) R J = .ok (f (R.prngKey 0))) ∧
      DrawsWith κ n P r (fun k => (f k).samples) fun k => (f k).pmiProfile := by
  obtain ⟨z, hz, hs⟩ := sample_draws hJ n hpos
  refine ⟨fun k => ⟨List.ofFn fun i => (List.ofFn (z k i).1, List.ofFn (z k i).2), List.ofFn fun i => ((r (z k i) : ℝ) : EReal)⟩,
    fun R => ?_, z, hz, fun k => ⟨rfl, rfl⟩⟩
  have hpmi : J.pmi (rowsOf fun i => (z (R.prngKey 0) i).1) (rowsOf fun i => (z (R.prngKey 0) i).2)
      = .ok (List.ofFn fun i => ((r (z (R.prngKey 0) i) : ℝ) : EReal)) := by
    unfold JointDistribution.pmi
    rw [if_pos (by simp [rowsOf]), rowsOf, rowsOf, zipWith_ofFn]
    simp only [hr]
  unfold drawProfile
  rw [inOrder_eq, hn, hs]
  simp only [bind, Except.bind, hpmi]
  rw [rowsOf, rowsOf, List.zip, zipWith_ofFn]

theorem measurable_normalPmi (ρ : ℝ) : Measurable fun z : (Fin 1 → ℝ) × (Fin 1 → ℝ) => normalPmi ρ (z.1 0) (z.2 0) := by
  unfold normalPmi
  fun_prop

/-- The profile of a normal pair. -/
theorem lawOfPair_spec (hT : IdealTfp T κ) (R₀ : JaxRandom Key) {c : ℝ} (hc : |c| < 1) :
    IsProbabilityMeasure (lawOfPair c) ∧ IsLogRatio (lawOfPair c) (fun z => normalPmi c (z.1 0) (z.2 0)) ∧
    mutualInfo (lawOfPair c) = ENNReal.ofReal (-(1 / 2) * Real.log (1 - c ^ 2)) ∧ 0 ≤ -(1 / 2) * Real.log (1 - c ^ 2) := by
  obtain ⟨J, -, h2, h3, h4⟩ := pair_ok hT R₀ hc
  refine ⟨h2.prob, ?_, ?_⟩
  · unfold IsLogRatio
    refine (pmi_density h2).1.trans ?_
    congr 1
    funext z
    have e : ∀ v : Fin 1 → ℝ, List.ofFn v = [v 0] := fun v => by simp
    rw [e, e, h4, EReal.exp_coe]
  · unfold lawOfPair
    rw [unit_pair]
    exact pair_mi one_pos one_pos hc _

/-- The image of points under functions of the two coordinates. -/
theorem drawsWith_image {n : ℕ} {P : Measure ((Fin 1 → ℝ) × (Fin 1 → ℝ))} {r r' : (Fin 1 → ℝ) × (Fin 1 → ℝ) → ℝ}
    {f : Key → Npz} (h : DrawsWith κ n P r (fun k => (f k).samples) fun k => (f k).pmiProfile) {qx qy : ℝ → ℝ}
    (hx : Measurable qx) (hy : Measurable qy) [IsProbabilityMeasure P]
    (hr : ∀ z, r' (fun _ => qx (normalCdf (z.1 0)), fun _ => qy (normalCdf (z.2 0))) = r z) :
    DrawsWith κ n (P.map (Prod.map (fun x _ => qx (normalCdf (x 0))) fun y _ => qy (normalCdf (y 0)))) r'
      (fun k => (transformNormal qx qy (f k)).samples) fun k => (transformNormal qx qy (f k)).pmiProfile := by
  obtain ⟨z, hz, hs⟩ := h
  have hN : Measurable normalCdf := by
    rw [show normalCdf = cdf (gaussianReal 0 1) from funext normalCdf_eq_cdf]
    exact (cdf (gaussianReal 0 1)).mono.measurable
  have hm : Measurable (Prod.map (fun (x : Fin 1 → ℝ) (_ : Fin 1) => qx (normalCdf (x 0)))
      fun (y : Fin 1 → ℝ) (_ : Fin 1) => qy (normalCdf (y 0))) :=
    (measurable_pi_lambda _ fun _ => hx.comp (hN.comp (measurable_pi_apply 0))).prodMap
      (measurable_pi_lambda _ fun _ => hy.comp (hN.comp (measurable_pi_apply 0)))
  refine ⟨fun k i => Prod.map (fun x _ => qx (normalCdf (x 0))) (fun y _ => qy (normalCdf (y 0))) (z k i), ?_, fun k => ?_⟩
  · have := measurePreserving_pi (fun _ : Fin n => P) (fun _ => P.map _) fun i => hm.measurePreserving P
    exact this.comp hz
  · obtain ⟨h1, h2⟩ := hs k
    unfold transformNormal
    simp only [h1, h2]
    refine ⟨?_, ?_⟩
    · rw [List.map_ofFn]
      congr 1
    · congr 1
      funext i
      rw [← hr (z k i)]
      rfl

/-- The numerical inverse functions. -/
theorem icdf_facts (F : ℝ → ℝ) : Measurable (icdf F) ∧ (Set.range (icdf F)).Finite := by
  have e := fun u => invertMono_terminates_real F (-100.0) 100.0 1e-4 u (by norm_num)
  refine ⟨Monotone.measurable fun u v huv => ?_, ?_⟩
  · obtain ⟨x, hx⟩ := e u
    obtain ⟨y, hy⟩ := e v
    have := invertMono_mono F (-100.0) 100.0 1e-4 u v x y (by norm_num) (by norm_num) huv hx hy
    unfold icdf
    rw [hx, hy]
    exact this
  · refine (invertMono_finite F (-100.0) 100.0 1e-4 (by norm_num)).subset ?_
    rintro _ ⟨u, rfl⟩
    obtain ⟨x, hx⟩ := e u
    refine ⟨u, ?_⟩
    unfold icdf
    rw [hx]
    rfl

theorem niceCdf_normal : NiceCdf normalCdf := by
  have := niceCdf_mixture (1 / 2) 0 0 (by norm_num) (by norm_num)
  convert this using 2 with x
  rw [add_zero]
  ring

/-- Exact inverse functions. -/
theorem images_exact {f : Key → Npz} {n : ℕ} {c : ℝ} (hc1 : |c| < 1) (hT : IdealTfp T κ) (R₀ : JaxRandom Key)
    (f2 : DrawsWith κ n (lawOfPair c) (fun z => normalPmi c (z.1 0) (z.2 0)) (fun k => (f k).samples) (fun k => (f k).pmiProfile))
    {qx qy : ℝ → ℝ} (hqx : Measurable qx) (hqy : Measurable qy) (ex : ∀ x, qx (cdfX x) = x) (ey : ∀ y, qy (cdfY y) = y) :
    ∃ (P : Measure ((Fin 1 → ℝ) × (Fin 1 → ℝ))) (r : (Fin 1 → ℝ) × (Fin 1 → ℝ) → ℝ), IsLogRatio P r ∧
      mutualInfo P = mutualInfo (lawOfPair c) ∧
      (∀ t, P.fst {x | x 0 ≤ t} = ENNReal.ofReal (cdfX t)) ∧ (∀ t, P.snd {y | y 0 ≤ t} = ENNReal.ofReal (cdfY t)) ∧
      DrawsWith κ n P r (fun k => (transformNormal qx qy (f k)).samples) fun k => (transformNormal qx qy (f k)).pmiProfile := by
  obtain ⟨hp, hratio, hmi, -⟩ := lawOfPair_spec hT R₀ hc1
  have hN : Measurable normalCdf := niceCdf_normal.cont.measurable
  have hnx : NiceCdf cdfX := niceCdf_x
  have hny : NiceCdf cdfY := niceCdf_y
  obtain ⟨g, hg, eg⟩ := exists_inverse niceCdf_normal
  have mf : ∀ q : ℝ → ℝ, Measurable q → Measurable fun (x : Fin 1 → ℝ) (_ : Fin 1) => q (normalCdf (x 0)) := fun q hq =>
    measurable_pi_lambda _ fun _ => hq.comp (hN.comp (measurable_pi_apply 0))
  have mb : ∀ F : ℝ → ℝ, Measurable F → Measurable fun (x : Fin 1 → ℝ) (_ : Fin 1) => g (F (x 0)) := fun F hF =>
    measurable_pi_lambda _ fun _ => hg.comp (hF.comp (measurable_pi_apply 0))
  have inv : ∀ {F q : ℝ → ℝ}, NiceCdf F → (∀ x, q (F x) = x) → ∀ x, F (q (normalCdf x)) = normalCdf x := by
    intro F q hF hq x
    obtain ⟨t, ht⟩ := hF.surj (niceCdf_normal.pos x) (niceCdf_normal.lt_one x)
    rw [← ht, hq]
  have cx : ∀ x : Fin 1 → ℝ, (fun (_ : Fin 1) => g (cdfX (qx (normalCdf (x 0))))) = x := fun x => by
    funext i
    rw [inv hnx ex, eg, Subsingleton.elim i 0]
  have cy : ∀ y : Fin 1 → ℝ, (fun (_ : Fin 1) => g (cdfY (qy (normalCdf (y 0))))) = y := fun y => by
    funext i
    rw [inv hny ey, eg, Subsingleton.elim i 0]
  have hmarg : ∀ {F q : ℝ → ℝ}, NiceCdf F → Measurable q → (∀ x, q (F x) = x) → ∀ (μ : Measure (Fin 1 → ℝ)),
      μ = normalLaw 0 1 → ∀ t, (μ.map fun x (_ : Fin 1) => q (normalCdf (x 0))) {x | x 0 ≤ t} = ENNReal.ofReal (F t) := by
    intro F q hF hq hinv μ hμ t
    have hset : MeasurableSet {x : Fin 1 → ℝ | x 0 ≤ t} := measurableSet_le (measurable_pi_apply 0) measurable_const
    rw [Measure.map_apply (mf q hq) hset]
    obtain ⟨s, hs⟩ := niceCdf_normal.surj (hF.pos t) (hF.lt_one t)
    have e : (fun (x : Fin 1 → ℝ) (_ : Fin 1) => q (normalCdf (x 0))) ⁻¹' {x | x 0 ≤ t} = (fun x => x 0) ⁻¹' Set.Iic s := by
      ext x
      simp only [Set.mem_preimage, Set.mem_setOf_eq, Set.mem_Iic]
      rw [← hF.mono.le_iff_le, inv hF hinv, ← hs, niceCdf_normal.mono.le_iff_le]
    rw [e, hμ, stdNormal_eq]
    have hev := (measurePreserving_eval (fun _ : Fin 1 => gaussianReal 0 1) 0)
    have h5 : (stdNormal 1) ((fun x : Fin 1 → ℝ => x 0) ⁻¹' Set.Iic s) = gaussianReal 0 1 (Set.Iic s) :=
      hev.measure_preimage measurableSet_Iic.nullMeasurableSet
    rw [h5, ← hs, normalCdf_eq_cdf, ofReal_cdf]
  have hpos := (pair_pos hc1).posSemidef
  have hfst : (lawOfPair c).fst = normalLaw 0 1 := by
    refine (splitNormal_fst (dx := 1) (dy := 1) 0 hpos).trans ?_
    congr 1
    ext a b
    rw [Subsingleton.elim a 0, Subsingleton.elim b 0]
    rfl
  have hsnd : (lawOfPair c).snd = normalLaw 0 1 := by
    refine (splitNormal_snd (dx := 1) (dy := 1) 0 hpos).trans ?_
    congr 1
    ext a b
    rw [Subsingleton.elim a 0, Subsingleton.elim b 0]
    rfl
  refine ⟨(lawOfPair c).map (Prod.map (fun x _ => qx (normalCdf (x 0))) fun y _ => qy (normalCdf (y 0))),
    fun w => normalPmi c (g (cdfX (w.1 0))) (g (cdfY (w.2 0))), ?_, ?_, fun t => ?_, fun t => ?_, ?_⟩
  · have := IsLogRatio.map (measurable_normalPmi c) hratio (mf qx hqx) (mf qy hqy)
      (f' := fun x (_ : Fin 1) => g (cdfX (x 0))) (g' := fun y (_ : Fin 1) => g (cdfY (y 0)))
      (mb cdfX hnx.cont.measurable) (mb cdfY hny.cont.measurable) cx cy
    exact this
  · exact mutualInfo_map_eq_of_leftInverse _ (mf qx hqx) (mf qy hqy)
      (f' := fun x (_ : Fin 1) => g (cdfX (x 0))) (g' := fun y (_ : Fin 1) => g (cdfY (y 0)))
      (mb cdfX hnx.cont.measurable) (mb cdfY hny.cont.measurable) (.of_forall cx) (.of_forall cy)
  · rw [map_fst_prodMap _ (mf qx hqx) (mf qy hqy)]
    exact hmarg hnx hqx ex _ hfst t
  · rw [map_snd_prodMap _ (mf qx hqx) (mf qy hqy)]
    exact hmarg hny hqy ey _ hsnd t
  · refine drawsWith_image f2 hqx hqy fun z => ?_
    have a1 := congrFun (cx z.1) 0
    have a2 := congrFun (cy z.2) 0
    simp only at a1 a2 ⊢
    rw [a1, a2]

/-- Numerical inverse functions. -/
theorem images_numeric {f : Key → Npz} {n : ℕ} {c : ℝ} (hc0 : c ≠ 0) (hc1 : |c| < 1) (hT : IdealTfp T κ) (R₀ : JaxRandom Key)
    (f2 : DrawsWith κ n (lawOfPair c) (fun z => normalPmi c (z.1 0) (z.2 0)) (fun k => (f k).samples) (fun k => (f k).pmiProfile)) :
    ∃ Q : Measure ((Fin 1 → ℝ) × (Fin 1 → ℝ)), IsProbabilityMeasure Q ∧ mutualInfo Q < mutualInfo (lawOfPair c) ∧
      (∃ z : Key → Fin n → (Fin 1 → ℝ) × (Fin 1 → ℝ), MeasurePreserving z κ (Measure.pi fun _ => Q) ∧
        ∀ k, (sampleTransformedNormal (f k)).samples = List.ofFn fun i => (List.ofFn (z k i).1, List.ofFn (z k i).2)) ∧
      ∀ k, (sampleTransformedNormal (f k)).pmiProfile = (f k).pmiProfile := by
  obtain ⟨hp, -⟩ := lawOfPair_spec hT R₀ hc1
  have hN : Measurable normalCdf := niceCdf_normal.cont.measurable
  obtain ⟨mx, rx⟩ := icdf_facts cdfX
  obtain ⟨my, ry⟩ := icdf_facts cdfY
  have mf : ∀ q : ℝ → ℝ, Measurable q → Measurable fun (x : Fin 1 → ℝ) (_ : Fin 1) => q (normalCdf (x 0)) := fun q hq =>
    measurable_pi_lambda _ fun _ => hq.comp (hN.comp (measurable_pi_apply 0))
  have rf : ∀ q : ℝ → ℝ, (Set.range q).Finite →
      (Set.range fun (x : Fin 1 → ℝ) (_ : Fin 1) => q (normalCdf (x 0))).Countable := fun q hq => by
    refine ((hq.image fun (x : ℝ) (_ : Fin 1) => x).subset ?_).countable
    rintro _ ⟨x, rfl⟩
    exact ⟨_, ⟨_, rfl⟩, rfl⟩
  have hbi : lawOfPair c = splitNormal 1 1 ![0, 0] (bivariateCov c 1 1) := by
    unfold lawOfPair
    rw [component_eq]
    congr 1
    · ext i
      fin_cases i <;> rfl
    · unfold bivariateCov
      ext i j
      fin_cases i <;> fin_cases j <;> simp
  have hlt := binormal_map_lt c (abs_lt.1 hc1).1 (abs_lt.1 hc1).2 hc0 (mf _ mx) (mf _ my) (rf _ rx) (rf _ ry)
  rw [← hbi] at hlt
  have f3 : DrawsWith κ n (lawOfPair c) (fun _ => 0)
      (fun k => ((⟨(f k).samples, List.ofFn fun _ : Fin n => ((0 : ℝ) : EReal)⟩ : Npz)).samples)
      (fun k => ((⟨(f k).samples, List.ofFn fun _ : Fin n => ((0 : ℝ) : EReal)⟩ : Npz)).pmiProfile) := by
    obtain ⟨z, hz, hs⟩ := f2
    exact ⟨z, hz, fun k => ⟨(hs k).1, rfl⟩⟩
  obtain ⟨z, hz, hs⟩ := drawsWith_image (r' := fun _ => 0) f3 mx my fun _ => rfl
  exact ⟨_, Measure.isProbabilityMeasure_map ((mf _ mx).prodMap (mf _ my)).aemeasurable, hlt, ⟨z, hz, fun k => (hs k).1⟩,
    fun k => rfl⟩

/-- **C72**, first and second panel, with the arguments in order: the first rule saves 100000 independent points of the normal pair
with correlation 0.805 and the logarithms of the density ratio there; the second rule saves the images of these points with the same
numbers.  With exact inverse functions the images have the two mixtures as marginals, and the numbers are the logarithms of the
density ratio of the images; with the numerical inverse functions the mutual information of the images is strictly smaller than the
mean of the numbers. -/
theorem normal_partial (hT : IdealTfp T κ) (R₀ : JaxRandom Key) (words : Key → List ℤ) : ∃ f : Key → Npz,
    (∀ R : JaxRandom Key, sampleNormal (inOrder words) R T = .ok (f (R.prngKey 0))) ∧
    DrawsWith κ 100000 (lawOfPair 0.805) (fun z => normalPmi 0.805 (z.1 0) (z.2 0)) (fun k => (f k).samples)
      (fun k => (f k).pmiProfile) ∧
    IsLogRatio (lawOfPair 0.805) (fun z => normalPmi 0.805 (z.1 0) (z.2 0)) ∧
    mutualInfo (lawOfPair 0.805) = ENNReal.ofReal (-(1 / 2) * Real.log (1 - 0.805 ^ 2)) ∧
    (∀ qx qy : ℝ → ℝ, Measurable qx → Measurable qy → (∀ x, qx (cdfX x) = x) → (∀ y, qy (cdfY y) = y) →
      ∃ (P : Measure ((Fin 1 → ℝ) × (Fin 1 → ℝ))) (r : (Fin 1 → ℝ) × (Fin 1 → ℝ) → ℝ), IsLogRatio P r ∧
        mutualInfo P = mutualInfo (lawOfPair 0.805) ∧
        (∀ t, P.fst {x | x 0 ≤ t} = ENNReal.ofReal (cdfX t)) ∧ (∀ t, P.snd {y | y 0 ≤ t} = ENNReal.ofReal (cdfY t)) ∧
        DrawsWith κ 100000 P r (fun k => (transformNormal qx qy (f k)).samples) fun k => (transformNormal qx qy (f k)).pmiProfile) ∧
    ∃ Q : Measure ((Fin 1 → ℝ) × (Fin 1 → ℝ)), IsProbabilityMeasure Q ∧ mutualInfo Q < mutualInfo (lawOfPair 0.805) ∧
      (∃ z : Key → Fin 100000 → (Fin 1 → ℝ) × (Fin 1 → ℝ), MeasurePreserving z κ (Measure.pi fun _ => Q) ∧
        ∀ k, (sampleTransformedNormal (f k)).samples = List.ofFn fun i => (List.ofFn (z k i).1, List.ofFn (z k i).2)) ∧
      ∀ k, (sampleTransformedNormal (f k)).pmiProfile = (f k).pmiProfile := by
  have hc1 : |(0.805 : ℝ)| < 1 := corr_lt
  obtain ⟨J, h1, h2, -, h4⟩ := pair_ok hT R₀ hc1
  obtain ⟨hp, hratio, hmi, -⟩ := lawOfPair_spec hT R₀ hc1
  have el : ∀ v : Fin 1 → ℝ, List.ofFn v = [v 0] := fun v => by simp
  obtain ⟨f, f1, f2⟩ := drawProfile_draws h2 (r := fun z => normalPmi 0.805 (z.1 0) (z.2 0))
    (fun x y => by rw [el, el, h4]) words nSamples_eq (by norm_num)
  refine ⟨f, fun R => ?_, f2, hratio, hmi, fun qx qy hqx hqy ex ey => images_exact hc1 hT R₀ f2 hqx hqy ex ey,
    images_numeric (by norm_num) hc1 hT R₀ f2⟩
  have e : bivariateNormal R T = .ok J := by
    unfold bivariateNormal
    rw [pair_rows]
    exact h1 R
  simp only [sampleNormal, e, bind, Except.bind]
  exact f1 R

/-- **C72**, third panel, with the arguments in order: the rule saves 100000 independent points of the U shape and the logarithms of
the density ratio there; the mutual information is positive and at most `log 2`. -/
theorem uShape_partial (hT : IdealTfp T κ) (R₀ : JaxRandom Key) (words : Key → List ℤ) :
    ∃ (g : Key → Npz) (r : (Fin 1 → ℝ) × (Fin 1 → ℝ) → ℝ),
    (∀ R : JaxRandom Key, sampleUShape (inOrder words) R T = .ok (g (R.prngKey 0))) ∧
    DrawsWith κ 100000 lawOfU r (fun k => (g k).samples) (fun k => (g k).pmiProfile) ∧ IsLogRatio lawOfU r ∧
    0 < mutualInfo lawOfU ∧ mutualInfo lawOfU ≤ ENNReal.ofReal (Real.log 2) := by
  obtain ⟨J, h1, h2, h3⟩ := uShape_ok hT R₀
  obtain ⟨hp, hfin⟩ := pmi_of_tame h2 h3
  obtain ⟨g, g1, g2⟩ := drawProfile_draws h2 (r := fun z => pmiOf J (List.ofFn z.1) (List.ofFn z.2)) (fun x y => hfin x y) words nSamples_eq (by norm_num)
  refine ⟨g, _, fun R => ?_, g2, hp.density, lawOfU_pos, lawOfU_le⟩
  simp only [sampleUShape, h1 R, bind, Except.bind]
  exact g1 R

/-- **C72**, the mean of a saved profile is an unbiased estimate of the mutual information. -/
theorem profile_mean (hκ : IsProbabilityMeasure κ) {n : ℕ} (hn : 0 < n) {dx dy : ℕ} {P : Measure ((Fin dx → ℝ) × (Fin dy → ℝ))} [IsProbabilityMeasure P]
    {r : (Fin dx → ℝ) × (Fin dy → ℝ) → ℝ} (hr : IsLogRatio P r) (hm : Measurable r) (hfin : mutualInfo P ≠ ⊤)
    {points : Key → List (List ℝ × List ℝ)} {numbers : Key → List EReal} (h : DrawsWith κ n P r points numbers) :
    ∃ v : Key → ℝ, (∀ k, Bmm.mean (numbers k) = (v k : EReal)) ∧ Integrable v κ ∧ ∫ k, v k ∂κ = (mutualInfo P).toReal := by
  obtain ⟨z, hz, hs⟩ := h
  have hw : AEMeasurable (fun z => (((r z : ℝ) : EReal)).exp) (P.fst.prod P.snd) := by
    simp only [EReal.exp_coe]
    exact (Real.measurable_exp.comp hm).ennreal_ofReal.aemeasurable
  obtain ⟨-, h2, h3⟩ := mutualInfo_of_log P (fun z => ((r z : ℝ) : EReal)) hw (by
    simp only [EReal.exp_coe]
    exact hr)
  simp only [EReal.toReal_coe] at h2 h3
  obtain ⟨i1, i2⟩ := mean_draws P (h2.1 hfin) n hn
  refine ⟨fun k => (∑ i, r (z k i)) / n, fun k => ?_, hz.integrable_comp_of_integrable i1, ?_⟩
  · rw [(hs k).2]
    exact Neural.mean_ofFn _
  · have e := integral_map (μ := κ) hz.measurable.aemeasurable (f := fun w => (∑ i, r (w i)) / n) (by
      rw [hz.map_eq]
      exact i1.1)
    rw [hz.map_eq] at e
    rw [← e, i2, (h3 hfin).1, ENNReal.toReal_ofReal (h3 hfin).2]

/-- **C72**, the figure with the arguments in order: it is made exactly if the means of the two profiles, which are numbers, differ
by at most 0.01; then the line is at the mean of the first profile and each panel shows the first 10000 points. -/
theorem figure_partial (hT : IdealTfp T κ) (R₀ : JaxRandom Key) (words : Key → List ℤ) : ∃ (f g : Key → Npz) (v w : Key → ℝ),
    (∀ R : JaxRandom Key, sampleNormal (inOrder words) R T = .ok (f (R.prngKey 0)) ∧
      sampleUShape (inOrder words) R T = .ok (g (R.prngKey 0))) ∧
    (∀ k, Bmm.mean (f k).pmiProfile = (v k : EReal) ∧ Bmm.mean (g k).pmiProfile = (w k : EReal)) ∧
    ∫ k, v k ∂κ = -(1 / 2) * Real.log (1 - 0.805 ^ 2) ∧ ∫ k, w k ∂κ = (mutualInfo lawOfU).toReal ∧
    ∀ R : JaxRandom Key,
      (0.01 < |v (R.prngKey 0) - w (R.prngKey 0)| → figure (inOrder words) R T = .error .valueError) ∧
      (|v (R.prngKey 0) - w (R.prngKey 0)| ≤ 0.01 → figure (inOrder words) R T = .ok
        ⟨(f (R.prngKey 0)).samples.take 10000, (sampleTransformedNormal (f (R.prngKey 0))).samples.take 10000,
          (g (R.prngKey 0)).samples.take 10000, (f (R.prngKey 0)).pmiProfile, (g (R.prngKey 0)).pmiProfile, v (R.prngKey 0)⟩) := by
  haveI := hT.prob
  obtain ⟨f, f1, f2, f3, f4, -⟩ := normal_partial hT R₀ words
  obtain ⟨J, h1, h2, h3⟩ := uShape_ok hT R₀
  obtain ⟨hp, hfin⟩ := pmi_of_tame h2 h3
  obtain ⟨g, g1, g2⟩ := drawProfile_draws h2 (r := fun z => pmiOf J (List.ofFn z.1) (List.ofFn z.2)) (fun x y => hfin x y) words nSamples_eq (by norm_num)
  obtain ⟨q1, q2, q3, q4⟩ := lawOfPair_spec hT R₀ (c := 0.805) (by norm_num [abs_lt])
  obtain ⟨v, v1, -, v2⟩ := profile_mean hT.prob (by norm_num) f3 (measurable_normalPmi _) (by rw [f4]; exact ENNReal.ofReal_ne_top) f2
  obtain ⟨zu, hzu, hsu⟩ := g2
  obtain ⟨i1, i2⟩ := mean_draws lawOfU hp.joint 100000 (by norm_num)
  have w1 : ∀ k, Bmm.mean (g k).pmiProfile = (((∑ i, pmiOf J (List.ofFn (zu k i).1) (List.ofFn (zu k i).2)) / (100000 : ℕ) : ℝ) : EReal) :=
    fun k => by
      have := (hsu k).2
      simp only at this
      rw [this]
      exact Neural.mean_ofFn _
  refine ⟨f, g, v, fun k => (∑ i, pmiOf J (List.ofFn (zu k i).1) (List.ofFn (zu k i).2)) / (100000 : ℕ), fun R => ⟨f1 R, ?_⟩,
    fun k => ⟨v1 k, w1 k⟩, ?_, ?_, fun R => ?_⟩
  · simp only [sampleUShape, h1 R, bind, Except.bind]
    exact g1 R
  · rw [v2, f4, ENNReal.toReal_ofReal q4]
  · have e := integral_map (μ := κ) hzu.measurable.aemeasurable
      (f := fun w => (∑ i, pmiOf J (List.ofFn (w i).1) (List.ofFn (w i).2)) / (100000 : ℕ)) (by
      rw [hzu.map_eq]
      exact i1.1)
    rw [hzu.map_eq] at e
    rw [← e, i2, hp.info.2]
  · set k := R.prngKey 0
    have hfig : figure (inOrder words) R T = plotSamples (f k) (sampleTransformedNormal (f k)) (g k) := by
      simp only [figure, f1 R, sampleUShape, h1 R, g1 R, bind, Except.bind]
      rfl
    rw [hfig]
    unfold plotSamples
    simp only [v1 k, w1 k]
    set b := (∑ i, pmiOf J (List.ofFn (zu k i).1) (List.ofFn (zu k i).2)) / ((100000 : ℕ) : ℝ)
    have hiff : (((0.01 : ℝ) : EReal) < (v k : EReal) - b ∨ ((0.01 : ℝ) : EReal) < (b : EReal) - v k) ↔ 0.01 < |v k - b| := by
      rw [lt_abs, neg_sub, ← EReal.coe_sub, ← EReal.coe_sub, EReal.coe_lt_coe_iff, EReal.coe_lt_coe_iff]
    refine ⟨fun h => if_pos (hiff.2 h), fun h => if_neg fun h' => ?_⟩
    exact absurd (hiff.1 h') (not_lt.2 h)

/-- The inverse functions that the second panel stands for exist. -/
example (R : JaxRandom PathKey) : ∃ qx qy : ℝ → ℝ, Measurable qx ∧ Measurable qy ∧ (∀ x, qx (cdfX x) = x) ∧ ∀ y, qy (cdfY y) = y := by
  obtain ⟨qx, h1, h2⟩ := exists_inverse niceCdf_x
  obtain ⟨qy, h3, h4⟩ := exists_inverse niceCdf_y
  exact ⟨qx, qy, h1, h3, h2, h4⟩

example : ∃ f g : PathKey → Npz, ∀ R : JaxRandom PathKey, sampleNormal (inOrder fun _ => [0, 0]) R path = .ok (f (R.prngKey 0)) ∧
    sampleUShape (inOrder fun _ => [0, 0]) R path = .ok (g (R.prngKey 0)) := by
  obtain ⟨f, g, v, w, h, -⟩ := figure_partial path_ideal pathRandom fun _ => [0, 0]
  exact ⟨f, g, h⟩

end BMI.Profiles
