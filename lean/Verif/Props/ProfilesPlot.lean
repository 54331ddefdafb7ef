import Verif.Props.Profiles
import Verif.Lemmas.Workflow

/-!
Property C72, second part: the images of the pointwise mutual information of distributions in the plane
(/repo/workflows/projects/Mixtures/pmi_plot_1v1.smk).
-/

namespace BMI.Profiles

open MeasureTheory ProbabilityTheory BMI.Samplers BMI.Bmm BMI.Student BMI.MixtureTasks BMI.Search BMI.Workflow BMI.Integration

variable {Key State : Type} [MeasurableSpace Key] {T : Tfp Key} {κ : Measure Key}

/-- The logarithm of the density of a mixture. -/
theorem mixture_log (T : Tfp Key) {m : ℕ} {p : Fin m → ℝ} (hp : ∀ j, 0 ≤ p j) (D : Fin m → Bmm.Dist Key) (z : List ℝ) {l : Fin m → ℝ}
    (hl : ∀ j, (D j).logProb z = (l j : EReal)) (hs : 0 < ∑ j, p j * Real.exp (l j)) :
    (tfdMixture T (List.ofFn p) (List.ofFn D)).logProb z = ((Real.log (∑ j, p j * Real.exp (l j)) : ℝ) : EReal) := by
  have h := congrArg ENNReal.log (mixture_exp T p D z)
  rw [EReal.log_exp] at h
  rw [h]
  have e : ∑ j, ENNReal.ofReal (p j) * ((D j).logProb z).exp = ENNReal.ofReal (∑ j, p j * Real.exp (l j)) := by
    rw [ENNReal.ofReal_sum_of_nonneg fun j _ => mul_nonneg (hp j) (Real.exp_pos _).le]
    refine Finset.sum_congr rfl fun j _ => ?_
    rw [hl, EReal.exp_coe, ENNReal.ofReal_mul (hp j)]
  rw [e, ENNReal.log_ofReal_of_pos hs]

theorem student_indep {State' : Type} (R R' : JaxRandom Key) (N : NpRandom State) (N' : NpRandom State') (T : Tfp Key) (dimX dimY : ℤ)
    (df : ℝ) (cov : Arr) (mean : Option (List ℝ)) :
    multivariateStudentDistribution R N T dimX dimY df cov mean = multivariateStudentDistribution R' N' T dimX dimY df cov mean := by
  unfold multivariateStudentDistribution
  by_cases h : mean.isNone ∧ dimX + dimY < 0
  · rw [if_pos h, if_pos h]
  · rw [if_neg h, if_neg h]
    have := Outliers.split_number R R' dimX dimY cov (some (mean.getD (List.replicate (dimX + dimY).toNat 0)))
    unfold splitStudentT
    simp only [bind, Except.bind, Option.getD_some]
    cases validateDimensions dimX dimY with
    | error e => rfl
    | ok u =>
      simp only
      revert this
      cases splitMultinormal R dimX dimY cov (some (mean.getD (List.replicate (dimX + dimY).toNat 0))) <;>
        cases splitMultinormal R' dimX dimY cov (some (mean.getD (List.replicate (dimX + dimY).toNat 0)))
      · simp [Except.map]
      · simp [Except.map]
      · simp [Except.map]
      · intro h
        simp only [Except.map, Except.ok.injEq] at h
        simp only [h]
        cases checkDf realFns df <;> rfl

theorem student_default (R : JaxRandom Key) (N : NpRandom State) (T : Tfp Key) (dx dy : ℕ) (df : ℝ) (cov : Arr) :
    multivariateStudentDistribution R N T dx dy df cov none
      = multivariateStudentDistribution R N T dx dy df cov (some (List.ofFn (0 : Fin (dx + dy) → ℝ))) := by
  have e : List.replicate ((dx : ℤ) + dy).toNat (0 : ℝ) = List.ofFn (0 : Fin (dx + dy) → ℝ) := by
    show _ = List.ofFn fun _ => (0 : ℝ)
    rw [List.ofFn_const]
    congr 1
  unfold multivariateStudentDistribution
  rw [if_neg (by simp; omega), if_neg (by simp), Option.getD_none, Option.getD_some, e]

theorem shift_undoes (c : ℝ) (r : List ℝ) : Undoes (shift c) r := by
  refine ⟨by simp [shift], ?_⟩
  simp [shift, List.map_map, Function.comp_def]

/-- The mixture of four balls at the corners of a square. -/
theorem square_ok (hT : IdealTfp T κ) (R₀ : JaxRandom Key) : ∃ (c1 c2 c3 c4 M : JointDistribution Key),
    (∀ R : JaxRandom Key,
      multivariateNormalDistribution R T 1 1 (rowsOf ((0.5 : ℝ) • (1 : Matrix (Fin 2) (Fin 2) ℝ))) (some [-1, 1]) = .ok c1 ∧
      multivariateNormalDistribution R T 1 1 (rowsOf ((0.5 : ℝ) • (1 : Matrix (Fin 2) (Fin 2) ℝ))) (some [1, 1]) = .ok c2 ∧
      multivariateNormalDistribution R T 1 1 (rowsOf ((0.5 : ℝ) • (1 : Matrix (Fin 2) (Fin 2) ℝ))) (some [1, -1]) = .ok c3 ∧
      multivariateNormalDistribution R T 1 1 (rowsOf ((0.5 : ℝ) • (1 : Matrix (Fin 2) (Fin 2) ℝ))) (some [-1, -1]) = .ok c4) ∧
    mixture T [0.25, 0.25, 0.25, 0.25] [c1, c2, c3, c4] = .ok M ∧ (∀ x y, M.pmiAt [x] [y] = 0) ∧
    ∃ P : Measure ((Fin 1 → ℝ) × (Fin 1 → ℝ)), Consistent κ M Set.univ Set.univ P ∧ mutualInfo P = 0 := by
  have hpos : ((0.5 : ℝ) • (1 : Matrix (Fin 2) (Fin 2) ℝ)).PosDef := by
    rw [Matrix.smul_one_eq_diagonal]
    exact Matrix.PosDef.diagonal fun _ => by norm_num
  obtain ⟨J1, a1, a2, -⟩ := normal_component hT R₀ 1 1 one_pos one_pos ![-1, 1] _ hpos
  obtain ⟨J2, b1, b2, -⟩ := normal_component hT R₀ 1 1 one_pos one_pos ![1, 1] _ hpos
  obtain ⟨J3, c1, c2, -⟩ := normal_component hT R₀ 1 1 one_pos one_pos ![1, -1] _ hpos
  obtain ⟨J4, d1, d2, -⟩ := normal_component hT R₀ 1 1 one_pos one_pos ![-1, -1] _ hpos
  have n : ∀ (R : JaxRandom Key) (cov : Arr) (m : Option (List ℝ)), multivariateNormalDistribution R T 1 1 cov m
      = multivariateNormalDistribution R₀ T 1 1 cov m := fun R cov m => normal_indep R R₀ T 1 1 cov m
  have e1 : ∀ R : JaxRandom Key, multivariateNormalDistribution R T 1 1 (rowsOf ((0.5 : ℝ) • (1 : Matrix (Fin 2) (Fin 2) ℝ)))
      (some [-1, 1]) = .ok J1 := fun R => by rw [n, list_pair]; exact a1
  have e2 : ∀ R : JaxRandom Key, multivariateNormalDistribution R T 1 1 (rowsOf ((0.5 : ℝ) • (1 : Matrix (Fin 2) (Fin 2) ℝ)))
      (some [1, 1]) = .ok J2 := fun R => by rw [n, list_pair]; exact b1
  have e3 : ∀ R : JaxRandom Key, multivariateNormalDistribution R T 1 1 (rowsOf ((0.5 : ℝ) • (1 : Matrix (Fin 2) (Fin 2) ℝ)))
      (some [1, -1]) = .ok J3 := fun R => by rw [n, list_pair]; exact c1
  have e4 : ∀ R : JaxRandom Key, multivariateNormalDistribution R T 1 1 (rowsOf ((0.5 : ℝ) • (1 : Matrix (Fin 2) (Fin 2) ℝ)))
      (some [-1, -1]) = .ok J4 := fun R => by rw [n, list_pair]; exact d1
  have hC : ∀ j : Fin 4, Consistent κ ((![J1, J2, J3, J4] : Fin 4 → JointDistribution Key) j) Set.univ Set.univ
      ((![component 1 1 ![-1, 1] ((0.5 : ℝ) • 1), component 1 1 ![1, 1] ((0.5 : ℝ) • 1), component 1 1 ![1, -1] ((0.5 : ℝ) • 1),
        component 1 1 ![-1, -1] ((0.5 : ℝ) • 1)] : Fin 4 → Measure ((Fin 1 → ℝ) × (Fin 1 → ℝ))) j) := fun j => by
    fin_cases j <;> assumption
  have w0 : ∀ j : Fin 4, 0 ≤ (![0.25, 0.25, 0.25, 0.25] : Fin 4 → ℝ) j := fun j => by fin_cases j <;> norm_num
  obtain ⟨M, hM, -, hMC⟩ := mixture_consistent hT ![0.25, 0.25, 0.25, 0.25] w0 (by simp [Fin.sum_univ_four]; norm_num) _ _ hC
  have l1 : List.ofFn ![J1, J2, J3, J4] = [J1, J2, J3, J4] := by simp
  have l2 : List.ofFn (![0.25, 0.25, 0.25, 0.25] : Fin 4 → ℝ) = [0.25, 0.25, 0.25, 0.25] := by simp
  have hshape : M.distJoint = tfdMixture T (List.ofFn ![0.25, 0.25, 0.25, 0.25])
        (List.ofFn fun j => ((![J1, J2, J3, J4] : Fin 4 → JointDistribution Key) j).distJoint) ∧
      M.distX = tfdMixture T (List.ofFn ![0.25, 0.25, 0.25, 0.25])
        (List.ofFn fun j => ((![J1, J2, J3, J4] : Fin 4 → JointDistribution Key) j).distX) ∧
      M.distY = tfdMixture T (List.ofFn ![0.25, 0.25, 0.25, 0.25])
        (List.ofFn fun j => ((![J1, J2, J3, J4] : Fin 4 → JointDistribution Key) j).distY) := by
    have := hM
    rw [l1] at this
    simp only [mixture] at this
    split_ifs at this
    rw [← Except.ok.inj this]
    simp
  rw [l1, l2] at hM
  have hpmi : ∀ x y, M.pmiAt [x] [y] = 0 := by
    intro x y
    set L : ℝ → ℝ → ℝ := fun a t => -(Real.log 0.5 + Real.log (2 * Real.pi)) / 2 - (t - a) ^ 2 / 0.5 / 2 with hL
    obtain ⟨u1, v1, w1⟩ := round_logs hT R₀ (s := 0.5) (by norm_num) (-1) 1 (e1 R₀) x y
    obtain ⟨u2, v2, w2⟩ := round_logs hT R₀ (s := 0.5) (by norm_num) 1 1 (e2 R₀) x y
    obtain ⟨u3, v3, w3⟩ := round_logs hT R₀ (s := 0.5) (by norm_num) 1 (-1) (e3 R₀) x y
    obtain ⟨u4, v4, w4⟩ := round_logs hT R₀ (s := 0.5) (by norm_num) (-1) (-1) (e4 R₀) x y
    have sp : ∀ l : Fin 4 → ℝ, 0 < ∑ j, (![0.25, 0.25, 0.25, 0.25] : Fin 4 → ℝ) j * Real.exp (l j) := fun l =>
      Finset.sum_pos (fun j _ => mul_pos (by fin_cases j <;> norm_num) (Real.exp_pos _)) Finset.univ_nonempty
    have hj := mixture_log T w0 (fun j => ((![J1, J2, J3, J4] : Fin 4 → JointDistribution Key) j).distJoint) [x, y]
      (l := ![L (-1) x + L 1 y, L 1 x + L 1 y, L 1 x + L (-1) y, L (-1) x + L (-1) y])
      (fun j => by fin_cases j <;> assumption) (sp _)
    have hx := mixture_log T w0 (fun j => ((![J1, J2, J3, J4] : Fin 4 → JointDistribution Key) j).distX) [x]
      (l := ![L (-1) x, L 1 x, L 1 x, L (-1) x]) (fun j => by fin_cases j <;> assumption) (sp _)
    have hy := mixture_log T w0 (fun j => ((![J1, J2, J3, J4] : Fin 4 → JointDistribution Key) j).distY) [y]
      (l := ![L 1 y, L 1 y, L (-1) y, L (-1) y]) (fun j => by fin_cases j <;> assumption) (sp _)
    rw [← hshape.1] at hj
    rw [← hshape.2.1] at hx
    rw [← hshape.2.2] at hy
    have e : ∑ j, (![0.25, 0.25, 0.25, 0.25] : Fin 4 → ℝ) j
          * Real.exp ((![L (-1) x + L 1 y, L 1 x + L 1 y, L 1 x + L (-1) y, L (-1) x + L (-1) y] : Fin 4 → ℝ) j)
        = (∑ j, (![0.25, 0.25, 0.25, 0.25] : Fin 4 → ℝ) j * Real.exp ((![L (-1) x, L 1 x, L 1 x, L (-1) x] : Fin 4 → ℝ) j))
          * ∑ j, (![0.25, 0.25, 0.25, 0.25] : Fin 4 → ℝ) j * Real.exp ((![L 1 y, L 1 y, L (-1) y, L (-1) y] : Fin 4 → ℝ) j) := by
      simp only [Fin.sum_univ_four]
      simp only [Matrix.cons_val, Real.exp_add]
      ring
    unfold JointDistribution.pmiAt
    simp only [List.cons_append, List.nil_append]
    rw [hj, hx, hy, e, Real.log_mul (sp _).ne' (sp _).ne', ← EReal.coe_add, ← EReal.coe_sub, sub_self, EReal.coe_zero]
  refine ⟨J1, J2, J3, J4, M, fun R => ⟨e1 R, e2 R, e3 R, e4 R⟩, hM, hpmi, _, hMC, ?_⟩
  haveI := hMC.prob
  have hd := (pmi_density hMC).1
  have el : ∀ v : Fin 1 → ℝ, List.ofFn v = [v 0] := fun v => by simp
  simp only [el, hpmi, EReal.exp_zero] at hd
  rw [mutualInfo_eq_zero_iff, hd]
  simp

theorem shift_diffeo (c : ℝ) {d : ℕ} : Diffeo (shift c) Set.univ (fun v : Fin d → ℝ => fun i => v i + c)
    fun _ => ContinuousLinearMap.id ℝ (Fin d → ℝ) where
  measurable := by fun_prop
  forward v := by
    show (List.ofFn v).map (· + c) = _
    rw [List.map_ofFn]
    rfl
  inverse v _ := by
    show (List.ofFn fun i => v i + c).map (· - c) = _
    rw [List.map_ofFn]
    congr 1
    funext i
    simp
  deriv v _ := ((hasFDerivAt_id v).add_const (fun _ => c)).hasFDerivWithinAt
  det v _ := by simp [ContinuousLinearMap.det]
  ildj v _ := by simp [ContinuousLinearMap.det, shift]

/-- The six distributions. -/
theorem distributions_ok (hT : IdealTfp T κ) (R₀ : JaxRandom Key) (N₀ : NpRandom State) :
    ∃ Js : List (JointDistribution Key), (∀ (R : JaxRandom Key) (N : NpRandom State), distributions R N T
      = .ok (List.zip (panels.map Prod.fst) Js)) ∧
    List.Forall₂ (fun panel J => (∃ P : Measure ((Fin 1 → ℝ) × (Fin 1 → ℝ)), Consistent κ J Set.univ Set.univ P) ∧
      ∀ x y, J.pmiAt [x] [y] = (panel.2 x y : EReal)) panels Js := by
  have h5 : |(0.5 : ℝ)| < 1 := by norm_num [abs_lt]
  have h9 : |(0.9 : ℝ)| < 1 := by norm_num [abs_lt]
  obtain ⟨J1, a1, a2, -, a4⟩ := pair_ok hT R₀ h5
  obtain ⟨J2, b1, b2, -, b4⟩ := pair_ok hT R₀ h9
  obtain ⟨J3, c1, -, c2⟩ := multivariateStudent_consistent hT R₀ N₀ 1 1 one_pos one_pos 0 _ (pair_pos h5) 3 (by norm_num)
  obtain ⟨J4, d1, -, d2⟩ := multivariateStudent_consistent hT R₀ N₀ 1 1 one_pos one_pos 0 _ (pair_pos h5) 5 (by norm_num)
  obtain ⟨s1, s2, s3, s4, M, hs, hM, m0, P, m1, -⟩ := square_ok hT R₀
  have c3 := fun (R : JaxRandom Key) (N : NpRandom State) =>
    ((student_indep R R₀ N N₀ T 1 1 3 (rowsOf !![1, 0.5; 0.5, 1]) none).trans (student_default R₀ N₀ T 1 1 3 _)).trans c1
  have d3 := fun (R : JaxRandom Key) (N : NpRandom State) =>
    ((student_indep R R₀ N N₀ T 1 1 5 (rowsOf !![1, 0.5; 0.5, 1]) none).trans (student_default R₀ N₀ T 1 1 5 _)).trans d1
  have ht : Consistent κ (transform J1 (some (shift 3.0)) (some .identity)) Set.univ Set.univ
      ((lawOfPair 0.5).map (Prod.map (fun v i => v i + 3.0) id)) := by
    have h := transform_consistent a2 (.inr ⟨shift 3.0, _, rfl, shift_diffeo 3.0⟩) (.inr ⟨.identity, _, rfl, identity_diffeo _⟩)
    have e1 : (fun (v : Fin 1 → ℝ) i => v i + (3.0 : ℝ)) '' Set.univ = Set.univ := by
      rw [Set.image_univ, Set.range_eq_univ]
      intro v
      exact ⟨fun i => v i - 3.0, funext fun i => by simp⟩
    rwa [e1, Set.image_id] at h
  refine ⟨[J1, J2, J3, J4, transform J1 (some (shift 3.0)) (some .identity), M], fun R N => ?_, ?_⟩
  · unfold distributions
    simp only [pair_rows, a1 R, b1 R, c3 R N, d3 R N, (hs R).1, (hs R).2.1, (hs R).2.2.1, (hs R).2.2.2, hM, bind, Except.bind]
    rfl
  · refine .cons ⟨⟨_, a2⟩, a4⟩ (.cons ⟨⟨_, b2⟩, b4⟩ (.cons ⟨⟨_, c2⟩, studentPmi_eq hT R₀ N₀ h5 (by norm_num) c1⟩
      (.cons ⟨⟨_, d2⟩, studentPmi_eq hT R₀ N₀ h5 (by norm_num) d1⟩ (.cons ⟨⟨_, ht⟩, fun x y => ?_⟩
      (.cons ⟨⟨_, m1⟩, fun x y => (m0 x y).trans EReal.coe_zero.symm⟩ .nil)))))
    have h := transform_pmiAt J1 (shift 3.0) .identity [x - 3] [y] (by rw [a2.dimX]; rfl) (shift_undoes _ _) ⟨rfl, rfl⟩
    rw [a4] at h
    have e : (shift 3.0).forward [x - 3] = [x] := by
      simp [shift]
      norm_num
    rw [e] at h
    exact h

/-- The path of an image. -/
def plotPath (name : String) : List Char := "pmi-plot-".toList ++ (name.toList ++ ".pdf".toList)

theorem plotPath_match {name : String} (h : name.toList ≠ []) (hn : '\n' ∉ name.toList) :
    matchPat plotPat (plotPath name) = some [name.toList] := by
  unfold plotPat plotPath
  rw [matchPat_lit]
  exact matchPat_wild _ _ _ _ h hn (matchPat_end _) (matchPat_end_none _)

theorem panels_names (name : String) (h : name ∈ panels.map Prod.fst) : name.toList ≠ [] ∧ '\n' ∉ name.toList := by
  have : ∀ s ∈ ["Normal-0.5", "Normal-0.9", "Student-0.5-3", "Student-0.5-5", "Transformed-Normal-0.5", "Mixture"],
      s.toList ≠ [] ∧ '\n' ∉ s.toList := by decide
  exact this name h

/-- Looking up a name in two parallel lists. -/
theorem zip_get {β γ : Type} {Q : String × γ → β → Prop} : ∀ {ps : List (String × γ)} {Js : List β}, List.Forall₂ Q ps Js →
    (ps.map Prod.fst).Nodup → (∀ p ∈ ps, ∃ J, Q p J ∧ Run.Dict.get (List.zip (ps.map Prod.fst) Js) p.1 = some J) ∧
    ∀ name, name ∉ ps.map Prod.fst → Run.Dict.get (List.zip (ps.map Prod.fst) Js) name = none
  | [], [], _, _ => ⟨by simp, by simp [Run.Dict.get]⟩
  | p :: ps, J :: Js, .cons h t, hnd => by
    rw [List.map_cons, List.nodup_cons] at hnd
    obtain ⟨h1, h2⟩ := zip_get t hnd.2
    simp only [List.map_cons, List.zip_cons_cons, Run.Dict.get]
    refine ⟨fun q hq => ?_, fun name hname => ?_⟩
    · rcases List.mem_cons.1 hq with rfl | hq
      · exact ⟨J, h, if_pos rfl⟩
      · obtain ⟨K, hK, hg⟩ := h1 q hq
        refine ⟨K, hK, ?_⟩
        have hne : p.1 ≠ q.1 := fun e => hnd.1 (e ▸ List.mem_map_of_mem hq)
        rw [if_neg hne, hg]
    · rw [List.mem_cons, not_or] at hname
      rw [if_neg fun e => hname.1 e.symm, h2 name hname.2]

/-- **C72**, negation: no image of the pointwise mutual information is ever made, whatever the random numbers and the path. -/
theorem plot_fails (hT : IdealTfp T κ) {words : Key → List ℤ} (hw : ∀ k, (words k).length = 2) (R : JaxRandom Key)
    (N : NpRandom State) : (∀ name ∈ panels.map Prod.fst, plotPmi (asWritten words) R N T (plotPath name) = .error (.raised .valueError)) ∧
    ∀ path plot, plotPmi (asWritten words) R N T path ≠ .ok plot := by
  obtain ⟨Js, hd, hJ⟩ := distributions_ok hT R N
  have hnd : (panels.map Prod.fst).Nodup := by
    have : ["Normal-0.5", "Normal-0.9", "Student-0.5-3", "Student-0.5-5", "Transformed-Normal-0.5", "Mixture"].Nodup := by decide
    exact this
  obtain ⟨hin, hout⟩ := zip_get hJ hnd
  refine ⟨fun name h => ?_, fun path plot => ?_⟩
  · obtain ⟨h1, h2⟩ := panels_names name h
    obtain ⟨p, hp, rfl⟩ := List.mem_map.1 h
    obtain ⟨J, -, hJ⟩ := hin p hp
    unfold plotPmi
    rw [plotPath_match h1 h2]
    simp only [hd R N, lift, String.ofList_toList, hJ, orRaise, asWritten_fails hw, bind, Except.bind]
  · unfold plotPmi
    split
    · rename_i name hm
      simp only [hd R N, lift, bind, Except.bind]
      cases Run.Dict.get (List.zip (panels.map Prod.fst) Js) (String.ofList name) <;>
        simp [orRaise, asWritten_fails hw]
    · simp

example (R : JaxRandom PathKey) (N : NpRandom Unit) : plotPmi (asWritten fun _ => [0, 0]) R N path "pmi-plot-Mixture.pdf".toList
    = .error (.raised .valueError) := (plot_fails path_ideal (fun _ => rfl) R N).1 "Mixture" (by simp [panels])

/-- 3000 equally spaced numbers, the first of which is -10 and the last 10. -/
noncomputable def axis (i : Fin 3000) : ℝ := -10 + 20 * ((i : ℝ) / 2999)

example : axis 0 = -10 ∧ axis 2999 = 10 := by
  constructor <;> norm_num [axis]

theorem grid_eq : grid = List.ofFn axis := by
  refine List.ext_getElem (by rw [grid, List.length_map, List.length_range, List.length_ofFn]) fun i h1 h2 => ?_
  simp only [grid, axis, List.getElem_map, List.getElem_range, List.getElem_ofFn]
  ring

theorem image_ofFn {n : ℕ} (a : Fin n → ℝ) (g : ℝ → ℝ → EReal) : ((List.ofFn a).map fun y => (List.ofFn a).map fun x => g x y)
    = List.ofFn fun i => List.ofFn fun j => g (a j) (a i) := by
  simp only [List.map_ofFn]
  rfl

theorem image_eq (g : ℝ → ℝ → EReal) : (grid.map fun y => grid.map fun x => g x y)
    = List.ofFn fun i => List.ofFn fun j => g (axis j) (axis i) := by
  rw [grid_eq]
  exact image_ofFn axis g

/-- **C72**, with the arguments in order: each of the six images shows, in the row of `y` and the column of `x`, the pointwise mutual
information at `(x, y)` of the law of which the drawn points are 10000 independent points; other names raise `KeyError`. -/
theorem plot_partial (hT : IdealTfp T κ) (R₀ : JaxRandom Key) (N₀ : NpRandom State) (words : Key → List ℤ) :
    (∀ panel ∈ panels, ∃ (P : Measure ((Fin 1 → ℝ) × (Fin 1 → ℝ))) (z : Key → Fin 10000 → (Fin 1 → ℝ) × (Fin 1 → ℝ)),
      IsProbabilityMeasure P ∧ IsLogRatio P (fun w => panel.2 (w.1 0) (w.2 0)) ∧ MeasurePreserving z κ (Measure.pi fun _ => P) ∧
      ∀ (R : JaxRandom Key) (N : NpRandom State), plotPmi (inOrder words) R N T (plotPath panel.1)
        = .ok ⟨List.ofFn fun i => List.ofFn fun j => (panel.2 (axis j) (axis i) : EReal),
            (rowsOf fun i => (z (R.prngKey 0) i).1, rowsOf fun i => (z (R.prngKey 0) i).2)⟩) ∧
    ∀ name : String, name ∉ panels.map Prod.fst → name.toList ≠ [] → '\n' ∉ name.toList → ∀ (R : JaxRandom Key) (N : NpRandom State),
      plotPmi (inOrder words) R N T (plotPath name) = .error (.raised .keyError) := by
  obtain ⟨Js, hd, hJ⟩ := distributions_ok hT R₀ N₀
  have hnd : (panels.map Prod.fst).Nodup := by
    have : ["Normal-0.5", "Normal-0.9", "Student-0.5-3", "Student-0.5-5", "Transformed-Normal-0.5", "Mixture"].Nodup := by decide
    exact this
  obtain ⟨hin, hout⟩ := zip_get hJ hnd
  have el : ∀ v : Fin 1 → ℝ, List.ofFn v = [v 0] := fun v => by simp
  refine ⟨fun panel hp => ?_, fun name h h1 h2 R N => ?_⟩
  · obtain ⟨J, ⟨⟨P, hC⟩, hpmi⟩, hg⟩ := hin panel hp
    obtain ⟨z, hz, hs⟩ := sample_draws hC 10000 (by norm_num)
    obtain ⟨h1, h2⟩ := panels_names _ (List.mem_map_of_mem hp)
    refine ⟨P, z, hC.prob, ?_, hz, fun R N => ?_⟩
    · refine (pmi_density hC).1.trans ?_
      congr 1
      funext w
      rw [el, el, hpmi, EReal.exp_coe]
    · unfold plotPmi
      rw [plotPath_match h1 h2]
      have h3 := hs (R.prngKey 0)
      rw [← image_eq fun x y => (panel.2 x y : EReal)]
      simp only [hd R N, lift, String.ofList_toList, hg, orRaise, inOrder_eq, bind, Except.bind, hpmi]
      erw [h3]
  · unfold plotPmi
    rw [plotPath_match h1 h2]
    simp only [hd R N, lift, String.ofList_toList, hout name h, orRaise, bind, Except.bind]

/-- The image of the mixture is zero everywhere, because the law is independent. -/
example (P : Measure ((Fin 1 → ℝ) × (Fin 1 → ℝ))) [IsProbabilityMeasure P] (h : IsLogRatio P fun _ => 0) : mutualInfo P = 0 := by
  rw [mutualInfo_eq_zero_iff]
  refine h.trans ?_
  simp

example : ("Normal-0.9", normalPmi 0.9) ∈ panels ∧ "Student-0.9-5" ∉ panels.map Prod.fst := by
  refine ⟨by simp [panels], ?_⟩
  simp [panels]

end BMI.Profiles
