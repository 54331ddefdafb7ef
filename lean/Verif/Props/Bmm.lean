import Verif.Lemmas.BmmNormal
import Verif.Lemmas.BmmWitness

/-! Properties C21 and C22, over /repo/src/bmi/samplers/_tfp. -/

namespace BMI.Bmm

open MeasureTheory ProbabilityTheory BMI.Samplers BMI.Student

/-! ## C21 -/

section mixtures

variable {Key : Type}

theorem mixture_cons (T : Tfp Key) (p : List ℝ) (c : JointDistribution Key) (cs : List (JointDistribution Key)) :
    mixture T p (c :: cs)
      = if (cs.any (fun d => d.dimX != c.dimX) || cs.any (fun d => d.dimY != c.dimY)) = true then .error .valueError
        else if (c :: cs).length ≠ p.length then .error .valueError
        else .ok
          { distJoint := tfdMixture T p ((c :: cs).map JointDistribution.distJoint)
            distX := tfdMixture T p ((c :: cs).map JointDistribution.distX)
            distY := tfdMixture T p ((c :: cs).map JointDistribution.distY)
            dimX := c.dimX
            dimY := c.dimY
            analyticMi := none } := rfl

/-- **C21**, validation: `mixture` accepts exactly the non-empty lists of components of equal dimensions with as many
proportions as components, and raises `ValueError` on all others. -/
theorem mixture_accepts_iff (T : Tfp Key) (p : List ℝ) (cs : List (JointDistribution Key)) :
    ((∃ M, mixture T p cs = .ok M) ↔
      cs ≠ [] ∧ (∀ c ∈ cs, ∀ d ∈ cs, c.dimX = d.dimX ∧ c.dimY = d.dimY) ∧ cs.length = p.length) ∧
    ((¬ ∃ M, mixture T p cs = .ok M) → mixture T p cs = .error .valueError) := by
  cases cs with
  | nil => exact ⟨⟨(fun ⟨_, h⟩ => by cases h), (fun h => absurd rfl h.1)⟩, fun _ => rfl⟩
  | cons c cs =>
    rw [mixture_cons]
    split_ifs with h1 h2
    · refine ⟨⟨(fun ⟨_, h⟩ => by cases h), fun h => ?_⟩, fun _ => rfl⟩
      exfalso
      rw [Bool.or_eq_true, List.any_eq_true, List.any_eq_true] at h1
      rcases h1 with ⟨d, hd, hne⟩ | ⟨d, hd, hne⟩
      · exact (bne_iff_ne.1 hne) (h.2.1 d (List.mem_cons_of_mem _ hd) c List.mem_cons_self).1
      · exact (bne_iff_ne.1 hne) (h.2.1 d (List.mem_cons_of_mem _ hd) c List.mem_cons_self).2
    · exact ⟨⟨(fun ⟨_, h⟩ => by cases h), fun h => absurd h.2.2 h2⟩, fun _ => rfl⟩
    · refine ⟨⟨fun _ => ⟨List.cons_ne_nil _ _, ?_, not_not.1 h2⟩, fun _ => ⟨_, rfl⟩⟩, fun h => absurd ⟨_, rfl⟩ h⟩
      rw [Bool.or_eq_true, not_or, List.any_eq_true, List.any_eq_true] at h1
      have hall : ∀ d ∈ c :: cs, d.dimX = c.dimX ∧ d.dimY = c.dimY := by
        intro d hd
        rcases List.mem_cons.1 hd with rfl | hd
        · exact ⟨rfl, rfl⟩
        · constructor
          · by_contra hne
            exact h1.1 ⟨d, hd, bne_iff_ne.2 hne⟩
          · by_contra hne
            exact h1.2 ⟨d, hd, bne_iff_ne.2 hne⟩
      intro d hd e he
      exact ⟨(hall d hd).1.trans (hall e he).1.symm, (hall d hd).2.trans (hall e he).2.symm⟩

example (J : JointDistribution PathKey) : (∃ M, mixture path [0.3, 0.7] [J, J] = .ok M) ∧
    mixture path [0.3, 0.7] [J] = .error .valueError ∧ mixture path [] [] = .error .valueError := by
  refine ⟨(mixture_accepts_iff path _ _).1.2 ⟨by simp, by simp, rfl⟩, (mixture_accepts_iff path _ _).2 fun h => ?_,
    (mixture_accepts_iff path _ _).2 fun h => ?_⟩
  · have := ((mixture_accepts_iff path _ _).1.1 h).2.2
    simp at this
  · exact ((mixture_accepts_iff path _ _).1.1 h).1 rfl

variable [MeasurableSpace Key] {T : Tfp Key} {κ : Measure Key}

theorem Consistent.on {J : JointDistribution Key} {dx dy : ℕ} {Sx : Set (Fin dx → ℝ)} {Sy : Set (Fin dy → ℝ)}
    {P : Measure ((Fin dx → ℝ) × (Fin dy → ℝ))} (h : Consistent κ J Sx Sy P) :
    ConsistentOn κ J (volume.restrict Sx) (volume.restrict Sy) P :=
  ⟨h.dimX, h.dimY, h.prob, by rw [Measure.prod_restrict]; exact h.joint, h.x, h.y⟩

/-- Mixtures, with densities with respect to any measures. -/
theorem mixture_on (hT : IdealTfp T κ) {m dx dy : ℕ} (p : Fin m → ℝ) (h0 : ∀ j, 0 ≤ p j) (h1 : ∑ j, p j = 1)
    (J : Fin m → JointDistribution Key) {bx : Measure (Fin dx → ℝ)} {by' : Measure (Fin dy → ℝ)}
    (P : Fin m → Measure ((Fin dx → ℝ) × (Fin dy → ℝ))) (hJ : ∀ j, ConsistentOn κ (J j) bx by' (P j)) :
    ∃ M, mixture T (List.ofFn p) (List.ofFn J) = .ok M ∧ M.analyticMi = none ∧ ConsistentOn κ M bx by' (mixtureLaw p P) := by
  haveI := fun j => (hJ j).prob
  have h1' : (List.ofFn p).sum = 1 := by rw [List.sum_ofFn, h1]
  obtain ⟨m, rfl⟩ : ∃ k, m = k + 1 := by
    cases m with
    | zero => simp at h1
    | succ k => exact ⟨k, rfl⟩
  have hmem : ∀ c ∈ List.ofFn J, c.dimX = dx ∧ c.dimY = dy := by
    intro c hc
    obtain ⟨j, rfl⟩ := (List.mem_ofFn' _ _).1 hc
    exact ⟨(hJ j).dimX, (hJ j).dimY⟩
  obtain ⟨M, hM⟩ := (mixture_accepts_iff T (List.ofFn p) (List.ofFn J)).1.2 ⟨by
    rw [List.ofFn_succ]; exact List.cons_ne_nil _ _, fun c hc d hd =>
      ⟨(hmem c hc).1.trans (hmem d hd).1.symm, (hmem c hc).2.trans (hmem d hd).2.symm⟩, by simp⟩
  have hM' : M = { distJoint := tfdMixture T (List.ofFn p) ((List.ofFn J).map JointDistribution.distJoint)
                   distX := tfdMixture T (List.ofFn p) ((List.ofFn J).map JointDistribution.distX)
                   distY := tfdMixture T (List.ofFn p) ((List.ofFn J).map JointDistribution.distY)
                   dimX := (J 0).dimX
                   dimY := (J 0).dimY
                   analyticMi := none } := by
    rw [List.ofFn_succ (f := J)] at hM ⊢
    rw [mixture_cons] at hM
    split_ifs at hM
    exact (Except.ok.inj hM).symm
  refine ⟨M, hM, by rw [hM'], ?_⟩
  rw [List.map_ofFn, List.map_ofFn, List.map_ofFn] at hM'
  have hfst : (mixtureLaw p P).fst = mixtureLaw p fun j => (P j).fst := mixtureLaw_map p P measurable_fst
  have hsnd : (mixtureLaw p P).snd = mixtureLaw p fun j => (P j).snd := mixtureLaw_map p P measurable_snd
  subst hM'
  refine ⟨(hJ 0).dimX, (hJ 0).dimY, mixtureLaw_prob h0 h1' P,
    mixture_represents hT h0 h1' fun j => (hJ j).joint, ?_, ?_⟩
  · rw [hfst]
    exact mixture_represents hT h0 h1' fun j => (hJ j).x
  · rw [hsnd]
    exact mixture_represents hT h0 h1' fun j => (hJ j).y

/-- **C21**: a mixture, with non-negative proportions that sum up to one, of joint distributions which stand for the laws
`P j` stands for the mixture of these laws: the declared joint distribution and the declared marginals are those of one
and the same law. -/
theorem mixture_consistent (hT : IdealTfp T κ) {m dx dy : ℕ} (p : Fin m → ℝ) (h0 : ∀ j, 0 ≤ p j) (h1 : ∑ j, p j = 1)
    (J : Fin m → JointDistribution Key) {Sx : Set (Fin dx → ℝ)} {Sy : Set (Fin dy → ℝ)}
    (P : Fin m → Measure ((Fin dx → ℝ) × (Fin dy → ℝ))) (hJ : ∀ j, Consistent κ (J j) Sx Sy (P j)) :
    ∃ M, mixture T (List.ofFn p) (List.ofFn J) = .ok M ∧ M.analyticMi = none ∧ Consistent κ M Sx Sy (mixtureLaw p P) := by
  obtain ⟨m, rfl⟩ : ∃ k, m = k + 1 := by
    cases m with
    | zero => simp at h1
    | succ k => exact ⟨k, rfl⟩
  obtain ⟨M, h2, h3, h4⟩ := mixture_on hT p h0 h1 J P fun j => (hJ j).on
  refine ⟨M, h2, h3, h4.dimX, h4.dimY, (hJ 0).setX, (hJ 0).setY, h4.prob, ?_, h4.x, h4.y, fun v hv => by rw [h3] at hv; cases hv⟩
  have := h4.joint
  rwa [Measure.prod_restrict] at this

end mixtures

/-! ## The building blocks -/

section blocks

variable {Key : Type} [MeasurableSpace Key] {T : Tfp Key} {κ : Measure Key}

theorem take_blocks {dx dy : ℕ} (m : Matrix (Fin (dx + dy)) (Fin (dx + dy)) ℝ) :
    toMatrix dx (((rowsOf m).take dx).map (·.take dx)) = blockX m := by
  ext i j
  simp [toMatrix, rowsOf, blockX, List.getElem?_take]
  rfl

theorem drop_blocks {dx dy : ℕ} (m : Matrix (Fin (dx + dy)) (Fin (dx + dy)) ℝ) :
    toMatrix dy (((rowsOf m).drop dx).map (·.drop dx)) = blockY m := by
  ext i j
  simp [toMatrix, rowsOf, blockY]
  rfl

/-- **C21**, base case: `MultivariateNormalDistribution` stands for the normal law, with the right marginals and the right
mutual information. -/
theorem multivariateNormal_consistent (hT : IdealTfp T κ) (R : JaxRandom Key) (dx dy : ℕ) (hx : 0 < dx) (hy : 0 < dy)
    (mean : Fin (dx + dy) → ℝ) (cov : Matrix (Fin (dx + dy)) (Fin (dx + dy)) ℝ) (hpos : cov.PosDef) :
    ∃ J, multivariateNormalDistribution R T dx dy (rowsOf cov) (some (List.ofFn mean)) = .ok J ∧ J.analyticMi.isSome ∧
      Consistent κ J Set.univ Set.univ ((normalLaw mean cov).map fun z =>
        ((fun i => z (Fin.castAdd dy i), fun i => z (Fin.natAdd dx i)) : (Fin dx → ℝ) × (Fin dy → ℝ))) := by
  obtain ⟨s, hs, hmi⟩ := splitMultinormal_number R dx dy hx hy mean cov hpos
  obtain ⟨h1, h2⟩ := splitNormal_mi mean hpos
  have hJ : multivariateNormalDistribution R T dx dy (rowsOf cov) (some (List.ofFn mean)) = .ok
      { dimX := dx
        dimY := dy
        distJoint := constructNormal T (dx + dy) (List.ofFn mean) (rowsOf cov)
        distX := constructNormal T dx ((List.ofFn mean).take dx) (((rowsOf cov).take dx).map (·.take dx))
        distY := constructNormal T dy ((List.ofFn mean).drop dx) (((rowsOf cov).drop dx).map (·.drop dx))
        analyticMi := some s.mi } := by
    unfold multivariateNormalDistribution
    rw [if_neg (by simp)]
    simp only [Option.getD_some, hs]
    rfl
  refine ⟨_, hJ, rfl, ?_⟩
  · have hj := normal_represents hT (d := dx + dy) (List.ofFn mean) (rowsOf cov) (by rwa [toMatrix_rowsOf])
    rw [toVec_ofFn, toMatrix_rowsOf] at hj
    have hX := normal_represents hT (d := dx) ((List.ofFn mean).take dx) (((rowsOf cov).take dx).map (·.take dx))
      (by rw [take_blocks]; exact blockX_posDef hpos)
    rw [take_blocks, take_ofFn, toVec_ofFn] at hX
    have hY := normal_represents hT (d := dy) ((List.ofFn mean).drop dx) (((rowsOf cov).drop dx).map (·.drop dx))
      (by rw [drop_blocks]; exact blockY_posDef hpos)
    rw [drop_blocks, drop_ofFn, toVec_ofFn] at hY
    refine ⟨rfl, rfl, MeasurableSet.univ, MeasurableSet.univ, inferInstanceAs (IsProbabilityMeasure (splitNormal dx dy mean cov)),
      represents_pair hj, ?_, ?_, ?_⟩
    · have e : (splitNormal dx dy mean cov).fst = _ := splitNormal_fst mean hpos.posSemidef
      rw [show ((normalLaw mean cov).map fun z =>
        ((fun i => z (Fin.castAdd dy i), fun i => z (Fin.natAdd dx i)) : (Fin dx → ℝ) × (Fin dy → ℝ))).fst = _ from e]
      simpa [take_ofFn] using hX
    · have e : (splitNormal dx dy mean cov).snd = _ := splitNormal_snd mean hpos.posSemidef
      rw [show ((normalLaw mean cov).map fun z =>
        ((fun i => z (Fin.castAdd dy i), fun i => z (Fin.natAdd dx i)) : (Fin dx → ℝ) × (Fin dy → ℝ))).snd = _ from e]
      simpa [drop_ofFn] using hY
    · intro v hv
      obtain rfl : s.mi = v := Option.some.inj hv
      rw [hmi]
      exact ⟨h2, h1⟩

example (R : JaxRandom PathKey) : ∃ J, multivariateNormalDistribution R path 1 1 (rowsOf (bivariateCov 0.5 1 1))
    (some (List.ofFn ![1, 2])) = .ok J ∧ J.analyticMi.isSome ∧ ∃ P, Consistent (dx := 1) (dy := 1) pathLaw J Set.univ Set.univ P := by
  obtain ⟨J, h1, h2, h3⟩ := multivariateNormal_consistent path_ideal R 1 1 one_pos one_pos ![1, 2] (bivariateCov 0.5 1 1)
    (bivariateCov_posDef _ _ _ one_pos one_pos (by norm_num) (by norm_num))
  exact ⟨J, h1, h2, _, h3⟩

/-- A mixture of two normal distributions. -/
example (R : JaxRandom PathKey) : ∃ J K M, multivariateNormalDistribution R path 1 1 (rowsOf (bivariateCov 0.5 1 1))
    (some (List.ofFn ![1, 2])) = .ok J ∧ multivariateNormalDistribution R path 1 1 (rowsOf (bivariateCov (-0.5) 1 1))
    (some (List.ofFn ![0, 0])) = .ok K ∧ mixture path [0.3, 0.7] [J, K] = .ok M ∧
    ∃ P, Consistent (dx := 1) (dy := 1) pathLaw M Set.univ Set.univ P := by
  obtain ⟨J, h1, -, h3⟩ := multivariateNormal_consistent path_ideal R 1 1 one_pos one_pos ![1, 2] (bivariateCov 0.5 1 1)
    (bivariateCov_posDef _ _ _ one_pos one_pos (by norm_num) (by norm_num))
  obtain ⟨K, k1, -, k3⟩ := multivariateNormal_consistent path_ideal R 1 1 one_pos one_pos ![0, 0] (bivariateCov (-0.5) 1 1)
    (bivariateCov_posDef _ _ _ one_pos one_pos (by norm_num) (by norm_num))
  obtain ⟨M, m1, -, m3⟩ := mixture_consistent path_ideal ![0.3, 0.7] (fun j => by fin_cases j <;> norm_num)
    (by norm_num [Fin.sum_univ_two]) ![J, K] ![_, _] (fun j => by fin_cases j; exacts [h3, k3])
  exact ⟨J, K, M, h1, k1, by simpa using m1, _, m3⟩

/-- **C21**, base case: `MultivariateStudentDistribution` stands for the Student-t law, with the right marginals and the
right mutual information. -/
theorem multivariateStudent_consistent {State : Type} (hT : IdealTfp T κ) (R : JaxRandom Key) (N : NpRandom State) (dx dy : ℕ)
    (hx : 0 < dx) (hy : 0 < dy) (loc : Fin (dx + dy) → ℝ) (S : Matrix (Fin (dx + dy)) (Fin (dx + dy)) ℝ) (hpos : S.PosDef)
    (df : ℝ) (hdf : 0 < df) :
    ∃ J, multivariateStudentDistribution R N T dx dy df (rowsOf S) (some (List.ofFn loc)) = .ok J ∧ J.analyticMi.isSome ∧
      Consistent κ J Set.univ Set.univ ((studentLaw loc S df).map fun z =>
        ((fun i => z (Fin.castAdd dy i), fun i => z (Fin.natAdd dx i)) : (Fin dx → ℝ) × (Fin dy → ℝ))) := by
  obtain ⟨s, hs, hmi⟩ := splitMultinormal_number R dx dy hx hy loc S hpos
  have ht := splitStudentT_of R N dx dy hx hy df (rowsOf S) (some (List.ofFn loc)) (s := s) (by simpa using hs)
  rw [if_neg (not_le.2 hdf)] at ht
  obtain ⟨h1, h2⟩ := splitStudent_mi loc hpos hdf
  haveI := studentLaw_prob loc S hdf
  have hJ : multivariateStudentDistribution R N T dx dy df (rowsOf S) (some (List.ofFn loc)) = .ok
      { dimX := dx
        dimY := dy
        distJoint := constructStudent T (dx + dy) (List.ofFn loc) (rowsOf S) df
        distX := constructStudent T dx ((List.ofFn loc).take dx) (((rowsOf S).take dx).map (·.take dx)) df
        distY := constructStudent T dy ((List.ofFn loc).drop dx) (((rowsOf S).drop dx).map (·.drop dx)) df
        analyticMi := some (s.mi + miCorrectionFunction realFns df dx dy) } := by
    unfold multivariateStudentDistribution
    rw [if_neg (by simp)]
    simp only [Option.getD_some, ht]
    rfl
  refine ⟨_, hJ, rfl, ?_⟩
  · have hj := student_represents hT (d := dx + dy) (List.ofFn loc) (rowsOf S) (by rwa [toMatrix_rowsOf]) hdf
    rw [toVec_ofFn, toMatrix_rowsOf] at hj
    have hX := student_represents hT (d := dx) ((List.ofFn loc).take dx) (((rowsOf S).take dx).map (·.take dx))
      (by rw [take_blocks]; exact blockX_posDef hpos) hdf
    rw [take_blocks, take_ofFn, toVec_ofFn] at hX
    have hY := student_represents hT (d := dy) ((List.ofFn loc).drop dx) (((rowsOf S).drop dx).map (·.drop dx))
      (by rw [drop_blocks]; exact blockY_posDef hpos) hdf
    rw [drop_blocks, drop_ofFn, toVec_ofFn] at hY
    refine ⟨rfl, rfl, MeasurableSet.univ, MeasurableSet.univ, splitStudent_prob loc S hdf, represents_pair hj, ?_, ?_, ?_⟩
    · have e : (splitStudent dx dy loc S df).fst = _ := splitStudent_fst loc hpos.posSemidef hdf
      rw [show ((studentLaw loc S df).map fun z =>
        ((fun i => z (Fin.castAdd dy i), fun i => z (Fin.natAdd dx i)) : (Fin dx → ℝ) × (Fin dy → ℝ))).fst = _ from e]
      simpa [take_ofFn] using hX
    · have e : (splitStudent dx dy loc S df).snd = _ := splitStudent_snd loc hpos.posSemidef hdf
      rw [show ((studentLaw loc S df).map fun z =>
        ((fun i => z (Fin.castAdd dy i), fun i => z (Fin.natAdd dx i)) : (Fin dx → ℝ) × (Fin dy → ℝ))).snd = _ from e]
      simpa [drop_ofFn] using hY
    · intro v hv
      have hv := Option.some.inj hv
      have e : v = (Real.log (blockX S).det + Real.log (blockY S).det - Real.log S.det) / 2
          + (studentEntropy dx df + studentEntropy dy df - studentEntropy (dx + dy) df) := by
        rw [← hv, ← hmi, ← correction_real]
      rw [e]
      exact ⟨h2, h1⟩

example {State : Type} (R : JaxRandom PathKey) (N : NpRandom State) : ∃ J, multivariateStudentDistribution R N path 1 1 3
    (rowsOf (bivariateCov 0.5 1 1)) (some (List.ofFn ![1, 2])) = .ok J ∧ J.analyticMi.isSome ∧
    ∃ P, Consistent (dx := 1) (dy := 1) pathLaw J Set.univ Set.univ P := by
  obtain ⟨J, h1, h2, h3⟩ := multivariateStudent_consistent path_ideal R N 1 1 one_pos one_pos ![1, 2] (bivariateCov 0.5 1 1)
    (bivariateCov_posDef _ _ _ one_pos one_pos (by norm_num) (by norm_num)) 3 (by norm_num)
  exact ⟨J, h1, h2, _, h3⟩

/-- **C22**, products: `ProductDistribution` of two distributions which stand for laws stands for the product law, and its
analytic mutual information is zero. -/
theorem product_consistent (hT : IdealTfp T κ) {dx dy : ℕ} {D E : Dist Key} {Sx : Set (Fin dx → ℝ)} {Sy : Set (Fin dy → ℝ)}
    (hSx : MeasurableSet Sx) (hSy : MeasurableSet Sy) {μ : Measure (Fin dx → ℝ)} {ν : Measure (Fin dy → ℝ)}
    [IsProbabilityMeasure μ] [IsProbabilityMeasure ν]
    (hD : Represents κ D dx List.ofFn (volume.restrict Sx) μ) (hE : Represents κ E dy List.ofFn (volume.restrict Sy) ν) :
    ∃ J, productDistribution T D E = .ok J ∧ J.analyticMi = some 0 ∧ Consistent κ J Sx Sy (μ.prod ν) := by
  have hJ : productDistribution T D E = .ok
      { dimX := dx, dimY := dy, distJoint := tfdBlockwise T D E, distX := D, distY := E, analyticMi := some 0 } := by
    unfold productDistribution
    rw [hD.shape, hE.shape]
    rfl
  refine ⟨_, hJ, rfl, ?_⟩
  · refine ⟨rfl, rfl, hSx, hSy, inferInstance, tfdBlockwise_represents hT hD hE, ?_, ?_, fun v hv => ?_⟩
    · rw [Measure.fst_prod]; exact hD
    · rw [Measure.snd_prod]; exact hE
    · obtain rfl : (0 : ℝ) = v := Option.some.inj hv
      rw [mutualInfo_prod]
      simp

example : ∃ J, productDistribution path (constructNormal path 1 [0] [[1]]) (constructStudent path 1 [0] [[1]] 2) = .ok J ∧
    J.analyticMi = some 0 ∧ ∃ P, Consistent (dx := 1) (dy := 1) pathLaw J Set.univ Set.univ P := by
  have h1 : (toMatrix 1 [[1]]).PosDef := by
    have : toMatrix 1 [[1]] = 1 := by
      ext i j
      fin_cases i
      fin_cases j
      rfl
    rw [this]
    exact Matrix.PosDef.one
  haveI := studentLaw_prob (toVec 1 [0]) (toMatrix 1 [[1]]) two_pos
  have hD := normal_represents path_ideal (d := 1) [0] [[1]] h1
  have hE := student_represents path_ideal (d := 1) [0] [[1]] h1 two_pos
  obtain ⟨J, h2, h3, h4⟩ := product_consistent path_ideal MeasurableSet.univ MeasurableSet.univ hD hE
  exact ⟨J, h2, h3, _, h4⟩

end blocks

end BMI.Bmm
