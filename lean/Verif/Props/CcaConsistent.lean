import Verif.Lemmas.SampleCov
import Verif.Props.Cca
import Verif.Props.Student
import Verif.Lemmas.StudentCov
import Verif.Lemmas.Canonical
import Verif.Lemmas.IdealWitness
import Verif.Lemmas.StudentWitness

/-! C98: with more and more points the CCA estimator finds the mutual information of normal variables, and on other variables the
mutual information of the normal variables with the same covariance. -/

namespace BMI.Consistency

open MeasureTheory ProbabilityTheory Filter BMI.Samplers BMI.Student BMI.Cca Topology

variable {Key : Type} [MeasurableSpace Key] {p q : ℕ}

/-- What is assumed about scikit-learn's `CCA`: on data whose covariance matrix is invertible the fit finds canonical variables - linear
combinations of the columns of X and of those of Y, uncorrelated apart from the pairs. -/
def CanonicalFit (fit : (n : ℕ) → Fit n p q) (scale : Bool) : Prop :=
  ∀ n, 2 ≤ n → ∀ (x : Fin n → Fin p → ℝ) (y : Fin n → Fin q → ℝ), (sampleCov fun s => Fin.append (x s) (y s)).PosDef →
    ∃ (A : Matrix (Fin p) (Fin p) ℝ) (B : Matrix (Fin q) (Fin q) ℝ) (e f : Fin (min p q) → ℝ), A.det ≠ 0 ∧ B.det ≠ 0 ∧
      (∀ i j, i ≠ j → Cca.cov (fun s => A.mulVec (x s) i) (fun s => A.mulVec (x s) j) = 0) ∧
      (∀ i j, i ≠ j → Cca.cov (fun s => B.mulVec (y s) i) (fun s => B.mulVec (y s) j) = 0) ∧
      (∀ (i : Fin p) (j : Fin q), i.val ≠ j.val → Cca.cov (fun s => A.mulVec (x s) i) (fun s => B.mulVec (y s) j) = 0) ∧
      fit n (min p q) scale x y = .ok
        (List.ofFn fun (i : Fin (min p q)) (s : Fin n) => A.mulVec (x s) ⟨i, by omega⟩ + e i,
          List.ofFn fun (i : Fin (min p q)) (s : Fin n) => B.mulVec (y s) ⟨i, by omega⟩ + f i)

theorem cov_combination {n d : ℕ} (z : Fin n → Fin d → ℝ) (u w : Fin d → ℝ) :
    Cca.cov (fun s => ∑ a, u a * z s a) (fun s => ∑ b, w b * z s b) = ∑ b, (∑ a, u a * sampleCov z a b) * w b := by
  have h := congrFun (congrFun (sampleCov_linear (Matrix.of ![u, w]) z) 0) 1
  simpa [sampleCov, Matrix.mulVec, Matrix.vecMul, dotProduct, Matrix.mul_apply] using h

/-- **C98** The assumption can be met, whatever the numbers of columns: canonical variables exist. -/
theorem exists_canonicalFit (p q : ℕ) (scale : Bool) : ∃ fit : (n : ℕ) → Fit n p q, CanonicalFit fit scale := by
  have H : ∀ (n : ℕ) (x : Fin n → Fin p → ℝ) (y : Fin n → Fin q → ℝ), (sampleCov fun s => Fin.append (x s) (y s)).PosDef →
      ∃ (A : Matrix (Fin p) (Fin p) ℝ) (B : Matrix (Fin q) (Fin q) ℝ), A.det ≠ 0 ∧ B.det ≠ 0 ∧
      (∀ i j, i ≠ j → Cca.cov (fun s => A.mulVec (x s) i) (fun s => A.mulVec (x s) j) = 0) ∧
      (∀ i j, i ≠ j → Cca.cov (fun s => B.mulVec (y s) i) (fun s => B.mulVec (y s) j) = 0) ∧
      (∀ (i : Fin p) (j : Fin q), i.val ≠ j.val → Cca.cov (fun s => A.mulVec (x s) i) (fun s => B.mulVec (y s) j) = 0) := by
    intro n x y hS
    set S := sampleCov fun s => Fin.append (x s) (y s) with hSd
    obtain ⟨A, B, hA, hB, hAB⟩ := exists_canonical hS
    have hX : sampleCov x = blockX S := by
      ext i j
      simp [hSd, sampleCov, blockX]
    have hY : sampleCov y = blockY S := by
      ext i j
      simp [hSd, sampleCov, blockY]
    have dA : A.det ≠ 0 := fun h => by
      have := congrArg Matrix.det hA
      simp [Matrix.det_mul, h] at this
    have dB : B.det ≠ 0 := fun h => by
      have := congrArg Matrix.det hB
      simp [Matrix.det_mul, h] at this
    refine ⟨A, B, dA, dB, fun i j hij => ?_, fun i j hij => ?_, fun i j hij => ?_⟩
    · have h := congrFun (congrFun (sampleCov_linear A x) i) j
      rw [hX, hA, Matrix.one_apply_ne hij] at h
      exact h
    · have h := congrFun (congrFun (sampleCov_linear B y) i) j
      rw [hY, hB, Matrix.one_apply_ne hij] at h
      exact h
    · have h := cov_combination (fun s => Fin.append (x s) (y s)) (Fin.append (A i) 0) (Fin.append 0 (B j))
      rw [← hSd] at h
      simp only [Fin.sum_univ_add, Fin.append_left, Fin.append_right, Pi.zero_apply, zero_mul, Finset.sum_const_zero, add_zero,
        zero_add, mul_zero] at h
      refine h.trans (Eq.trans ?_ (hAB i j hij))
      rw [Matrix.mul_apply]
      refine Finset.sum_congr rfl fun b _ => ?_
      rw [Matrix.mul_apply]
      rfl
  classical
  choose! A B h1 h2 h3 h4 h5 using H
  exact ⟨fun n _ _ x y => .ok
    (List.ofFn fun (i : Fin (min p q)) (s : Fin n) => (A n x y).mulVec (x s) ⟨i, by omega⟩ + 0,
      List.ofFn fun (i : Fin (min p q)) (s : Fin n) => (B n x y).mulVec (y s) ⟨i, by omega⟩ + 0),
    fun n _ x y hS => ⟨A n x y, B n x y, 0, 0, h1 n x y hS, h2 n x y hS, h3 n x y hS, h4 n x y hS, h5 n x y hS, rfl⟩⟩

/-- The estimate from `n` pairs is the number `t`. -/
def ccaGives (fit : (n : ℕ) → Fit n p q) (scale : Bool) (n : ℕ) (x : Fin n → Fin p → ℝ) (y : Fin n → Fin q → ℝ) (t : ℝ) : Prop :=
  Cca.estimate (fit n) scale x y = .ok (some (t : EReal))

/-- **C98** On independent pairs from any law with second moments and an invertible covariance matrix, the estimates converge in
probability to the mutual information of normal variables with the same covariance. -/
theorem cca_converges {κ : Measure Key} {s : Sampler Key} {P : Measure ((Fin p → ℝ) × (Fin q → ℝ))} [IsProbabilityMeasure P]
    (hs : Draws κ s P) {S : Matrix (Fin (p + q)) (Fin (p + q)) ℝ} (hP : HasCov P S) (hS : S.PosDef)
    {fit : (n : ℕ) → Fit n p q} {scale : Bool} (hfit : CanonicalFit fit scale) (mean : Fin (p + q) → ℝ) :
    mutualInfo (splitNormal p q mean S) ≠ ⊤ ∧
    ConvergesTo κ s (ccaGives fit scale) (mutualInfo (splitNormal p q mean S)).toReal := by
  obtain ⟨hmi, h0⟩ := splitNormal_mi mean hS
  refine ⟨by rw [hmi]; exact ENNReal.ofReal_ne_top, ?_⟩
  rw [hmi, ENNReal.toReal_ofReal h0]
  refine converges_of_bad hs fun δ hδ => ⟨badCov δ (gauss S), measurable_badCov _ _, badCov_finally hP hS hδ, ?_⟩
  filter_upwards [eventually_ge_atTop 2] with n hn z hz
  obtain ⟨h1, h2⟩ := not_not.1 hz
  have hpos : (sampleCov (joined z)).PosDef := (sampleCov_posSemidef (by omega) _).posDef_iff_det_ne_zero.2 h1
  obtain ⟨A, B, e, f, hA, hB, hu, hv, huv, hf⟩ := hfit n hn (fun s => (z s).1) (fun s => (z s).2) hpos
  have he := (estimate_canonical (fit n) scale _ _ hn hpos A B hA hB hu hv huv e f hf mean).2
  obtain ⟨h3, h4⟩ := splitNormal_mi mean hpos
  refine ⟨gauss (sampleCov (joined z)), ?_, h2⟩
  have h5 : (mutualInfo (splitNormal p q mean (sampleCov (joined z)))).toReal = gauss (sampleCov (joined z)) := by
    rw [h3, ENNReal.toReal_ofReal h4]
    rfl
  unfold ccaGives
  rw [← h5]
  exact he

theorem append_parts (z : Fin (p + q) → ℝ) (i : Fin (p + q)) : Fin.append (parts z).1 (parts z).2 i = z i := by
  refine Fin.addCases (fun j => ?_) (fun j => ?_) i
  · simp [parts]
  · simp [parts]

/-- A law on the pairs has the covariance of the joined vector. -/
theorem hasCov_parts {Q : Measure (Fin (p + q) → ℝ)} {S : Matrix (Fin (p + q)) (Fin (p + q)) ℝ}
    (hL : ∀ i, MemLp (fun z : Fin (p + q) → ℝ => z i) 2 Q) (hC : ∀ i j, cov[fun z => z i, fun z => z j; Q] = S i j) :
    HasCov (Q.map (parts (dx := p) (dy := q))) S := by
  refine ⟨fun i => ?_, fun i j => ?_⟩
  · rw [memLp_map_measure_iff (measurable_append i).aestronglyMeasurable (measurable_parts p q).aemeasurable]
    refine (hL i).congr_norm ?_ ?_
    · exact ((measurable_append i).comp (measurable_parts p q)).aestronglyMeasurable
    · exact .of_forall fun z => by simp only [Function.comp_apply, append_parts]
  · rw [covariance_map (measurable_append i).aestronglyMeasurable (measurable_append j).aestronglyMeasurable
      (measurable_parts p q).aemeasurable, ← hC i j]
    congr 1
    · funext z; exact append_parts z i
    · funext z; exact append_parts z j

theorem normalLaw_hasCov (mean : Fin (p + q) → ℝ) {S : Matrix (Fin (p + q)) (Fin (p + q)) ℝ} (hS : S.PosSemidef) :
    HasCov (splitNormal p q mean S) S := by
  have ho : Measurable (WithLp.ofLp : EuclideanSpace ℝ (Fin (p + q)) → Fin (p + q) → ℝ) := by fun_prop
  refine hasCov_parts (fun i => ?_) fun i j => ?_
  · unfold normalLaw
    rw [memLp_map_measure_iff (measurable_pi_apply i).aestronglyMeasurable ho.aemeasurable]
    exact (EuclideanSpace.proj (𝕜 := ℝ) i).comp_memLp' IsGaussian.memLp_two_id
  · unfold normalLaw
    rw [covariance_map (measurable_pi_apply i).aestronglyMeasurable (measurable_pi_apply j).aestronglyMeasurable ho.aemeasurable]
    exact covariance_eval_multivariateGaussian hS i j

/-- **C98** On every task with normal variables the estimates of CCA converge in probability to the mutual information the task
reports. -/
theorem cca_consistent (R : JaxRandom Key) (κ : Measure Key) (hR : IdealRandom R κ) (hp : 0 < p) (hq : 0 < q)
    (mean : Fin (p + q) → ℝ) {S : Matrix (Fin (p + q)) (Fin (p + q)) ℝ} (hS : S.PosDef)
    {fit : (n : ℕ) → Fit n p q} {scale : Bool} (hfit : CanonicalFit fit scale) :
    ∃ s, splitMultinormal R p q (rowsOf S) (some (List.ofFn mean)) = .ok s ∧ ConvergesTo κ s (ccaGives fit scale) s.mi := by
  obtain ⟨s, hs, hc⟩ := splitMultinormal_correct R κ hR p q hp hq mean S hS
  obtain ⟨s', hs', hmi⟩ := splitMultinormal_number R p q hp hq mean S hS
  obtain rfl : s = s' := Except.ok.inj (hs.symm.trans hs')
  refine ⟨s, hs, ?_⟩
  haveI := hc.prob
  have h := (cca_converges (fun n _ => hc.law n) (normalLaw_hasCov mean hS.posSemidef) hS hfit mean).2
  rwa [(splitNormal_mi mean hS).1, ENNReal.toReal_ofReal (splitNormal_mi mean hS).2, ← hmi] at h

/-- **C98** On every task with Student-t variables with more than two degrees of freedom they converge to a smaller number: the part of
the mutual information which is due to the dispersion matrix. -/
theorem cca_student {State : Type} [MeasurableSpace State] (R : JaxRandom Key) (N : NpRandom State) (κ : Measure State)
    (hN : IdealStudent N κ) (hp : 0 < p) (hq : 0 < q) (loc : Fin (p + q) → ℝ) {S : Matrix (Fin (p + q)) (Fin (p + q)) ℝ}
    (hS : S.PosDef) {df : ℝ} (hdf : 2 < df) {fit : (n : ℕ) → Fit n p q} {scale : Bool} (hfit : CanonicalFit fit scale) :
    ∃ t, splitStudentT R N p q df (rowsOf S) (some (List.ofFn loc)) = .ok t ∧
      (mutualInfo (splitNormal p q loc S)).toReal < t.sampler.mi ∧
      ConvergesTo κ t.sampler (ccaGives fit scale) (mutualInfo (splitNormal p q loc S)).toReal := by
  have hdf0 : 0 < df := by linarith
  obtain ⟨t, ht, -, -, -, hpos, hmi, hs⟩ := splitStudentT_correct R N κ hN p q hp hq loc S hS df hdf0
  have hν : 0 < df / (df - 2) := div_pos hdf0 (by linarith)
  have hS' : ((df / (df - 2)) • S).PosDef := hS.smul hν
  have hP : HasCov (splitStudent p q loc S df) ((df / (df - 2)) • S) :=
    hasCov_parts (fun i => studentLaw_memLp loc hdf i) fun i j => studentLaw_covariance loc hS.posSemidef hdf i j
  haveI := splitStudent_prob (dx := p) (dy := q) loc S hdf0
  obtain ⟨n1, n2⟩ := splitNormal_mi loc hS
  obtain ⟨n3, n4⟩ := splitNormal_mi loc hS'
  obtain ⟨s1, s2⟩ := splitStudent_mi loc hS hdf0
  have hdet : (Real.log (blockX ((df / (df - 2)) • S)).det + Real.log (blockY ((df / (df - 2)) • S)).det -
      Real.log ((df / (df - 2)) • S).det) / 2 = (Real.log (blockX S).det + Real.log (blockY S).det - Real.log S.det) / 2 := by
    have e1 : blockX ((df / (df - 2)) • S) = (df / (df - 2)) • blockX S := rfl
    have e2 : blockY ((df / (df - 2)) • S) = (df / (df - 2)) • blockY S := rfl
    rw [e1, e2, Matrix.det_smul, Matrix.det_smul, Matrix.det_smul, Real.log_mul (by positivity) (blockX_posDef hS).det_pos.ne',
      Real.log_mul (by positivity) (blockY_posDef hS).det_pos.ne', Real.log_mul (by positivity) hS.det_pos.ne']
    simp only [Real.log_pow, Fintype.card_fin]
    push_cast
    ring
  refine ⟨t, ht, ?_, ?_⟩
  · have h6 : ENNReal.ofReal t.sampler.mi = _ := hmi.symm.trans s1
    rw [ENNReal.ofReal_eq_ofReal_iff hpos.le s2] at h6
    rw [n1, ENNReal.toReal_ofReal n2, h6]
    linarith [studentEntropy_lt hp hq hdf0]
  · have h := (cca_converges (P := splitStudent p q loc S df) hs hP hS' hfit loc).2
    rwa [n3, hdet, ← n1] at h

/-- The hypotheses can be met: two columns for X, three for Y. -/
example : ∃ fit : (n : ℕ) → Fit n 2 3, ∃ s, splitMultinormal tree 2 3 (rowsOf (1 : Matrix (Fin (2 + 3)) (Fin (2 + 3)) ℝ))
    (some (List.ofFn fun _ : Fin (2 + 3) => 7)) = .ok s ∧ ConvergesTo treeLaw s (ccaGives fit true) s.mi := by
  obtain ⟨fit, hfit⟩ := exists_canonicalFit 2 3 true
  exact ⟨fit, cca_consistent tree treeLaw tree_ideal (by norm_num) (by norm_num) _ Matrix.PosDef.one hfit⟩

example : ∃ fit : (n : ℕ) → Fit n 1 2, ∃ t, splitStudentT tree table 1 2 3 (rowsOf (1 : Matrix (Fin (1 + 2)) (Fin (1 + 2)) ℝ))
    (some (List.ofFn fun _ : Fin (1 + 2) => 7)) = .ok t ∧ (mutualInfo (splitNormal 1 2 (fun _ => 7) 1)).toReal < t.sampler.mi ∧
    ConvergesTo tableLaw t.sampler (ccaGives fit false) (mutualInfo (splitNormal 1 2 (fun _ => 7) 1)).toReal := by
  obtain ⟨fit, hfit⟩ := exists_canonicalFit 1 2 false
  exact ⟨fit, cca_student tree table tableLaw table_ideal (by norm_num) (by norm_num) _ Matrix.PosDef.one (by norm_num) hfit⟩

end BMI.Consistency
