import Verif.Lemmas.GaussianMI
import Verif.Lemmas.IdealWitness
import Verif.Props.SamplerShapes

/-! Properties C01 and C02 (multinormal samplers), over /repo/src/bmi/samplers/_splitmultinormal.py. -/

namespace BMI.Samplers

open MeasureTheory ProbabilityTheory

variable {Key : Type}

theorem toMatrix_rowsOf {d : ℕ} (m : Matrix (Fin d) (Fin d) ℝ) : toMatrix d (rowsOf m) = m := by
  ext i j
  simp [toMatrix, rowsOf]

theorem toVec_ofFn {d : ℕ} (v : Fin d → ℝ) : toVec d (List.ofFn v) = v := by
  funext i
  simp [toVec]

theorem hasShape_rowsOf {n d : ℕ} (m : Fin n → Fin d → ℝ) : hasShape (rowsOf m) n d :=
  ⟨length_rowsOf m, length_of_mem_rowsOf m⟩

theorem take_ofFn {dx dy : ℕ} (z : Fin (dx + dy) → ℝ) : (List.ofFn z).take dx = List.ofFn (parts z).1 := by
  apply List.ext_getElem
  · simp
  · intro i h1 h2
    simp [parts]

theorem drop_ofFn {dx dy : ℕ} (z : Fin (dx + dy) → ℝ) : (List.ofFn z).drop dx = List.ofFn (parts z).2 := by
  apply List.ext_getElem
  · simp
  · intro i h1 h2
    simp [parts]

/-- The unclamped number: a difference of entropies. -/
theorem entropy_diff {dx dy : ℕ} (m : Matrix (Fin (dx + dy)) (Fin (dx + dy)) ℝ) :
    entropy (blockX m) + entropy (blockY m) - entropy m
      = (Real.log (blockX m).det + Real.log (blockY m).det - Real.log m.det) / 2 := by
  unfold entropy
  push_cast
  ring

/-! ## C01 -/

/-- **C01**: for every mean and every positive-definite covariance the multinormal sampler is correct: `sample` returns
independent draws of the two parts of a normal vector with that mean and covariance, and the reported number is their
mutual information. -/
theorem splitMultinormal_correct [MeasurableSpace Key] (R : JaxRandom Key) (κ : Measure Key) (hR : IdealRandom R κ)
    (dx dy : ℕ) (hx : 0 < dx) (hy : 0 < dy) (mean : Fin (dx + dy) → ℝ)
    (cov : Matrix (Fin (dx + dy)) (Fin (dx + dy)) ℝ) (hpos : cov.PosDef) :
    ∃ s, splitMultinormal R dx dy (rowsOf cov) (some (List.ofFn mean)) = .ok s ∧
      Correct R κ s dx dy ((normalLaw mean cov).map fun z =>
        (fun i => z (Fin.castAdd dy i), fun i => z (Fin.natAdd dx i))) := by
  have hs := splitMultinormal_of R dx dy hx hy (rowsOf cov) (some (List.ofFn mean)) (by simp) (hasShape_rowsOf cov)
    (by rw [toMatrix_rowsOf]; exact hpos)
  obtain ⟨hmi, h0⟩ := splitNormal_mi mean hpos
  have hb := splitMultinormal_wellShaped R dx dy _ _ _ hs
  refine ⟨_, hs, inferInstanceAs (IsProbabilityMeasure (splitNormal dx dy mean cov)), hb.1, fun n z => rfl, fun n => ?_,
    le_max_left _ _, ?_⟩
  · obtain ⟨hm, hl⟩ := hR.normal n (dx + dy) mean cov hpos
    have hp : Measurable fun (z : Fin n → Fin (dx + dy) → ℝ) i => (parts (z i) : (Fin dx → ℝ) × (Fin dy → ℝ)) :=
      measurable_pi_lambda _ fun i => (measurable_parts dx dy).comp (measurable_pi_apply i)
    refine ⟨fun k i => parts (R.multivariateNormal k n (dx + dy) mean cov i), hp.comp hm, fun k => ?_, ?_⟩
    · simp only [toMatrix_rowsOf, castToRng, Option.getD_some, toVec_ofFn]
      rw [rowsOf_map _ (fun r => r.take dx) (fun z => (parts z).1) take_ofFn,
        rowsOf_map _ (fun r => r.drop dx) (fun z => (parts z).2) drop_ofFn]
    · have h2 := Measure.pi_map_pi (μ := fun _ : Fin n => normalLaw mean cov)
        (f := fun _ z => (parts z : (Fin dx → ℝ) × (Fin dy → ℝ)))
        (hμ := fun _ => inferInstanceAs (SigmaFinite (splitNormal dx dy mean cov)))
        (fun _ => (measurable_parts dx dy).aemeasurable)
      rw [← hl, Measure.map_map hp hm] at h2
      exact h2
  · refine Eq.trans hmi ?_
    congr 1
    show _ = multinormalMI _
    unfold multinormalMI
    rw [toMatrix_rowsOf, entropy_diff, max_eq_right h0]

/-- The default mean is zero. -/
theorem splitMultinormal_default_mean (R : JaxRandom Key) (dx dy : ℕ) (cov : Arr) :
    splitMultinormal R dx dy cov none = splitMultinormal R dx dy cov (some (List.ofFn fun _ : Fin (dx + dy) => 0)) := by
  unfold splitMultinormal
  simp [List.ofFn_const]

example : ∃ s, splitMultinormal tree 1 2 (rowsOf (1 : Matrix (Fin 3) (Fin 3) ℝ)) (some (List.ofFn ![1, 2, 3])) = .ok s ∧
      Correct tree treeLaw s 1 2 ((normalLaw (d := 3) ![1, 2, 3] 1).map fun z =>
        (fun i => z (Fin.castAdd 2 i), fun i => z (Fin.natAdd 1 i))) :=
  splitMultinormal_correct tree treeLaw tree_ideal 1 2 one_pos two_pos ![1, 2, 3] 1 Matrix.PosDef.one

/-- The covariance matrix of two variables with given standard deviations and correlation. -/
def bivariateCov (c sx sy : ℝ) : Matrix (Fin 2) (Fin 2) ℝ := !![sx ^ 2, c * sx * sy; c * sx * sy, sy ^ 2]

theorem bivariateCov_posDef (c sx sy : ℝ) (hsx : 0 < sx) (hsy : 0 < sy) (h1 : -1 < c) (h2 : c < 1) :
    (bivariateCov c sx sy).PosDef := by
  refine Matrix.PosDef.of_dotProduct_mulVec_pos ?_ fun x hx => ?_
  · ext i j
    fin_cases i <;> fin_cases j <;> simp [bivariateCov]
  · have hne : x 0 ≠ 0 ∨ x 1 ≠ 0 := by
      by_contra h
      rw [not_or, not_not, not_not] at h
      exact hx (funext fun i => by fin_cases i; exacts [h.1, h.2])
    have hc : 0 < 1 - c ^ 2 := by nlinarith
    have e : star x ⬝ᵥ (bivariateCov c sx sy).mulVec x
        = (sx * x 0 + c * (sy * x 1)) ^ 2 + (1 - c ^ 2) * (sy * x 1) ^ 2 := by
      simp [bivariateCov, dotProduct, Matrix.mulVec, Fin.sum_univ_two]
      ring
    rw [e]
    by_cases hy : x 1 = 0
    · have hx0 : x 0 ≠ 0 := hne.resolve_right (not_not.2 hy)
      rw [hy]
      have : 0 < (sx * x 0) ^ 2 := by positivity
      simpa using this
    · have : 0 < (1 - c ^ 2) * (sy * x 1) ^ 2 := by positivity
      positivity

theorem bivariate_number (c sx sy : ℝ) (hsx : 0 < sx) (hsy : 0 < sy) (h1 : -1 < c) (h2 : c < 1) :
    (Real.log (blockX (dx := 1) (dy := 1) (bivariateCov c sx sy)).det
        + Real.log (blockY (dx := 1) (dy := 1) (bivariateCov c sx sy)).det - Real.log (bivariateCov c sx sy).det) / 2
      = -0.5 * Real.log (1 - c ^ 2) := by
  have hc : 0 < 1 - c ^ 2 := by nlinarith
  have e1 : (blockX (dx := 1) (dy := 1) (bivariateCov c sx sy)).det = sx ^ 2 := by
    rw [Matrix.det_fin_one]
    simp [blockX, bivariateCov]
  have e2 : (blockY (dx := 1) (dy := 1) (bivariateCov c sx sy)).det = sy ^ 2 := by
    rw [Matrix.det_fin_one]
    simp [blockY, bivariateCov]
  have e3 : (bivariateCov c sx sy).det = sx ^ 2 * sy ^ 2 * (1 - c ^ 2) := by
    rw [Matrix.det_fin_two]
    simp [bivariateCov]
    ring
  rw [e1, e2, e3, Real.log_mul (by positivity) hc.ne', Real.log_mul (by positivity) (by positivity)]
  ring

theorem bivariateNormal_eq (R : JaxRandom Key) (c sx sy mx my : ℝ) (hsx : 0 < sx) (hsy : 0 < sy) (h1 : -1 < c)
    (h2 : c < 1) : ∃ s, splitMultinormal R 1 1 (rowsOf (bivariateCov c sx sy)) (some (List.ofFn ![mx, my])) = .ok s ∧
      bivariateNormal R c sx sy mx my = .ok { dimX := .ok 1, dimY := .ok 1, sample := s.sample, mi := -0.5 * Real.log (1 - c ^ 2) } := by
  have hpos := bivariateCov_posDef c sx sy hsx hsy h1 h2
  have hs := splitMultinormal_of R 1 1 one_pos one_pos (rowsOf (bivariateCov c sx sy)) (some (List.ofFn ![mx, my]))
    (by simp) (hasShape_rowsOf _) (by rw [toMatrix_rowsOf]; exact hpos)
  refine ⟨_, hs, ?_⟩
  unfold bivariateNormal
  rw [if_neg (not_le.2 (lt_min hsx hsy)), if_neg (not_not.2 ⟨h1, h2⟩)]
  have e : [[sx ^ 2, c * sx * sy], [c * sx * sy, sy ^ 2]] = rowsOf (bivariateCov c sx sy) := by
    simp [rowsOf, bivariateCov]
  have e' : [mx, my] = List.ofFn ![mx, my] := by simp
  simp only [e, e']
  have hs' : splitMultinormal R 1 1 (rowsOf (bivariateCov c sx sy)) (some (List.ofFn ![mx, my])) = .ok _ := hs
  rw [hs']
  rfl

/-- **C01**: for every correlation in `(-1, 1)`, positive standard deviations and every mean the bivariate normal
sampler is correct. -/
theorem bivariateNormal_correct [MeasurableSpace Key] (R : JaxRandom Key) (κ : Measure Key) (hR : IdealRandom R κ)
    (c sx sy mx my : ℝ) (hsx : 0 < sx) (hsy : 0 < sy) (h1 : -1 < c) (h2 : c < 1) :
    ∃ s, bivariateNormal R c sx sy mx my = .ok s ∧
      Correct R κ s 1 1 ((normalLaw ![mx, my] !![sx ^ 2, c * sx * sy; c * sx * sy, sy ^ 2]).map fun z =>
        (fun _ => z 0, fun _ => z 1)) := by
  have hpos := bivariateCov_posDef c sx sy hsx hsy h1 h2
  obtain ⟨s, hs, hb⟩ := bivariateNormal_eq R c sx sy mx my hsx hsy h1 h2
  obtain ⟨s', hs', hc⟩ := splitMultinormal_correct R κ hR 1 1 one_pos one_pos ![mx, my] (bivariateCov c sx sy) hpos
  obtain rfl : s' = s := Except.ok.inj (hs'.symm.trans hs)
  obtain ⟨hmi, h0⟩ := splitNormal_mi (dx := 1) (dy := 1) ![mx, my] hpos
  rw [bivariate_number c sx sy hsx hsy h1 h2] at hmi h0
  have e : (fun z : Fin (1 + 1) → ℝ => ((fun i => z (Fin.castAdd 1 i), fun i => z (Fin.natAdd 1 i)) :
      (Fin 1 → ℝ) × (Fin 1 → ℝ))) = fun z => (fun _ => z 0, fun _ => z 1) := by
    funext z
    refine Prod.ext (funext fun i => ?_) (funext fun i => ?_) <;> (rw [Subsingleton.elim i 0]; rfl)
  rw [e] at hc
  have hmi' : mutualInfo ((normalLaw ![mx, my] (bivariateCov c sx sy)).map fun z =>
      ((fun _ => z 0, fun _ => z 1) : (Fin 1 → ℝ) × (Fin 1 → ℝ))) = ENNReal.ofReal (-0.5 * Real.log (1 - c ^ 2)) := by
    rw [← hmi, ← e]
    rfl
  refine ⟨_, hb, hc.prob, bivariateNormal_wellShaped R c sx sy mx my _ hb, fun n z => hc.seeds n z, fun n => hc.law n,
    h0, hmi'⟩

example : ∃ s, bivariateNormal tree 0.8 1 2 0 0 = .ok s ∧ Correct tree treeLaw s 1 1
    ((normalLaw ![0, 0] !![1 ^ 2, 0.8 * 1 * 2; 0.8 * 1 * 2, 2 ^ 2]).map fun z => (fun _ => z 0, fun _ => z 1)) :=
  bivariateNormal_correct tree treeLaw tree_ideal 0.8 1 2 0 0 (by norm_num) (by norm_num) (by norm_num) (by norm_num)

/-- The bivariate sampler rejects a correlation outside `(-1, 1)` and non-positive standard deviations. -/
theorem bivariateNormal_rejects (R : JaxRandom Key) (c sx sy mx my : ℝ)
    (h : sx ≤ 0 ∨ sy ≤ 0 ∨ c ≤ -1 ∨ 1 ≤ c) : bivariateNormal R c sx sy mx my = .error .valueError := by
  unfold bivariateNormal
  by_cases hs : min sx sy ≤ 0
  · rw [if_pos hs]
  · rw [if_neg hs, if_pos]
    rintro ⟨h1, h2⟩
    rw [min_le_iff] at hs
    push Not at hs
    rcases h with h | h | h | h <;> linarith

/-! ## C02 -/

/-- The number the sampler reports. -/
theorem splitMultinormal_number (R : JaxRandom Key) (dx dy : ℕ) (hx : 0 < dx) (hy : 0 < dy)
    (mean : Fin (dx + dy) → ℝ) (cov : Matrix (Fin (dx + dy)) (Fin (dx + dy)) ℝ) (hpos : cov.PosDef) :
    ∃ s, splitMultinormal R dx dy (rowsOf cov) (some (List.ofFn mean)) = .ok s ∧
      s.mi = (Real.log (blockX cov).det + Real.log (blockY cov).det - Real.log cov.det) / 2 := by
  have hs := splitMultinormal_of R dx dy hx hy (rowsOf cov) (some (List.ofFn mean)) (by simp) (hasShape_rowsOf cov)
    (by rw [toMatrix_rowsOf]; exact hpos)
  refine ⟨_, hs, ?_⟩
  show multinormalMI _ = _
  unfold multinormalMI
  rw [toMatrix_rowsOf, entropy_diff, max_eq_right (splitNormal_mi mean hpos).2]

/-- **C02**: the entropy difference is non-negative before it is clamped at zero: the clamp only absorbs rounding. -/
theorem multinormal_nonneg_before_clamp {dx dy : ℕ} (cov : Matrix (Fin (dx + dy)) (Fin (dx + dy)) ℝ)
    (hpos : cov.PosDef) : 0 ≤ entropy (blockX cov) + entropy (blockY cov) - entropy cov := by
  rw [entropy_diff]
  exact (splitNormal_mi 0 hpos).2

theorem number_zero_of_uncorrelated {dx dy : ℕ} (cov : Matrix (Fin (dx + dy)) (Fin (dx + dy)) ℝ) (hpos : cov.PosDef)
    (h : ∀ i j, cov (Fin.castAdd dy i) (Fin.natAdd dx j) = 0) :
    (Real.log (blockX cov).det + Real.log (blockY cov).det - Real.log cov.det) / 2 = 0 := by
  have e : cov.submatrix finSumFinEquiv finSumFinEquiv = Matrix.fromBlocks (blockX cov) 0 0 (blockY cov) := by
    have hsym : ∀ i j, cov i j = cov j i := fun i j => by
      have := congrFun (congrFun hpos.isHermitian.eq j) i
      simpa using this
    ext i j
    rcases i with i | i <;> rcases j with j | j
    · rfl
    · simpa using h i j
    · simp only [Matrix.submatrix_apply, finSumFinEquiv_apply_left, finSumFinEquiv_apply_right]
      rw [hsym]
      simpa using h j i
    · rfl
  have d : cov.det = (blockX cov).det * (blockY cov).det := by
    rw [← Matrix.det_submatrix_equiv_self finSumFinEquiv cov, e, Matrix.det_fromBlocks_zero₂₁]
  rw [d, Real.log_mul (blockX_posDef hpos).det_pos.ne' (blockY_posDef hpos).det_pos.ne']
  ring

theorem uncorrelated_of_number_zero {dx dy : ℕ} (cov : Matrix (Fin (dx + dy)) (Fin (dx + dy)) ℝ) (hpos : cov.PosDef)
    (h : (Real.log (blockX cov).det + Real.log (blockY cov).det - Real.log cov.det) / 2 = 0) (i : Fin dx) (j : Fin dy) :
    cov (Fin.castAdd dy i) (Fin.natAdd dx j) = 0 := by
  have h1 := (splitNormal_mi 0 hpos).1
  rw [h, ENNReal.ofReal_zero, mutualInfo_eq_zero_iff] at h1
  let μ := multivariateGaussian (WithLp.toLp 2 (0 : Fin (dx + dy) → ℝ)) cov
  let X : EuclideanSpace ℝ (Fin (dx + dy)) → Fin dx → ℝ := fun w => (parts (WithLp.ofLp w)).1
  let Y : EuclideanSpace ℝ (Fin (dx + dy)) → Fin dy → ℝ := fun w => (parts (WithLp.ofLp w)).2
  have ho : Measurable (WithLp.ofLp : EuclideanSpace ℝ (Fin (dx + dy)) → Fin (dx + dy) → ℝ) := by fun_prop
  have hX : Measurable X := (measurable_fst.comp (measurable_parts dx dy)).comp ho
  have hY : Measurable Y := (measurable_snd.comp (measurable_parts dx dy)).comp ho
  have hP : splitNormal dx dy 0 cov = μ.map fun w => (X w, Y w) := by
    unfold splitNormal normalLaw
    rw [Measure.map_map (measurable_parts dx dy) ho]
    rfl
  have hi : IndepFun X Y μ := by
    rw [indepFun_iff_map_prod_eq_prod_map_map hX.aemeasurable hY.aemeasurable, ← hP, h1, hP, Measure.fst_map_prodMk hY,
      Measure.snd_map_prodMk hX]
  have hij := hi.comp (measurable_pi_apply i) (measurable_pi_apply j)
  have hm : ∀ k, MemLp (fun w : EuclideanSpace ℝ (Fin (dx + dy)) => w k) 2 μ := fun k =>
    (EuclideanSpace.proj (𝕜 := ℝ) k).comp_memLp' (IsGaussian.memLp_two_id (μ := μ))
  have h3 := hij.covariance_eq_zero (hm _) (hm _)
  rw [← covariance_eval_multivariateGaussian (μ := WithLp.toLp 2 (0 : Fin (dx + dy) → ℝ)) hpos.posSemidef]
  exact h3

/-- **C02**: the reported number is zero exactly when every entry of X is uncorrelated with every entry of Y. -/
theorem multinormal_zero_iff (R : JaxRandom Key) (dx dy : ℕ) (hx : 0 < dx) (hy : 0 < dy)
    (mean : Fin (dx + dy) → ℝ) (cov : Matrix (Fin (dx + dy)) (Fin (dx + dy)) ℝ) (hpos : cov.PosDef) :
    ∃ s, splitMultinormal R dx dy (rowsOf cov) (some (List.ofFn mean)) = .ok s ∧
      (s.mi = 0 ↔ ∀ i j, cov (Fin.castAdd dy i) (Fin.natAdd dx j) = 0) := by
  obtain ⟨s, hs, hn⟩ := splitMultinormal_number R dx dy hx hy mean cov hpos
  refine ⟨s, hs, ?_⟩
  rw [hn]
  exact ⟨fun h i j => uncorrelated_of_number_zero cov hpos h i j, number_zero_of_uncorrelated cov hpos⟩

/-- **C02**: the reported number does not depend on the mean. -/
theorem multinormal_mean_irrelevant (R : JaxRandom Key) (dx dy : ℕ) (hx : 0 < dx) (hy : 0 < dy)
    (mean mean' : Fin (dx + dy) → ℝ) (cov : Matrix (Fin (dx + dy)) (Fin (dx + dy)) ℝ) (hpos : cov.PosDef) :
    ∃ s s', splitMultinormal R dx dy (rowsOf cov) (some (List.ofFn mean)) = .ok s ∧
      splitMultinormal R dx dy (rowsOf cov) (some (List.ofFn mean')) = .ok s' ∧ s.mi = s'.mi := by
  obtain ⟨s, hs, hn⟩ := splitMultinormal_number R dx dy hx hy mean cov hpos
  obtain ⟨s', hs', hn'⟩ := splitMultinormal_number R dx dy hx hy mean' cov hpos
  exact ⟨s, s', hs, hs', hn.trans hn'.symm⟩

/-- **C02**: exchanging X and Y does not change the reported number. -/
theorem multinormal_swap (R : JaxRandom Key) (dx dy : ℕ) (hx : 0 < dx) (hy : 0 < dy)
    (mean : Fin (dx + dy) → ℝ) (cov : Matrix (Fin (dx + dy)) (Fin (dx + dy)) ℝ) (hpos : cov.PosDef) :
    ∃ s s', splitMultinormal R dx dy (rowsOf cov) (some (List.ofFn mean)) = .ok s ∧
      splitMultinormal R dy dx (rowsOf (cov.submatrix finAddFlip finAddFlip)) (some (List.ofFn (mean ∘ finAddFlip)))
        = .ok s' ∧ s.mi = s'.mi := by
  obtain ⟨s, hs, hn⟩ := splitMultinormal_number R dx dy hx hy mean cov hpos
  have hpos' : (cov.submatrix (finAddFlip (m := dy) (n := dx)) finAddFlip).PosDef := hpos.submatrix finAddFlip.injective
  obtain ⟨s', hs', hn'⟩ := splitMultinormal_number R dy dx hy hx (mean ∘ finAddFlip) _ hpos'
  refine ⟨s, s', hs, hs', ?_⟩
  rw [hn, hn', Matrix.det_submatrix_equiv_self]
  have e1 : blockX (cov.submatrix (finAddFlip (m := dy) (n := dx)) finAddFlip) = blockY cov := by
    ext i j
    simp [blockX, blockY]
  have e2 : blockY (cov.submatrix (finAddFlip (m := dy) (n := dx)) finAddFlip) = blockX cov := by
    ext i j
    simp [blockX, blockY]
  rw [e1, e2]
  ring

/-- The linear map acting by `A` on X and by `B` on Y. -/
def actOn {dx dy : ℕ} (A : Matrix (Fin dx) (Fin dx) ℝ) (B : Matrix (Fin dy) (Fin dy) ℝ) :
    Matrix (Fin (dx + dy)) (Fin (dx + dy)) ℝ :=
  (Matrix.fromBlocks A 0 0 B).submatrix finSumFinEquiv.symm finSumFinEquiv.symm

/-- What `actOn` means: `A` applied to the first part, `B` to the second. -/
theorem actOn_mulVec {dx dy : ℕ} (A : Matrix (Fin dx) (Fin dx) ℝ) (B : Matrix (Fin dy) (Fin dy) ℝ)
    (z : Fin (dx + dy) → ℝ) : parts ((actOn A B).mulVec z) = (A.mulVec (parts z).1, B.mulVec (parts z).2) := by
  refine Prod.ext (funext fun i => ?_) (funext fun i => ?_) <;>
    simp [parts, actOn, Matrix.mulVec, dotProduct, Fin.sum_univ_add]

theorem actOn_blocks {dx dy : ℕ} (A : Matrix (Fin dx) (Fin dx) ℝ) (B : Matrix (Fin dy) (Fin dy) ℝ)
    (cov : Matrix (Fin (dx + dy)) (Fin (dx + dy)) ℝ) :
    blockX (actOn A B * cov * (actOn A B).transpose) = A * blockX cov * A.transpose ∧
      blockY (actOn A B * cov * (actOn A B).transpose) = B * blockY cov * B.transpose := by
  constructor <;> ext i j <;> simp [blockX, blockY, actOn, Matrix.mul_apply, Fin.sum_univ_add]

theorem actOn_det {dx dy : ℕ} (A : Matrix (Fin dx) (Fin dx) ℝ) (B : Matrix (Fin dy) (Fin dy) ℝ) :
    (actOn A B).det = A.det * B.det := by
  unfold actOn
  rw [Matrix.det_submatrix_equiv_self, Matrix.det_fromBlocks_zero₂₁]

/-- **C02**: invertible linear maps of X and of Y do not change the reported number. -/
theorem multinormal_linear (R : JaxRandom Key) (dx dy : ℕ) (hx : 0 < dx) (hy : 0 < dy)
    (mean : Fin (dx + dy) → ℝ) (cov : Matrix (Fin (dx + dy)) (Fin (dx + dy)) ℝ) (hpos : cov.PosDef)
    (A : Matrix (Fin dx) (Fin dx) ℝ) (B : Matrix (Fin dy) (Fin dy) ℝ) (hA : A.det ≠ 0) (hB : B.det ≠ 0) :
    ∃ s s', splitMultinormal R dx dy (rowsOf cov) (some (List.ofFn mean)) = .ok s ∧
      splitMultinormal R dx dy (rowsOf (actOn A B * cov * (actOn A B).transpose))
        (some (List.ofFn ((actOn A B).mulVec mean))) = .ok s' ∧ s.mi = s'.mi := by
  obtain ⟨s, hs, hn⟩ := splitMultinormal_number R dx dy hx hy mean cov hpos
  have hD : IsUnit (actOn A B) := by
    rw [Matrix.isUnit_iff_isUnit_det, actOn_det]
    exact (mul_ne_zero hA hB).isUnit
  have hpos' : (actOn A B * cov * (actOn A B).transpose).PosDef := by
    have := hpos.mul_mul_conjTranspose_same (B := actOn A B) (Matrix.vecMul_injective_of_isUnit hD)
    rwa [Matrix.conjTranspose_eq_transpose_of_trivial] at this
  obtain ⟨s', hs', hn'⟩ := splitMultinormal_number R dx dy hx hy ((actOn A B).mulVec mean) _ hpos'
  refine ⟨s, s', hs, hs', ?_⟩
  have h1 := (blockX_posDef hpos).det_pos
  have h2 := (blockY_posDef hpos).det_pos
  have h3 := hpos.det_pos
  rw [hn, hn', (actOn_blocks A B cov).1, (actOn_blocks A B cov).2]
  simp only [Matrix.det_mul, Matrix.det_transpose, actOn_det]
  rw [Real.log_mul (by positivity) hA, Real.log_mul hA h1.ne', Real.log_mul (by positivity) hB,
    Real.log_mul hB h2.ne', Real.log_mul (by positivity) (by positivity), Real.log_mul (by positivity) h3.ne',
    Real.log_mul hA hB]
  ring

/-- **C02**: on two variables the two samplers report the same number. -/
theorem bivariate_eq_split (R : JaxRandom Key) (c sx sy mx my : ℝ) (hsx : 0 < sx) (hsy : 0 < sy) (h1 : -1 < c)
    (h2 : c < 1) : ∃ s s', bivariateNormal R c sx sy mx my = .ok s ∧
      splitMultinormal R 1 1 [[sx ^ 2, c * sx * sy], [c * sx * sy, sy ^ 2]] (some [mx, my]) = .ok s' ∧ s.mi = s'.mi := by
  obtain ⟨s', hs', hb⟩ := bivariateNormal_eq R c sx sy mx my hsx hsy h1 h2
  obtain ⟨s'', hs'', hn⟩ := splitMultinormal_number R 1 1 one_pos one_pos ![mx, my] (bivariateCov c sx sy)
    (bivariateCov_posDef c sx sy hsx hsy h1 h2)
  obtain rfl : s'' = s' := Except.ok.inj (hs''.symm.trans hs')
  refine ⟨_, s'', hb, ?_, ?_⟩
  · rw [← hs']
    congr 1 <;> simp [rowsOf, bivariateCov]
  · rw [hn, bivariate_number c sx sy hsx hsy h1 h2]

example : ∃ s, splitMultinormal tree 1 1 (rowsOf (bivariateCov 0.5 1 1)) (some (List.ofFn ![0, 0])) = .ok s ∧
    s.mi ≠ 0 := by
  obtain ⟨s, hs, h⟩ := multinormal_zero_iff tree 1 1 one_pos one_pos ![0, 0] (bivariateCov 0.5 1 1)
    (bivariateCov_posDef _ _ _ one_pos one_pos (by norm_num) (by norm_num))
  refine ⟨s, hs, fun h0 => ?_⟩
  have := h.1 h0 0 0
  norm_num [bivariateCov, Fin.castAdd, Fin.natAdd] at this

example : ∃ s s', splitMultinormal tree 1 1 (rowsOf (bivariateCov 0.5 1 1)) (some (List.ofFn ![0, 0])) = .ok s ∧
    splitMultinormal tree 1 1 (rowsOf (actOn !![2] !![-3] * bivariateCov 0.5 1 1 * (actOn !![2] !![-3]).transpose))
      (some (List.ofFn ((actOn !![2] !![-3]).mulVec ![0, 0]))) = .ok s' ∧ s.mi = s'.mi :=
  multinormal_linear tree 1 1 one_pos one_pos ![0, 0] (bivariateCov 0.5 1 1)
    (bivariateCov_posDef _ _ _ one_pos one_pos (by norm_num) (by norm_num)) !![2] !![-3] (by simp) (by simp)

end BMI.Samplers
