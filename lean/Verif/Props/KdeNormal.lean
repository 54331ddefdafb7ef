import Verif.Props.KdeLimit
import Verif.Lemmas.KdeNormal
import Verif.Lemmas.KdeCurve
import Verif.Props.Multinormal
import Verif.Lemmas.MixtureMore

/-! C105: the kernel density estimator on normal variables, Gaussian kernels. -/

namespace BMI.Kde

open MeasureTheory ProbabilityTheory Filter Topology BMI.Batch BMI.Kde.Spec BMI.Consistency BMI.Samplers

variable {Key : Type} [MeasurableSpace Key] {d dx dy : ℕ}

/-- A Gaussian kernel, normalised, is the density of independent normal components with standard deviation `h`. -/
theorem kernel_density {h : ℝ} (hh : 0 < h) (u v : Fin d → ℝ) :
    shape .gaussian (dist (WithLp.toLp 2 u : EuclideanSpace ℝ (Fin d)) (WithLp.toLp 2 v) / h) / (Real.sqrt (2 * Real.pi) ^ d * h ^ d)
      = Real.exp (logDensity 0 (h ^ 2 • (1 : Matrix (Fin d) (Fin d) ℝ)) (u - v)) := by
  have h2 : (0 : ℝ) < h ^ 2 := by positivity
  have hp : (0 : ℝ) < 2 * Real.pi := by positivity
  have hinv : (h ^ 2 • (1 : Matrix (Fin d) (Fin d) ℝ))⁻¹ = (1 / h ^ 2) • 1 := by
    refine Matrix.inv_eq_left_inv ?_
    rw [Matrix.smul_mul, Matrix.one_mul, smul_smul, one_div_mul_cancel h2.ne', one_smul]
  unfold logDensity quad
  rw [hinv, Matrix.smul_mulVec, Matrix.one_mulVec, dotProduct_smul, sub_zero, smul_eq_mul, Matrix.det_smul, Matrix.det_one, mul_one,
    Fintype.card_fin]
  have e1 : (u - v) ⬝ᵥ (u - v) = dist (WithLp.toLp 2 u : EuclideanSpace ℝ (Fin d)) (WithLp.toLp 2 v) ^ 2 := by
    rw [pairDist_sq (u, v)]
    unfold dotProduct
    refine Finset.sum_congr rfl fun c _ => ?_
    simp only [Pi.sub_apply]
    ring
  rw [e1]
  set r := dist (WithLp.toLp 2 u : EuclideanSpace ℝ (Fin d)) (WithLp.toLp 2 v)
  have e2 : Real.sqrt (2 * Real.pi) ^ d * h ^ d = Real.exp (d * Real.log (2 * Real.pi) / 2 + d * Real.log h) := by
    rw [Real.exp_add, mul_comm (d : ℝ) (Real.log h), ← Real.rpow_def_of_pos hh, Real.rpow_natCast]
    congr 1
    rw [show d * Real.log (2 * Real.pi) / 2 = Real.log (Real.sqrt (2 * Real.pi)) * d by rw [Real.log_sqrt hp.le]; ring,
      ← Real.rpow_def_of_pos (Real.sqrt_pos.2 hp), Real.rpow_natCast]
  rw [e2]
  simp only [shape]
  rw [← Real.exp_sub, Real.log_pow, Real.log_pow]
  congr 1
  push_cast
  field_simp
  ring

/-- The cross entropy of a normal law and its smoothed version. -/
theorem crossEntropy_normal (m : Fin d → ℝ) {S : Matrix (Fin d) (Fin d) ℝ} (hS : S.PosDef) {h : ℝ} (hh : 0 < h) :
    crossEntropy (shape .gaussian) (Real.sqrt (2 * Real.pi) ^ d) h (normalLaw m S) = normalEntropy S h := by
  have hT : (h ^ 2 • (1 : Matrix (Fin d) (Fin d) ℝ)).PosDef := Matrix.PosDef.one.smul (by positivity)
  unfold crossEntropy smooth
  simp only [kernel_density hh]
  rw [integral_congr_ae ((smooth_normal m hS hT).mono fun u hu => by rw [hu, Real.log_exp])]
  obtain ⟨h1, h2⟩ := integral_quad_other m hS.posSemidef (S + h ^ 2 • (1 : Matrix (Fin d) (Fin d) ℝ))
  unfold logDensity
  rw [integral_sub (integrable_const _) (h1.div_const 2), integral_const, integral_div, h2]
  unfold normalEntropy
  simp only [probReal_univ, one_smul]
  ring

theorem splitNormal_append (m : Fin (dx + dy) → ℝ) (S : Matrix (Fin (dx + dy)) (Fin (dx + dy)) ℝ) :
    (splitNormal dx dy m S).map (fun p => (Fin.append p.1 p.2 : Fin (dx + dy) → ℝ)) = normalLaw m S := by
  unfold splitNormal
  rw [Measure.map_map measurable_append (measurable_parts dx dy)]
  have : ((fun p : (Fin dx → ℝ) × (Fin dy → ℝ) => (Fin.append p.1 p.2 : Fin (dx + dy) → ℝ)) ∘ parts) = id := by
    funext z
    funext i
    refine Fin.addCases (fun j => ?_) (fun j => ?_) i <;> simp [parts]
  rw [this, Measure.map_id]

theorem smoothInfo_normal (m : Fin (dx + dy) → ℝ) {S : Matrix (Fin (dx + dy)) (Fin (dx + dy)) ℝ} (hS : S.PosDef) {hx hy hxy : ℝ}
    (h1 : 0 < hx) (h2 : 0 < hy) (h3 : 0 < hxy) :
    smoothInfo (shape .gaussian) (shape .gaussian) (shape .gaussian) (Real.sqrt (2 * Real.pi) ^ dx) (Real.sqrt (2 * Real.pi) ^ dy)
      (Real.sqrt (2 * Real.pi) ^ (dx + dy)) hx hy hxy (splitNormal dx dy m S) = normalInfo S hx hy hxy := by
  unfold smoothInfo normalInfo
  rw [splitNormal_append, splitNormal_fst m hS.posSemidef, splitNormal_snd m hS.posSemidef, crossEntropy_normal _ hS h3,
    crossEntropy_normal _ (blockX_posDef hS) h1, crossEntropy_normal _ (blockY_posDef hS) h2]
  rfl

/-- The constants by which scikit-learn divides the kernels: positive, and the right one for Gaussian kernels. -/
structure Normalised (Z : Kernel → ℕ → ℝ) : Prop where
  pos : ∀ k d, 0 < Z k d
  gaussian : ∀ d, Z .gaussian d = Real.sqrt (2 * Real.pi) ^ d

theorem normal_memLp (m : Fin d → ℝ) {S : Matrix (Fin d) (Fin d) ℝ} (hS : S.PosDef) (i : Fin d) :
    MemLp (fun z : Fin d → ℝ => z i) 2 (normalLaw m S) := by
  have hm : normalLaw m S = (normalLaw 0 S).map fun x => m + (1 : Matrix (Fin d) (Fin d) ℝ).mulVec x := by
    rw [normalLaw_map _ hS.posSemidef]
    simp
  have hc : Continuous fun x : Fin d → ℝ => m + (1 : Matrix (Fin d) (Fin d) ℝ).mulVec x := by fun_prop
  rw [hm, memLp_map_measure_iff (measurable_pi_apply i).aestronglyMeasurable hc.measurable.aemeasurable]
  have := (memLp_const (m i)).add (normalLaw_memLp (S := S) i)
  refine this.ae_eq (.of_forall fun z => ?_)
  simp

theorem splitNormal_memLp (m : Fin (dx + dy) → ℝ) {S : Matrix (Fin (dx + dy)) (Fin (dx + dy)) ℝ} (hS : S.PosDef) (i : Fin (dx + dy)) :
    MemLp (fun p : (Fin dx → ℝ) × (Fin dy → ℝ) => Fin.append p.1 p.2 i) 2 (splitNormal dx dy m S) := by
  have h1 := normal_memLp m hS i
  rw [← splitNormal_append (dx := dx) (dy := dy) m S, memLp_map_measure_iff (measurable_pi_apply i).aestronglyMeasurable
    measurable_append.aemeasurable] at h1
  exact h1

/-- **C105** On normal variables, with Gaussian kernels, fixed bandwidths and without standardisation, the estimates converge to an explicit
number. -/
theorem kde_normal (R : JaxRandom Key) (κ : Measure Key) (hR : IdealRandom R κ) (hdx : 0 < dx) (hdy : 0 < dy)
    (mean : Fin (dx + dy) → ℝ) {S : Matrix (Fin (dx + dy)) (Fin (dx + dy)) ℝ} (hS : S.PosDef) {Z : Kernel → ℕ → ℝ} (hZ : Normalised Z) (ε : ℝ)
    {bx by' bxy : ℝ} (hbx : 0 < bx) (hby : 0 < by') (hbxy : 0 < bxy) :
    ∃ E s, create "gaussian" none none (.number bxy) (some (.number bx)) (some (.number by')) false = .ok E ∧
      splitMultinormal R dx dy (rowsOf S) (some (List.ofFn mean)) = .ok s ∧
      ConvergesTo κ s (Gives (dx := dx) (dy := dy) Z ε E) (normalInfo S bx by' bxy) := by
  obtain ⟨s, hs, hc⟩ := splitMultinormal_correct R κ hR dx dy hdx hdy mean S hS
  haveI := hc.prob
  refine ⟨_, s, rfl, hs, ?_⟩
  have hm := splitNormal_memLp (dx := dx) (dy := dy) mean hS
  have m1 : ∀ c, MemLp (fun p : (Fin dx → ℝ) × (Fin dy → ℝ) => p.1 c) 2 (splitNormal dx dy mean S) := fun c => by
    simpa using hm (Fin.castAdd dy c)
  have m2 : ∀ c, MemLp (fun p : (Fin dx → ℝ) × (Fin dy → ℝ) => p.2 c) 2 (splitNormal dx dy mean S) := fun c => by
    simpa using hm (Fin.natAdd dx c)
  rw [← smoothInfo_normal mean hS hbx hby hbxy, ← hZ.gaussian, ← hZ.gaussian, ← hZ.gaussian]
  exact kde_limit (E := ⟨⟨.number bx, .gaussian, none⟩, ⟨.number by', .gaussian, none⟩, ⟨.number bxy, .gaussian, none⟩, _, false⟩)
    (fun n _ => hc.law n) hdx hdy
    m1 m2 Z hZ.pos ε rfl hbx hby hbxy rfl rfl rfl
    (.inl rfl) (.inl rfl) (.inl rfl)

/-- **C105** With one bandwidth for all three densities the limit is between zero and the mutual information, strictly as soon as some
component of X is correlated with some component of Y; the estimates are too small even with infinitely many points. -/
theorem kde_normal_low (R : JaxRandom Key) (κ : Measure Key) (hR : IdealRandom R κ) (hdx : 0 < dx) (hdy : 0 < dy)
    (mean : Fin (dx + dy) → ℝ) {S : Matrix (Fin (dx + dy)) (Fin (dx + dy)) ℝ} (hS : S.PosDef) {Z : Kernel → ℕ → ℝ} (hZ : Normalised Z) (ε : ℝ)
    {h : ℝ} (hh : 0 < h) :
    ∃ E s v, create "gaussian" none none (.number h) none none false = .ok E ∧
      splitMultinormal R dx dy (rowsOf S) (some (List.ofFn mean)) = .ok s ∧
      ConvergesTo κ s (Gives (dx := dx) (dy := dy) Z ε E) v ∧ 0 ≤ v ∧ v ≤ s.mi ∧
      ((∃ i j, S (Fin.castAdd dy i) (Fin.natAdd dx j) ≠ 0) → 0 < v ∧ v < s.mi) := by
  obtain ⟨E, s, h1, h2, h3⟩ := kde_normal R κ hR hdx hdy mean hS hZ ε hh hh hh
  obtain ⟨s', hs', hn⟩ := splitMultinormal_number R dx dy hdx hdy mean S hS
  obtain rfl := Except.ok.inj (h2.symm.trans hs')
  refine ⟨E, s, _, h1, h2, h3, ?_⟩
  have h0 : (0 : ℝ) ≤ h ^ 2 := sq_nonneg h
  rw [hn, ← infoCurve_zero hS, normalInfo_eq]
  exact ⟨infoCurve_nonneg hS h0, infoCurve_anti hS (le_refl (0 : ℝ)) h0 h0, fun hc => ⟨infoCurve_pos hS hc h0,
    infoCurve_strictAnti hS hc (le_refl (0 : ℝ)) h0 (by positivity)⟩⟩

/-- **C105** A larger bandwidth gives a smaller limit. -/
theorem kde_normal_anti {S : Matrix (Fin (dx + dy)) (Fin (dx + dy)) ℝ} (hS : S.PosDef) {h h' : ℝ} (hh : 0 < h) (hlt : h < h') :
    normalInfo S h' h' h' ≤ normalInfo S h h h ∧
      ((∃ i j, S (Fin.castAdd dy i) (Fin.natAdd dx j) ≠ 0) → normalInfo S h' h' h' < normalInfo S h h h) := by
  have h1 : h ^ 2 < h' ^ 2 := pow_lt_pow_left₀ hlt hh.le two_ne_zero
  rw [normalInfo_eq, normalInfo_eq]
  exact ⟨infoCurve_anti hS (sq_nonneg h) (sq_nonneg h') h1.le, fun hc => infoCurve_strictAnti hS hc (sq_nonneg h) (sq_nonneg h') h1⟩

/-- **C105** With small bandwidths the limit is as close to the mutual information as one likes. -/
theorem kde_normal_small (R : JaxRandom Key) (κ : Measure Key) (hR : IdealRandom R κ) (hdx : 0 < dx) (hdy : 0 < dy)
    (mean : Fin (dx + dy) → ℝ) {S : Matrix (Fin (dx + dy)) (Fin (dx + dy)) ℝ} (hS : S.PosDef) {Z : Kernel → ℕ → ℝ} (hZ : Normalised Z) (ε : ℝ)
    {δ : ℝ} (hδ : 0 < δ) :
    ∃ h₀ > 0, ∀ h, 0 < h → h ≤ h₀ → ∃ E s v, create "gaussian" none none (.number h) none none false = .ok E ∧
      splitMultinormal R dx dy (rowsOf S) (some (List.ofFn mean)) = .ok s ∧
      ConvergesTo κ s (Gives (dx := dx) (dy := dy) Z ε E) v ∧ |v - s.mi| < δ := by
  have hc := infoCurve_continuous hS 0 (le_refl (0 : ℝ))
  obtain ⟨r, hr, hb⟩ := Metric.continuousWithinAt_iff.1 hc δ hδ
  refine ⟨min 1 (r / 2), by positivity, fun h hh hle => ?_⟩
  obtain ⟨E, s, h1, h2, h3⟩ := kde_normal R κ hR hdx hdy mean hS hZ ε hh hh hh
  obtain ⟨s', hs', hn⟩ := splitMultinormal_number R dx dy hdx hdy mean S hS
  obtain rfl := Except.ok.inj (h2.symm.trans hs')
  refine ⟨E, s, _, h1, h2, h3, ?_⟩
  have h4 : h ≤ 1 := hle.trans (min_le_left _ _)
  have h5 : h ≤ r / 2 := hle.trans (min_le_right _ _)
  have := @hb (h ^ 2) (sq_nonneg h) (by rw [Real.dist_eq, sub_zero, abs_of_nonneg (sq_nonneg h)]; nlinarith)
  rwa [Real.dist_eq, infoCurve_zero hS, ← hn, ← normalInfo_eq] at this

theorem gaussian_append {h : ℝ} (p q : (Fin dx → ℝ) × (Fin dy → ℝ)) :
    pairKernel (shape .gaussian) h ((Fin.append p.1 p.2 : Fin (dx + dy) → ℝ), (Fin.append q.1 q.2 : Fin (dx + dy) → ℝ))
      = pairKernel (shape .gaussian) h (p.1, q.1) * pairKernel (shape .gaussian) h (p.2, q.2) := by
  unfold pairKernel
  simp only [shape]
  rw [← Real.exp_add]
  congr 1
  rw [div_pow, div_pow, div_pow, pairDist_sq (p.1, q.1), pairDist_sq (p.2, q.2),
    pairDist_sq ((Fin.append p.1 p.2 : Fin (dx + dy) → ℝ), (Fin.append q.1 q.2 : Fin (dx + dy) → ℝ)), Fin.sum_univ_add]
  simp only [Fin.append_left, Fin.append_right]
  ring

/-- Independent parts: the three numbers cancel. -/
theorem smoothInfo_independent {A : Measure (Fin dx → ℝ)} {B : Measure (Fin dy → ℝ)} [IsProbabilityMeasure A] [IsProbabilityMeasure B]
    (hA : ∀ c, MemLp (fun u : Fin dx → ℝ => u c) 2 A) (hB : ∀ c, MemLp (fun u : Fin dy → ℝ => u c) 2 B) {zx zy h : ℝ} (hzx : 0 < zx)
    (hzy : 0 < zy) (hh : 0 < h) :
    smoothInfo (shape .gaussian) (shape .gaussian) (shape .gaussian) zx zy (zx * zy) h h h (A.prod B) = 0 := by
  have hk : Positive .gaussian := .inl rfl
  have ma := measurable_append (dx := dx) (dy := dy)
  have mem : ∀ c, MemLp (fun u : Fin (dx + dy) → ℝ => u c) 2 ((A.prod B).map fun p => (Fin.append p.1 p.2 : Fin (dx + dy) → ℝ)) := by
    intro c
    rw [memLp_map_measure_iff (measurable_pi_apply c).aestronglyMeasurable ma.aemeasurable]
    refine Fin.addCases (fun i => ?_) (fun i => ?_) c
    · simpa [Function.comp_def] using (hA i).comp_fst B
    · simpa [Function.comp_def] using (hB i).comp_snd A
  haveI : IsProbabilityMeasure ((A.prod B).map fun p => (Fin.append p.1 p.2 : Fin (dx + dy) → ℝ)) := Measure.isProbabilityMeasure_map ma.aemeasurable
  have mk := measurable_pairKernel (d := dx + dy) hk h
  have h0 : ∀ {d : ℕ} p, 0 < pairKernel (d := d) (shape .gaussian) h p := fun p => shape_pos hk _
  have row : ∀ p : (Fin dx → ℝ) × (Fin dy → ℝ), rowMean ((A.prod B).map fun p => (Fin.append p.1 p.2 : Fin (dx + dy) → ℝ)) (pairKernel (shape .gaussian) h)
      (Fin.append p.1 p.2) = rowMean A (pairKernel (shape .gaussian) h) p.1 * rowMean B (pairKernel (shape .gaussian) h) p.2 := by
    intro p
    unfold rowMean
    have m1 : Measurable fun v : Fin (dx + dy) → ℝ => pairKernel (shape .gaussian) h ((Fin.append p.1 p.2 : Fin (dx + dy) → ℝ), v) :=
      mk.comp (measurable_const.prodMk measurable_id)
    rw [integral_map ma.aemeasurable m1.aestronglyMeasurable]
    simp only [gaussian_append p]
    exact integral_prod_mul (μ := A) (ν := B) (fun u => pairKernel (shape .gaussian) h (p.1, u)) fun v => pairKernel (shape .gaussian) h (p.2, v)
  have ia := log_rowMean_integrable (P := A) (measurable_pairKernel hk h) h0 (pairKernel_le hh) (log_kernel_integrable hk hh hA)
  have ib := log_rowMean_integrable (P := B) (measurable_pairKernel hk h) h0 (pairKernel_le hh) (log_kernel_integrable hk hh hB)
  have pa := rowMean_pos (P := A) (measurable_pairKernel hk h) h0 (pairKernel_le hh)
  have pb := rowMean_pos (P := B) (measurable_pairKernel hk h) h0 (pairKernel_le hh)
  unfold smoothInfo
  rw [Measure.fst_prod, Measure.snd_prod, crossEntropy_eq hk hzx hh hA, crossEntropy_eq hk hzy hh hB, crossEntropy_eq hk (mul_pos hzx hzy) hh mem,
    integral_map ma.aemeasurable (measurable_rowMean mk).log.aestronglyMeasurable]
  simp only [row, Real.log_mul (pa _).ne' (pb _).ne']
  rw [integral_add (ia.comp_fst B) (ib.comp_snd A), integral_fun_fst (μ := A) (ν := B) fun u => Real.log (rowMean A (pairKernel (shape .gaussian) h) u),
    integral_fun_snd (μ := A) (ν := B) fun u => Real.log (rowMean B (pairKernel (shape .gaussian) h) u), pow_add,
    show zx * zy * (h ^ dx * h ^ dy) = (zx * h ^ dx) * (zy * h ^ dy) by ring, Real.log_mul (mul_pos hzx (pow_pos hh dx)).ne' (mul_pos hzy (pow_pos hh dy)).ne']
  simp only [probReal_univ, one_smul]
  ring

/-- **C105** On independent variables with second moments, whatever their laws, the estimates with Gaussian kernels of one bandwidth converge
to zero, the mutual information. -/
theorem kde_independent {κ : Measure Key} {s : Sampler Key} {A : Measure (Fin dx → ℝ)} {B : Measure (Fin dy → ℝ)} [IsProbabilityMeasure A]
    [IsProbabilityMeasure B] (hs : Draws κ s (A.prod B)) (hdx : 0 < dx) (hdy : 0 < dy)
    (hA : ∀ c, MemLp (fun u : Fin dx → ℝ => u c) 2 A) (hB : ∀ c, MemLp (fun u : Fin dy → ℝ => u c) 2 B) {Z : Kernel → ℕ → ℝ} (hZ : Normalised Z) (ε : ℝ)
    {h : ℝ} (hh : 0 < h) :
    ∃ E, create "gaussian" none none (.number h) none none false = .ok E ∧ ConvergesTo κ s (Gives (dx := dx) (dy := dy) Z ε E) 0 := by
  refine ⟨_, rfl, ?_⟩
  have := kde_limit (E := ⟨⟨.number h, .gaussian, none⟩, ⟨.number h, .gaussian, none⟩, ⟨.number h, .gaussian, none⟩,
    ⟨.gaussian, .gaussian, .gaussian, .number h, .number h, .number h, false⟩, false⟩)
    hs hdx hdy (fun c => (hA c).comp_fst B) (fun c => (hB c).comp_snd A) Z hZ.pos ε rfl hh hh hh rfl rfl rfl (.inl rfl) (.inl rfl) (.inl rfl)
  simp only at this
  rw [show Z .gaussian (dx + dy) = Z .gaussian dx * Z .gaussian dy by rw [hZ.gaussian, hZ.gaussian, hZ.gaussian, pow_add],
    smoothInfo_independent hA hB (hZ.pos _ _) (hZ.pos _ _) hh] at this
  exact this

/-- Constants for which the theorems speak. -/
theorem normalised_example : Normalised fun _ d => Real.sqrt (2 * Real.pi) ^ d :=
  ⟨fun _ _ => by positivity, fun _ => rfl⟩

/-- Correlation 0.9 and bandwidth one: the limit is strictly between zero and the mutual information. -/
example : ∃ E s v, create "gaussian" none none (.number 1) none none false = .ok E ∧
    splitMultinormal tree 1 1 (rowsOf (bivariateCov 0.9 1 1)) (some (List.ofFn ![0, 0])) = .ok s ∧
    ConvergesTo treeLaw s (Gives (dx := 1) (dy := 1) (fun _ d => Real.sqrt (2 * Real.pi) ^ d) 0 E) v ∧ 0 < v ∧ v < s.mi := by
  obtain ⟨E, s, v, h1, h2, h3, -, -, h4⟩ := kde_normal_low tree treeLaw tree_ideal one_pos one_pos ![0, 0]
    (bivariateCov_posDef 0.9 1 1 one_pos one_pos (by norm_num) (by norm_num)) normalised_example 0 (one_pos (α := ℝ))
  refine ⟨E, s, v, h1, h2, h3, h4 ⟨0, 0, ?_⟩⟩
  change (0.9 * 1 * 1 : ℝ) ≠ 0
  norm_num

/-- Independent normal variables meet the hypotheses of `kde_independent`. -/
example : ∃ E s, create "gaussian" none none (.number 3) none none false = .ok E ∧
    splitMultinormal tree 1 1 (rowsOf (Matrix.diagonal ![1, 4])) (some (List.ofFn ![0, 7])) = .ok s ∧
    ConvergesTo treeLaw s (Gives (dx := 1) (dy := 1) (fun _ d => Real.sqrt (2 * Real.pi) ^ d) 0 E) 0 := by
  have hv : ∀ i, 0 < (![1, 4] : Fin (1 + 1) → ℝ) i := by
    intro i
    fin_cases i <;> norm_num
  obtain ⟨s, hs, hc⟩ := splitMultinormal_correct tree treeLaw tree_ideal 1 1 one_pos one_pos ![0, 7] _ (Matrix.PosDef.diagonal hv)
  have hd := (BMI.Bmm.splitNormal_diagonal (dx := 1) (dy := 1) ![0, 7] ![1, 4] hv).2
  have hD : Draws treeLaw s (splitNormal 1 1 ![0, 7] (Matrix.diagonal ![1, 4])) := fun n _ => hc.law n
  rw [hd] at hD
  obtain ⟨E, h1, h2⟩ := kde_independent hD one_pos one_pos
    (normal_memLp _ (Matrix.PosDef.diagonal fun i => hv (Fin.castAdd 1 i))) (normal_memLp _ (Matrix.PosDef.diagonal fun i => hv (Fin.natAdd 1 i))) normalised_example 0
    (show (0 : ℝ) < 3 by norm_num)
  exact ⟨E, s, h1, hs, h2⟩

/-- Exponential kernels of different widths meet the hypotheses of `kde_limit`. -/
example : ∃ E s v, create "exponential" none none (.number 3) (some (.number 1)) (some (.number 2)) false = .ok E ∧
    splitMultinormal tree 1 1 (rowsOf (bivariateCov 0.9 1 1)) (some (List.ofFn ![0, 0])) = .ok s ∧
    ConvergesTo treeLaw s (Gives (dx := 1) (dy := 1) (fun _ d => Real.sqrt (2 * Real.pi) ^ d) 0 E) v := by
  have hS := bivariateCov_posDef 0.9 1 1 one_pos one_pos (by norm_num) (by norm_num)
  obtain ⟨s, hs, hc⟩ := splitMultinormal_correct tree treeLaw tree_ideal 1 1 one_pos one_pos ![0, 0] _ hS
  haveI := hc.prob
  have hm := splitNormal_memLp (dx := 1) (dy := 1) ![0, 0] hS
  have m1 : ∀ c, MemLp (fun p : (Fin 1 → ℝ) × (Fin 1 → ℝ) => p.1 c) 2 (splitNormal 1 1 ![0, 0] (bivariateCov 0.9 1 1)) := fun c => by
    simpa using hm (Fin.castAdd 1 c)
  have m2 : ∀ c, MemLp (fun p : (Fin 1 → ℝ) × (Fin 1 → ℝ) => p.2 c) 2 (splitNormal 1 1 ![0, 0] (bivariateCov 0.9 1 1)) := fun c => by
    have := hm (Fin.natAdd 1 c)
    simp only [Fin.append_right] at this
    exact this
  exact ⟨_, s, _, rfl, hs, kde_limit (E := ⟨⟨.number 1, .exponential, none⟩, ⟨.number 2, .exponential, none⟩, ⟨.number 3, .exponential, none⟩, _, false⟩)
    (fun n _ => hc.law n) one_pos one_pos m1 m2 _ normalised_example.pos 0 rfl one_pos two_pos three_pos rfl rfl rfl
    (.inr rfl) (.inr rfl) (.inr rfl)⟩

end BMI.Kde
