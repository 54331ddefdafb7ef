import Verif.Props.KdeNormal
import Verif.Lemmas.KdeScale

/-! C105: the kernel density estimator with standardised columns. -/

namespace BMI.Kde

open MeasureTheory ProbabilityTheory Filter Topology BMI.Batch BMI.Kde.Spec BMI.Consistency BMI.Samplers

variable {Key : Type} [MeasurableSpace Key] {d dx dy : ℕ}

theorem shape_anti {k : Kernel} (hk : Positive k) {s t : ℝ} (hs : 0 ≤ s) (hst : s ≤ t) : shape k t ≤ shape k s := by
  rcases hk with rfl | rfl <;> simp only [shape] <;> refine Real.exp_le_exp.2 ?_
  · have := pow_le_pow_left₀ hs hst 2
    linarith
  · linarith

theorem shape_continuous {k : Kernel} (hk : Positive k) : Continuous (shape k) := by
  rcases hk with rfl | rfl
  · show Continuous fun t => Real.exp (-(t ^ 2) / 2)
    fun_prop
  · show Continuous fun t => Real.exp (-t)
    fun_prop

/-- If all distances in units of the bandwidth are smaller, so is the entropy. -/
theorem entropy_le {k : Kernel} (hk : Positive k) {n : ℕ} {z h z' h' : ℝ} (hh : 0 < h) (hz : 0 < z * h ^ d)
    (he : z * h ^ d = z' * h' ^ d) (w v : Fin n → Fin d → ℝ)
    (hd : ∀ i j, dist (WithLp.toLp 2 (w i) : EuclideanSpace ℝ (Fin d)) (WithLp.toLp 2 (w j)) / h
      ≤ dist (WithLp.toLp 2 (v i) : EuclideanSpace ℝ (Fin d)) (WithLp.toLp 2 (v j)) / h') :
    Spec.entropy (shape k) z h w ≤ Spec.entropy (shape k) z' h' v := by
  unfold Spec.entropy Spec.mean
  rw [neg_le_neg_iff]
  refine div_le_div_of_nonneg_right (Finset.sum_le_sum fun i _ => ?_) (Nat.cast_nonneg n)
  haveI : Nonempty (Fin n) := ⟨i⟩
  have hn : (0 : ℝ) < n := by exact_mod_cast i.pos
  rw [pdf_eq, pdf_eq, ← he]
  have hs : 0 < ∑ j, pairKernel (shape k) h' (v i, v j) := Finset.sum_pos (fun j _ => shape_pos hk _) Finset.univ_nonempty
  refine Real.log_le_log (by positivity) (div_le_div_of_nonneg_right (div_le_div_of_nonneg_right (Finset.sum_le_sum fun j _ => ?_) hn.le) hz.le)
  exact shape_anti hk (div_nonneg dist_nonneg hh.le) (hd i j)

/-- The cross entropy depends continuously on the unit of length. -/
theorem crossEntropy_tendsto {k : Kernel} (hk : Positive k) {z h : ℝ} (hz : 0 < z) (hh : 0 < h) {Q : Measure (Fin d → ℝ)} [IsProbabilityMeasure Q]
    (hQ : ∀ c, MemLp (fun u : Fin d → ℝ => u c) 2 Q) :
    Tendsto (fun r => crossEntropy (shape k) (z * h ^ d / (h * r) ^ d) (h * r) Q) (𝓝 1) (𝓝 (crossEntropy (shape k) z h Q)) := by
  have h0 : ∀ (h : ℝ) p, 0 < pairKernel (d := d) (shape k) h p := fun h p => shape_pos hk _
  have hI : Tendsto (fun r => ∫ u, Real.log (rowMean Q (pairKernel (shape k) (h * r)) u) ∂Q) (𝓝 1)
      (𝓝 (∫ u, Real.log (rowMean Q (pairKernel (shape k) h) u) ∂Q)) := by
    have hh2 : 0 < h / 2 := by positivity
    have hli := log_rowMean_integrable (P := Q) (measurable_pairKernel hk (h / 2)) (h0 (h / 2)) (pairKernel_le hh2) (log_kernel_integrable hk hh2 hQ)
    refine tendsto_integral_filter_of_dominated_convergence (fun u => -Real.log (rowMean Q (pairKernel (shape k) (h / 2)) u)) ?_ ?_ hli.neg ?_
    · exact .of_forall fun r => (measurable_rowMean (measurable_pairKernel hk (h * r))).log.aestronglyMeasurable
    · filter_upwards [lt_mem_nhds (show (1 / 2 : ℝ) < 1 by norm_num)] with r hr
      have hhr : 0 < h * r := by positivity
      refine .of_forall fun u => ?_
      have hp := rowMean_pos (P := Q) (measurable_pairKernel hk (h * r)) (h0 (h * r)) (pairKernel_le hhr) u
      have hp2 := rowMean_pos (P := Q) (measurable_pairKernel hk (h / 2)) (h0 (h / 2)) (pairKernel_le hh2) u
      have h1 := rowMean_le_one (P := Q) (measurable_pairKernel hk (h * r)) (h0 (h * r)) (pairKernel_le hhr) u
      rw [Real.norm_eq_abs, abs_of_nonpos (Real.log_nonpos hp.le h1), neg_le_neg_iff]
      refine Real.log_le_log hp2 (integral_mono
        (kernel_integrable (measurable_pairKernel hk (h / 2)) (h0 (h / 2)) (pairKernel_le hh2) u)
        (kernel_integrable (measurable_pairKernel hk (h * r)) (h0 (h * r)) (pairKernel_le hhr) u) fun v => ?_)
      refine shape_anti hk (div_nonneg dist_nonneg hhr.le) (div_le_div_of_nonneg_left dist_nonneg hh2 ?_)
      nlinarith
    · refine .of_forall fun u => ?_
      have hp := rowMean_pos (P := Q) (measurable_pairKernel hk h) (h0 h) (pairKernel_le hh) u
      refine Tendsto.log ?_ hp.ne'
      unfold rowMean
      refine tendsto_integral_filter_of_dominated_convergence (fun _ => (1 : ℝ)) ?_ ?_ (integrable_const _) ?_
      · exact .of_forall fun r => ((measurable_pairKernel hk (h * r)).comp (measurable_const.prodMk measurable_id)).aestronglyMeasurable
      · filter_upwards [lt_mem_nhds (show (1 / 2 : ℝ) < 1 by norm_num)] with r hr
        have hhr : 0 < h * r := by positivity
        exact .of_forall fun v => by rw [Real.norm_eq_abs, abs_of_pos (h0 _ _)]; exact pairKernel_le hhr _
      · refine .of_forall fun v => ?_
        unfold pairKernel
        refine ((shape_continuous hk).tendsto _).comp ?_
        have : Tendsto (fun r : ℝ => h * r) (𝓝 1) (𝓝 h) := by
          have := (continuous_const_mul h).tendsto (1 : ℝ)
          rwa [mul_one] at this
        exact tendsto_const_nhds.div this hh.ne'
  rw [crossEntropy_eq hk hz hh hQ]
  refine (tendsto_const_nhds.sub hI).congr' ?_
  filter_upwards [lt_mem_nhds (show (0 : ℝ) < 1 by norm_num)] with r hr
  have hhr : 0 < h * r := by positivity
  rw [crossEntropy_eq hk (by positivity) hhr hQ, div_mul_cancel₀ _ (by positivity)]

/-- Distances after shifting the columns and dividing them by numbers close to one. -/
theorem dist_scaled {w v u t a q : Fin d → ℝ} (hw : ∀ c, w c = (v c - a c) / q c) (hu : ∀ c, u c = (t c - a c) / q c) {lo hi : ℝ}
    (hlo : 0 < lo) (hhi : 0 < hi) (hq : ∀ c, lo ≤ q c ∧ q c ≤ hi) :
    dist (WithLp.toLp 2 v : EuclideanSpace ℝ (Fin d)) (WithLp.toLp 2 t) / hi ≤ dist (WithLp.toLp 2 w : EuclideanSpace ℝ (Fin d)) (WithLp.toLp 2 u) ∧
      dist (WithLp.toLp 2 w : EuclideanSpace ℝ (Fin d)) (WithLp.toLp 2 u) ≤ dist (WithLp.toLp 2 v : EuclideanSpace ℝ (Fin d)) (WithLp.toLp 2 t) / lo := by
  have e : ∀ c, v c - t c = (w c - u c) * q c := by
    intro c
    have hc : 0 < q c := hlo.trans_le (hq c).1
    rw [hw, hu]
    field_simp
    ring
  constructor
  · rw [div_le_iff₀ hhi]
    refine le_of_sq_le_sq ?_ (by positivity)
    rw [mul_pow, pairDist_sq (v, t), pairDist_sq (w, u), Finset.sum_mul]
    refine Finset.sum_le_sum fun c _ => ?_
    obtain ⟨h1, h2⟩ := hq c
    show (v c - t c) ^ 2 ≤ (w c - u c) ^ 2 * hi ^ 2
    rw [e, mul_pow]
    exact mul_le_mul_of_nonneg_left (pow_le_pow_left₀ (hlo.trans_le h1).le h2 2) (sq_nonneg _)
  · rw [le_div_iff₀ hlo]
    refine le_of_sq_le_sq ?_ dist_nonneg
    rw [mul_pow, pairDist_sq (v, t), pairDist_sq (w, u), Finset.sum_mul]
    refine Finset.sum_le_sum fun c _ => ?_
    obtain ⟨h1, h2⟩ := hq c
    show (w c - u c) ^ 2 * lo ^ 2 ≤ (v c - t c) ^ 2
    rw [e, mul_pow]
    exact mul_le_mul_of_nonneg_left (pow_le_pow_left₀ hlo.le h1 2) (sq_nonneg _)

/-- The entropy of standardised columns tends to the cross entropy for the law in units of its standard deviations. -/
theorem entropy_standardised {k : Kernel} (hk : Positive k) {z h : ℝ} (hz : 0 < z) (hh : 0 < h) {E : Type} [MeasurableSpace E] {P : Measure E}
    [IsProbabilityMeasure P] {f : E → Fin d → ℝ} (hf : ∀ c, Measurable fun e => f e c) (hL : ∀ c, MemLp (fun e => f e c) 2 P)
    (hv : ∀ c, 0 < Var[fun e => f e c; P]) {δ : ℝ} (hδ : 0 < δ) :
    Rare P fun n => {b | ¬ |Spec.entropy (shape k) z h (fun i c => PSpace.scaleCol 0 (fun i' => f (b i') c) i)
      - crossEntropy (shape k) z h (P.map fun e c => f e c / √Var[fun e => f e c; P])| < δ} := by
  set g : E → Fin d → ℝ := fun e c => f e c / √Var[fun e => f e c; P] with hg
  have mg : Measurable g := measurable_pi_lambda _ fun c => (hf c).div_const _
  haveI : IsProbabilityMeasure (P.map g) := Measure.isProbabilityMeasure_map mg.aemeasurable
  have hQ : ∀ c, MemLp (fun u : Fin d → ℝ => u c) 2 (P.map g) := fun c => by
    rw [memLp_map_measure_iff (measurable_pi_apply c).aestronglyMeasurable mg.aemeasurable]
    have := (hL c).mul_const (√Var[fun e => f e c; P])⁻¹
    simpa [Function.comp_def, hg, div_eq_mul_inv] using this
  have ht := crossEntropy_tendsto hk hz hh hQ
  rw [Metric.tendsto_nhds_nhds] at ht
  obtain ⟨ρ, hρ, hb⟩ := ht (δ / 2) (by positivity)
  set η := min (ρ / 2) (1 / 2) with hη
  have hη0 : 0 < η := by positivity
  have hη1 : η ≤ 1 / 2 := min_le_right _ _
  have hη2 : η ≤ ρ / 2 := min_le_left _ _
  have hlo : 0 < 1 - η := by linarith
  have hhi : 0 < 1 + η := by linarith
  have zlo : 0 < z * h ^ d / (h * (1 - η)) ^ d := by positivity
  have zhi : 0 < z * h ^ d / (h * (1 + η)) ^ d := by positivity
  have c1 := @hb (1 - η) (by rw [Real.dist_eq, show 1 - η - 1 = -η by ring, abs_neg, abs_of_pos hη0]; linarith)
  have c2 := @hb (1 + η) (by rw [Real.dist_eq, show 1 + η - 1 = η by ring, abs_of_pos hη0]; linarith)
  have mm : ∀ (z' h' : ℝ) (n : ℕ), Measurable fun b : Fin n → E => Spec.entropy (shape k) z' h' (fun i => g (b i)) :=
    fun z' h' n => (measurable_entropy hk z' h' n).comp (measurable_pi_lambda _ fun i => mg.comp (measurable_pi_apply i))
  have s1 := (small_of_map mg (fun n => (measurable_entropy hk (z * h ^ d / (h * (1 - η)) ^ d) (h * (1 - η)) n).sub_const _)
    (entropy_limit hk zlo (mul_pos hh hlo) hQ)).prob (fun n => (mm _ _ n).sub_const _) (half_pos hδ)
  have s2 := (small_of_map mg (fun n => (measurable_entropy hk (z * h ^ d / (h * (1 + η)) ^ d) (h * (1 + η)) n).sub_const _)
    (entropy_limit hk zhi (mul_pos hh hhi) hQ)).prob (fun n => (mm _ _ n).sub_const _) (half_pos hδ)
  have s3 := Rare.iUnion fun c => std_rare (P := P) (hf c) (hL c) (hv c) hη0
  refine ((Rare.union (P := P) s1 s2).union s3).mono (.of_forall fun n b hb' => ?_)
  by_contra hcon
  simp only [Set.mem_union, Set.mem_iUnion, Set.mem_setOf_eq, not_or, not_exists, not_not] at hcon
  obtain ⟨⟨a1, a2⟩, a3⟩ := hcon
  refine hb' ?_
  have hsig : ∀ c, 0 < √Var[fun e => f e c; P] := fun c => Real.sqrt_pos.2 (hv c)
  set q : Fin d → ℝ := fun c => √(PSpace.colVar fun i' => f (b i') c) / √Var[fun e => f e c; P] with hq
  set a : Fin d → ℝ := fun c => PSpace.colMean (fun i' => f (b i') c) / √Var[fun e => f e c; P] with ha
  have hw : ∀ i c, PSpace.scaleCol 0 (fun i' => f (b i') c) i = (g (b i) c - a c) / q c := by
    intro i c
    obtain ⟨h1, h2, -⟩ := a3 c
    have : 0 < √(PSpace.colVar fun i' => f (b i') c) := lt_of_lt_of_le (mul_pos (hsig c) hlo) h2
    unfold PSpace.scaleCol
    rw [if_neg h1]
    simp only [hg, ha, hq]
    have := hsig c
    field_simp
  have hql : ∀ c, 1 - η ≤ q c ∧ q c ≤ 1 + η := by
    intro c
    obtain ⟨-, h2, h3⟩ := a3 c
    constructor
    · rw [hq, le_div_iff₀ (hsig c)]; linarith
    · rw [hq, div_le_iff₀ (hsig c)]; linarith
  have e1 := entropy_le hk hh (by positivity) (div_mul_cancel₀ (z * h ^ d) (by positivity)).symm
    (fun i c => PSpace.scaleCol 0 (fun i' => f (b i') c) i) (fun i => g (b i)) (z' := z * h ^ d / (h * (1 - η)) ^ d) (h' := h * (1 - η)) (fun i j => by
      rw [mul_comm h, ← div_div]
      exact div_le_div_of_nonneg_right (dist_scaled (hw i) (hw j) hlo hhi hql).2 hh.le)
  have e2 := entropy_le hk (mul_pos hh hhi) (by positivity) (div_mul_cancel₀ (z * h ^ d) (by positivity)) (fun i => g (b i))
    (fun i c => PSpace.scaleCol 0 (fun i' => f (b i') c) i) (z := z * h ^ d / (h * (1 + η)) ^ d) (h := h * (1 + η)) (fun i j => by
      rw [mul_comm h, ← div_div]
      exact div_le_div_of_nonneg_right (dist_scaled (hw i) (hw j) hlo hhi hql).1 hh.le)
  rw [Real.dist_eq] at c1 c2
  rw [abs_lt] at a1 a2 c1 c2 ⊢
  constructor <;> linarith [a1.1, a1.2, a2.1, a2.2, c1.1, c1.2, c2.1, c2.2]

/-- **C105** The same with standardised columns: the limit is that for the law in which every component is in units of its standard
deviation.  Exact arithmetic: only constant columns are taken to be constant. -/
theorem kde_limit_standardised {κ : Measure Key} {s : Sampler Key} {P : Measure ((Fin dx → ℝ) × (Fin dy → ℝ))} [IsProbabilityMeasure P]
    (hs : Draws κ s P) (hdx : 0 < dx) (hdy : 0 < dy) (hx : ∀ c, MemLp (fun p : (Fin dx → ℝ) × (Fin dy → ℝ) => p.1 c) 2 P)
    (hy : ∀ c, MemLp (fun p : (Fin dx → ℝ) × (Fin dy → ℝ) => p.2 c) 2 P)
    (vx : ∀ c, 0 < Var[fun p : (Fin dx → ℝ) × (Fin dy → ℝ) => p.1 c; P]) (vy : ∀ c, 0 < Var[fun p : (Fin dx → ℝ) × (Fin dy → ℝ) => p.2 c; P])
    (Z : Kernel → ℕ → ℝ) (hZ : ∀ k d, 0 < Z k d)
    (E : Estimator) (hE : E.standardize = true) {bx by' bxy : ℝ} (hbx : 0 < bx) (hby : 0 < by') (hbxy : 0 < bxy)
    (ex : E.kdeX.bandwidth = .number bx) (ey : E.kdeY.bandwidth = .number by') (exy : E.kdeXY.bandwidth = .number bxy)
    (kx : Positive E.kdeX.kernel) (ky : Positive E.kdeY.kernel) (kxy : Positive E.kdeXY.kernel) :
    ConvergesTo κ s (Gives (dx := dx) (dy := dy) Z 0 E) (smoothInfo (shape E.kdeX.kernel) (shape E.kdeY.kernel) (shape E.kdeXY.kernel) (Z E.kdeX.kernel dx)
      (Z E.kdeY.kernel dy) (Z E.kdeXY.kernel (dx + dy)) bx by' bxy (unitLaw P)) := by
  set U : (Fin dx → ℝ) × (Fin dy → ℝ) → (Fin dx → ℝ) × (Fin dy → ℝ) := fun p => (fun c => p.1 c / Real.sqrt (variance (fun q => q.1 c) P),
    fun c => p.2 c / Real.sqrt (variance (fun q => q.2 c) P)) with hU
  have f1 : ∀ c, Measurable fun p : (Fin dx → ℝ) × (Fin dy → ℝ) => p.1 c := fun c => (measurable_pi_apply c).comp measurable_fst
  have f2 : ∀ c, Measurable fun p : (Fin dx → ℝ) × (Fin dy → ℝ) => p.2 c := fun c => (measurable_pi_apply c).comp measurable_snd
  have mU : Measurable U := (measurable_pi_lambda _ fun c => (f1 c).div_const _).prodMk (measurable_pi_lambda _ fun c => (f2 c).div_const _)
  have l1 : (unitLaw P).fst = P.map fun p c => p.1 c / √Var[fun q => q.1 c; P] := by
    unfold unitLaw Measure.fst
    rw [Measure.map_map measurable_fst mU]
    rfl
  have l2 : (unitLaw P).snd = P.map fun p c => p.2 c / √Var[fun q => q.2 c; P] := by
    unfold unitLaw Measure.snd
    rw [Measure.map_map measurable_snd mU]
    rfl
  have l3 : (unitLaw P).map (fun p => (Fin.append p.1 p.2 : Fin (dx + dy) → ℝ))
      = P.map fun p c => (Fin.append p.1 p.2 : Fin (dx + dy) → ℝ) c / √Var[fun q => (Fin.append q.1 q.2 : Fin (dx + dy) → ℝ) c; P] := by
    unfold unitLaw
    rw [Measure.map_map measurable_append mU]
    congr 1
    funext p c
    refine Fin.addCases (fun i => ?_) (fun i => ?_) c <;> simp [hU]
  have g3 : ∀ c, Measurable fun p : (Fin dx → ℝ) × (Fin dy → ℝ) => (Fin.append p.1 p.2 : Fin (dx + dy) → ℝ) c := fun c =>
    (measurable_pi_apply c).comp measurable_append
  have h3 : ∀ c, MemLp (fun p : (Fin dx → ℝ) × (Fin dy → ℝ) => (Fin.append p.1 p.2 : Fin (dx + dy) → ℝ) c) 2 P := fun c => by
    refine Fin.addCases (fun i => ?_) (fun i => ?_) c
    · simpa using hx i
    · simpa using hy i
  have v3 : ∀ c, 0 < Var[fun p : (Fin dx → ℝ) × (Fin dy → ℝ) => (Fin.append p.1 p.2 : Fin (dx + dy) → ℝ) c; P] := fun c => by
    refine Fin.addCases (fun i => ?_) (fun i => ?_) c
    · simpa using vx i
    · simpa using vy i
  refine converges_of_small hs fun δ hδ => ?_
  have r1 := entropy_standardised kx (hZ E.kdeX.kernel dx) hbx f1 hx vx (show 0 < δ / 3 by positivity)
  have r2 := entropy_standardised ky (hZ E.kdeY.kernel dy) hby f2 hy vy (show 0 < δ / 3 by positivity)
  have r3 := entropy_standardised kxy (hZ E.kdeXY.kernel (dx + dy)) hbxy g3 h3 v3 (show 0 < δ / 3 by positivity)
  refine ⟨_, (r1.union r2).union r3, ?_⟩
  filter_upwards [eventually_gt_atTop 0] with n hn b hb
  simp only [Set.mem_union, Set.mem_setOf_eq, not_or, not_not] at hb
  obtain ⟨⟨a1, a2⟩, a3⟩ := hb
  have ux : Usable E.kdeX.bandwidth := by rw [ex]; rintro r ⟨⟩; exact hbx
  have uy : Usable E.kdeY.bandwidth := by rw [ey]; rintro r ⟨⟩; exact hby
  have uxy : Usable E.kdeXY.bandwidth := by rw [exy]; rintro r ⟨⟩; exact hbxy
  obtain ⟨hX, hY, hXY, mi, -, -, h1, h2, h3, h4, h5, -⟩ := estimate_spec Z hZ 0 E ux uy uxy (fun i => (b i).1) (fun i => (b i).2) hn hdx hdy
    _ _ rfl rfl
  refine ⟨mi, h1, ?_⟩
  rw [ex] at h3
  rw [ey] at h4
  rw [exy] at h5
  simp only [width, hE, if_true] at h3 h4 h5
  have e5 : (fun i => (Fin.append (fun c => PSpace.scaleCol 0 (fun i' => (b i').1 c) i) (fun c => PSpace.scaleCol 0 (fun i' => (b i').2 c) i) : Fin (dx + dy) → ℝ))
      = fun i c => PSpace.scaleCol 0 (fun i' => (Fin.append (b i').1 (b i').2 : Fin (dx + dy) → ℝ) c) i := by
    funext i c
    refine Fin.addCases (fun i => ?_) (fun i => ?_) c <;> simp
  rw [e5] at h5
  rw [h2, h3, h4, h5]
  unfold smoothInfo
  rw [l1, l2, l3]
  rw [abs_lt] at a1 a2 a3 ⊢
  constructor <;> linarith [a1.1, a1.2, a2.1, a2.2, a3.1, a3.2]

/-- The variances of the components of normal vectors. -/
theorem normal_variance (m : Fin (dx + dy) → ℝ) {S : Matrix (Fin (dx + dy)) (Fin (dx + dy)) ℝ} (hS : S.PosDef) (i : Fin (dx + dy)) :
    Var[fun p : (Fin dx → ℝ) × (Fin dy → ℝ) => (Fin.append p.1 p.2 : Fin (dx + dy) → ℝ) i; splitNormal dx dy m S] = S i i := by
  have h1 : (splitNormal dx dy m S).map (fun p => (Fin.append p.1 p.2 : Fin (dx + dy) → ℝ) i) = gaussianReal (m i) (S i i).toNNReal := by
    have ho : Measurable (WithLp.ofLp : EuclideanSpace ℝ (Fin (dx + dy)) → Fin (dx + dy) → ℝ) := by fun_prop
    have h2 := (measurePreserving_eval_multivariateGaussian (μ := WithLp.toLp 2 m) hS.posSemidef (i := i)).map_eq
    have h3 : (splitNormal dx dy m S).map (fun p => (Fin.append p.1 p.2 : Fin (dx + dy) → ℝ) i) = (normalLaw m S).map fun z => z i := by
      rw [← splitNormal_append (dx := dx) (dy := dy) m S, Measure.map_map (measurable_pi_apply i) measurable_append]
      rfl
    rw [h3]
    unfold normalLaw
    rw [Measure.map_map (measurable_pi_apply i) ho, ← h2]
    rfl
  have hm : Measurable fun p : (Fin dx → ℝ) × (Fin dy → ℝ) => (Fin.append p.1 p.2 : Fin (dx + dy) → ℝ) i :=
    (measurable_pi_apply i).comp measurable_append
  have h4 := variance_id_map (μ := splitNormal dx dy m S) hm.aemeasurable
  rw [h1, variance_id_gaussianReal] at h4
  rw [← h4]
  exact Real.coe_toNNReal _ (hS.diag_pos (i := i)).le

/-- The scaling which divides by the standard deviations. -/
noncomputable def inverseStd (S : Matrix (Fin d) (Fin d) ℝ) : Matrix (Fin d) (Fin d) ℝ := Matrix.diagonal fun i => 1 / √(S i i)

theorem correlation_eq {S : Matrix (Fin d) (Fin d) ℝ} : correlation S = inverseStd S * S * (inverseStd S).transpose := by
  ext i j
  unfold correlation inverseStd
  rw [Matrix.diagonal_transpose, Matrix.mul_diagonal, Matrix.diagonal_mul]
  rw [div_eq_mul_inv, mul_inv]
  ring

theorem correlation_posDef {S : Matrix (Fin d) (Fin d) ℝ} (hS : S.PosDef) : (correlation S).PosDef := by
  rw [correlation_eq, ← Matrix.conjTranspose_eq_transpose_of_trivial]
  refine hS.mul_mul_conjTranspose_same (Matrix.vecMul_injective_of_isUnit ?_)
  rw [Matrix.isUnit_iff_isUnit_det, isUnit_iff_ne_zero, inverseStd, Matrix.det_diagonal, Finset.prod_ne_zero_iff]
  exact fun i _ => (one_div_pos.2 (Real.sqrt_pos.2 hS.diag_pos)).ne'

theorem correlation_det {S : Matrix (Fin d) (Fin d) ℝ} (hS : S.PosDef) :
    Real.log (correlation S).det = Real.log S.det - ∑ i, Real.log (S i i) := by
  have hp : ∀ i, 0 < S i i := fun i => hS.diag_pos
  rw [correlation_eq, Matrix.det_mul, Matrix.det_mul, Matrix.det_transpose]
  have h1 : (inverseStd S).det = ∏ i, 1 / √(S i i) := by rw [inverseStd, Matrix.det_diagonal]
  have h2 : 0 < ∏ i, 1 / √(S i i) := Finset.prod_pos fun i _ => one_div_pos.2 (Real.sqrt_pos.2 (hp i))
  rw [h1, Real.log_mul (mul_pos h2 hS.det_pos).ne' h2.ne', Real.log_mul h2.ne' hS.det_pos.ne',
    Real.log_prod fun i _ => (one_div_pos.2 (Real.sqrt_pos.2 (hp i))).ne']
  have h3 : ∀ i, Real.log (1 / √(S i i)) = -(Real.log (S i i) / 2) := fun i => by
    rw [one_div, Real.log_inv, Real.log_sqrt (hp i).le]
  simp only [h3, Finset.sum_neg_distrib, ← Finset.sum_div]
  ring

/-- Standardised normal vectors are normal vectors whose covariance is the correlation matrix. -/
theorem unitLaw_normal (m : Fin (dx + dy) → ℝ) {S : Matrix (Fin (dx + dy)) (Fin (dx + dy)) ℝ} (hS : S.PosDef) :
    unitLaw (splitNormal dx dy m S) = splitNormal dx dy (0 + (inverseStd S).mulVec m) (correlation S) := by
  have hv := normal_variance (dx := dx) (dy := dy) m hS
  have hx : ∀ c, Var[fun p : (Fin dx → ℝ) × (Fin dy → ℝ) => p.1 c; splitNormal dx dy m S] = S (Fin.castAdd dy c) (Fin.castAdd dy c) := fun c => by
    simpa using hv (Fin.castAdd dy c)
  have hy : ∀ c, Var[fun p : (Fin dx → ℝ) × (Fin dy → ℝ) => p.2 c; splitNormal dx dy m S] = S (Fin.natAdd dx c) (Fin.natAdd dx c) := fun c => by
    simpa using hv (Fin.natAdd dx c)
  unfold unitLaw
  simp only [hx, hy]
  have f1 : ∀ c, Measurable fun p : (Fin dx → ℝ) × (Fin dy → ℝ) => p.1 c := fun c => (measurable_pi_apply c).comp measurable_fst
  have f2 : ∀ c, Measurable fun p : (Fin dx → ℝ) × (Fin dy → ℝ) => p.2 c := fun c => (measurable_pi_apply c).comp measurable_snd
  have mU : Measurable fun p : (Fin dx → ℝ) × (Fin dy → ℝ) => ((fun c => p.1 c / √(S (Fin.castAdd dy c) (Fin.castAdd dy c)),
      fun c => p.2 c / √(S (Fin.natAdd dx c) (Fin.natAdd dx c))) : (Fin dx → ℝ) × (Fin dy → ℝ)) :=
    (measurable_pi_lambda _ fun c => (f1 c).div_const _).prodMk (measurable_pi_lambda _ fun c => (f2 c).div_const _)
  unfold splitNormal
  rw [correlation_eq, ← normalLaw_map m hS.posSemidef, Measure.map_map mU (measurable_parts dx dy), Measure.map_map (measurable_parts dx dy) (by
    have : Continuous fun x : Fin (dx + dy) → ℝ => 0 + (inverseStd S).mulVec x := by fun_prop
    exact this.measurable)]
  congr 1
  funext z
  simp only [Function.comp_apply, parts, inverseStd, Matrix.mulVec_diagonal, zero_add, Prod.mk.injEq]
  constructor <;> funext c <;> rw [one_div, div_eq_inv_mul]

/-- The mutual information depends on the correlations only. -/
theorem correlation_number {S : Matrix (Fin (dx + dy)) (Fin (dx + dy)) ℝ} (hS : S.PosDef) :
    infoCurve (correlation S) 0 = (Real.log (blockX S).det + Real.log (blockY S).det - Real.log S.det) / 2 := by
  rw [infoCurve_zero (correlation_posDef hS)]
  have e1 : blockX (correlation S) = correlation (blockX S) := rfl
  have e2 : blockY (correlation S) = correlation (blockY S) := rfl
  rw [e1, e2, correlation_det hS, correlation_det (blockX_posDef hS), correlation_det (blockY_posDef hS), Fin.sum_univ_add]
  simp only [blockX, blockY]
  ring

/-- **C105** On normal variables with Gaussian kernels, one bandwidth and standardised columns, the estimates converge to a number between
zero and the mutual information, strictly between as soon as some component of X is correlated with some component of Y.  The number depends
on the correlations only and decreases with the bandwidth. -/
theorem kde_normal_standardised (R : JaxRandom Key) (κ : Measure Key) (hR : IdealRandom R κ) (hdx : 0 < dx) (hdy : 0 < dy)
    (mean : Fin (dx + dy) → ℝ) {S : Matrix (Fin (dx + dy)) (Fin (dx + dy)) ℝ} (hS : S.PosDef) {Z : Kernel → ℕ → ℝ} (hZ : Normalised Z)
    {h : ℝ} (hh : 0 < h) :
    ∃ E s v, create "gaussian" none none (.number h) none none true = .ok E ∧
      splitMultinormal R dx dy (rowsOf S) (some (List.ofFn mean)) = .ok s ∧ v = normalInfo (correlation S) h h h ∧
      ConvergesTo κ s (Gives (dx := dx) (dy := dy) Z 0 E) v ∧ 0 ≤ v ∧ v ≤ s.mi ∧
      ((∃ i j, S (Fin.castAdd dy i) (Fin.natAdd dx j) ≠ 0) → 0 < v ∧ v < s.mi) := by
  obtain ⟨s, hs, hc⟩ := splitMultinormal_correct R κ hR dx dy hdx hdy mean S hS
  haveI := hc.prob
  obtain ⟨s', hs', hn⟩ := splitMultinormal_number R dx dy hdx hdy mean S hS
  obtain rfl := Except.ok.inj (hs.symm.trans hs')
  have hC := correlation_posDef hS
  refine ⟨_, s, _, rfl, hs, rfl, ?_, ?_⟩
  · have hm := splitNormal_memLp (dx := dx) (dy := dy) mean hS
    have hv := normal_variance (dx := dx) (dy := dy) mean hS
    have m1 : ∀ c, MemLp (fun p : (Fin dx → ℝ) × (Fin dy → ℝ) => p.1 c) 2 (splitNormal dx dy mean S) := fun c => by
      simpa using hm (Fin.castAdd dy c)
    have m2 : ∀ c, MemLp (fun p : (Fin dx → ℝ) × (Fin dy → ℝ) => p.2 c) 2 (splitNormal dx dy mean S) := fun c => by
      simpa using hm (Fin.natAdd dx c)
    have v1 : ∀ c, 0 < Var[fun p : (Fin dx → ℝ) × (Fin dy → ℝ) => p.1 c; splitNormal dx dy mean S] := fun c => by
      have := hv (Fin.castAdd dy c)
      simp only [Fin.append_left] at this
      rw [this]; exact hS.diag_pos
    have v2 : ∀ c, 0 < Var[fun p : (Fin dx → ℝ) × (Fin dy → ℝ) => p.2 c; splitNormal dx dy mean S] := fun c => by
      have := hv (Fin.natAdd dx c)
      simp only [Fin.append_right] at this
      rw [this]; exact hS.diag_pos
    rw [← smoothInfo_normal (0 + (inverseStd S).mulVec mean) hC hh hh hh, ← hZ.gaussian, ← hZ.gaussian, ← hZ.gaussian, ← unitLaw_normal mean hS]
    exact kde_limit_standardised (E := ⟨⟨.number h, .gaussian, none⟩, ⟨.number h, .gaussian, none⟩, ⟨.number h, .gaussian, none⟩, _, true⟩)
      (fun n _ => hc.law n) hdx hdy m1 m2 v1 v2 Z hZ.pos rfl hh hh hh rfl rfl rfl (.inl rfl) (.inl rfl) (.inl rfl)
  · have h0 : (0 : ℝ) ≤ h ^ 2 := sq_nonneg h
    have e : s.mi = infoCurve (correlation S) 0 := by rw [hn, correlation_number hS]
    rw [e, normalInfo_eq]
    refine ⟨infoCurve_nonneg hC h0, infoCurve_anti hC (le_refl (0 : ℝ)) h0 h0, fun ⟨i, j, hij⟩ => ?_⟩
    have hc' : ∃ i j, correlation S (Fin.castAdd dy i) (Fin.natAdd dx j) ≠ 0 :=
      ⟨i, j, div_ne_zero hij (mul_pos (Real.sqrt_pos.2 hS.diag_pos) (Real.sqrt_pos.2 hS.diag_pos)).ne'⟩
    exact ⟨infoCurve_pos hC hc' h0, infoCurve_strictAnti hC hc' (le_refl (0 : ℝ)) h0 (by positivity)⟩

/-- **C105** Standardised columns and small bandwidths: the limit is as close to the mutual information as one likes. -/
theorem kde_normal_standardised_small (R : JaxRandom Key) (κ : Measure Key) (hR : IdealRandom R κ) (hdx : 0 < dx) (hdy : 0 < dy)
    (mean : Fin (dx + dy) → ℝ) {S : Matrix (Fin (dx + dy)) (Fin (dx + dy)) ℝ} (hS : S.PosDef) {Z : Kernel → ℕ → ℝ} (hZ : Normalised Z)
    {δ : ℝ} (hδ : 0 < δ) :
    ∃ h₀ > 0, ∀ h, 0 < h → h ≤ h₀ → ∃ E s v, create "gaussian" none none (.number h) none none true = .ok E ∧
      splitMultinormal R dx dy (rowsOf S) (some (List.ofFn mean)) = .ok s ∧
      ConvergesTo κ s (Gives (dx := dx) (dy := dy) Z 0 E) v ∧ |v - s.mi| < δ := by
  have hC := correlation_posDef hS
  have hc := infoCurve_continuous hC 0 (le_refl (0 : ℝ))
  obtain ⟨r, hr, hb⟩ := Metric.continuousWithinAt_iff.1 hc δ hδ
  refine ⟨min 1 (r / 2), by positivity, fun h hh hle => ?_⟩
  obtain ⟨E, s, v, h1, h2, rfl, h3, -⟩ := kde_normal_standardised R κ hR hdx hdy mean hS hZ hh
  obtain ⟨s', hs', hn⟩ := splitMultinormal_number R dx dy hdx hdy mean S hS
  obtain rfl := Except.ok.inj (h2.symm.trans hs')
  refine ⟨E, s, _, h1, h2, h3, ?_⟩
  have h4 : h ≤ 1 := hle.trans (min_le_left _ _)
  have h5 : h ≤ r / 2 := hle.trans (min_le_right _ _)
  have := @hb (h ^ 2) (sq_nonneg h) (by rw [Real.dist_eq, sub_zero, abs_of_nonneg (sq_nonneg h)]; nlinarith)
  rwa [Real.dist_eq, correlation_number hS, ← hn, ← normalInfo_eq] at this

/-- Correlation 0.9, standard deviations 2 and 5, bandwidth one half. -/
example : ∃ E s v, create "gaussian" none none (.number (1 / 2)) none none true = .ok E ∧
    splitMultinormal tree 1 1 (rowsOf (bivariateCov 0.9 2 5)) (some (List.ofFn ![0, 0])) = .ok s ∧
    ConvergesTo treeLaw s (Gives (dx := 1) (dy := 1) (fun _ d => Real.sqrt (2 * Real.pi) ^ d) 0 E) v ∧ 0 < v ∧ v < s.mi := by
  obtain ⟨E, s, v, h1, h2, -, h3, -, -, h4⟩ := kde_normal_standardised tree treeLaw tree_ideal one_pos one_pos ![0, 0]
    (bivariateCov_posDef 0.9 2 5 two_pos (by norm_num) (by norm_num) (by norm_num)) normalised_example (show (0 : ℝ) < 1 / 2 by norm_num)
  refine ⟨E, s, v, h1, h2, h3, h4 ⟨0, 0, ?_⟩⟩
  change (0.9 * 2 * 5 : ℝ) ≠ 0
  norm_num

end BMI.Kde
