import Verif.Lemmas.KdeLimit
import Verif.Lemmas.HistogramLimit
import Verif.Spec.KdeLimit
import Verif.Props.Kde

/-! C105: the kernel density estimator with many points and fixed bandwidths. -/

namespace BMI.Kde

open MeasureTheory ProbabilityTheory Filter Topology BMI.Batch BMI.Kde.Spec BMI.Consistency BMI.Samplers

variable {Key : Type} [MeasurableSpace Key] {d dx dy : ℕ}

/-- The kernels which are nowhere zero. -/
def Positive (k : Kernel) : Prop := k = .gaussian ∨ k = .exponential

/-- The kernel as a function of two points. -/
noncomputable def pairKernel (K : ℝ → ℝ) (h : ℝ) (p : (Fin d → ℝ) × (Fin d → ℝ)) : ℝ :=
  K (dist (WithLp.toLp 2 p.1 : EuclideanSpace ℝ (Fin d)) (WithLp.toLp 2 p.2) / h)

theorem shape_pos {k : Kernel} (hk : Positive k) (t : ℝ) : 0 < shape k t := by
  rcases hk with rfl | rfl <;> exact Real.exp_pos _

theorem measurable_pairDist : Measurable fun p : (Fin d → ℝ) × (Fin d → ℝ) =>
    dist (WithLp.toLp 2 p.1 : EuclideanSpace ℝ (Fin d)) (WithLp.toLp 2 p.2) := by
  have : Continuous fun p : (Fin d → ℝ) × (Fin d → ℝ) =>
    dist (WithLp.toLp 2 p.1 : EuclideanSpace ℝ (Fin d)) (WithLp.toLp 2 p.2) := by fun_prop
  exact this.measurable

theorem measurable_pairKernel {k : Kernel} (hk : Positive k) (h : ℝ) : Measurable (pairKernel (d := d) (shape k) h) := by
  have := measurable_pairDist (d := d)
  rcases hk with rfl | rfl <;> (unfold pairKernel; simp only [shape]; fun_prop)

theorem pairDist_sq (p : (Fin d → ℝ) × (Fin d → ℝ)) :
    dist (WithLp.toLp 2 p.1 : EuclideanSpace ℝ (Fin d)) (WithLp.toLp 2 p.2) ^ 2 = ∑ c, (p.1 c - p.2 c) ^ 2 := by
  rw [EuclideanSpace.dist_eq, Real.sq_sqrt (Finset.sum_nonneg fun c _ => sq_nonneg _)]
  refine Finset.sum_congr rfl fun c _ => ?_
  rw [Real.dist_eq, sq_abs]

/-- The squared distance of two points is integrable under a law with second moments. -/
theorem pairDist_sq_integrable {Q : Measure (Fin d → ℝ)} [IsProbabilityMeasure Q] (hQ : ∀ c, MemLp (fun u : Fin d → ℝ => u c) 2 Q) :
    Integrable (fun p : (Fin d → ℝ) × (Fin d → ℝ) =>
      dist (WithLp.toLp 2 p.1 : EuclideanSpace ℝ (Fin d)) (WithLp.toLp 2 p.2) ^ 2) (Q.prod Q) := by
  simp only [pairDist_sq]
  refine integrable_finsetSum _ fun c _ => ?_
  exact (((hQ c).comp_fst Q).sub ((hQ c).comp_snd Q)).integrable_sq

theorem log_kernel_integrable {k : Kernel} (hk : Positive k) {h : ℝ} (hh : 0 < h) {Q : Measure (Fin d → ℝ)} [IsProbabilityMeasure Q]
    (hQ : ∀ c, MemLp (fun u : Fin d → ℝ => u c) 2 Q) : Integrable (fun p => Real.log (pairKernel (shape k) h p)) (Q.prod Q) := by
  have hi := pairDist_sq_integrable hQ
  have hm := measurable_pairKernel (d := d) hk h
  refine Integrable.mono' ((integrable_const (1 : ℝ)).add (hi.const_mul (1 / h ^ 2))) hm.log.aestronglyMeasurable
    (.of_forall fun p => ?_)
  set t := dist (WithLp.toLp 2 p.1 : EuclideanSpace ℝ (Fin d)) (WithLp.toLp 2 p.2) with ht
  have e : 1 / h ^ 2 * t ^ 2 = (t / h) ^ 2 := by rw [div_pow]; ring
  have h0 : 0 ≤ t / h := div_nonneg dist_nonneg hh.le
  simp only [Pi.add_apply, e, Real.norm_eq_abs]
  rcases hk with rfl | rfl <;> simp only [pairKernel, shape, Real.log_exp, ← ht]
  · rw [abs_le]
    constructor <;> nlinarith [sq_nonneg (t / h)]
  · rw [abs_neg, abs_of_nonneg h0]
    nlinarith [sq_nonneg (t / h - 1 / 2)]

theorem pdf_eq {n : ℕ} (K : ℝ → ℝ) (z h : ℝ) (b : Fin n → Fin d → ℝ) (i : Fin n) :
    Spec.pdf K z h b (b i) = (∑ j, pairKernel K h (b i, b j)) / n / (z * h ^ d) := by
  unfold Spec.pdf pairKernel
  rw [← Finset.sum_div]
  ring

theorem smooth_eq (K : ℝ → ℝ) (z h : ℝ) (Q : Measure (Fin d → ℝ)) (u : Fin d → ℝ) :
    smooth K z h Q u = rowMean Q (pairKernel K h) u / (z * h ^ d) := by
  unfold smooth rowMean pairKernel
  rw [integral_div]

theorem measurable_entropy {k : Kernel} (hk : Positive k) (z h : ℝ) (n : ℕ) :
    Measurable fun b : Fin n → Fin d → ℝ => Spec.entropy (shape k) z h b := by
  unfold Spec.entropy Spec.mean
  simp only [pdf_eq]
  exact ((Finset.measurable_sum _ fun i _ => ((measurable_row (measurable_pairKernel hk h) i).div_const _).log).div_const _).neg

theorem pairKernel_le {k : Kernel} {h : ℝ} (hh : 0 < h) (p : (Fin d → ℝ) × (Fin d → ℝ)) : pairKernel (shape k) h p ≤ 1 :=
  (shape_bounds k _ (div_nonneg dist_nonneg hh.le)).2

theorem crossEntropy_eq {k : Kernel} (hk : Positive k) {z h : ℝ} (hz : 0 < z) (hh : 0 < h) {Q : Measure (Fin d → ℝ)} [IsProbabilityMeasure Q]
    (hQ : ∀ c, MemLp (fun u : Fin d → ℝ => u c) 2 Q) :
    crossEntropy (shape k) z h Q = Real.log (z * h ^ d) - ∫ u, Real.log (rowMean Q (pairKernel (shape k) h) u) ∂Q := by
  have hm := measurable_pairKernel (d := d) hk h
  have h0 : ∀ p, 0 < pairKernel (d := d) (shape k) h p := fun p => shape_pos hk _
  have hli := log_rowMean_integrable hm h0 (pairKernel_le hh) (log_kernel_integrable hk hh hQ)
  have hp := rowMean_pos (P := Q) hm h0 (pairKernel_le hh)
  have hzh : 0 < z * h ^ d := by positivity
  unfold crossEntropy
  simp only [smooth_eq, Real.log_div (hp _).ne' hzh.ne']
  rw [integral_sub hli (integrable_const _), integral_const]
  simp

/-- The entropy of the kernel density of a sample tends to the cross entropy of the law and its smoothed version. -/
theorem entropy_limit {k : Kernel} (hk : Positive k) {z h : ℝ} (hz : 0 < z) (hh : 0 < h) {Q : Measure (Fin d → ℝ)} [IsProbabilityMeasure Q]
    (hQ : ∀ c, MemLp (fun u : Fin d → ℝ => u c) 2 Q) :
    Batch.Small Q fun _ b => Spec.entropy (shape k) z h b - crossEntropy (shape k) z h Q := by
  have hm := measurable_pairKernel (d := d) hk h
  have h0 : ∀ p, 0 < pairKernel (d := d) (shape k) h p := fun p => shape_pos hk _
  have h1 : ∀ p, pairKernel (d := d) (shape k) h p ≤ 1 := pairKernel_le hh
  have hl := log_kernel_integrable hk hh hQ
  have hd : Integrable (fun u => Real.log (pairKernel (d := d) (shape k) h (u, u))) Q := by
    have : ∀ u : Fin d → ℝ, pairKernel (shape k) h (u, u) = 1 := fun u => by simp [pairKernel, shape_zero]
    simp only [this, Real.log_one]
    exact integrable_const _
  have hzh : 0 < z * h ^ d := by positivity
  have hs := rows_log_limit hm h0 h1 hl hd
  have ec := crossEntropy_eq hk hz hh hQ
  refine hs.mono ?_
  filter_upwards [eventually_gt_atTop 0] with n hn b
  have hn' : (0 : ℝ) < n := by exact_mod_cast hn
  have en : Spec.entropy (shape k) z h b = Real.log (z * h ^ d) - (∑ i, Real.log ((∑ j, pairKernel (shape k) h (b i, b j)) / n)) / n := by
    unfold Spec.entropy Spec.mean
    have : ∀ i, Real.log (Spec.pdf (shape k) z h b (b i)) = Real.log ((∑ j, pairKernel (shape k) h (b i, b j)) / n) - Real.log (z * h ^ d) := by
      intro i
      haveI : Nonempty (Fin n) := ⟨i⟩
      have hs : 0 < ∑ j, pairKernel (shape k) h (b i, b j) := Finset.sum_pos (fun j _ => h0 _) Finset.univ_nonempty
      rw [pdf_eq, Real.log_div (by positivity) hzh.ne']
    simp only [this]
    rw [Finset.sum_sub_distrib, Finset.sum_const, Finset.card_univ, Fintype.card_fin, nsmul_eq_mul]
    field_simp
    ring
  rw [en, ec, show ∀ a s i : ℝ, a - s - (a - i) = -(s - i) by intros; ring, abs_neg]

/-- Quantities computed from images of the points. -/
theorem small_of_map {E F : Type} [MeasurableSpace E] [MeasurableSpace F] {P : Measure E} [IsProbabilityMeasure P] {f : E → F}
    (hf : Measurable f) {φ : (n : ℕ) → (Fin n → F) → ℝ} (hm : ∀ n, Measurable (φ n)) (h : Batch.Small (P.map f) φ) :
    Batch.Small P fun n b => φ n fun i => f (b i) := by
  unfold Batch.Small at h ⊢
  refine h.congr fun n => ?_
  haveI : IsProbabilityMeasure (P.map f) := Measure.isProbabilityMeasure_map hf.aemeasurable
  have e : (Measure.pi fun _ : Fin n => P).map (fun b i => f (b i)) = Measure.pi fun _ : Fin n => P.map f :=
    (Measure.pi_map_pi fun _ => hf.aemeasurable)
  have hg : Measurable fun (b : Fin n → E) i => f (b i) := measurable_pi_lambda _ fun i => hf.comp (measurable_pi_apply i)
  rw [← e, lintegral_map (measurable_ofReal_abs (hm n)) hg]

theorem measurable_append : Measurable fun p : (Fin dx → ℝ) × (Fin dy → ℝ) => (Fin.append p.1 p.2 : Fin (dx + dy) → ℝ) := by
  refine measurable_pi_lambda _ fun i => ?_
  refine Fin.addCases (fun i => ?_) (fun i => ?_) i
  · simp only [Fin.append_left]; exact (measurable_pi_apply i).comp measurable_fst
  · simp only [Fin.append_right]; exact (measurable_pi_apply i).comp measurable_snd

/-- The estimate of the kernel density estimator is the number `t`. -/
def Gives (Z : Kernel → ℕ → ℝ) (ε : ℝ) (E : Estimator) (n : ℕ) (x : Fin n → Fin dx → ℝ) (y : Fin n → Fin dy → ℝ) (t : ℝ) : Prop :=
  (estimate Z ε E ⟨n, dx, x⟩ ⟨n, dy, y⟩).1 = .ok (t : EReal)

/-- **C105** With kernels which are nowhere zero, fixed bandwidths and without standardisation, the estimates converge, for every law
with second moments, to the number computed in the same way from the smoothed densities of the law. -/
theorem kde_limit {κ : Measure Key} {s : Sampler Key} {P : Measure ((Fin dx → ℝ) × (Fin dy → ℝ))} [IsProbabilityMeasure P]
    (hs : Draws κ s P) (hdx : 0 < dx) (hdy : 0 < dy) (hx : ∀ c, MemLp (fun p : (Fin dx → ℝ) × (Fin dy → ℝ) => p.1 c) 2 P)
    (hy : ∀ c, MemLp (fun p : (Fin dx → ℝ) × (Fin dy → ℝ) => p.2 c) 2 P) (Z : Kernel → ℕ → ℝ) (hZ : ∀ k d, 0 < Z k d) (ε : ℝ)
    (E : Estimator) (hE : E.standardize = false) {bx by' bxy : ℝ} (hbx : 0 < bx) (hby : 0 < by') (hbxy : 0 < bxy)
    (ex : E.kdeX.bandwidth = .number bx) (ey : E.kdeY.bandwidth = .number by') (exy : E.kdeXY.bandwidth = .number bxy)
    (kx : Positive E.kdeX.kernel) (ky : Positive E.kdeY.kernel) (kxy : Positive E.kdeXY.kernel) :
    ConvergesTo κ s (Gives (dx := dx) (dy := dy) Z ε E) (smoothInfo (shape E.kdeX.kernel) (shape E.kdeY.kernel) (shape E.kdeXY.kernel) (Z E.kdeX.kernel dx)
      (Z E.kdeY.kernel dy) (Z E.kdeXY.kernel (dx + dy)) bx by' bxy P) := by
  have ma := measurable_append (dx := dx) (dy := dy)
  haveI i1 : IsProbabilityMeasure (P.map Prod.fst) := Measure.isProbabilityMeasure_map measurable_fst.aemeasurable
  haveI i2 : IsProbabilityMeasure (P.map Prod.snd) := Measure.isProbabilityMeasure_map measurable_snd.aemeasurable
  haveI i3 : IsProbabilityMeasure (P.map fun p => (Fin.append p.1 p.2 : Fin (dx + dy) → ℝ)) :=
    Measure.isProbabilityMeasure_map ma.aemeasurable
  have m1 : ∀ c, MemLp (fun u : Fin dx → ℝ => u c) 2 P.fst := fun c =>
    (memLp_map_measure_iff (measurable_pi_apply c).aestronglyMeasurable measurable_fst.aemeasurable).2 (hx c)
  have m2 : ∀ c, MemLp (fun u : Fin dy → ℝ => u c) 2 P.snd := fun c =>
    (memLp_map_measure_iff (measurable_pi_apply c).aestronglyMeasurable measurable_snd.aemeasurable).2 (hy c)
  have m3 : ∀ c, MemLp (fun u : Fin (dx + dy) → ℝ => u c) 2 (P.map fun p => (Fin.append p.1 p.2 : Fin (dx + dy) → ℝ)) := by
    intro c
    rw [memLp_map_measure_iff (measurable_pi_apply c).aestronglyMeasurable ma.aemeasurable]
    refine Fin.addCases (fun i => ?_) (fun i => ?_) c
    · simpa [Function.comp_def] using hx i
    · simpa [Function.comp_def] using hy i
  have s1 := small_of_map measurable_fst (fun n => (measurable_entropy kx (Z E.kdeX.kernel dx) bx n).sub_const _)
    (entropy_limit kx (hZ _ _) hbx m1)
  have s2 := small_of_map measurable_snd (fun n => (measurable_entropy ky (Z E.kdeY.kernel dy) by' n).sub_const _)
    (entropy_limit ky (hZ _ _) hby m2)
  have s3 := small_of_map ma (fun n => (measurable_entropy kxy (Z E.kdeXY.kernel (dx + dy)) bxy n).sub_const _)
    (entropy_limit kxy (hZ _ _) hbxy m3)
  have q1 : ∀ n, Measurable fun b : Fin n → (Fin dx → ℝ) × (Fin dy → ℝ) => Spec.entropy (shape E.kdeX.kernel) (Z E.kdeX.kernel dx) bx
      (fun i => (b i).1) - crossEntropy (shape E.kdeX.kernel) (Z E.kdeX.kernel dx) bx P.fst := fun n =>
    ((measurable_entropy kx _ bx n).comp (measurable_pi_lambda _ fun i => measurable_fst.comp (measurable_pi_apply i))).sub_const _
  have q2 : ∀ n, Measurable fun b : Fin n → (Fin dx → ℝ) × (Fin dy → ℝ) => Spec.entropy (shape E.kdeY.kernel) (Z E.kdeY.kernel dy) by'
      (fun i => (b i).2) - crossEntropy (shape E.kdeY.kernel) (Z E.kdeY.kernel dy) by' P.snd := fun n =>
    ((measurable_entropy ky _ by' n).comp (measurable_pi_lambda _ fun i => measurable_snd.comp (measurable_pi_apply i))).sub_const _
  have q3 : ∀ n, Measurable fun b : Fin n → (Fin dx → ℝ) × (Fin dy → ℝ) => Spec.entropy (shape E.kdeXY.kernel) (Z E.kdeXY.kernel (dx + dy)) bxy
      (fun i => (Fin.append (b i).1 (b i).2 : Fin (dx + dy) → ℝ)) - crossEntropy (shape E.kdeXY.kernel) (Z E.kdeXY.kernel (dx + dy)) bxy
        (P.map fun p => (Fin.append p.1 p.2 : Fin (dx + dy) → ℝ)) := fun n =>
    ((measurable_entropy kxy _ bxy n).comp (measurable_pi_lambda _ fun i => ma.comp (measurable_pi_apply i))).sub_const _
  have s3' : Batch.Small P fun n b => -(Spec.entropy (shape E.kdeXY.kernel) (Z E.kdeXY.kernel (dx + dy)) bxy
      (fun i => (Fin.append (b i).1 (b i).2 : Fin (dx + dy) → ℝ)) - crossEntropy (shape E.kdeXY.kernel) (Z E.kdeXY.kernel (dx + dy)) bxy
        (P.map fun p => (Fin.append p.1 p.2 : Fin (dx + dy) → ℝ))) := s3.mono (.of_forall fun n b => by rw [abs_neg])
  refine converges_of_small hs fun δ hδ => ⟨fun n => {b | ¬ |Spec.entropy (shape E.kdeX.kernel) (Z E.kdeX.kernel dx) bx (fun i => (b i).1)
    + Spec.entropy (shape E.kdeY.kernel) (Z E.kdeY.kernel dy) by' (fun i => (b i).2)
    - Spec.entropy (shape E.kdeXY.kernel) (Z E.kdeXY.kernel (dx + dy)) bxy (fun i => (Fin.append (b i).1 (b i).2 : Fin (dx + dy) → ℝ))
    - smoothInfo (shape E.kdeX.kernel) (shape E.kdeY.kernel) (shape E.kdeXY.kernel) (Z E.kdeX.kernel dx)
      (Z E.kdeY.kernel dy) (Z E.kdeXY.kernel (dx + dy)) bx by' bxy P| < δ}, ?_, ?_⟩
  · have := (((s1.add s2 q1).add s3' fun n => (q1 n).add (q2 n)).prob (fun n => ((q1 n).add (q2 n)).add (q3 n).neg) hδ)
    refine this.congr fun n => ?_
    congr 1
    ext b
    simp only [Set.mem_setOf_eq, smoothInfo, Measure.fst, Measure.snd]
    ring_nf
  · filter_upwards [eventually_gt_atTop 0] with n hn b hb
    have ux : Usable E.kdeX.bandwidth := by rw [ex]; rintro r ⟨⟩; exact hbx
    have uy : Usable E.kdeY.bandwidth := by rw [ey]; rintro r ⟨⟩; exact hby
    have uxy : Usable E.kdeXY.bandwidth := by rw [exy]; rintro r ⟨⟩; exact hbxy
    obtain ⟨hX, hY, hXY, mi, -, -, h1, h2, h3, h4, h5, -⟩ := estimate_spec Z hZ ε E ux uy uxy (fun i => (b i).1) (fun i => (b i).2) hn hdx hdy
      (fun i => (b i).1) (fun i => (b i).2) (by simp [hE]) (by simp [hE])
    refine ⟨mi, h1, ?_⟩
    rw [ex] at h3
    rw [ey] at h4
    rw [exy] at h5
    simp only [width] at h3 h4 h5
    rw [h2, h3, h4, h5]
    simpa using hb

end BMI.Kde
