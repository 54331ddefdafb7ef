import Verif.Lemmas.KdeTransforms
import Verif.Lemmas.Registry
import Verif.Props.KdeTasks
import Verif.Props.NormalTasks
import Verif.Props.Registry
import Verif.Spec.KdeTasks

/-! Moments and densities of the laws of the benchmark tasks. -/

namespace BMI.Kde

open MeasureTheory ProbabilityTheory Filter Topology BMI.Kde.Spec BMI.Samplers BMI.Student BMI.Registry BMI.TaskIds Matrix

variable {d dx dy : ℕ}

/-! ## Moments of normal and Student-t laws -/

theorem normal_moment (m : Fin d → ℝ) {S : Matrix (Fin d) (Fin d) ℝ} (i : Fin d) {p : ENNReal} (hp : p ≠ ⊤) :
    MemLp (fun z : Fin d → ℝ => z i) p (normalLaw m S) := by
  unfold normalLaw
  have ho : Measurable (WithLp.ofLp : EuclideanSpace ℝ (Fin d) → Fin d → ℝ) := by fun_prop
  rw [memLp_map_measure_iff (measurable_pi_apply i).aestronglyMeasurable ho.aemeasurable]
  exact (EuclideanSpace.proj (𝕜 := ℝ) i).comp_memLp' (IsGaussian.memLp_id _ p hp)

theorem scale_moment {ν q : ℝ} (hq : 0 < q) (hν : q < ν) : Integrable (fun w : ℝ => ‖(√(w / ν))⁻¹‖ ^ q) (chiSquared ν) := by
  have h2 : 0 < ν - q := by linarith
  have hν0 : 0 < ν := by linarith
  have hm : Measurable fun w : ℝ => ‖(√(w / ν))⁻¹‖ ^ q := (measurable_scale ν).norm.pow_const q
  refine ⟨hm.aestronglyMeasurable, ?_⟩
  rw [hasFiniteIntegral_iff_ofReal (.of_forall fun w => by positivity), lintegral_chiSquared ν hm.ennreal_ofReal]
  set K : ℝ := (1 / 2 : ℝ) ^ (ν / 2) / Real.Gamma (ν / 2) / ((1 / 2 : ℝ) ^ ((ν - q) / 2) / Real.Gamma ((ν - q) / 2)) * ν ^ (q / 2) with hK
  have hG := Real.Gamma_pos_of_pos (show 0 < ν / 2 by linarith)
  have hG' := Real.Gamma_pos_of_pos (show 0 < (ν - q) / 2 by linarith)
  have key : ∀ w ∈ Set.Ioi (0 : ℝ), gammaPDF (ν / 2) (1 / 2) w * ENNReal.ofReal (‖(√(w / ν))⁻¹‖ ^ q)
      = ENNReal.ofReal K * gammaPDF ((ν - q) / 2) (1 / 2) w := by
    intro w hw
    have hw : 0 < w := hw
    rw [gammaPDF, gammaPDF, ← ENNReal.ofReal_mul (gammaPDFReal_nonneg (by linarith) (by norm_num) w), ← ENNReal.ofReal_mul (by positivity)]
    congr 1
    have e1 : ‖(√(w / ν))⁻¹‖ ^ q = w ^ (-(q / 2)) * ν ^ (q / 2) := by
      rw [Real.norm_eq_abs, abs_of_nonneg (by positivity), Real.inv_rpow (by positivity), Real.sqrt_eq_rpow, ← Real.rpow_mul (by positivity),
        Real.div_rpow hw.le hν0.le, inv_div, Real.rpow_neg hw.le, show (1 / 2 : ℝ) * q = q / 2 by ring]
      rw [div_eq_mul_inv, mul_comm]
    have e2 : w ^ ((ν - q) / 2 - 1) = w ^ (ν / 2 - 1) * w ^ (-(q / 2)) := by
      rw [← Real.rpow_add hw]
      congr 1
      ring
    unfold gammaPDFReal
    rw [if_pos hw.le, if_pos hw.le, e1, e2, hK]
    have e3 : (0 : ℝ) < (1 / 2 : ℝ) ^ ((ν - q) / 2) := by positivity
    field_simp
  have mg : Measurable (gammaPDF ((ν - q) / 2) (1 / 2)) := (measurable_gammaPDFReal _ _).ennreal_ofReal
  rw [setLIntegral_congr_fun measurableSet_Ioi key, lintegral_const_mul _ mg]
  have h1 := lintegral_chiSquared (ν - q) (f := fun _ => 1) measurable_const
  haveI : IsProbabilityMeasure (chiSquared (ν - q)) := isProbabilityMeasure_gammaMeasure (by linarith) (by norm_num)
  simp only [mul_one, lintegral_const, measure_univ] at h1
  rw [← h1, mul_one]
  exact ENNReal.ofReal_lt_top

theorem student_moment (loc : Fin d → ℝ) {S : Matrix (Fin d) (Fin d) ℝ} {ν : ℝ} (hν : 0 < ν) (i : Fin d) {p : ENNReal} (h0 : p ≠ 0) (hp : p ≠ ⊤)
    (hpν : p < ENNReal.ofReal ν) : MemLp (fun z : Fin d → ℝ => z i) p (studentLaw loc S ν) := by
  haveI : IsProbabilityMeasure (chiSquared ν) := isProbabilityMeasure_gammaMeasure (by linarith) (by norm_num)
  have hm := measurable_studentMap loc ν
  have hq : 0 < p.toReal := ENNReal.toReal_pos h0 hp
  have hq' : p.toReal < ν := (ENNReal.lt_ofReal_iff_toReal_lt hp).1 hpν
  unfold studentLaw
  rw [memLp_map_measure_iff (measurable_pi_apply i).aestronglyMeasurable hm.aemeasurable]
  have hpr : MemLp (fun z : ℝ × (Fin d → ℝ) => (√(z.1 / ν))⁻¹ * z.2 i) p ((chiSquared ν).prod (normalLaw 0 S)) := by
    rw [← integrable_norm_rpow_iff (by fun_prop) h0 hp]
    refine ((scale_moment hq hq').mul_prod ((normal_moment 0 (S := S) i hp).integrable_norm_rpow h0 hp)).congr (.of_forall fun z => ?_)
    simp only
    rw [norm_mul, Real.mul_rpow (norm_nonneg _) (norm_nonneg _)]
  exact (memLp_const (loc i)).add hpr

/-! ## One of the two variables -/

/-- A law with a density whose components have moments of every order below `r`. -/
structure Side (r : ENNReal) (Q : Measure (Fin d → ℝ)) : Prop where
  prob : IsProbabilityMeasure Q
  regular : Regular Q
  moment : ∀ p, p ≠ 0 → p ≠ ⊤ → p < r → ∀ c, MemLp (fun u : Fin d → ℝ => u c) p Q

theorem Side.second {r : ENNReal} {Q : Measure (Fin d → ℝ)} (h : Side r Q) (h2 : 2 < r) (c : Fin d) : MemLp (fun u : Fin d → ℝ => u c) 2 Q :=
  h.moment 2 (by norm_num) (by norm_num) h2 c

theorem side_map {r : ENNReal} {Q : Measure (Fin d → ℝ)} [IsProbabilityMeasure Q] {F : (Fin d → ℝ) → Fin d → ℝ} (hF : Measurable F)
    (hR : Regular (Q.map F)) (hM : ∀ p, p ≠ 0 → p ≠ ⊤ → p < r → ∀ c, MemLp (fun u : Fin d → ℝ => F u c) p Q) : Side r (Q.map F) :=
  ⟨Measure.isProbabilityMeasure_map hF.aemeasurable, hR, fun p h0 hp hr c =>
    (memLp_map_measure_iff (measurable_pi_apply c).aestronglyMeasurable hF.aemeasurable).2 (hM p h0 hp hr c)⟩

theorem measurable_each {f : ℝ → ℝ} (hf : Measurable f) : Measurable fun (u : Fin d → ℝ) c => f (u c) :=
  measurable_pi_lambda _ fun c => hf.comp (measurable_pi_apply c)

variable {r : ENNReal} {Q : Measure (Fin d → ℝ)}

theorem side_normal (m : Fin d → ℝ) {S : Matrix (Fin d) (Fin d) ℝ} (hS : S.PosDef) : Side ⊤ (normalLaw m S) :=
  ⟨normalLaw_prob m S, normal_regular m hS, fun _ _ hp _ c => normal_moment m c hp⟩

theorem side_student (loc : Fin d → ℝ) {S : Matrix (Fin d) (Fin d) ℝ} (hS : S.PosDef) {ν : ℝ} (hν : 0 < ν) : Side (ENNReal.ofReal ν) (studentLaw loc S ν) :=
  ⟨studentLaw_prob loc S hν, student_regular loc hS hν, fun _ h0 hp hr c => student_moment loc hν c h0 hp hr⟩

theorem side_asinh (h : Side r Q) (hr : r ≠ 0) : Side ⊤ (Q.map fun u c => Real.arsinh (u c)) := by
  haveI := h.prob
  refine side_map (measurable_each Real.continuous_arsinh.measurable) (regular_asinh h.regular) fun p h0 hp _ c => ?_
  obtain ⟨q, hq0, hq⟩ := exists_between (pos_iff_ne_zero.2 hr)
  exact moment_asinh hq0.ne' hq.ne_top h0 hp (measurable_pi_apply c) (h.moment q hq0.ne' hq.ne_top hq c)

theorem side_power (h : Side r Q) {α : ℝ} (hα : 0 < α) : Side (r / ENNReal.ofReal α) (Q.map fun u c => signedPow α (u c)) := by
  haveI := h.prob
  have hα' : ENNReal.ofReal α ≠ 0 := by simpa using hα
  refine side_map (measurable_each (measurable_signedPow α)) (regular_power h.regular hα.ne') fun p h0 hp hr c => ?_
  refine moment_power hα (measurable_pi_apply c) (h.moment _ (mul_ne_zero hα' h0) (ENNReal.mul_ne_top ENNReal.ofReal_ne_top hp) ?_ c)
  rw [mul_comm]
  exact ENNReal.mul_lt_of_lt_div hr

theorem side_normalCdf (h : Side r Q) (hr : 2 < r) : Side ⊤ (Q.map fun u c => normalCdf (u c)) := by
  haveI := h.prob
  refine side_map (measurable_each continuous_normalCdf.measurable) (regular_normalCdf h.regular (h.second hr)) fun p h0 hp _ c => ?_
  refine MemLp.of_bound (continuous_normalCdf.measurable.comp (measurable_pi_apply c)).aestronglyMeasurable 1 (.of_forall fun u => ?_)
  obtain ⟨h1, h2⟩ := normalCdf_mem (u c)
  exact abs_le.2 ⟨by linarith, h2.le⟩

theorem side_wigglyX (h : Side r Q) : Side r (Q.map fun u c => wigglyX (u c)) := by
  haveI := h.prob
  refine side_map (measurable_each continuous_wigglyX.measurable) (regular_wigglyX h.regular) fun p h0 hp hr c => ?_
  refine moment_linear (h.moment p h0 hp hr) (continuous_wigglyX.measurable.comp (measurable_pi_apply c)) (B := 1) fun u => ?_
  have := wigglyX_near (u c)
  have := single_le u c
  linarith

theorem side_wigglyY (h : Side r Q) : Side r (Q.map fun u c => wigglyY (u c)) := by
  haveI := h.prob
  refine side_map (measurable_each continuous_wigglyY.measurable) (regular_wigglyY h.regular) fun p h0 hp hr c => ?_
  refine moment_linear (h.moment p h0 hp hr) (continuous_wigglyY.measurable.comp (measurable_pi_apply c)) (B := 1) fun u => ?_
  have := wigglyY_near (u c)
  have := single_le u c
  linarith

theorem side_vecMul (h : Side r Q) {M : Matrix (Fin d) (Fin d) ℝ} (hM : Mᵀ * M = 1) : Side r (Q.map fun x => x ᵥ* M) := by
  haveI := h.prob
  exact side_map (vecMul_preserving hM).measurable (regular_vecMul h.regular hM) fun p h0 hp hr c =>
    moment_linear (h.moment p h0 hp hr) ((measurable_pi_apply c).comp (vecMul_preserving hM).measurable) (vecMul_linear M c)

theorem side_turn (h : Side r Q) {i j : Fin d} (hij : i < j) (c : ℝ) : Side r (Q.map fun x => turn i j (c * sumSq x) x) := by
  haveI := h.prob
  exact side_map (measurable_turn hij c) (regular_turn h.regular hij c) fun p h0 hp hr k =>
    moment_linear (h.moment p h0 hp hr) ((measurable_pi_apply k).comp (measurable_turn hij c)) fun u => turn_linear _ u k

/-! ## Both -/

/-- Both variables. -/
def Sides (r : ENNReal) (p : Part) : Prop := Side r p.law.fst ∧ Side r p.law.snd

theorem sides_map {p : Part} {r r' : ENNReal} {f : (Fin p.dx → ℝ) → Fin p.dx → ℝ} {g : (Fin p.dy → ℝ) → Fin p.dy → ℝ} (hf : Measurable f) (hg : Measurable g)
    (h1 : Side r' (p.law.fst.map f)) (h2 : Side r' (p.law.snd.map g)) : Sides r' ⟨p.dx, p.dy, p.law.map (Prod.map f g)⟩ := by
  constructor
  · show Side r' (p.law.map (Prod.map f g)).fst
    rw [map_fst_prodMap _ hf hg]
    exact h1
  · show Side r' (p.law.map (Prod.map f g)).snd
    rw [map_snd_prodMap _ hf hg]
    exact h2

theorem sides_normal {S : Matrix (Fin (dx + dy)) (Fin (dx + dy)) ℝ} (hS : S.PosDef) : Sides ⊤ ⟨dx, dy, splitNormal dx dy 0 S⟩ := by
  constructor
  · show Side ⊤ (splitNormal dx dy 0 S).fst
    rw [splitNormal_fst _ hS.posSemidef]
    exact side_normal _ (blockX_posDef hS)
  · show Side ⊤ (splitNormal dx dy 0 S).snd
    rw [splitNormal_snd _ hS.posSemidef]
    exact side_normal _ (blockY_posDef hS)

theorem sides_student {S : Matrix (Fin (dx + dy)) (Fin (dx + dy)) ℝ} (hS : S.PosDef) {df : ℕ} (hdf : 0 < df) :
    Sides df ⟨dx, dy, splitStudent dx dy 0 S df⟩ := by
  have hν : (0 : ℝ) < df := by exact_mod_cast hdf
  have e : (df : ENNReal) = ENNReal.ofReal (df : ℝ) := by simp
  rw [e]
  constructor
  · show Side _ (splitStudent dx dy 0 S df).fst
    rw [splitStudent_fst _ hS.posSemidef hν]
    exact side_student _ (blockX_posDef hS) hν
  · show Side _ (splitStudent dx dy 0 S df).snd
    rw [splitStudent_snd _ hS.posSemidef hν]
    exact side_student _ (blockY_posDef hS) hν

theorem uniformNoise_inside {e : ℝ} (he : 0 < e) : ∀ᵐ p ∂liftPair (uniformNoiseLaw e), (∀ c, |p.1 c| ≤ 1 + e) ∧ ∀ c, |p.2 c| ≤ 1 + e := by
  obtain ⟨s, hs, hd, hp, hmi, hpos, hX, hY⟩ := Consistency.additiveUniform_fills tree treeLaw tree_ideal he
  have h1 := fun j => ae_of_ae_map ((measurable_pi_apply j).comp measurable_fst).aemeasurable (hX 1 j).inside
  have h2 := fun j => ae_of_ae_map ((measurable_pi_apply j).comp measurable_snd).aemeasurable (hY 1 j).inside
  filter_upwards [h1 0, h2 0] with p p1 p2
  simp only [Function.comp_apply] at p1 p2
  refine ⟨fun c => ?_, fun c => ?_⟩ <;> rw [Subsingleton.elim c 0, abs_le]
  · exact ⟨by linarith [p1.1], by linarith [p1.2]⟩
  · exact ⟨by linarith [p2.1], by linarith [p2.2]⟩

theorem sides_additive {e : ℝ} (he : 0 < e) : Sides ⊤ ⟨1, 1, liftPair (uniformNoiseLaw e)⟩ := by
  obtain ⟨s, hs, hd, hp, hmi, hpos, hX, hY⟩ := Consistency.additiveUniform_fills tree treeLaw tree_ideal he
  have hin := uniformNoise_inside he
  have hS := spread_of_bounded (P := liftPair (uniformNoiseLaw e)) ⟨⟨1 + e, hin⟩, uniformNoise_density he⟩
  refine ⟨⟨?_, hS.left, fun p _ _ _ c => ?_⟩, ?_, hS.right, fun p _ _ _ c => ?_⟩
  · show IsProbabilityMeasure (liftPair (uniformNoiseLaw e)).fst
    infer_instance
  · refine (memLp_map_measure_iff (measurable_pi_apply c).aestronglyMeasurable measurable_fst.aemeasurable).2 ?_
    refine MemLp.of_bound (by fun_prop) (1 + e) ?_
    filter_upwards [hin] with z hz using hz.1 c
  · show IsProbabilityMeasure (liftPair (uniformNoiseLaw e)).snd
    infer_instance
  · refine (memLp_map_measure_iff (measurable_pi_apply c).aestronglyMeasurable measurable_snd.aemeasurable).2 ?_
    refine MemLp.of_bound (by fun_prop) (1 + e) ?_
    filter_upwards [hin] with z hz using hz.2 c

theorem gen_skew (n : ℕ) {i j : ℕ} (hij : i ≠ j) : (gen n i j)ᵀ = -gen n i j := by
  ext a b
  simp only [gen, Matrix.transpose_apply, Matrix.of_apply, Matrix.neg_apply]
  split_ifs <;> first | omega | norm_num

end BMI.Kde
