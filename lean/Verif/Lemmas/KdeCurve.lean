import Verif.Lemmas.KdeBlocks
import Verif.Spec.KdeLimit

/-! The limit for normal vectors as a function of the bandwidth. -/

namespace BMI.Kde

open Matrix Filter Topology BMI.Samplers BMI.Kde.Spec

variable {d dx dy : ℕ}

/-- Twice the entropy of a smoothed normal law, without the constant, as a function of the squared bandwidth. -/
noncomputable def curve (S : Matrix (Fin d) (Fin d) ℝ) (t : ℝ) : ℝ :=
  Real.log (S + t • (1 : Matrix (Fin d) (Fin d) ℝ)).det + ((S + t • (1 : Matrix (Fin d) (Fin d) ℝ))⁻¹ * S).trace

theorem curve_eq {S : Matrix (Fin d) (Fin d) ℝ} (hS : S.PosDef) {t : ℝ} (ht : 0 ≤ t) :
    curve S t = ∑ i, (Real.log (hS.isHermitian.eigenvalues i + t) + hS.isHermitian.eigenvalues i / (hS.isHermitian.eigenvalues i + t)) := by
  obtain ⟨-, h1, h2, -⟩ := shifted hS ht
  unfold curve
  rw [h1, h2, Real.log_prod (fun i _ => (add_pos_of_pos_of_nonneg (hS.eigenvalues_pos i) ht).ne'), Finset.sum_add_distrib]

theorem curve_zero {S : Matrix (Fin d) (Fin d) ℝ} (hS : S.PosDef) : curve S 0 = Real.log S.det + d := by
  unfold curve
  rw [zero_smul, add_zero, nonsing_inv_mul _ (isUnit_iff_ne_zero.2 hS.det_pos.ne'), trace_one, Fintype.card_fin]

theorem curve_term {l t : ℝ} (hl : 0 < l + t) :
    HasDerivAt (fun t => Real.log (l + t) + l / (l + t)) (t * (1 / (l + t)) ^ 2) t := by
  have h1 : HasDerivAt (fun t => l + t) 1 t := (hasDerivAt_id t).const_add l
  have h2 := (h1.log hl.ne').add ((h1.fun_inv hl.ne').const_mul l)
  refine (h2.congr_of_eventuallyEq (.of_forall fun s => ?_)).congr_deriv ?_
  · simp only [Pi.add_apply, div_eq_mul_inv]
  · field_simp
    ring

theorem curve_continuous {S : Matrix (Fin d) (Fin d) ℝ} (hS : S.PosDef) : ContinuousOn (curve S) (Set.Ici 0) := by
  refine ContinuousOn.congr (f := fun t => ∑ i, (Real.log (hS.isHermitian.eigenvalues i + t)
    + hS.isHermitian.eigenvalues i / (hS.isHermitian.eigenvalues i + t))) ?_ fun t ht => curve_eq hS ht
  refine continuousOn_finset_sum _ fun i _ t ht => ?_
  exact (curve_term (add_pos_of_pos_of_nonneg (hS.eigenvalues_pos i) ht)).continuousAt.continuousWithinAt

theorem curve_deriv {S : Matrix (Fin d) (Fin d) ℝ} (hS : S.PosDef) {t : ℝ} (ht : 0 < t) :
    HasDerivAt (curve S) (t * ((S + t • (1 : Matrix (Fin d) (Fin d) ℝ))⁻¹ * (S + t • (1 : Matrix (Fin d) (Fin d) ℝ))⁻¹).trace) t := by
  have h1 : HasDerivAt (fun t => ∑ i, (Real.log (hS.isHermitian.eigenvalues i + t)
      + hS.isHermitian.eigenvalues i / (hS.isHermitian.eigenvalues i + t)))
      (∑ i, t * (1 / (hS.isHermitian.eigenvalues i + t)) ^ 2) t :=
    HasDerivAt.fun_sum fun i _ => curve_term (add_pos_of_pos_of_nonneg (hS.eigenvalues_pos i) ht.le)
  rw [(shifted hS ht.le).2.2.2, Finset.mul_sum]
  refine h1.congr_of_eventuallyEq ?_
  filter_upwards [lt_mem_nhds ht] with s hs using curve_eq hS hs.le

theorem curve_infinity {S : Matrix (Fin d) (Fin d) ℝ} (hS : S.PosDef) : Tendsto (fun t => curve S t - d * Real.log t) atTop (𝓝 0) := by
  have h1 : ∀ l : ℝ, 0 < l → Tendsto (fun t => Real.log (l + t) + l / (l + t) - Real.log t) atTop (𝓝 0) := by
    intro l hl
    have a : Tendsto (fun t : ℝ => l / t) atTop (𝓝 0) := tendsto_const_nhds.div_atTop tendsto_id
    have b : Tendsto (fun t : ℝ => l / (l + t)) atTop (𝓝 0) := tendsto_const_nhds.div_atTop (tendsto_atTop_add_const_left _ _ tendsto_id)
    have c : Tendsto (fun t : ℝ => Real.log (l / t + 1) + l / (l + t)) atTop (𝓝 0) := by
      have := ((a.add_const 1).log (by norm_num)).add b
      simpa using this
    refine c.congr' ?_
    filter_upwards [eventually_gt_atTop 0] with t ht
    have : l / t + 1 = (l + t) / t := by field_simp
    rw [this, Real.log_div (by positivity) ht.ne']
    ring
  have h2 := tendsto_finsetSum (Finset.univ : Finset (Fin d)) fun i _ => h1 _ (hS.eigenvalues_pos i)
  simp only [Finset.sum_const_zero] at h2
  refine h2.congr' ?_
  filter_upwards [eventually_ge_atTop 0] with t ht
  rw [curve_eq hS ht, Finset.sum_sub_distrib, Finset.sum_const, Finset.card_univ, Fintype.card_fin, nsmul_eq_mul]

/-- The combination of the three curves, halved. -/
noncomputable def infoCurve (S : Matrix (Fin (dx + dy)) (Fin (dx + dy)) ℝ) (t : ℝ) : ℝ :=
  (curve (blockX S) t + curve (blockY S) t - curve S t) / 2

theorem normalInfo_eq (S : Matrix (Fin (dx + dy)) (Fin (dx + dy)) ℝ) (h : ℝ) : normalInfo S h h h = infoCurve S (h ^ 2) := by
  show normalEntropy (blockX S) h + normalEntropy (blockY S) h - normalEntropy S h = _
  unfold normalEntropy infoCurve curve
  push_cast
  ring

variable {S : Matrix (Fin (dx + dy)) (Fin (dx + dy)) ℝ}

theorem infoCurve_zero (hS : S.PosDef) : infoCurve S 0 = (Real.log (blockX S).det + Real.log (blockY S).det - Real.log S.det) / 2 := by
  unfold infoCurve
  rw [curve_zero hS, curve_zero (blockX_posDef hS), curve_zero (blockY_posDef hS)]
  push_cast
  ring

theorem infoCurve_continuous (hS : S.PosDef) : ContinuousOn (infoCurve S) (Set.Ici 0) :=
  (((curve_continuous (blockX_posDef hS)).add (curve_continuous (blockY_posDef hS))).sub (curve_continuous hS)).div_const 2

theorem infoCurve_infinity (hS : S.PosDef) : Tendsto (infoCurve S) atTop (𝓝 0) := by
  have := ((((curve_infinity (blockX_posDef hS)).add (curve_infinity (blockY_posDef hS))).sub (curve_infinity hS)).div_const 2)
  simp only [add_zero, sub_zero, zero_div] at this
  refine this.congr fun t => ?_
  unfold infoCurve
  push_cast
  ring

theorem infoCurve_deriv (hS : S.PosDef) {t : ℝ} (ht : 0 < t) : ∃ v, HasDerivAt (infoCurve S) v t ∧ v ≤ 0 ∧
    ((∃ i j, S (Fin.castAdd dy i) (Fin.natAdd dx j) ≠ 0) → v < 0) := by
  have hd := ((((curve_deriv (blockX_posDef hS) ht).add (curve_deriv (blockY_posDef hS) ht)).sub (curve_deriv hS ht)).div_const 2)
  refine ⟨_, hd, ?_⟩
  have hA := (shifted hS ht.le).1
  set A := S + t • (1 : Matrix (Fin (dx + dy)) (Fin (dx + dy)) ℝ) with hAdef
  have ex : blockX A = blockX S + t • (1 : Matrix (Fin dx) (Fin dx) ℝ) := by
    ext i j
    simp [blockX, hAdef, one_apply, Fin.ext_iff]
  have ey : blockY A = blockY S + t • (1 : Matrix (Fin dy) (Fin dy) ℝ) := by
    ext i j
    simp [blockY, hAdef, one_apply, Fin.ext_iff]
  have hb := trace_blocks hA
  rw [ex, ey] at hb
  have hn : 0 ≤ ∑ i : Fin dx, ∑ j : Fin dy, (A⁻¹ (Fin.castAdd dy i) (Fin.natAdd dx j)) ^ 2 :=
    Finset.sum_nonneg fun i _ => Finset.sum_nonneg fun j _ => sq_nonneg _
  constructor
  · have := mul_le_mul_of_nonneg_left hb ht.le
    nlinarith [mul_nonneg ht.le hn]
  · rintro ⟨i, j, hij⟩
    have hp : 0 < ∑ i : Fin dx, ∑ j : Fin dy, (A⁻¹ (Fin.castAdd dy i) (Fin.natAdd dx j)) ^ 2 := by
      refine lt_of_le_of_ne hn fun h0 => hij ?_
      have hz := off_diagonal_zero hA (fun a b => by
        have h1 := (Finset.sum_eq_zero_iff_of_nonneg fun i _ => Finset.sum_nonneg fun j _ => sq_nonneg _).1 h0.symm a (Finset.mem_univ _)
        have h2 := (Finset.sum_eq_zero_iff_of_nonneg fun j _ => sq_nonneg _).1 h1 b (Finset.mem_univ _)
        exact pow_eq_zero_iff two_ne_zero |>.1 h2) i j
      have : A (Fin.castAdd dy i) (Fin.natAdd dx j) = S (Fin.castAdd dy i) (Fin.natAdd dx j) := by
        rw [hAdef, Matrix.add_apply, Matrix.smul_apply, one_apply_ne, smul_zero, add_zero]
        intro hc
        have := congrArg Fin.val hc
        simp at this
        omega
      rwa [this] at hz
    have := mul_le_mul_of_nonneg_left hb ht.le
    nlinarith [mul_pos ht hp]

/-- Larger bandwidths, smaller limits; zero is never crossed. -/
theorem infoCurve_anti (hS : S.PosDef) : AntitoneOn (infoCurve S) (Set.Ici 0) := by
  refine antitoneOn_of_deriv_nonpos (convex_Ici 0) (infoCurve_continuous hS) (fun t ht => ?_) fun t ht => ?_
  all_goals
    rw [interior_Ici] at ht
    obtain ⟨v, h1, h2, -⟩ := infoCurve_deriv hS ht
  · exact h1.differentiableAt.differentiableWithinAt
  · rw [h1.deriv]; exact h2

theorem infoCurve_strictAnti (hS : S.PosDef) (h : ∃ i j, S (Fin.castAdd dy i) (Fin.natAdd dx j) ≠ 0) :
    StrictAntiOn (infoCurve S) (Set.Ici 0) := by
  refine strictAntiOn_of_deriv_neg (convex_Ici 0) (infoCurve_continuous hS) fun t ht => ?_
  rw [interior_Ici] at ht
  obtain ⟨v, h1, -, h2⟩ := infoCurve_deriv hS ht
  rw [h1.deriv]
  exact h2 h

theorem infoCurve_nonneg (hS : S.PosDef) {t : ℝ} (ht : 0 ≤ t) : 0 ≤ infoCurve S t := by
  refine le_of_tendsto (infoCurve_infinity hS) ?_
  filter_upwards [eventually_ge_atTop t] with s hs
  exact infoCurve_anti hS ht (ht.trans hs) hs

theorem infoCurve_pos (hS : S.PosDef) (h : ∃ i j, S (Fin.castAdd dy i) (Fin.natAdd dx j) ≠ 0) {t : ℝ} (ht : 0 ≤ t) : 0 < infoCurve S t :=
  (infoCurve_nonneg hS (by linarith : (0 : ℝ) ≤ t + 1)).trans_lt
    (infoCurve_strictAnti hS h ht (by show (0 : ℝ) ≤ t + 1; linarith) (by linarith))

end BMI.Kde
