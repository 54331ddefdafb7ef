import Verif.Lemmas.Gebelein
import Verif.Lemmas.BmmNormal
import Verif.Props.CcaConsistent
import Verif.Props.NormalTasks

/-! Covariances of functions of pairs of normal variables. -/

namespace BMI.Cca

open MeasureTheory ProbabilityTheory BMI.Gebelein BMI.Consistency BMI.Samplers BMI.Student BMI.Bmm Matrix

variable {d dx dy k : ℕ} {f g : ℝ → ℝ}

/-- Two components of a normal vector. -/
theorem pair_marginal {S : Matrix (Fin d) (Fin d) ℝ} (hS : S.PosSemidef) {i j : Fin d} (hi : S i i = 1) (hj : S j j = 1) (h : S i j ^ 2 ≤ 1) :
    (normalLaw 0 S).map (fun z => (z i, z j)) = (γ.prod γ).map (fun p => (p.1, S i j * p.1 + √(1 - S i j ^ 2) * p.2)) := by
  have hji : S j i = S i j := by
    have := hS.isHermitian.apply i j
    simpa using this
  set a := S i j with ha
  set b := √(1 - a ^ 2) with hb
  have hb2 : b * b = 1 - a ^ 2 := Real.mul_self_sqrt (by linarith)
  let B : Matrix (Fin 2) (Fin d) ℝ := Matrix.of fun s k => if k = ![i, j] s then 1 else 0
  let L : Matrix (Fin 2) (Fin 2) ℝ := !![1, 0; a, b]
  have hBm : ∀ (x : Fin d → ℝ) (s : Fin 2), B.mulVec x s = x (![i, j] s) := fun x s => by
    simp [B, Matrix.mulVec, dotProduct]
  have h1 := normalLaw_map (0 : Fin d → ℝ) hS 0 B
  have h2 : L * Lᵀ = B * S * Bᵀ := by
    have e : ∀ s t, (B * S * Bᵀ) s t = S (![i, j] s) (![i, j] t) := fun s t => by
      simp [B, Matrix.mul_apply]
    ext s t
    rw [e]
    fin_cases s <;> fin_cases t <;> simp [L, Matrix.mul_apply, hi, hj, hji, ← ha]
    linarith
  have h3 := normalLaw_cholesky h2 (0 : Fin 2 → ℝ)
  rw [Matrix.mulVec_zero, add_zero, ← h3] at h1
  have m1 : Measurable fun v : Fin 2 → ℝ => (v 0, v 1) := (measurable_pi_apply 0).prodMk (measurable_pi_apply 1)
  have mB : Measurable fun x : Fin d → ℝ => 0 + B.mulVec x := by
    have : Continuous fun x : Fin d → ℝ => 0 + B.mulVec x := by fun_prop
    exact this.measurable
  have mL : Measurable fun x : Fin 2 → ℝ => 0 + L.mulVec x := by
    have : Continuous fun x : Fin 2 → ℝ => 0 + L.mulVec x := by fun_prop
    exact this.measurable
  have h4 := congrArg (fun Q => Q.map fun v : Fin 2 → ℝ => (v 0, v 1)) h1
  rw [Measure.map_map m1 mB, Measure.map_map m1 mL] at h4
  have h5 := (measurePreserving_piFinTwo (fun _ : Fin 2 => γ)).map_eq
  have m2 : Measurable fun p : ℝ × ℝ => (p.1, a * p.1 + b * p.2) := by fun_prop
  rw [← h5, Measure.map_map m2 (MeasurableEquiv.measurable _)]
  convert h4 using 2
  · funext x
    simp [hBm]
  · funext x
    simp [L, Matrix.mulVec, dotProduct, Fin.sum_univ_two]
  · rfl

/-- The covariance of `f` and `g` at two standard normal variables with correlation `a`. -/
noncomputable def cross (f g : ℝ → ℝ) (a : ℝ) : ℝ := cov[fun p : ℝ × ℝ => f p.1, fun p => g (a * p.1 + √(1 - a ^ 2) * p.2); γ.prod γ]

theorem cov_coords {S : Matrix (Fin d) (Fin d) ℝ} (hS : S.PosSemidef) {i j : Fin d} (hi : S i i = 1) (hj : S j j = 1) (h : S i j ^ 2 ≤ 1)
    (hf : Measurable f) (hg : Measurable g) : cov[fun z => f (z i), fun z => g (z j); normalLaw 0 S] = cross f g (S i j) := by
  have m1 : Measurable fun p : ℝ × ℝ => f p.1 := hf.comp measurable_fst
  have m2 : Measurable fun p : ℝ × ℝ => g p.2 := hg.comp measurable_snd
  have m3 : Measurable fun z : Fin d → ℝ => (z i, z j) := (measurable_pi_apply i).prodMk (measurable_pi_apply j)
  have m4 : Measurable fun p : ℝ × ℝ => (p.1, S i j * p.1 + √(1 - S i j ^ 2) * p.2) := by fun_prop
  have h1 := covariance_map (μ := normalLaw 0 S) m1.aestronglyMeasurable m2.aestronglyMeasurable m3.aemeasurable
  have h2 := covariance_map (μ := γ.prod γ) m1.aestronglyMeasurable m2.aestronglyMeasurable m4.aemeasurable
  rw [pair_marginal hS hi hj h] at h1
  exact h1.symm.trans h2

theorem coord_law {S : Matrix (Fin d) (Fin d) ℝ} (hS : S.PosSemidef) {i : Fin d} (hi : S i i = 1) : (normalLaw 0 S).map (fun z => z i) = γ := by
  have h := congrArg (fun Q => Q.map Prod.fst) (pair_marginal hS hi hi (by rw [hi]; norm_num))
  have m : Measurable fun z : Fin d → ℝ => (z i, z i) := (measurable_pi_apply i).prodMk (measurable_pi_apply i)
  rw [Measure.map_map measurable_fst m, Measure.map_map measurable_fst (by fun_prop)] at h
  have e : (γ.prod γ).map Prod.fst = γ := by
    rw [Measure.map_fst_prod, measure_univ, one_smul]
  exact h.trans e

theorem var_coord {S : Matrix (Fin d) (Fin d) ℝ} (hS : S.PosSemidef) {i : Fin d} (hi : S i i = 1) (hf : Measurable f) :
    Var[fun z => f (z i); normalLaw 0 S] = Var[f; γ] := by
  rw [← coord_law hS hi, variance_map hf.aemeasurable (measurable_pi_apply i).aemeasurable]
  rfl

theorem memLp_coord {S : Matrix (Fin d) (Fin d) ℝ} (hS : S.PosSemidef) {i : Fin d} (hi : S i i = 1) (hf : Measurable f) :
    MemLp (fun z => f (z i)) 2 (normalLaw 0 S) ↔ MemLp f 2 γ := by
  rw [← coord_law hS hi, memLp_map_measure_iff hf.aestronglyMeasurable (measurable_pi_apply i).aemeasurable]
  rfl

theorem abs_cross_le {a : ℝ} (ha : a ^ 2 ≤ 1) (hf : Measurable f) (hf2 : MemLp f 2 γ) (hg : Measurable g) (hg2 : MemLp g 2 γ) :
    |cross f g a| ≤ |a| * (√Var[f; γ] * √Var[g; γ]) :=
  gebelein (a := a) (b := √(1 - a ^ 2)) (by rw [Real.sq_sqrt (by linarith)]; ring) hg hg2 hf hf2

theorem cross_zero (hf : Measurable f) (hf2 : MemLp f 2 γ) (hg : Measurable g) (hg2 : MemLp g 2 γ) : cross f g 0 = 0 := by
  have := abs_cross_le (a := 0) (by norm_num) hf hf2 hg hg2
  rw [abs_zero, zero_mul] at this
  exact abs_eq_zero.1 (le_antisymm this (abs_nonneg _))

/-- The correlation of `f` and `g` at two standard normal variables with correlation `a`. -/
noncomputable def ratio (f g : ℝ → ℝ) (a : ℝ) : ℝ := cross f g a / (√Var[f; γ] * √Var[g; γ])

theorem ratio_sq_le {a : ℝ} (ha : a ^ 2 ≤ 1) (hf : Measurable f) (hf2 : MemLp f 2 γ) (hg : Measurable g) (hg2 : MemLp g 2 γ)
    (vf : 0 < Var[f; γ]) (vg : 0 < Var[g; γ]) : ratio f g a ^ 2 ≤ a ^ 2 := by
  have h := abs_cross_le ha hf hf2 hg hg2
  have hp : 0 < √Var[f; γ] * √Var[g; γ] := mul_pos (Real.sqrt_pos.2 vf) (Real.sqrt_pos.2 vg)
  rw [sq_le_sq, ratio, abs_div, abs_of_pos hp, div_le_iff₀ hp]
  exact h

/-! ## Diagonal matrices -/

theorem gauss_scaled {M : Matrix (Fin (dx + dy)) (Fin (dx + dy)) ℝ} (hM : M.PosDef) {σ : Fin (dx + dy) → ℝ} (hσ : ∀ i, 0 < σ i) :
    (Matrix.of fun p q => σ p * M p q * σ q).PosDef ∧ gauss (Matrix.of fun p q => σ p * M p q * σ q) = gauss M := by
  have e : (Matrix.of fun p q => σ p * M p q * σ q) = diagonal σ * M * diagonal σ := by
    ext p q
    simp [Matrix.diagonal_mul, Matrix.mul_diagonal]
  have ex : blockX (Matrix.of fun p q => σ p * M p q * σ q) = diagonal (fun i => σ (Fin.castAdd dy i)) * blockX M * diagonal (fun i => σ (Fin.castAdd dy i)) := by
    ext p q
    simp [blockX, Matrix.diagonal_mul, Matrix.mul_diagonal]
  have ey : blockY (Matrix.of fun p q => σ p * M p q * σ q) = diagonal (fun i => σ (Fin.natAdd dx i)) * blockY M * diagonal (fun i => σ (Fin.natAdd dx i)) := by
    ext p q
    simp [blockY, Matrix.diagonal_mul, Matrix.mul_diagonal]
  have hd : (diagonal σ).det ≠ 0 := by
    rw [Matrix.det_diagonal]
    exact Finset.prod_ne_zero_iff.2 fun i _ => (hσ i).ne'
  have hpos : (diagonal σ * M * diagonal σ).PosDef := by
    have h1 : (diagonal σ * M * diagonal σ).PosSemidef := by
      have := hM.posSemidef.mul_mul_conjTranspose_same (diagonal σ)
      rwa [Matrix.diagonal_conjTranspose, star_trivial] at this
    rw [h1.posDef_iff_det_ne_zero, Matrix.det_mul, Matrix.det_mul]
    exact mul_ne_zero (mul_ne_zero hd hM.det_pos.ne') hd
  refine ⟨by rw [e]; exact hpos, ?_⟩
  unfold gauss
  rw [ex, ey, e]
  simp only [Matrix.det_mul, Matrix.det_diagonal]
  have px : 0 < ∏ i, σ (Fin.castAdd dy i) := Finset.prod_pos fun i _ => hσ _
  have py : 0 < ∏ i, σ (Fin.natAdd dx i) := Finset.prod_pos fun i _ => hσ _
  have p0 : 0 < ∏ i, σ i := Finset.prod_pos fun i _ => hσ _
  have d0 := hM.det_pos
  have d1 := (blockX_posDef hM).det_pos
  have d2 := (blockY_posDef hM).det_pos
  have es := Fin.prod_univ_add σ
  have el := congrArg Real.log es
  rw [Real.log_mul px.ne' py.ne'] at el
  rw [Real.log_mul (by positivity) px.ne', Real.log_mul px.ne' d1.ne', Real.log_mul (by positivity) py.ne', Real.log_mul py.ne' d2.ne',
    Real.log_mul (by positivity) p0.ne', Real.log_mul p0.ne' d0.ne', el]
  ring

/-! ## Functions of pairs -/

/-- Functions of pairs of normal variables. -/
noncomputable def pairsLaw (dx dy k : ℕ) (ρ : ℝ) (f g : ℝ → ℝ) : Measure ((Fin dx → ℝ) × (Fin dy → ℝ)) :=
  ((normalLaw 0 (pairs dx dy k ρ)).map (halves dx dy)).map (Prod.map (fun x i => f (x i)) fun y i => g (y i))

/-- The function of a component. -/
def side (dx dy : ℕ) (f g : ℝ → ℝ) : Fin (dx + dy) → ℝ → ℝ := Fin.append (fun _ : Fin dx => f) fun _ : Fin dy => g

theorem measurable_halves : Measurable (halves dx dy) :=
  (measurable_pi_lambda _ fun _ => measurable_pi_apply _).prodMk (measurable_pi_lambda _ fun _ => measurable_pi_apply _)

theorem measurable_both (hf : Measurable f) (hg : Measurable g) :
    Measurable (Prod.map (fun (x : Fin dx → ℝ) i => f (x i)) fun (y : Fin dy → ℝ) i => g (y i)) :=
  (measurable_pi_lambda _ fun i => hf.comp (measurable_pi_apply i)).prodMap (measurable_pi_lambda _ fun i => hg.comp (measurable_pi_apply i))

theorem append_side (z : Fin (dx + dy) → ℝ) (i : Fin (dx + dy)) :
    Fin.append (fun j : Fin dx => f (z (Fin.castAdd dy j))) (fun j : Fin dy => g (z (Fin.natAdd dx j))) i = side dx dy f g i (z i) := by
  refine Fin.addCases (fun j => ?_) (fun j => ?_) i <;> simp [side]

theorem pairsLaw_eq (hf : Measurable f) (hg : Measurable g) (ρ : ℝ) : pairsLaw dx dy k ρ f g
    = (normalLaw 0 (pairs dx dy k ρ)).map fun z => (fun j => f (z (Fin.castAdd dy j)), fun j => g (z (Fin.natAdd dx j))) := by
  unfold pairsLaw
  rw [Measure.map_map (measurable_both hf hg) measurable_halves]
  rfl

theorem measurable_spread (hf : Measurable f) (hg : Measurable g) : Measurable fun z : Fin (dx + dy) → ℝ =>
    ((fun j => f (z (Fin.castAdd dy j)), fun j => g (z (Fin.natAdd dx j))) : (Fin dx → ℝ) × (Fin dy → ℝ)) :=
  (measurable_pi_lambda _ fun _ => hf.comp (measurable_pi_apply _)).prodMk (measurable_pi_lambda _ fun _ => hg.comp (measurable_pi_apply _))

theorem pairs_diag (ρ : ℝ) (p : Fin (dx + dy)) : pairs dx dy k ρ p p = 1 := by rw [pairs_apply, if_pos rfl]

theorem pairs_sq_le {ρ : ℝ} (hρ : ρ ^ 2 ≤ 1) (p q : Fin (dx + dy)) : pairs dx dy k ρ p q ^ 2 ≤ 1 := by
  rw [pairs_apply]
  split_ifs <;> norm_num [hρ]

/-- The standard deviations of the components. -/
noncomputable def devs (dx dy : ℕ) (f g : ℝ → ℝ) (i : Fin (dx + dy)) : ℝ := √Var[side dx dy f g i; γ]

theorem pairs_hasCov (hkx : k ≤ dx) {ρ : ℝ} (hρ : ρ ^ 2 < 1) (hf : Measurable f) (hf2 : MemLp f 2 γ) (hg : Measurable g) (hg2 : MemLp g 2 γ)
    (vf : 0 < Var[f; γ]) (vg : 0 < Var[g; γ]) :
    HasCov (pairsLaw dx dy k ρ f g) (Matrix.of fun p q => devs dx dy f g p * pairs dx dy k (ratio f g ρ) p q * devs dx dy f g q) := by
  have hS := (pairs_posDef (dx := dx) (dy := dy) hkx hρ).posSemidef
  have hm : ∀ i, Measurable (side dx dy f g i) := fun i => by
    refine Fin.addCases (fun j => ?_) (fun j => ?_) i <;> simpa [side]
  have hL : ∀ i, MemLp (side dx dy f g i) 2 γ := fun i => by
    refine Fin.addCases (fun j => ?_) (fun j => ?_) i <;> simpa [side]
  rw [pairsLaw_eq hf hg]
  refine ⟨fun i => ?_, fun i j => ?_⟩
  · rw [memLp_map_measure_iff (measurable_append i).aestronglyMeasurable (measurable_spread hf hg).aemeasurable]
    refine ((memLp_coord hS (pairs_diag ρ i) (hm i)).2 (hL i)).congr_norm ?_ ?_
    · exact ((measurable_append i).comp (measurable_spread hf hg)).aestronglyMeasurable
    · exact .of_forall fun z => by simp only [Function.comp_apply, append_side]
  · rw [covariance_map (measurable_append i).aestronglyMeasurable (measurable_append j).aestronglyMeasurable (measurable_spread hf hg).aemeasurable]
    have e : ∀ i : Fin (dx + dy), ((fun z : (Fin dx → ℝ) × (Fin dy → ℝ) => Fin.append z.1 z.2 i) ∘ fun z : Fin (dx + dy) → ℝ =>
        ((fun j => f (z (Fin.castAdd dy j)), fun j => g (z (Fin.natAdd dx j))) : (Fin dx → ℝ) × (Fin dy → ℝ)))
        = fun z => side dx dy f g i (z i) := fun i => by
      funext z
      exact append_side z i
    rw [e, e]
    have hsf := Real.sqrt_pos.2 vf
    have hsg := Real.sqrt_pos.2 vg
    have key : cross f g ρ = √Var[f; γ] * ratio f g ρ * √Var[g; γ] := by
      unfold ratio
      field_simp
    rw [Matrix.of_apply]
    by_cases hij : i = j
    · subst hij
      have hmi : Measurable fun z : Fin (dx + dy) → ℝ => side dx dy f g i (z i) := (hm i).comp (measurable_pi_apply i)
      rw [covariance_self hmi.aemeasurable, var_coord hS (pairs_diag ρ i) (hm i), pairs_diag, mul_one, devs,
        Real.mul_self_sqrt (variance_nonneg _ _)]
    · have c := pairs_isCanonical dx dy k hkx ρ
      have c' := pairs_isCanonical dx dy k hkx (ratio f g ρ)
      have hc := cov_coords (i := i) (j := j) hS (pairs_diag ρ i) (pairs_diag ρ j) (pairs_sq_le hρ.le i j) (hm i) (hm j)
      have hc2 := cov_coords (i := j) (j := i) hS (pairs_diag ρ j) (pairs_diag ρ i) (pairs_sq_le hρ.le j i) (hm j) (hm i)
      rw [covariance_comm] at hc2
      induction i using Fin.addCases with
      | left i =>
        induction j using Fin.addCases with
        | left j =>
          have hn : i ≠ j := fun h => hij (by rw [h])
          rw [hc, c.xx, c'.xx, if_neg hn, cross_zero (hm _) (hL _) (hm _) (hL _), mul_zero, zero_mul]
        | right j =>
          rw [hc, c.xy, c'.xy]
          split_ifs
          · simp only [devs, side, Fin.append_left, Fin.append_right]
            exact key
          · rw [cross_zero (hm _) (hL _) (hm _) (hL _), mul_zero, zero_mul]
          · rw [cross_zero (hm _) (hL _) (hm _) (hL _), mul_zero, zero_mul]
      | right i =>
        induction j using Fin.addCases with
        | left j =>
          rw [hc2, c.xy, c'.yx]
          split_ifs
          · simp only [devs, side, Fin.append_left, Fin.append_right]
            rw [key]
            ring
          · rw [cross_zero (hm _) (hL _) (hm _) (hL _), mul_zero, zero_mul]
          · rw [cross_zero (hm _) (hL _) (hm _) (hL _), mul_zero, zero_mul]
        | right j =>
          have hn : i ≠ j := fun h => hij (by rw [h])
          rw [hc, c.yy, c'.yy, if_neg hn, cross_zero (hm _) (hL _) (hm _) (hL _), mul_zero, zero_mul]

end BMI.Cca
