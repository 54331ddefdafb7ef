import Verif.Spec.CcaStrict
import Verif.Lemmas.CcaStrict
import Verif.Lemmas.RankCor

/-! The transforms of single coordinates are not affine. -/

namespace BMI.Cca

open MeasureTheory ProbabilityTheory Filter Topology BMI.Cca.Spec BMI.Kde BMI.Kde.Spec BMI.Gebelein BMI.Consistency BMI.Samplers BMI.Student
  BMI.Registry BMI.TaskIds BMI.MatrixUtils Matrix

variable {f g : ℝ → ℝ} {dx dy k : ℕ}

/-- Continuous and not affine. -/
def Curved (g : ℝ → ℝ) : Prop := Continuous g ∧ ∃ x y, g (x + y) + g 0 ≠ g x + g y

theorem flat_of_bounded {M : ℝ} (hM : ∀ x, |g x| ≤ M) (h : ∀ x y, g (x + y) + g 0 = g x + g y) (x : ℝ) : g x = g 0 := by
  have hn : ∀ n : ℕ, g (n * x) - g 0 = n * (g x - g 0) := fun n => by
    induction n with
    | zero => simp
    | succ n ih =>
      have := h (n * x) x
      push_cast
      rw [show ((n : ℝ) + 1) * x = n * x + x by ring]
      linarith
  by_contra hx
  have hp : 0 < |g x - g 0| := abs_pos.2 (sub_ne_zero.2 hx)
  obtain ⟨n, h1⟩ := exists_nat_gt (2 * M / |g x - g 0|)
  rw [div_lt_iff₀ hp] at h1
  have h2 : |g (n * x) - g 0| ≤ 2 * M := (abs_sub _ _).trans (by linarith [hM (n * x), hM 0])
  rw [hn, abs_mul, Nat.abs_cast] at h2
  linarith

theorem curved_arsinh : Curved Real.arsinh := by
  refine ⟨Real.continuous_arsinh, Real.sinh 1, Real.sinh 1, fun h => ?_⟩
  rw [Real.arsinh_zero, Real.arsinh_sinh] at h
  have h1 : Real.sinh 1 + Real.sinh 1 = Real.sinh (1 + 1) := by
    rw [← h, add_zero, Real.sinh_arsinh]
  rw [Real.sinh_add] at h1
  have h2 : 1 < Real.cosh 1 := Real.one_lt_cosh.2 one_ne_zero
  have h3 : 0 < Real.sinh 1 := Real.sinh_pos_iff.2 one_pos
  nlinarith

theorem curved_halfCube : Curved fun v : ℝ => v * √|v| := by
  refine ⟨by fun_prop, 1, 1, fun h => ?_⟩
  norm_num at h

theorem curved_cdf : Curved (cdf (gaussianReal 0 1)) := by
  rw [show (cdf (gaussianReal 0 1) : ℝ → ℝ) = Samplers.normalCdf from (funext normalCdf_eq_cdf).symm]
  refine ⟨continuous_normalCdf, ?_⟩
  by_contra hc
  push Not at hc
  exact (normalCdf_strictMono zero_lt_one).ne' (flat_of_bounded cdf_abs hc 1)

theorem curved_wiggly :
    Curved fun y : ℝ => y - 2 / 5 * Real.sin (2 / 5 * y) + 17 / 100 * Real.sin (13 / 10 * y + 7 / 2) + 1 / 50 * Real.sin (43 / 10 * y - 5 / 2) := by
  refine ⟨by fun_prop, ?_⟩
  by_contra hc
  push Not at hc
  let p : ℝ → ℝ := fun y => -(2 / 5 * Real.sin (2 / 5 * y)) + 17 / 100 * Real.sin (13 / 10 * y + 7 / 2) + 1 / 50 * Real.sin (43 / 10 * y - 5 / 2)
  have hb : ∀ y, |p y| ≤ 1 := fun y => by
    have a1 := Real.neg_one_le_sin (2 / 5 * y)
    have a2 := Real.sin_le_one (2 / 5 * y)
    have b1 := Real.neg_one_le_sin (13 / 10 * y + 7 / 2)
    have b2 := Real.sin_le_one (13 / 10 * y + 7 / 2)
    have c1 := Real.neg_one_le_sin (43 / 10 * y - 5 / 2)
    have c2 := Real.sin_le_one (43 / 10 * y - 5 / 2)
    rw [abs_le]
    constructor <;> simp only [p] <;> linarith
  have ha : ∀ x y, p (x + y) + p 0 = p x + p y := fun x y => by
    have := hc x y
    simp only [p]
    linarith
  have h1 := flat_of_bounded hb ha (5 / 4 * Real.pi)
  have h2 := flat_of_bounded hb ha (-(5 / 4 * Real.pi))
  have h3 := h1.trans h2.symm
  have e1 : Real.sin (2 / 5 * (5 / 4 * Real.pi)) = 1 := by rw [show 2 / 5 * (5 / 4 * Real.pi) = Real.pi / 2 by ring, Real.sin_pi_div_two]
  have e2 : Real.sin (2 / 5 * -(5 / 4 * Real.pi)) = -1 := by
    rw [show 2 / 5 * -(5 / 4 * Real.pi) = -(Real.pi / 2) by ring, Real.sin_neg, Real.sin_pi_div_two]
  simp only [p] at h3
  rw [e1, e2] at h3
  linarith [Real.sin_le_one (13 / 10 * (5 / 4 * Real.pi) + 7 / 2), Real.sin_le_one (43 / 10 * (5 / 4 * Real.pi) - 5 / 2),
    Real.neg_one_le_sin (13 / 10 * -(5 / 4 * Real.pi) + 7 / 2), Real.neg_one_le_sin (43 / 10 * -(5 / 4 * Real.pi) - 5 / 2)]

theorem curved_power {α : ℝ} (h0 : 0 < α) (h1 : α ≠ 1) : Curved fun v : ℝ => (SignType.sign v : ℝ) * |v| ^ α := by
  constructor
  · have e : (fun v : ℝ => (SignType.sign v : ℝ) * |v| ^ α) = fun v => max v 0 ^ α - max (-v) 0 ^ α := by
      funext v
      rcases lt_trichotomy v 0 with h | h | h
      · rw [sign_neg h, abs_of_neg h, max_eq_right h.le, max_eq_left (by linarith), Real.zero_rpow h0.ne']
        simp
      · simp [h]
      · rw [sign_pos h, abs_of_pos h, max_eq_left h.le, max_eq_right (by linarith), Real.zero_rpow h0.ne']
        simp
    rw [e]
    exact ((continuous_id.max continuous_const).rpow_const fun _ => .inr h0.le).sub
      ((continuous_neg.max continuous_const).rpow_const fun _ => .inr h0.le)
  · refine ⟨1, 1, fun h => h1 ?_⟩
    norm_num at h
    have h2 : (2 : ℝ) ^ α = 2 ^ (1 : ℝ) := by rw [h, Real.rpow_one]
    exact (Real.strictMono_rpow_of_base_gt_one (by norm_num : (1 : ℝ) < 2)).injective h2

/-- The covariance tells of less than there is. -/
def Below (p : Part) (m : ℝ) : Prop := ∃ S, HasCov p.law S ∧ S.PosDef ∧ gauss S < m

theorem below_pairs (hx : 0 < dx) (hy : 0 < dy) (hk : 0 < k) (hkx : k ≤ dx) (hky : k ≤ dy) {ρ : ℝ} (h0 : ρ ≠ 0) (hρ : ρ ^ 2 < 1) (hf : Measurable f)
    (hg : Curved g) {r : ENNReal} (hr : 2 < r) (h : Sides r ⟨dx, dy, pairsLaw dx dy k ρ f g⟩) :
    Below ⟨dx, dy, pairsLaw dx dy k ρ f g⟩ (-(k / 2 * Real.log (1 - ρ ^ 2))) := by
  obtain ⟨cg, x, y, hxy⟩ := hg
  have mg := cg.measurable
  have hS := (pairs_posDef (dx := dx) (dy := dy) hkx hρ).posSemidef
  haveI := normalLaw_prob (0 : Fin (dx + dy) → ℝ) (pairs dx dy k ρ)
  have h' := h
  rw [pairsLaw_eq hf mg] at h'
  have a := sides_coord hf mg hr h' (Fin.castAdd dy ⟨0, hx⟩)
  have b := sides_coord hf mg hr h' (Fin.natAdd dx ⟨0, hy⟩)
  have s1 : side dx dy f g (Fin.castAdd dy ⟨0, hx⟩) = f := Fin.append_left _ _ _
  have s2 : side dx dy f g (Fin.natAdd dx ⟨0, hy⟩) = g := Fin.append_right _ _ _
  rw [s1, memLp_coord hS (pairs_diag ρ _) hf, var_coord hS (pairs_diag ρ _) hf] at a
  rw [s2, memLp_coord hS (pairs_diag ρ _) mg, var_coord hS (pairs_diag ρ _) mg] at b
  have hle : ratio f g ρ ^ 2 < ρ ^ 2 := by
    have hc := cross_lt h0 hρ hf a.1 a.2 cg b.1 hxy
    rw [ratio, div_pow, mul_pow, Real.sq_sqrt a.2.le, Real.sq_sqrt b.2.le, div_lt_iff₀ (mul_pos a.2 b.2)]
    exact hc
  have hlt := hle.trans hρ
  have hσ : ∀ i, 0 < devs dx dy f g i := fun i => by
    refine Fin.addCases (fun j => ?_) (fun j => ?_) i
    · simpa [devs, side] using a.2
    · simpa [devs, side] using b.2
  obtain ⟨g1, g2⟩ := gauss_scaled (pairs_posDef (dx := dx) (dy := dy) hkx hlt) hσ
  refine ⟨_, pairs_hasCov hkx hρ hf a.1 mg b.1 a.2 b.2, g1, ?_⟩
  rw [g2]
  unfold gauss
  rw [pairs_number hkx hky hlt]
  have hl := Real.log_lt_log (x := 1 - ρ ^ 2) (by linarith) (show 1 - ρ ^ 2 < 1 - ratio f g ρ ^ 2 by linarith)
  have hk' : (0 : ℝ) < k / 2 := by positivity
  nlinarith

theorem linked_law {F : Type} (val : F → ℝ) (t : Call F) (ht : Linked val t) (hc : Valid val t) :
    ∃ (dx dy k : ℕ) (ρ : ℝ), 0 < dx ∧ 0 < dy ∧ 0 < k ∧ k ≤ dx ∧ k ≤ dy ∧ ρ ≠ 0 ∧ ρ ^ 2 < 1 ∧
      lawOf val t = ⟨dx, dy, (normalLaw 0 (pairs dx dy k ρ)).map (halves dx dy)⟩ ∧ numberOf val t = -(k / 2 * Real.log (1 - ρ ^ 2)) ∧ Coordinatewise t := by
  cases t with
  | binormal ρ =>
    refine ⟨1, 1, 1, val ρ, one_pos, one_pos, one_pos, le_rfl, le_rfl, ht, by nlinarith [hc.1, hc.2], ?_, ?_, trivial⟩
    · unfold lawOf
      have e : (!![1, val ρ; val ρ, 1] : Matrix (Fin 2) (Fin 2) ℝ) = pairs 1 1 1 (val ρ) := by
        ext i j
        fin_cases i <;> fin_cases j <;> simp [pairs]
      rw [e]
      congr 2
      funext z
      refine Prod.ext (funext fun i => ?_) (funext fun i => ?_) <;> (rw [Subsingleton.elim i 0]; rfl)
    · simp [numberOf]
  | sparse dx dy n s =>
    obtain ⟨h1, h2, h3, h4⟩ := hc
    obtain ⟨h5, h6⟩ := ht
    exact ⟨dx, dy, n, _, h1, h2, h5, h3, h4, by positivity, strength_lt (val s), rfl, rfl, trivial⟩
  | _ => exact ht.elim

theorem below_bent {F : Type} (val : F → ℝ) (c : Call F) (ht : Bent val c) (hc : Valid val c) : Below (lawOf val c) (numberOf val c) := by
  have step : ∀ {t : Call F} {f g : ℝ → ℝ}, Linked val t → Valid val t → Measurable f → Curved g → lawOf val c = each f g (lawOf val t) →
      numberOf val c = numberOf val t → (Coordinatewise t → Coordinatewise c) → Below (lawOf val c) (numberOf val c) := by
    intro t f g hl hv hf hg e1 e2 e3
    obtain ⟨dx, dy, k, ρ, h1, h2, h3, h4, h5, h6, h7, h8, h9, h10⟩ := linked_law val t hl hv
    obtain ⟨-, -, -, -, -, -, -, -, -, -, -, -, -, -, -, h11, h12⟩ := tower_law val c (e3 h10) hc
    have hs := task_sides val c hc h11
    rw [h12, e1, h8] at hs
    rw [e2, h9, e1, h8]
    exact below_pairs h1 h2 h3 h4 h5 h6 h7 hf hg ENNReal.ofNat_lt_top hs
  cases c with
  | asinh t => exact step ht hc curved_arsinh.1.measurable curved_arsinh rfl rfl id
  | halfCube t => exact step ht hc curved_halfCube.1.measurable curved_halfCube rfl rfl id
  | normalCdf t => exact step ht hc curved_cdf.1.measurable curved_cdf rfl rfl id
  | wiggly t => exact step ht hc measurable_wiggly.1 curved_wiggly rfl rfl id
  | power t α =>
    have hp := curved_power hc.2 ht.2
    exact step ht.1 hc.1 hp.1.measurable hp rfl rfl id
  | _ => exact ht.elim

end BMI.Cca
