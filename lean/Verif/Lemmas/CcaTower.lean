import Verif.Lemmas.CcaBent

/-! Several transforms of single coordinates after each other. -/

namespace BMI.Cca

open MeasureTheory ProbabilityTheory Filter Topology BMI.Cca.Spec BMI.Kde BMI.Kde.Spec BMI.Gebelein BMI.Consistency BMI.Samplers BMI.Student
  BMI.Registry BMI.TaskIds BMI.MatrixUtils Matrix

variable {f g : ℝ → ℝ}

theorem cdf_eq_fun : (cdf (gaussianReal 0 1) : ℝ → ℝ) = Samplers.normalCdf := (funext normalCdf_eq_cdf).symm

/-- A bounded function of a function. -/
theorem curved_squash (hg : Continuous g) (hi : Function.Injective g) : Curved fun y => cdf (gaussianReal 0 1) (g y) := by
  rw [cdf_eq_fun]
  refine ⟨continuous_normalCdf.comp hg, ?_⟩
  by_contra hc
  push Not at hc
  have h := flat_of_bounded (g := fun y => Samplers.normalCdf (g y)) (fun y => cdf_abs (g y)) hc 1
  exact one_ne_zero (hi (normalCdf_strictMono.injective h))

theorem continuous_power {α : ℝ} (h0 : 0 < α) : Continuous fun v : ℝ => (SignType.sign v : ℝ) * |v| ^ α := by
  by_cases h1 : α = 1
  · have e : (fun v : ℝ => (SignType.sign v : ℝ) * |v| ^ α) = id := by
      funext v
      rw [h1, Real.rpow_one, sign_mul_abs]
      rfl
    rw [e]
    exact continuous_id
  · exact (curved_power h0 h1).1

theorem injective_power {α : ℝ} (h0 : 0 < α) : Function.Injective fun v : ℝ => (SignType.sign v : ℝ) * |v| ^ α := signedPow_injective h0

theorem injective_halfCube : Function.Injective fun v : ℝ => v * √|v| := by
  have e : (fun v : ℝ => v * √|v|) = signedPow 1.5 := funext fun v => halfCube_eq v
  rw [e]
  exact signedPow_injective (by norm_num)

theorem injective_wiggly :
    Function.Injective fun y : ℝ => y - 2 / 5 * Real.sin (2 / 5 * y) + 17 / 100 * Real.sin (13 / 10 * y + 7 / 2) + 1 / 50 * Real.sin (43 / 10 * y - 5 / 2) := by
  have e : (fun y : ℝ => y - 2 / 5 * Real.sin (2 / 5 * y) + 17 / 100 * Real.sin (13 / 10 * y + 7 / 2) + 1 / 50 * Real.sin (43 / 10 * y - 5 / 2)) = wigglyY := by
    funext y
    unfold wigglyY
    norm_num
  rw [e]
  exact wigglyY_strictMono.injective

theorem linkedTower_law {F : Type} (val : F → ℝ) (c : Call F) (ht : LinkedTower val c) (hc : Valid val c) :
    ∃ (dx dy k : ℕ) (ρ : ℝ) (f g : ℝ → ℝ), (0 < dx ∧ 0 < dy ∧ 0 < k ∧ k ≤ dx ∧ k ≤ dy ∧ ρ ≠ 0 ∧ ρ ^ 2 < 1) ∧ Measurable f ∧ Continuous g ∧
      Function.Injective g ∧ lawOf val c = each f g ⟨dx, dy, (normalLaw 0 (pairs dx dy k ρ)).map (halves dx dy)⟩ ∧
      numberOf val c = -(k / 2 * Real.log (1 - ρ ^ 2)) ∧ Coordinatewise c := by
  have step : ∀ {t c : Call F} {f' g' : ℝ → ℝ}, Measurable f' → Continuous g' → Function.Injective g' → lawOf val c = each f' g' (lawOf val t) →
      numberOf val c = numberOf val t → (Coordinatewise t → Coordinatewise c) →
      (∃ (dx dy k : ℕ) (ρ : ℝ) (f g : ℝ → ℝ), (0 < dx ∧ 0 < dy ∧ 0 < k ∧ k ≤ dx ∧ k ≤ dy ∧ ρ ≠ 0 ∧ ρ ^ 2 < 1) ∧ Measurable f ∧ Continuous g ∧
        Function.Injective g ∧ lawOf val t = each f g ⟨dx, dy, (normalLaw 0 (pairs dx dy k ρ)).map (halves dx dy)⟩ ∧
        numberOf val t = -(k / 2 * Real.log (1 - ρ ^ 2)) ∧ Coordinatewise t) →
      ∃ (dx dy k : ℕ) (ρ : ℝ) (f g : ℝ → ℝ), (0 < dx ∧ 0 < dy ∧ 0 < k ∧ k ≤ dx ∧ k ≤ dy ∧ ρ ≠ 0 ∧ ρ ^ 2 < 1) ∧ Measurable f ∧ Continuous g ∧
        Function.Injective g ∧ lawOf val c = each f g ⟨dx, dy, (normalLaw 0 (pairs dx dy k ρ)).map (halves dx dy)⟩ ∧
        numberOf val c = -(k / 2 * Real.log (1 - ρ ^ 2)) ∧ Coordinatewise c := by
    rintro t c f' g' hf' hg' hi e1 e2 e3 ⟨dx, dy, k, ρ, f, g, h1, h2, h3, h4, h5, h6, h7⟩
    exact ⟨dx, dy, k, ρ, _, _, h1, hf'.comp h2, hg'.comp h3, hi.comp h4, by rw [e1, h5, each_each _ h2 h3.measurable hf' hg'.measurable]; rfl,
      e2.trans h6, e3 h7⟩
  induction c with
  | binormal ρ =>
    obtain ⟨dx, dy, k, ρ, h1, h2, h3, h4, h5, h6, h7, h8, h9, h10⟩ := linked_law val (.binormal ρ) ht hc
    exact ⟨dx, dy, k, ρ, _, _, ⟨h1, h2, h3, h4, h5, h6, h7⟩, measurable_id, continuous_id, Function.injective_id, h8.trans (each_id _).symm, h9, h10⟩
  | sparse dx dy n s =>
    obtain ⟨dx, dy, k, ρ, h1, h2, h3, h4, h5, h6, h7, h8, h9, h10⟩ := linked_law val (.sparse dx dy n s) ht hc
    exact ⟨dx, dy, k, ρ, _, _, ⟨h1, h2, h3, h4, h5, h6, h7⟩, measurable_id, continuous_id, Function.injective_id, h8.trans (each_id _).symm, h9, h10⟩
  | asinh t ih => exact step curved_arsinh.1.measurable curved_arsinh.1 Real.arsinh_injective rfl rfl id (ih ht hc)
  | halfCube t ih => exact step curved_halfCube.1.measurable curved_halfCube.1 injective_halfCube rfl rfl id (ih ht hc)
  | normalCdf t ih =>
    exact step curved_cdf.1.measurable curved_cdf.1 (by rw [cdf_eq_fun]; exact normalCdf_strictMono.injective) rfl rfl id (ih ht hc)
  | wiggly t ih => exact step measurable_wiggly.1 curved_wiggly.1 injective_wiggly rfl rfl id (ih ht hc)
  | power t α ih => exact step (continuous_power hc.2).measurable (continuous_power hc.2) (injective_power hc.2) rfl rfl id (ih ht hc.1)
  | _ => exact ht.elim

theorem below_squashed {F : Type} (val : F → ℝ) (t : Call F) (ht : LinkedTower val t) (hc : Valid val t) :
    Below (lawOf val (.normalCdf t)) (numberOf val (.normalCdf t)) := by
  obtain ⟨dx, dy, k, ρ, f, g, ⟨h1, h2, h3, h4, h5, h6, h7⟩, mf, cg, ig, hl, hn, hw⟩ := linkedTower_law val t ht hc
  have mc := curved_cdf.1.measurable
  have e1 : lawOf val (.normalCdf t) = each (fun x => cdf (gaussianReal 0 1) (f x)) (fun y => cdf (gaussianReal 0 1) (g y))
      ⟨dx, dy, (normalLaw 0 (pairs dx dy k ρ)).map (halves dx dy)⟩ := by
    rw [← each_each _ mf cg.measurable mc mc, ← hl]
    rfl
  obtain ⟨-, -, -, -, -, -, -, -, -, -, -, -, -, -, -, h11, h12⟩ := tower_law val (.normalCdf t) hw hc
  have hs := task_sides val (.normalCdf t) hc h11
  rw [h12, e1] at hs
  have e2 : numberOf val (.normalCdf t) = numberOf val t := rfl
  rw [e2, hn, e1]
  exact below_pairs h1 h2 h3 h4 h5 h6 h7 (mc.comp mf) (curved_squash cg ig) ENNReal.ofNat_lt_top hs

theorem undo_halfCube (x : ℝ) : (SignType.sign (x * √|x|) : ℝ) * abs (x * √|x|) ^ (2 / 3 : ℝ) = x := by
  have e : x * √|x| = signedPow 1.5 x := halfCube_eq x
  rw [e, sign_signedPow, abs_signedPow (by norm_num), ← Real.rpow_mul (abs_nonneg x), show (1.5 : ℝ) * (2 / 3) = 1 by norm_num, Real.rpow_one,
    sign_mul_abs]

theorem undone_law {F : Type} (val : F → ℝ) (t : Call F) (α : F) (hα : val α = 2 / 3) : lawOf val (.power (.halfCube t) α) = lawOf val t := by
  have e : lawOf val (.power (.halfCube t) α) = each (fun v => (SignType.sign v : ℝ) * |v| ^ (2 / 3 : ℝ)) (fun v => (SignType.sign v : ℝ) * |v| ^ (2 / 3 : ℝ))
      (each (fun v => v * √|v|) (fun v => v * √|v|) (lawOf val t)) := by
    rw [← hα]
    rfl
  rw [e, each_each _ measurable_halfCube measurable_halfCube (measurable_power _) (measurable_power _)]
  simp only [undo_halfCube]
  exact each_id _

/-! ## The Swiss roll -/

/-- One bound for all functions of the other variable. -/
theorem uniform_lt {ρ : ℝ} (h0 : ρ ≠ 0) (hρ : ρ ^ 2 < 1) (hg : Curved g) (hg2 : MemLp g 2 γ) (vg : 0 < Var[g; γ]) :
    ∃ r : ℝ, r ^ 2 < ρ ^ 2 ∧ ∀ f : ℝ → ℝ, Measurable f → MemLp f 2 γ → cross f g ρ ^ 2 ≤ r ^ 2 * Var[f; γ] * Var[g; γ] := by
  obtain ⟨cg, x, y, hxy⟩ := hg
  have mg := cg.measurable
  have hp : 0 < ρ ^ 2 := by positivity
  have h1 := cross_lt hp.ne' (pow_lt_one₀ hp.le hρ two_ne_zero) mg hg2 vg cg hg2 hxy
  have h2 : cross g g (ρ ^ 2) < ρ ^ 2 * Var[g; γ] := by
    have : cross g g (ρ ^ 2) ^ 2 < (ρ ^ 2 * Var[g; γ]) ^ 2 := by linarith [mul_pow (ρ ^ 2) Var[g; γ] 2, sq Var[g; γ], mul_comm (ρ ^ 2) Var[g; γ]]
    exact lt_of_pow_lt_pow_left₀ 2 (by positivity) this
  have h3 := cross_sq_le hρ.le mg hg2 mg hg2
  have hq : 0 ≤ cross g g (ρ ^ 2) := by
    by_contra hn
    nlinarith [sq_nonneg (cross g g ρ), not_le.1 hn]
  have e : √(cross g g (ρ ^ 2) / Var[g; γ]) ^ 2 = cross g g (ρ ^ 2) / Var[g; γ] := Real.sq_sqrt (div_nonneg hq vg.le)
  refine ⟨√(cross g g (ρ ^ 2) / Var[g; γ]), ?_, fun f hf hf2 => ?_⟩
  · rw [e, div_lt_iff₀ vg]
    exact h2
  · rw [e, mul_assoc, mul_comm Var[f; γ], ← mul_assoc, div_mul_cancel₀ _ vg.ne', mul_comm]
    exact cross_sq_le hρ.le hf hf2 mg hg2

theorem below_swissroll {F : Type} (val : F → ℝ) (ρ : F) (h0 : val ρ ≠ 0) (h : val ρ ^ 2 < 1) :
    Below (lawOf val (.swissroll (.normalCdf (.binormal ρ)))) (numberOf val (.swissroll (.normalCdf (.binormal ρ)))) := by
  have mc := continuous_normalCdf.measurable
  have vc : 0 < Var[Samplers.normalCdf; γ] := by rw [var_cdf]; norm_num
  have cc := curved_cdf
  rw [cdf_eq_fun] at cc
  obtain ⟨r, h1, h2⟩ := uniform_lt h0 h cc memLp_cdf vc
  obtain ⟨S, s1, s2, s3⟩ := under_curve_of h (F := rollOver) (fun i => (continuous_rollOver i).measurable) memLp_rollOver mc memLp_cdf var_rollOver vc
    (h1.trans h) h2
  rw [swissroll_law]
  have en : numberOf val (.swissroll (.normalCdf (.binormal ρ))) = -(1 / 2 * Real.log (1 - val ρ ^ 2)) := by simp [numberOf]
  rw [en]
  refine ⟨S, s1, s2, lt_of_le_of_lt s3 ?_⟩
  have := Real.log_lt_log (x := 1 - val ρ ^ 2) (by linarith) (show 1 - val ρ ^ 2 < 1 - r ^ 2 by linarith)
  linarith

end BMI.Cca
