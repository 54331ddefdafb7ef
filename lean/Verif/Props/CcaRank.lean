import Verif.Lemmas.RankCor
import Verif.Props.CcaTasks

/-! C111: CCA on normal variables mapped to the unit interval finds the correlation of ranks, which is less than there is. -/

namespace BMI.Cca

open MeasureTheory ProbabilityTheory Filter Topology BMI.Cca.Spec BMI.Kde BMI.Kde.Spec BMI.Gebelein BMI.Consistency BMI.Samplers BMI.Student
  BMI.Registry BMI.TaskIds BMI.MatrixUtils BMI.Search Matrix

variable {Key State : Type} [MeasurableSpace Key] [MeasurableSpace State] {R : JaxRandom Key} {κ : Measure Key}
  {N : NpRandom State} {μ : Measure State} {dx dy k : ℕ}

theorem rank_cov (hkx : k ≤ dx) (hky : k ≤ dy) {ρ : ℝ} (hρ : ρ ^ 2 < 1) :
    ∃ S, HasCov (pairsLaw dx dy k ρ (cdf (gaussianReal 0 1)) (cdf (gaussianReal 0 1))) S ∧ S.PosDef ∧
      gauss S = -(k / 2 * Real.log (1 - (6 / Real.pi * Real.arcsin (ρ / 2)) ^ 2)) := by
  have ec : (cdf (gaussianReal 0 1) : ℝ → ℝ) = Samplers.normalCdf := funext fun x => (normalCdf_eq_cdf x).symm
  have mc := continuous_normalCdf.measurable
  have hv : 0 < Var[Samplers.normalCdf; γ] := by rw [var_cdf]; norm_num
  have hle := ratio_sq_le hρ.le mc memLp_cdf mc memLp_cdf hv hv
  have hlt := lt_of_le_of_lt hle hρ
  have hσ : ∀ i, 0 < devs dx dy Samplers.normalCdf Samplers.normalCdf i := fun i => by
    refine Fin.addCases (fun j => ?_) (fun j => ?_) i <;> simpa [devs, side] using hv
  obtain ⟨g1, g2⟩ := gauss_scaled (pairs_posDef (dx := dx) (dy := dy) hkx hlt) hσ
  rw [ec]
  refine ⟨_, pairs_hasCov hkx hρ mc memLp_cdf mc memLp_cdf hv hv, g1, ?_⟩
  rw [g2]
  unfold gauss
  rw [pairs_number hkx hky hlt, ratio_cdf hρ]

theorem rank_number_lt (hk : 0 < k) {ρ : ℝ} (h0 : ρ ≠ 0) (hρ : ρ ^ 2 < 1) :
    -((k : ℝ) / 2 * Real.log (1 - (6 / Real.pi * Real.arcsin (ρ / 2)) ^ 2)) < -(k / 2 * Real.log (1 - ρ ^ 2)) := by
  have h := Real.log_lt_log (x := 1 - ρ ^ 2) (by linarith) (show 1 - ρ ^ 2 < 1 - (6 / Real.pi * Real.arcsin (ρ / 2)) ^ 2 by linarith [rank_lt h0 hρ])
  have hk : (0 : ℝ) < k / 2 := by positivity
  nlinarith

/-- **C111** A pair of normal variables mapped to the unit interval. -/
theorem cca_rank {F : Type} (hR : IdealRandom R κ) (hN : IdealStudent N μ) (val : F → ℝ) (other : Call F → Except Err (Built Key State))
    (ρ : F) (h1 : -1 < val ρ) (h2 : val ρ < 1) :
    ∃ b, build R N val other (.normalCdf (.binormal ρ)) = .ok b ∧ b.mi = -(1 / 2 * Real.log (1 - val ρ ^ 2)) ∧
      (∀ (fit : (n : ℕ) → Fit n 1 1) (scale : Bool), CanonicalFit fit scale →
        Finds κ μ (ccaGives fit scale) (-(1 / 2 * Real.log (1 - (6 / Real.pi * Real.arcsin (val ρ / 2)) ^ 2))) b) ∧
      (val ρ ≠ 0 → -(1 / 2 * Real.log (1 - (6 / Real.pi * Real.arcsin (val ρ / 2)) ^ 2)) < b.mi) := by
  have hρ : val ρ ^ 2 < 1 := by nlinarith
  obtain ⟨b, a1, a2, a3⟩ := build_honest hR hN val other (.normalCdf (.binormal ρ)) ⟨h1, h2⟩
  have a4 : b.mi = -(1 / 2 * Real.log (1 - val ρ ^ 2)) := by rw [a2]; simp [numberOf]
  obtain ⟨S, s1, s2, s3⟩ := rank_cov (dx := 1) (dy := 1) (k := 1) le_rfl le_rfl hρ
  rw [Nat.cast_one] at s3
  have e : lawOf val (.normalCdf (.binormal ρ)) = ⟨1, 1, pairsLaw 1 1 1 (val ρ) (cdf (gaussianReal 0 1)) (cdf (gaussianReal 0 1))⟩ := by
    have e : (!![1, val ρ; val ρ, 1] : Matrix (Fin 2) (Fin 2) ℝ) = pairs 1 1 1 (val ρ) := by
      ext i j
      fin_cases i <;> fin_cases j <;> simp [pairs]
    unfold lawOf lawOf each pairsLaw
    rw [e]
    have h : (fun z : Fin (1 + 1) → ℝ => ((fun _ => z 0, fun _ => z 1) : (Fin 1 → ℝ) × (Fin 1 → ℝ))) = halves 1 1 := by
      funext z
      refine Prod.ext (funext fun i => ?_) (funext fun i => ?_) <;> (rw [Subsingleton.elim i 0]; rfl)
    rw [← h]
  rw [e] at a3
  refine ⟨b, a1, a4, fun fit scale hfit => ?_, fun h0 => ?_⟩
  · rw [← s3]
    exact task_cca a3 s1 s2 hfit
  · have := rank_number_lt (k := 1) one_pos h0 hρ
    rw [Nat.cast_one] at this
    rw [a4]
    exact this

/-- **C111** Several pairs of normal variables mapped to the unit interval. -/
theorem cca_ranks {F : Type} (hR : IdealRandom R κ) (hN : IdealStudent N μ) (val : F → ℝ) (other : Call F → Except Err (Built Key State))
    (s : F) (hx : 0 < dx) (hy : 0 < dy) (hkx : k ≤ dx) (hky : k ≤ dy) :
    ∃ b, build R N val other (.normalCdf (.sparse dx dy k s)) = .ok b ∧
      b.mi = -(k / 2 * Real.log (1 - (val s ^ 2 / (1 + val s ^ 2)) ^ 2)) ∧
      (∀ (fit : (n : ℕ) → Fit n dx dy) (scale : Bool), CanonicalFit fit scale →
        Finds κ μ (ccaGives fit scale) (-(k / 2 * Real.log (1 - (6 / Real.pi * Real.arcsin (val s ^ 2 / (1 + val s ^ 2) / 2)) ^ 2))) b) ∧
      (0 < k → val s ≠ 0 → -(k / 2 * Real.log (1 - (6 / Real.pi * Real.arcsin (val s ^ 2 / (1 + val s ^ 2) / 2)) ^ 2)) < b.mi) := by
  have hρ := strength_lt (val s)
  obtain ⟨b, a1, a2, a3⟩ := build_honest hR hN val other (.normalCdf (.sparse dx dy k s)) ⟨hx, hy, hkx, hky⟩
  obtain ⟨S, s1, s2, s3⟩ := rank_cov (dx := dx) (dy := dy) hkx hky hρ
  refine ⟨b, a1, a2, fun fit scale hfit => ?_, fun hk h0 => ?_⟩
  · rw [← s3]
    exact task_cca a3 s1 s2 hfit
  · have h : val s ^ 2 / (1 + val s ^ 2) ≠ 0 := by positivity
    have := rank_number_lt hk h hρ
    rw [a2]
    exact this

/-! ## The assumptions can be met -/

/-- A pair with correlation 0.75. -/
example : ∃ (fit : (n : ℕ) → Fit n 1 1) (b : _), build tree table (fun x : ℝ => x) (fun _ => .error .valueError)
      (.normalCdf (.binormal 0.75)) = .ok b ∧
      Finds treeLaw tableLaw (ccaGives fit true) (-(1 / 2 * Real.log (1 - (6 / Real.pi * Real.arcsin (0.75 / 2)) ^ 2))) b ∧
      -(1 / 2 * Real.log (1 - (6 / Real.pi * Real.arcsin (0.75 / 2)) ^ 2)) < b.mi := by
  obtain ⟨fit, hfit⟩ := exists_canonicalFit 1 1 true
  obtain ⟨b, h1, -, h2, h3⟩ := cca_rank tree_ideal table_ideal (fun x : ℝ => x) (fun _ => .error .valueError) 0.75 (by norm_num) (by norm_num)
  exact ⟨fit, b, h1, h2 fit true hfit, h3 (by norm_num)⟩

/-- Two pairs among three and five variables. -/
example : ∃ (fit : (n : ℕ) → Fit n 3 5) (b : _), build tree table (fun x : ℝ => x) (fun _ => .error .valueError)
      (.normalCdf (.sparse 3 5 2 1)) = .ok b ∧
      Finds treeLaw tableLaw (ccaGives fit false) (-((2 : ℕ) / 2 * Real.log (1 - (6 / Real.pi * Real.arcsin ((1 : ℝ) ^ 2 / (1 + 1 ^ 2) / 2)) ^ 2))) b ∧
      -((2 : ℕ) / 2 * Real.log (1 - (6 / Real.pi * Real.arcsin ((1 : ℝ) ^ 2 / (1 + 1 ^ 2) / 2)) ^ 2)) < b.mi := by
  obtain ⟨fit, hfit⟩ := exists_canonicalFit 3 5 false
  obtain ⟨b, h1, -, h2, h3⟩ := cca_ranks tree_ideal table_ideal (fun x : ℝ => x) (fun _ => .error .valueError) 1 (dx := 3) (dy := 5) (k := 2)
    (by norm_num) (by norm_num) (by norm_num) (by norm_num)
  exact ⟨fit, b, h1, h2 fit false hfit, h3 (by norm_num) (by norm_num)⟩

end BMI.Cca
