import Verif.Lemmas.TestFunctions
import Verif.Props.Fitting
import Mathlib.Analysis.Complex.ExponentialBounds
import Mathlib.Analysis.Real.Pi.Bounds

/-! Functions telling dependent from independent variables, for the mixtures of the figures. -/

namespace BMI.Chernoff

open MeasureTheory ProbabilityTheory BMI.Samplers BMI.Bmm BMI.MixtureTasks BMI.Student BMI.Fitting

/-- The cosine of a sum under the product of the marginals. -/
theorem apart_cos {X Y : Type} [MeasurableSpace X] [MeasurableSpace Y] (P : Measure (X × Y)) [IsProbabilityMeasure P] {a : X → ℝ} {b : Y → ℝ}
    (ha : Measurable a) (hb : Measurable b) :
    ∫ z, Real.cos (a z.1 + b z.2) ∂(P.fst.prod P.snd) =
      (∫ z, Real.cos (a z.1) ∂P) * (∫ z, Real.cos (b z.2) ∂P) - (∫ z, Real.sin (a z.1) ∂P) * ∫ z, Real.sin (b z.2) ∂P := by
  have hac : Measurable fun x => Real.cos (a x) := Real.measurable_cos.comp ha
  have has : Measurable fun x => Real.sin (a x) := Real.measurable_sin.comp ha
  have hbc : Measurable fun x => Real.cos (b x) := Real.measurable_cos.comp hb
  have hbs : Measurable fun x => Real.sin (b x) := Real.measurable_sin.comp hb
  rw [← integral_apart P hac hbc, ← integral_apart P has hbs]
  have i1 : Integrable (fun z : X × Y => Real.cos (a z.1) * Real.cos (b z.2)) (P.fst.prod P.snd) :=
    (integrable_const (1 : ℝ)).mono' ((hac.comp measurable_fst).mul (hbc.comp measurable_snd)).aestronglyMeasurable
      (Filter.Eventually.of_forall fun z => by
        rw [Real.norm_eq_abs, abs_mul]
        exact mul_le_one₀ (Real.abs_cos_le_one _) (abs_nonneg _) (Real.abs_cos_le_one _))
  have i2 : Integrable (fun z : X × Y => Real.sin (a z.1) * Real.sin (b z.2)) (P.fst.prod P.snd) :=
    (integrable_const (1 : ℝ)).mono' ((has.comp measurable_fst).mul (hbs.comp measurable_snd)).aestronglyMeasurable
      (Filter.Eventually.of_forall fun z => by
        rw [Real.norm_eq_abs, abs_mul]
        exact mul_le_one₀ (Real.abs_sin_le_one _) (abs_nonneg _) (Real.abs_sin_le_one _))
  rw [← integral_sub i1 i2]
  refine integral_congr_ae (Filter.Eventually.of_forall fun z => ?_)
  exact Real.cos_add _ _

theorem mixture_prob {m dx dy : ℕ} (p : Fin m → ℝ) (h0 : ∀ j, 0 ≤ p j) (h1 : ∑ j, p j = 1) (mean : Fin m → Fin (dx + dy) → ℝ)
    (cov : Fin m → Matrix (Fin (dx + dy)) (Fin (dx + dy)) ℝ) :
    IsProbabilityMeasure (mixtureLaw p fun j => component dx dy (mean j) (cov j)) := by
  have hm : Measurable (halves dx dy) := by
    unfold halves
    fun_prop
  have hP : ∀ j, IsProbabilityMeasure (component dx dy (mean j) (cov j)) := fun j => by
    have hP := normal_prob (mean j) (cov j)
    exact Measure.isProbabilityMeasure_map hm.aemeasurable
  exact mixtureLaw_prob h0 (by rw [List.sum_ofFn, h1]) _

/-- A function telling dependent from independent variables: its values are between -1 and 1, its means differ by `d`. -/
def Tells {X Y : Type} [MeasurableSpace X] [MeasurableSpace Y] (P : Measure (X × Y)) (d : ℝ) : Prop :=
  ∃ f : X × Y → ℝ, Measurable f ∧ (∀ z, |f z| ≤ 1) ∧ d ≤ |∫ z, f z ∂P - ∫ z, f z ∂(P.fst.prod P.snd)|

theorem tells_of {m dx dy : ℕ} (p : Fin m → ℝ) (h0 : ∀ j, 0 ≤ p j) (h1 : ∑ j, p j = 1) (mean : Fin m → Fin (dx + dy) → ℝ)
    (cov : Fin m → Matrix (Fin (dx + dy)) (Fin (dx + dy)) ℝ) (h : ∀ j, (cov j).PosDef) (u v : Fin (dx + dy) → ℝ)
    (hu : ∀ i, u (Fin.natAdd dx i) = 0) (hv : ∀ i, v (Fin.castAdd dy i) = 0) {d : ℝ}
    (hd : d ≤ |∑ j, p j * (Real.cos ((u + v) ⬝ᵥ mean j) * Real.exp (-((u + v) ⬝ᵥ (cov j).mulVec (u + v) / 2)))
      - ((∑ j, p j * (Real.cos (u ⬝ᵥ mean j) * Real.exp (-(u ⬝ᵥ (cov j).mulVec u / 2))))
          * (∑ j, p j * (Real.cos (v ⬝ᵥ mean j) * Real.exp (-(v ⬝ᵥ (cov j).mulVec v / 2))))
        - (∑ j, p j * (Real.sin (u ⬝ᵥ mean j) * Real.exp (-(u ⬝ᵥ (cov j).mulVec u / 2))))
          * (∑ j, p j * (Real.sin (v ⬝ᵥ mean j) * Real.exp (-(v ⬝ᵥ (cov j).mulVec v / 2)))))|) :
    Tells (mixtureLaw p fun j => component dx dy (mean j) (cov j)) d := by
  haveI := mixture_prob p h0 h1 mean cov
  refine ⟨fun z => Real.cos (lin (u + v) z), Real.measurable_cos.comp (measurable_lin _), fun z => Real.abs_cos_le_one _, ?_⟩
  rw [← (mixture_trig p h0 mean cov h (u + v)).1, ← (mixture_trig p h0 mean cov h u).1, ← (mixture_trig p h0 mean cov h v).1,
    ← (mixture_trig p h0 mean cov h u).2, ← (mixture_trig p h0 mean cov h v).2] at hd
  have e1 : ∀ z : (Fin dx → ℝ) × (Fin dy → ℝ), lin u z = ∑ i, u (Fin.castAdd dy i) * z.1 i := fun z => by simp [lin, hu]
  have e2 : ∀ z : (Fin dx → ℝ) × (Fin dy → ℝ), lin v z = ∑ i, v (Fin.natAdd dx i) * z.2 i := fun z => by simp [lin, hv]
  have e3 : ∀ z : (Fin dx → ℝ) × (Fin dy → ℝ), lin (u + v) z = (∑ i, u (Fin.castAdd dy i) * z.1 i) + ∑ i, v (Fin.natAdd dx i) * z.2 i := fun z => by
    simp [lin, hu, hv]
  have := apart_cos (mixtureLaw p fun j => component dx dy (mean j) (cov j)) (a := fun x => ∑ i, u (Fin.castAdd dy i) * x i)
    (b := fun y => ∑ i, v (Fin.natAdd dx i) * y i) (by fun_prop) (by fun_prop)
  simp only [e1, e2, e3] at hd ⊢
  rw [this]
  exact hd

theorem exp_tenth : (9 / 10 : ℝ) ≤ Real.exp (-(1 / 10)) := by
  have := Real.add_one_le_exp (-(1 / 10) : ℝ)
  linarith

theorem exp_minus_one : Real.exp (-1) ≤ 37 / 100 := by
  have := Real.exp_neg_one_lt_d9
  linarith

/-- The X-shaped distribution, at any scale. -/
theorem tells_cross (s : ℝ) (hs : 0 < s) :
    Tells (mixtureLaw ![1 / 2, 1 / 2] fun j : Fin 2 => component 1 1 0 (s • !![1, ![-(9 / 10), 9 / 10] j; ![-(9 / 10), 9 / 10] j, 1])) (8 / 100) := by
  refine tells_of ![1 / 2, 1 / 2] halves_nonneg halves_sum (fun _ => 0) _ (fun j => (cross_posDef j).smul hs)
    ![1 / √s, 0] ![0, 1 / √s] (fun i => by fin_cases i; rfl) (fun i => by fin_cases i; rfl) ?_
  have h2 : 1 / √s * (s * (1 / √s)) = 1 := by
    have h3 : √s * √s = s := Real.mul_self_sqrt hs.le
    have h4 : √s ≠ 0 := (Real.sqrt_pos.2 hs).ne'
    field_simp
    nlinarith
  generalize 1 / √s = t at h2 ⊢
  have e1 : ∀ j : Fin 2, (![t, 0] + ![0, t]) ⬝ᵥ (s • !![1, ![-(9 / 10), 9 / 10] j; ![-(9 / 10), 9 / 10] j, 1] : Matrix (Fin 2) (Fin 2) ℝ).mulVec
      (![t, 0] + ![0, t]) = 2 + 2 * ![-(9 / 10), 9 / 10] j := fun j => by
    simp only [Matrix.mulVec, dotProduct, Fin.sum_univ_two, Matrix.smul_apply, smul_eq_mul]
    simp
    linear_combination (2 + 2 * ![-(9 / 10), 9 / 10] j) * h2
  have e2 : ∀ j : Fin 2, ![t, 0] ⬝ᵥ (s • !![1, ![-(9 / 10), 9 / 10] j; ![-(9 / 10), 9 / 10] j, 1] : Matrix (Fin 2) (Fin 2) ℝ).mulVec
      ![t, 0] = 1 := fun j => by
    simp only [Matrix.mulVec, dotProduct, Fin.sum_univ_two, Matrix.smul_apply, smul_eq_mul]
    simp
    linear_combination h2
  have e3 : ∀ j : Fin 2, ![0, t] ⬝ᵥ (s • !![1, ![-(9 / 10), 9 / 10] j; ![-(9 / 10), 9 / 10] j, 1] : Matrix (Fin 2) (Fin 2) ℝ).mulVec
      ![0, t] = 1 := fun j => by
    simp only [Matrix.mulVec, dotProduct, Fin.sum_univ_two, Matrix.smul_apply, smul_eq_mul]
    simp
    linear_combination h2
  simp only [e1, e2, e3, dotProduct_zero, Real.cos_zero, Real.sin_zero, Fin.sum_univ_two, zero_mul, mul_zero, add_zero, sub_zero, one_mul]
  have h4 := exp_tenth
  have h5 := exp_minus_one
  have h6 : Real.exp (-(1 / 2)) * Real.exp (-(1 / 2)) = Real.exp (-1) := by
    rw [← Real.exp_add]
    norm_num
  have h7 := Real.exp_pos (-((2 + 2 * (9 / 10)) / 2) : ℝ)
  refine le_trans ?_ (le_abs_self _)
  have e : (-((2 + 2 * (-(9 / 10))) / 2) : ℝ) = -(1 / 10) := by norm_num
  simp only [Matrix.cons_val_zero, Matrix.cons_val_one, e]
  nlinarith

theorem dot_three (u v : Fin (2 + 1) → ℝ) : u ⬝ᵥ v = u 0 * v 0 + u 1 * v 1 + u 2 * v 2 := Fin.sum_univ_three _

theorem exp_balls : (2 / 10 : ℝ) ≤ Real.exp (-(Real.pi ^ 2 / 9)) := by
  have hp : Real.pi ^ 2 / 9 ≤ 11 / 10 := by nlinarith [Real.pi_lt_d4, Real.pi_pos]
  have h1 : Real.exp (-1 + -(1 / 10)) ≤ Real.exp (-(Real.pi ^ 2 / 9)) := Real.exp_le_exp.2 (by linarith)
  rw [Real.exp_add] at h1
  have h2 := exp_tenth
  have h3 := Real.exp_neg_one_gt_d9
  nlinarith

/-- The two balls. -/
theorem tells_balls : Tells (lawBalls 3) (2 / 10) := by
  refine tells_of ![1 / 2, 1 / 2] halves_nonneg halves_sum _ (fun _ => 1) (fun _ => Matrix.PosDef.one)
    ![Real.pi / 3, 0, 0] ![0, 0, -(Real.pi / 3)] (fun i => by fin_cases i; rfl) (fun i => by fin_cases i <;> rfl) ?_
  have a1 : (Real.pi / 3 * (3 / 2) : ℝ) = Real.pi / 2 := by ring
  have a2 : (Real.pi / 3 * -(3 / 2) : ℝ) = -(Real.pi / 2) := by ring
  have a3 : (-(Real.pi / 3) * (3 / 2) : ℝ) = -(Real.pi / 2) := by ring
  have a4 : (-(Real.pi / 3) * -(3 / 2) : ℝ) = Real.pi / 2 := by ring
  have a5 : -((Real.pi / 3 * (Real.pi / 3) + - -(Real.pi / 3 * (Real.pi / 3))) / 2) = -(Real.pi ^ 2 / 9) := by ring
  simp only [Matrix.one_mulVec, dot_three, Fin.sum_univ_two, Matrix.cons_val_zero, Matrix.cons_val_one, Matrix.cons_val, Pi.add_apply,
    a1, a2, a3, a4, a5, zero_mul, add_zero, zero_add, Real.cos_pi_div_two, Real.cos_neg, Real.sin_neg, mul_zero, sub_zero, add_neg_cancel, neg_add_cancel,
    Real.cos_zero, one_mul, Real.sin_pi_div_two, neg_mul, mul_neg]
  refine le_trans ?_ (le_abs_self _)
  linarith [exp_balls]

theorem quarter_cos (j : ℕ) : Real.cos (Real.pi / 2 * ((j + 4 : ℕ) : ℝ)) = Real.cos (Real.pi / 2 * j) := by
  rw [← Real.cos_add_two_pi (Real.pi / 2 * j)]
  congr 1
  push_cast
  ring

theorem quarter_sin (j : ℕ) : Real.sin (Real.pi / 2 * ((j + 4 : ℕ) : ℝ)) = Real.sin (Real.pi / 2 * j) := by
  rw [← Real.sin_add_two_pi (Real.pi / 2 * j)]
  congr 1
  push_cast
  ring

theorem period_sum (c : ℕ → ℝ) (h : ∀ j, c (j + 4) = c j) (h0 : c 0 + c 1 + c 2 + c 3 = 0) (k : ℕ) : ∑ j ∈ Finset.range (4 * k), c j = 0 := by
  have hk : ∀ k j, c (4 * k + j) = c j := fun k => by
    induction k with
    | zero => intro j; rw [Nat.mul_zero, Nat.zero_add]
    | succ k ih =>
      intro j
      rw [show 4 * (k + 1) + j = 4 * k + j + 4 by ring, h, ih]
  induction k with
  | zero => simp
  | succ k ih =>
    rw [show 4 * (k + 1) = 4 * k + 1 + 1 + 1 + 1 by ring, Finset.sum_range_succ, Finset.sum_range_succ, Finset.sum_range_succ, Finset.sum_range_succ, ih]
    have h1 := hk k 0
    have h2 := hk k 1
    have h3 := hk k 2
    have h4 := hk k 3
    rw [Nat.add_zero] at h1
    rw [show 4 * k + 1 + 1 = 4 * k + 2 by ring, show 4 * k + 2 + 1 = 4 * k + 3 by ring, h1, h2, h3, h4]
    linarith

theorem columns_cos (k : ℕ) (p e : ℝ) : ∑ j : Fin (4 * k), p * (Real.cos (Real.pi / 2 * ((j : ℕ) : ℝ)) * e) = 0 := by
  rw [Fin.sum_univ_eq_sum_range (fun j : ℕ => p * (Real.cos (Real.pi / 2 * (j : ℝ)) * e)) (4 * k)]
  refine period_sum _ (fun j => by rw [quarter_cos]) ?_ k
  have v1 : Real.pi / 2 * ((1 : ℕ) : ℝ) = Real.pi / 2 := by push_cast; ring
  have v2 : Real.pi / 2 * ((2 : ℕ) : ℝ) = Real.pi := by push_cast; ring
  have v3 : Real.pi / 2 * ((3 : ℕ) : ℝ) = Real.pi / 2 + Real.pi := by push_cast; ring
  rw [v1, v2, v3, Real.cos_add_pi]
  simp

theorem columns_sin (k : ℕ) (p e : ℝ) : ∑ j : Fin (4 * k), p * (Real.sin (Real.pi / 2 * ((j : ℕ) : ℝ)) * e) = 0 := by
  rw [Fin.sum_univ_eq_sum_range (fun j : ℕ => p * (Real.sin (Real.pi / 2 * (j : ℝ)) * e)) (4 * k)]
  refine period_sum _ (fun j => by rw [quarter_sin]) ?_ k
  have v1 : Real.pi / 2 * ((1 : ℕ) : ℝ) = Real.pi / 2 := by push_cast; ring
  have v2 : Real.pi / 2 * ((2 : ℕ) : ℝ) = Real.pi := by push_cast; ring
  have v3 : Real.pi / 2 * ((3 : ℕ) : ℝ) = Real.pi / 2 + Real.pi := by push_cast; ring
  rw [v1, v2, v3, Real.sin_add_pi]
  simp

theorem columns_one (j : ℕ) : Real.cos (Real.pi / 3 * (3 / 2 * (j : ℝ)) + -(Real.pi / 3) * (3 / 2 * ((j % 4 : ℕ) : ℝ))) = 1 := by
  rw [← Real.cos_nat_mul_two_pi (j / 4)]
  congr 1
  have : (j : ℝ) = 4 * ((j / 4 : ℕ) : ℝ) + ((j % 4 : ℕ) : ℝ) := by exact_mod_cast (Nat.div_add_mod j 4).symm
  linear_combination Real.pi / 2 * this

/-- The columns. -/
theorem tells_columns (n k : ℕ) (hn : n = 4 * k) (hk : 0 < k) : Tells (lawColumns n) (8 / 10) := by
  have hv : ∀ i, 0 < (![1 / 10, 1, 1 / 10] : Fin 3 → ℝ) i := fun i => by fin_cases i <;> norm_num
  have hk' : (0 : ℝ) < (n : ℝ) := by exact_mod_cast (by omega : 0 < n)
  have hp1 : ∑ j : Fin n, (fun _ => 1 / (n : ℝ) : Fin n → ℝ) j = 1 := by
    rw [Finset.sum_const, Finset.card_univ, Fintype.card_fin, nsmul_eq_mul, mul_one_div_cancel hk'.ne']
  have hd : ∀ j : Fin n, ((fun _ => Matrix.diagonal ![1 / 10, 1, 1 / 10] : Fin n → Matrix (Fin 3) (Fin 3) ℝ) j).PosDef := fun _ => Matrix.PosDef.diagonal hv
  refine tells_of (dx := 2) (dy := 1) (fun _ => 1 / (n : ℝ)) (fun _ => by positivity) hp1 (fun j => ![3 / 2 * (j : ℕ), 0, 3 / 2 * ((j : ℕ) % 4 : ℕ)]) _ hd
    ![Real.pi / 3, 0, 0] ![0, 0, -(Real.pi / 3)] (fun i => by fin_cases i; rfl) (fun i => by fin_cases i <;> rfl) ?_
  subst hn
  have a1 : ∀ x : ℝ, Real.pi / 3 * (3 / 2 * x) = Real.pi / 2 * x := fun x => by ring
  simp only [dot_three, Matrix.mulVec_diagonal, Matrix.cons_val_zero, Matrix.cons_val_one, Matrix.cons_val, Pi.add_apply, zero_mul, mul_zero, add_zero, zero_add]
  simp only [columns_one]
  simp only [a1, columns_cos, columns_sin, zero_mul, sub_zero]
  refine le_trans ?_ (le_abs_self _)
  rw [Finset.sum_const, Finset.card_univ, Fintype.card_fin]
  have hp : Real.pi ^ 2 / 90 ≤ 11 / 100 := by nlinarith [Real.pi_lt_d4, Real.pi_pos]
  have := Real.add_one_le_exp (-((Real.pi / 3 * (1 / 10 * (Real.pi / 3)) + -(Real.pi / 3) * (1 / 10 * -(Real.pi / 3))) / 2))
  rw [nsmul_eq_mul, ← mul_assoc, mul_one_div_cancel hk'.ne', one_mul, one_mul]
  linarith

theorem dot_two (u v : Fin (1 + 1) → ℝ) : u ⬝ᵥ v = u 0 * v 0 + u 1 * v 1 := Fin.sum_univ_two _

theorem quad_two (a b p c q : ℝ) : (![a, b] : Fin (1 + 1) → ℝ) ⬝ᵥ (!![p, c; c, q] : Matrix (Fin 2) (Fin 2) ℝ).mulVec ![a, b]
    = a ^ 2 * p + 2 * (a * b) * c + b ^ 2 * q := by
  simp [Matrix.mulVec, dotProduct, Fin.sum_univ_two]
  ring

/-- Sines and cosines under the AI distribution. -/
theorem ai_trig (a b : ℝ) :
    ∫ z, Real.cos (lin ![a, b] z) ∂lawAi = ∑ j, 1 / 6 * (Real.cos (a * (strokes j).1.1 + b * (strokes j).1.2) *
      Real.exp (-((a ^ 2 * (strokes j).2.1.1 + 2 * (a * b) * ((strokes j).2.2 * √((strokes j).2.1.1 * (strokes j).2.1.2)) + b ^ 2 * (strokes j).2.1.2) / 2))) ∧
    ∫ z, Real.sin (lin ![a, b] z) ∂lawAi = ∑ j, 1 / 6 * (Real.sin (a * (strokes j).1.1 + b * (strokes j).1.2) *
      Real.exp (-((a ^ 2 * (strokes j).2.1.1 + 2 * (a * b) * ((strokes j).2.2 * √((strokes j).2.1.1 * (strokes j).2.1.2)) + b ^ 2 * (strokes j).2.1.2) / 2))) := by
  have hc : ∀ j, |(strokes j).2.2| < 1 := fun j => by
    fin_cases j <;> norm_num [strokes, abs_of_pos, abs_of_neg]
  have hv : ∀ j, 0 < (strokes j).2.1.1 ∧ 0 < (strokes j).2.1.2 := fun j => by fin_cases j <;> norm_num [strokes]
  have h := mixture_trig (dx := 1) (dy := 1) (fun _ : Fin 6 => 1 / 6) (fun _ => by norm_num) (fun j => ![(strokes j).1.1, (strokes j).1.2]) _
    (fun j => pair_posDef (hv j).1 (hv j).2 (hc j)) ![a, b]
  exact ⟨h.1.trans (Finset.sum_congr rfl fun j _ => congrArg₂ (fun s t => 1 / 6 * (Real.cos s * Real.exp (-(t / 2)))) (dot_two _ _) (quad_two _ _ _ _ _)),
    h.2.trans (Finset.sum_congr rfl fun j _ => congrArg₂ (fun s t => 1 / 6 * (Real.sin s * Real.exp (-(t / 2)))) (dot_two _ _) (quad_two _ _ _ _ _))⟩

theorem sin_five : Real.sin (5 * Real.pi / 4) = -(√2 / 2) := by
  rw [show 5 * Real.pi / 4 = Real.pi / 4 + Real.pi by ring, Real.sin_add_pi, Real.sin_pi_div_four]

theorem sin_five_less : Real.sin (5 * Real.pi / 4 + -Real.pi) = √2 / 2 := by
  rw [show 5 * Real.pi / 4 + -Real.pi = Real.pi / 4 by ring, Real.sin_pi_div_four]

theorem sin_bar : Real.sin (5 * Real.pi / 4 * (-4 / 5)) = 0 := by
  rw [show 5 * Real.pi / 4 * (-4 / 5) = -Real.pi by ring, Real.sin_neg, Real.sin_pi, neg_zero]

theorem sin_left : Real.sin (5 * Real.pi / 4 * (-6 / 5)) = 1 := by
  rw [show 5 * Real.pi / 4 * (-6 / 5) = -(Real.pi / 2 + Real.pi) by ring, Real.sin_neg, Real.sin_add_pi, Real.sin_pi_div_two, neg_neg]

theorem sin_right : Real.sin (5 * Real.pi / 4 * (-2 / 5)) = -1 := by
  rw [show 5 * Real.pi / 4 * (-2 / 5) = -(Real.pi / 2) by ring, Real.sin_neg, Real.sin_pi_div_two]

theorem sin_bar_both : Real.sin (5 * Real.pi / 4 * (-4 / 5) + Real.pi * (-1 / 5)) + Real.sin (5 * Real.pi / 4 * (-4 / 5) + -(Real.pi * (-1 / 5))) = 0 := by
  rw [show 5 * Real.pi / 4 * (-4 / 5) + Real.pi * (-1 / 5) = -(Real.pi / 5 + Real.pi) by ring,
    show 5 * Real.pi / 4 * (-4 / 5) + -(Real.pi * (-1 / 5)) = -(Real.pi - Real.pi / 5) by ring, Real.sin_neg, Real.sin_neg, Real.sin_add_pi, Real.sin_pi_sub]
  ring

theorem root_two : 7 / 10 ≤ √2 / 2 ∧ √2 / 2 ≤ 71 / 100 := by
  have h1 : (14 / 10 : ℝ) ≤ √2 := Real.le_sqrt_of_sq_le (by norm_num)
  have h2 : √2 ≤ (142 / 100 : ℝ) := Real.sqrt_le_iff.2 ⟨by norm_num, by norm_num⟩
  constructor <;> linarith

theorem exp_unit {x : ℝ} (hx : 0 ≤ x) : 0 < Real.exp (-x) ∧ Real.exp (-x) ≤ 1 := ⟨Real.exp_pos _, Real.exp_le_one_iff.2 (by linarith)⟩

theorem ai_sin : |∫ z, Real.sin (lin ![5 * Real.pi / 4, 0] z) ∂lawAi| ≤ 36 / 100 := by
  rw [(ai_trig _ _).2]
  simp [Fin.sum_univ_six, strokes, sin_five, sin_bar, sin_left, sin_right]
  obtain ⟨a1, a2⟩ := exp_unit (x := (5 * Real.pi / 4) ^ 2 * 100⁻¹ / 2) (by positivity)
  obtain ⟨b1, b2⟩ := exp_unit (x := (5 * Real.pi / 4) ^ 2 * 20⁻¹ / 2) (by positivity)
  obtain ⟨c1, c2⟩ := root_two
  rw [abs_le]
  constructor <;> nlinarith

theorem ai_cos : |∫ z, Real.cos (lin ![0, Real.pi] z) ∂lawAi| ≤ 2 / 100 := by
  rw [(ai_trig _ _).1]
  have hc : Real.cos (Real.pi * (-1 / 5)) = (1 + √5) / 4 := by
    rw [show Real.pi * (-1 / 5) = -(Real.pi / 5) by ring, Real.cos_neg, Real.cos_pi_div_five]
  simp [Fin.sum_univ_six, strokes, hc]
  have h1 : (22 / 10 : ℝ) ≤ √5 := Real.le_sqrt_of_sq_le (by norm_num)
  have h2 : √5 ≤ (224 / 100 : ℝ) := Real.sqrt_le_iff.2 ⟨by norm_num, by norm_num⟩
  have h3 : Real.exp (-1) ≤ Real.exp (-(Real.pi ^ 2 * 5⁻¹ / 2)) := Real.exp_le_exp.2 (by nlinarith [Real.pi_lt_d4, Real.pi_pos])
  have h4 : Real.exp (-(Real.pi ^ 2 * 5⁻¹ / 2)) ≤ Real.exp (-1 + 1 / 10) := Real.exp_le_exp.2 (by nlinarith [Real.pi_gt_d4, Real.pi_pos])
  have h5 : Real.exp (1 / 10) ≤ 10 / 9 := by
    have := exp_tenth
    rw [Real.exp_neg] at this
    have hp := Real.exp_pos (1 / 10)
    rw [le_inv_comm₀ (by norm_num) hp] at this
    linarith
  rw [Real.exp_add] at h4
  have h6 := Real.exp_neg_one_lt_d9
  have h7 := Real.exp_neg_one_gt_d9
  have h8 := Real.add_one_le_exp (-(Real.pi ^ 2 * 1000⁻¹ / 2))
  have h9 : Real.pi ^ 2 ≤ 10 := by nlinarith [Real.pi_lt_d4, Real.pi_pos]
  obtain ⟨-, c2⟩ := exp_unit (x := Real.pi ^ 2 * 1000⁻¹ / 2) (by positivity)
  have h10 : Real.exp (-1) * Real.exp (1 / 10) ≤ 41 / 100 := by
    have := Real.exp_pos (1 / 10)
    have := Real.exp_pos (-1)
    nlinarith
  have h11 : (99 / 100 : ℝ) ≤ Real.exp (-(Real.pi ^ 2 * 1000⁻¹ / 2)) := by linarith
  generalize Real.exp (-(Real.pi ^ 2 * 1000⁻¹ / 2)) = r at *
  generalize Real.exp (-(Real.pi ^ 2 * 5⁻¹ / 2)) = q at *
  rw [abs_le]
  constructor <;> nlinarith

theorem ai_both : 10 / 100 ≤ (∫ z, Real.sin (lin ![5 * Real.pi / 4, Real.pi] z) ∂lawAi + ∫ z, Real.sin (lin ![5 * Real.pi / 4, -Real.pi] z) ∂lawAi) / 2 := by
  rw [(ai_trig _ _).2, (ai_trig _ _).2]
  simp [Fin.sum_univ_six, strokes, sin_five, sin_five_less, sin_left, sin_right]
  have hb := sin_bar_both
  obtain ⟨c1, c2⟩ := root_two
  have h9 : Real.pi ^ 2 ≤ 9.87 := by nlinarith [Real.pi_lt_d6, Real.pi_pos]
  have h10 : 9.86 ≤ Real.pi ^ 2 := by nlinarith [Real.pi_gt_d6, Real.pi_pos]
  have h1 : Real.exp (-(((5 * Real.pi / 4) ^ 2 * 100⁻¹ + Real.pi ^ 2 * 5⁻¹) / 2)) ≤ Real.exp (-1) := Real.exp_le_exp.2 (by linarith)
  have h2 : (64 / 100 : ℝ) ≤ Real.exp (-(((5 * Real.pi / 4) ^ 2 * 20⁻¹ + Real.pi ^ 2 * 1000⁻¹) / 2)) := by
    have e : -(((5 * Real.pi / 4) ^ 2 * 20⁻¹ + Real.pi ^ 2 * 1000⁻¹) / 2) =
      -(((5 * Real.pi / 4) ^ 2 * 20⁻¹ + Real.pi ^ 2 * 1000⁻¹) / 4) + -(((5 * Real.pi / 4) ^ 2 * 20⁻¹ + Real.pi ^ 2 * 1000⁻¹) / 4) := by ring
    rw [e, Real.exp_add]
    have := Real.add_one_le_exp (-(((5 * Real.pi / 4) ^ 2 * 20⁻¹ + Real.pi ^ 2 * 1000⁻¹) / 4))
    have : (8 / 10 : ℝ) ≤ Real.exp (-(((5 * Real.pi / 4) ^ 2 * 20⁻¹ + Real.pi ^ 2 * 1000⁻¹) / 4)) := by linarith
    nlinarith
  have h3 := exp_minus_one
  have h4 := Real.exp_pos (-(((5 * Real.pi / 4) ^ 2 * 100⁻¹ + Real.pi ^ 2 * 5⁻¹) / 2))
  generalize Real.sin (5 * Real.pi / 4 * (-4 / 5) + Real.pi * (-1 / 5)) = s1 at *
  generalize Real.sin (5 * Real.pi / 4 * (-4 / 5) + -(Real.pi * (-1 / 5))) = s2 at *
  generalize Real.exp (-(((5 * Real.pi / 4) ^ 2 * 100⁻¹ + Real.pi ^ 2 * 5⁻¹) / 2)) = p at *
  generalize Real.exp (-(((5 * Real.pi / 4) ^ 2 * 20⁻¹ + Real.pi ^ 2 * 1000⁻¹) / 2)) = q at *
  have hs : s2 = -s1 := by linarith
  rw [hs]
  generalize √2 / 2 = w at *
  have : 10 / 100 ≤ w * (2 * q - p) / 6 := by nlinarith
  linarith

/-- The AI distribution. -/
theorem tells_ai : Tells lawAi (8 / 100) := by
  haveI : IsProbabilityMeasure lawAi := mixture_prob (dx := 1) (dy := 1) (fun _ : Fin 6 => 1 / 6) (fun _ => by norm_num) (by norm_num) _ _
  have l1 : ∀ a b : ℝ, ∀ z : (Fin 1 → ℝ) × (Fin 1 → ℝ), lin ![a, b] z = a * z.1 0 + b * z.2 0 := fun a b z => by
    simp only [lin, Fin.sum_univ_one]
    rfl
  have m1 : Measurable fun x : Fin 1 → ℝ => Real.sin (5 * Real.pi / 4 * x 0) := by fun_prop
  have m2 : Measurable fun x : Fin 1 → ℝ => Real.cos (Real.pi * x 0) := by fun_prop
  refine ⟨fun z => Real.sin (5 * Real.pi / 4 * z.1 0) * Real.cos (Real.pi * z.2 0), (m1.comp measurable_fst).mul (m2.comp measurable_snd), fun z => ?_, ?_⟩
  · rw [abs_mul]
    exact mul_le_one₀ (Real.abs_sin_le_one _) (abs_nonneg _) (Real.abs_cos_le_one _)
  have i : ∀ u, Integrable (fun z : (Fin 1 → ℝ) × (Fin 1 → ℝ) => Real.sin (lin u z)) lawAi := fun u =>
    (integrable_const (1 : ℝ)).mono' (Real.measurable_sin.comp (measurable_lin u)).aestronglyMeasurable
      (Filter.Eventually.of_forall fun z => Real.abs_sin_le_one _)
  have e1 : ∫ z, Real.sin (5 * Real.pi / 4 * z.1 0) * Real.cos (Real.pi * z.2 0) ∂lawAi
      = (∫ z, Real.sin (lin ![5 * Real.pi / 4, Real.pi] z) ∂lawAi + ∫ z, Real.sin (lin ![5 * Real.pi / 4, -Real.pi] z) ∂lawAi) / 2 := by
    rw [← integral_add (i _) (i _), ← integral_div]
    refine integral_congr_ae (Filter.Eventually.of_forall fun z => ?_)
    simp only [l1, neg_mul, ← sub_eq_add_neg, Real.sin_add, Real.sin_sub]
    ring
  have e2 : ∫ z, Real.sin (5 * Real.pi / 4 * z.1 0) * Real.cos (Real.pi * z.2 0) ∂(lawAi.fst.prod lawAi.snd)
      = (∫ z, Real.sin (lin ![5 * Real.pi / 4, 0] z) ∂lawAi) * ∫ z, Real.cos (lin ![0, Real.pi] z) ∂lawAi := by
    rw [integral_apart lawAi m1 m2]
    simp only [l1, zero_mul, add_zero, zero_add]
  show _ ≤ |∫ z, Real.sin (5 * Real.pi / 4 * z.1 0) * Real.cos (Real.pi * z.2 0) ∂lawAi
    - ∫ z, Real.sin (5 * Real.pi / 4 * z.1 0) * Real.cos (Real.pi * z.2 0) ∂(lawAi.fst.prod lawAi.snd)|
  rw [e1, e2]
  have h1 := ai_both
  have h2 : |(∫ z, Real.sin (lin ![5 * Real.pi / 4, 0] z) ∂lawAi) * ∫ z, Real.cos (lin ![0, Real.pi] z) ∂lawAi| ≤ 36 / 100 * (2 / 100) := by
    rw [abs_mul]
    exact mul_le_mul ai_sin ai_cos (abs_nonneg _) (by norm_num)
  have h3 := (abs_le.1 h2).2
  refine le_trans ?_ (le_abs_self _)
  linarith

end BMI.Chernoff
