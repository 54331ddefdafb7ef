import Verif.Model.Concept
import Verif.Spec.Concept
import Verif.Props.Transforms
import Verif.Props.MiFigure
import Verif.Props.Covariance
import Verif.Props.KSG
import Verif.Lemmas.Cca
import Verif.Lemmas.IdealWitness
import Verif.Lemmas.MixtureTasks
import Verif.Lemmas.SamplerInv

/-! C86: the figures of the concept; C87: the experiment with spirals. -/

namespace BMI.Concept

open MeasureTheory BMI.Samplers

variable {Key : Type}

/-! ## Formatting -/

/-- Numbers are formatted by rounding. -/
theorem fixed_of {d c : ℕ} {v : ℝ} (h0 : 0 ≤ v) (h : |v * 10 ^ d - c| < 1 / 2) : fixed d v
    = toString (c / 10 ^ d) ++ "." ++ String.join ((List.range d).map fun i => toString (c / 10 ^ (d - 1 - i) % 10)) := by
  have e : (round (|v| * 10 ^ d)).toNat = c := by
    obtain ⟨h1, h2⟩ := abs_lt.1 h
    rw [abs_of_nonneg h0, round_eq]
    have : ⌊v * 10 ^ d + 1 / 2⌋ = (c : ℤ) := by
      rw [Int.floor_eq_iff]
      push_cast
      exact ⟨by linarith, by linarith⟩
    rw [this, Int.toNat_natCast]
  simp only [fixed, e, if_neg (not_lt.2 h0), String.empty_append]

example : fixed 2 0.02 = "0.02" := by
  rw [fixed_of (c := 2) (by norm_num) (by norm_num)]
  rfl

/-! ## The functions -/

theorem sigmoid_strictMono : StrictMono sigmoid := by
  intro a b h
  unfold sigmoid
  have : Real.exp (-8 * b) < Real.exp (-8 * a) := Real.exp_lt_exp.2 (by linarith)
  have hb := Real.exp_pos (-8 * b)
  exact one_div_lt_one_div_of_lt (by linarith) (by linarith)

theorem stairs_strictMono : StrictMono stairs := fun a b h => by
  unfold stairs
  have h1 := sigmoid_strictMono h
  have h2 := sigmoid_strictMono (show a - 1 < b - 1 by linarith)
  have h3 := sigmoid_strictMono (show a + 2 < b + 2 by linarith)
  linarith

theorem measurable_stairs : Measurable stairs := stairs_strictMono.monotone.measurable

/-! ## Samples -/

variable [MeasurableSpace Key]

theorem sample_rows {R : JaxRandom Key} {κ : Measure Key} {s : Sampler Key} {dx dy : ℕ} {P : Measure ((Fin dx → ℝ) × (Fin dy → ℝ))}
    (h : Correct R κ s dx dy P) (n : ℕ) (z : ℤ) :
    ∃ (x : Fin n → Fin dx → ℝ) (y : Fin n → Fin dy → ℝ), s.sample n (.seed z) = .ok (rowsOf x, rowsOf y) := by
  obtain ⟨draw, -, h1, -⟩ := h.law n
  exact ⟨_, _, (h.seeds n z).trans (h1 (R.prngKey z))⟩

theorem estimates2_spec {R : JaxRandom Key} {κ : Measure Key} {s : Sampler Key} {dx dy : ℕ} {P : Measure ((Fin dx → ℝ) × (Fin dy → ℝ))}
    (h : Correct R κ s dx dy P) (est : Arr → Arr → Except Err ℝ) (n k : ℕ) (hk : 0 < k) (hw : Works est n dx dy) :
    ∃ m d, getEstimates2 s est n k = .ok (m, d) ∧ Estimated s est n k m d := by
  have one : ∀ i : ℕ, ∃ v x y, s.sample n (.seed i) = .ok (x, y) ∧ est x y = .ok v := by
    intro i
    obtain ⟨x, y, hs⟩ := sample_rows h n i
    obtain ⟨v, hv⟩ := hw x y
    exact ⟨v, _, _, hs, hv⟩
  choose v x y h1 h2 using one
  have e : ((List.range k).mapM fun seed : ℕ => (do
      let xy ← s.sample n (.seed seed)
      est xy.1 xy.2 : Except Err ℝ)) = .ok ((List.range k).map v) :=
    MiFigure.mapM_ok _ v _ fun i _ => by simp only [h1, bind, Except.bind, h2]
  have hk' : (k : ℝ) ≠ 0 := by positivity
  have hsum : ∀ f : ℕ → ℝ, ((List.range k).map f).sum = ∑ i : Fin k, f i := fun f => by
    rw [Fin.sum_univ_eq_sum_range f]
    rfl
  have e2 : getEstimates2 s est n k = .ok (mean ((List.range k).map v), std ((List.range k).map v)) := by
    unfold getEstimates2
    rw [e]
    rfl
  refine ⟨_, _, e2, fun i => v i, fun i => ⟨_, _, h1 i, h2 i⟩, ?_, Real.sqrt_nonneg _, ?_⟩
  · rw [← hsum, mean, List.length_map, List.length_range]
    field_simp
  · rw [std, Real.sq_sqrt, List.map_map, List.length_map, List.length_range, ← hsum fun i => (v i - mean ((List.range k).map v)) ^ 2]
    · simp only [Function.comp_def]
      field_simp
    · refine div_nonneg (List.sum_nonneg fun a ha => ?_) (Nat.cast_nonneg _)
      obtain ⟨b, -, rfl⟩ := List.mem_map.1 ha
      positivity

theorem estimates_eq {b s : Sampler Key} {f g : ℝ → ℝ} (h : transformed b (.row (List.map f)) (.row (List.map g)) 0 0 = .ok s)
    (est : Arr → Arr → Except Err ℝ) (n k : ℕ) : getEstimates b est f g n k = getEstimates2 s est n k := by
  obtain ⟨-, -, _, _, -, -, -, -, rfl⟩ := transformed_inv h
  unfold getEstimates getEstimates2
  congr 1
  congr 1
  funext i
  simp only [bind, Except.bind]
  cases b.sample n (.seed i) <;> rfl

theorem plotPoints_rows {n : ℕ} (x y : Fin n → Fin 1 → ℝ) : plotPoints (rowsOf x) (rowsOf y) = .ok (List.ofFn fun i => (x i 0, y i 0)) := by
  have key : ∀ x : Fin n → Fin 1 → ℝ, ravel1d (rowsOf x) = .ok (List.ofFn fun i => x i 0) := by
    intro x
    unfold ravel1d
    rw [if_pos]
    · congr 1
      have : rowsOf x = (List.ofFn fun i => x i 0).map fun a => [a] := by
        simp [rowsOf, List.map_ofFn, Function.comp_def]
      rw [this]
      generalize (List.ofFn fun i => x i 0) = l
      induction l with
      | nil => rfl
      | cons a l ih => simpa using ih
    · rw [List.all_eq_true]
      intro r hr
      simpa using length_of_mem_rowsOf x r hr
  simp only [plotPoints, key, bind, Except.bind]
  congr 1
  apply List.ext_getElem <;> simp

/-! ## C86: one dimension -/

theorem number11 : 1.155 < -(1 / 2) * Real.log (1 - 0.95 ^ 2) ∧ -(1 / 2) * Real.log (1 - 0.95 ^ 2) < (1.165 : ℝ) := by
  have e : Real.log (1 - 0.95 ^ 2) = -Real.log (400 / 39) := by
    rw [← Real.log_inv]
    norm_num
  have h1 : (231 / 100 : ℝ) < Real.log (400 / 39) := by
    rw [Real.lt_log_iff_exp_lt (by norm_num)]
    refine lt_of_pow_lt_pow_left₀ 100 (by norm_num) ?_
    rw [← Real.exp_nat_mul, show ((100 : ℕ) : ℝ) * (231 / 100) = ((231 : ℕ) : ℝ) * 1 by norm_num, Real.exp_nat_mul]
    calc Real.exp 1 ^ 231 < 2.7182818286 ^ 231 := pow_lt_pow_left₀ Real.exp_one_lt_d9 (Real.exp_pos 1).le (by norm_num)
      _ < _ := by norm_num
  have h2 : Real.log (400 / 39) < (233 / 100 : ℝ) := by
    rw [Real.log_lt_iff_lt_exp (by norm_num)]
    refine lt_of_pow_lt_pow_left₀ 100 (Real.exp_pos _).le ?_
    rw [← Real.exp_nat_mul, show ((100 : ℕ) : ℝ) * (233 / 100) = ((233 : ℕ) : ℝ) * 1 by norm_num, Real.exp_nat_mul]
    calc (400 / 39 : ℝ) ^ 100 < 2.7182818283 ^ 233 := by norm_num
      _ < _ := pow_lt_pow_left₀ Real.exp_one_gt_d9 (by norm_num) (by norm_num)
  rw [e]
  constructor <;> linarith

theorem fixed11 : fixed 2 (-(1 / 2) * Real.log (1 - 0.95 ^ 2)) = "1.16" := by
  obtain ⟨h1, h2⟩ := number11
  rw [fixed_of (c := 116) (by linarith) (by
    rw [abs_lt]
    norm_num at h1 h2 ⊢
    constructor <;> linarith)]
  rfl

theorem base11 (R : JaxRandom Key) (κ : Measure Key) (hR : IdealRandom R κ) :
    ∃ b, splitMultinormal R 1 1 covariance11 none = .ok b ∧ b.mi = -(1 / 2) * Real.log (1 - 0.95 ^ 2) ∧
      Correct R κ b 1 1 (normalPair 1 1 !![1, 0.95; 0.95, 1]) := by
  have hp : (!![1, 0.95; 0.95, 1] : Matrix (Fin (1 + 1)) (Fin (1 + 1)) ℝ) = bivariateCov 0.95 1 1 := by
    ext i j
    fin_cases i <;> fin_cases j <;> simp [bivariateCov]
  have hpos := bivariateCov_posDef 0.95 1 1 one_pos one_pos (by norm_num) (by norm_num)
  obtain ⟨b, hb, hc⟩ := splitMultinormal_correct R κ hR 1 1 one_pos one_pos 0 (bivariateCov 0.95 1 1) hpos
  obtain ⟨b', hb', hn⟩ := splitMultinormal_number R 1 1 one_pos one_pos 0 (bivariateCov 0.95 1 1) hpos
  obtain rfl : b' = b := Except.ok.inj (hb'.symm.trans hb)
  refine ⟨b', ?_, ?_, by rw [hp]; exact hc⟩
  · refine (splitMultinormal_default_mean R 1 1 covariance11).trans (Eq.trans ?_ hb)
    congr 1
    rw [← hp]
    simp [covariance11, rowsOf]
    norm_num
  · rw [hn, bivariate_number 0.95 1 1 one_pos one_pos (by norm_num) (by norm_num)]
    norm_num

/-- **C86**, what `main` does once the imports have succeeded; in full: running 1v1.py makes this figure, which is false, since the
import of `bmi.api` fails (`Scripts.concept_fails`).  The figure with one-dimensional variables.  Each of the three panels shows a sample of a law of pairs `(f(X), g(Y))`
with strictly monotone `f` and `g`, where `X` and `Y` are normal with correlation 0.95.  The title has the true mutual information
of this very law, which is 1.16 for all three of them, and the average and the standard deviation of 20 estimates for samples of
it. -/
theorem main11_partial (R : JaxRandom Key) (κ : Measure Key) [IsProbabilityMeasure κ] (hR : IdealRandom R κ) (ksg : Ksg)
    (hw : Works (ksg [10]) 1000 1 1) :
    ∃ ps, main11 R ksg = .ok ps ∧
      List.Forall₂ (fun (l : ((ℝ → ℝ) × (ℝ → ℝ)) × String × String) (p : Panel) =>
        StrictMono l.1.1 ∧ (StrictMono l.1.2 ∨ StrictAnti l.1.2) ∧ p.xlabel = l.2.1 ∧ p.ylabel = l.2.2 ∧
        ∃ s m d, Correct R κ s 1 1 ((normalPair 1 1 !![1, 0.95; 0.95, 1]).map (Prod.map (fun v i => l.1.1 (v i)) fun v i => l.1.2 (v i))) ∧
          s.mi = -(1 / 2) * Real.log (1 - 0.95 ^ 2) ∧
          Drawn11 s 10000 p.points ∧ Estimated s (ksg [10]) 1000 20 m d ∧
          p.title = "True: 1.16 Estimate: " ++ fixed 2 m ++ " $\\pm$ " ++ fixed 2 d)
        [((fun x => x, fun y => y), "$X$", "$Y$"), ((fun x => x, erf), "$f_1(X)$", "$g_1(Y)$"),
          ((stairs, fun y => -stairs y), "$f_2(X)$", "$g_2(Y)$")] ps := by
  obtain ⟨b, hb, hmi, hc⟩ := base11 R κ hR
  have key : ∀ f g : ℝ → ℝ, Measurable f → Measurable g → Function.Injective f → Function.Injective g →
      ∃ s m d pts, getEstimates b (ksg [10]) f g 1000 20 = .ok (m, d) ∧
        (∀ xy, b.sample 10000 (.seed 42) = .ok xy → plotPoints (onArr f xy.1) (onArr g xy.2) = .ok pts) ∧
        Correct R κ s 1 1 ((normalPair 1 1 !![1, 0.95; 0.95, 1]).map (Prod.map (fun v i => f (v i)) fun v i => g (v i))) ∧
          s.mi = -(1 / 2) * Real.log (1 - 0.95 ^ 2) ∧ Drawn11 s 10000 pts ∧ Estimated s (ksg [10]) 1000 20 m d := by
    intro f g hf hg hfi hgi
    obtain ⟨s, h1, h2, h3⟩ := coordinatewise_correct R κ b _ hc (.row (List.map f)) (.row (List.map g)) f g hf hg hfi hgi
      (acts_map 1 f) (acts_map 1 g)
    obtain ⟨m, d, e1, e2⟩ := estimates2_spec h3 (ksg [10]) 1000 20 (by norm_num) hw
    obtain ⟨x, y, hs⟩ := sample_rows h3 10000 42
    refine ⟨s, m, d, _, (estimates_eq h1 _ _ _).trans e1, fun xy hxy => ?_, h3, h2.trans hmi, ⟨x, y, hs, rfl⟩, e2⟩
    rw [← plotPoints_rows x y]
    obtain ⟨-, -, _, _, -, -, -, -, rfl⟩ := transformed_inv h1
    simp only [hxy, bind, Except.bind, Except.ok.injEq, Prod.mk.injEq] at hs
    rw [← hs.1, ← hs.2]
    rfl
  obtain ⟨xy, hxy⟩ : ∃ xy, b.sample 10000 (.seed 42) = .ok xy := by
    obtain ⟨x, y, h⟩ := sample_rows hc 10000 42
    exact ⟨_, h⟩
  obtain ⟨s0, m0, d0, p0, a0, b0, c0⟩ := key id id measurable_id measurable_id Function.injective_id Function.injective_id
  obtain ⟨s1, m1, d1, p1, a1, b1, c1⟩ := key f1 g1 measurable_id continuous_erf.measurable Function.injective_id erf_strictMono.injective
  obtain ⟨s2, m2, d2, p2, a2, b2, c2⟩ := key f2 g2 measurable_stairs measurable_stairs.neg stairs_strictMono.injective
    (neg_injective.comp stairs_strictMono.injective)
  have b0' : plotPoints xy.1 xy.2 = .ok p0 := by
    have := b0 xy hxy
    simpa [onArr] using this
  refine ⟨_, by
    unfold main11
    simp only [hb, bind, Except.bind, a0, a1, a2, hxy, b0', b1 xy hxy, b2 xy hxy]
    rfl, ?_⟩
  have ht : ∀ m d, title b.mi (m, d) = "True: 1.16 Estimate: " ++ fixed 2 m ++ " $\\pm$ " ++ fixed 2 d := by
    intro m d
    simp only [title, hmi, fixed11]
    congr 1
  refine .cons ⟨strictMono_id, .inl strictMono_id, rfl, rfl, s0, m0, d0, c0.1, c0.2.1, c0.2.2.1, c0.2.2.2, ht _ _⟩
    (.cons ⟨strictMono_id, .inl erf_strictMono, rfl, rfl, s1, m1, d1, c1.1, c1.2.1, c1.2.2.1, c1.2.2.2, ht _ _⟩
    (.cons ⟨stairs_strictMono, .inr fun a b h => neg_lt_neg (stairs_strictMono h), rfl, rfl, s2, m2, d2, c2.1, c2.2.1, c2.2.2.1, c2.2.2.2,
      ht _ _⟩ .nil))

/-! ## C86: two dimensions -/

/-- The covariance of the figure. -/
def cov21 : Matrix (Fin (2 + 1)) (Fin (2 + 1)) ℝ := !![0.8, 0.4, 0.644; 0.4, 0.8, 0.644; 0.644, 0.644, 0.8]

theorem cov21_posDef : cov21.PosDef := by
  refine Matrix.PosDef.of_dotProduct_mulVec_pos ?_ fun x hx => ?_
  · ext i j
    fin_cases i <;> fin_cases j <;> simp [cov21]
  · have e : dotProduct (star x) (cov21.mulVec x)
        = 0.2 * (x 0 - x 1) ^ 2 + 0.6 * (x 0 + x 1 + 161 / 150 * x 2) ^ 2 + 0.8 * (4079 / 30000) * x 2 ^ 2 := by
      simp [cov21, dotProduct, Matrix.mulVec, Fin.sum_univ_three]
      ring
    rw [e]
    by_contra hn
    have a1 := sq_nonneg (x 0 - x 1)
    have a2 := sq_nonneg (x 0 + x 1 + 161 / 150 * x 2)
    have a3 := sq_nonneg (x 2)
    norm_num at hn
    have b3 : x 2 = 0 := by
      have : x 2 ^ 2 = 0 := by linarith
      simpa using this
    have b1 : x 0 - x 1 = 0 := by
      have : (x 0 - x 1) ^ 2 = 0 := by linarith
      simpa using this
    have b2 : x 0 + x 1 + 161 / 150 * x 2 = 0 := by
      have : (x 0 + x 1 + 161 / 150 * x 2) ^ 2 = 0 := by linarith
      simpa using this
    rw [b3] at b2
    refine hx (funext fun i => ?_)
    fin_cases i
    · show x 0 = 0
      linarith
    · show x 1 = 0
      linarith
    · exact b3

theorem cov21_number :
    (Real.log (blockX (dx := 2) (dy := 1) cov21).det + Real.log (blockY (dx := 2) (dy := 1) cov21).det - Real.log cov21.det) / 2
      = 1 / 2 * Real.log (30000 / 4079) := by
  have e1 : (blockX (dx := 2) (dy := 1) cov21).det = 0.48 := by
    rw [Matrix.det_fin_two]
    have h00 : blockX (dx := 2) (dy := 1) cov21 0 0 = 0.8 := by simp [blockX, cov21]
    have h01 : blockX (dx := 2) (dy := 1) cov21 0 1 = 0.4 := by simp [blockX, cov21]
    have h10 : blockX (dx := 2) (dy := 1) cov21 1 0 = 0.4 := by simp [blockX, cov21]
    have h11 : blockX (dx := 2) (dy := 1) cov21 1 1 = 0.8 := by simp [blockX, cov21]
    rw [h00, h01, h10, h11]
    norm_num
  have e2 : (blockY (dx := 2) (dy := 1) cov21).det = 0.8 := by
    rw [Matrix.det_fin_one]
    simp [blockY, cov21]
  have e3 : cov21.det = 0.48 * 0.8 * (4079 / 30000) := by
    unfold cov21
    rw [Matrix.det_fin_three]
    simp
    norm_num
  rw [e1, e2, e3, Real.log_mul (by norm_num) (by norm_num), Real.log_mul (by norm_num) (by norm_num),
    show (30000 / 4079 : ℝ) = (4079 / 30000)⁻¹ by norm_num, Real.log_inv]
  ring

theorem fixed21 : fixed 2 (1 / 2 * Real.log (30000 / 4079)) = "1.00" := by
  have h1 : (199 / 100 : ℝ) < Real.log (30000 / 4079) := by
    rw [Real.lt_log_iff_exp_lt (by norm_num)]
    refine lt_of_pow_lt_pow_left₀ 100 (by norm_num) ?_
    rw [← Real.exp_nat_mul, show ((100 : ℕ) : ℝ) * (199 / 100) = ((199 : ℕ) : ℝ) * 1 by norm_num, Real.exp_nat_mul]
    calc Real.exp 1 ^ 199 < 2.7182818286 ^ 199 := pow_lt_pow_left₀ Real.exp_one_lt_d9 (Real.exp_pos 1).le (by norm_num)
      _ < _ := by norm_num
  have h2 : Real.log (30000 / 4079) < (201 / 100 : ℝ) := by
    rw [Real.log_lt_iff_lt_exp (by norm_num)]
    refine lt_of_pow_lt_pow_left₀ 100 (Real.exp_pos _).le ?_
    rw [← Real.exp_nat_mul, show ((100 : ℕ) : ℝ) * (201 / 100) = ((201 : ℕ) : ℝ) * 1 by norm_num, Real.exp_nat_mul]
    calc (30000 / 4079 : ℝ) ^ 100 < 2.7182818283 ^ 201 := by norm_num
      _ < _ := pow_lt_pow_left₀ Real.exp_one_gt_d9 (by norm_num) (by norm_num)
  rw [fixed_of (c := 100) (by linarith) (by
    rw [abs_lt]
    norm_num at h1 h2 ⊢
    constructor <;> linarith)]
  rfl

theorem turn_zero {n : ℕ} (i j : Fin n) (x : Fin n → ℝ) : turn i j 0 x = x := by
  funext k
  unfold turn
  split_ifs with h1 h2
  · simp [h1]
  · simp [h2]
  · rfl

theorem column_rows {n : ℕ} (x : Fin n → Fin 2 → ℝ) (j : Fin 2) : column j (rowsOf x) = .ok (List.ofFn fun i => x i j) := by
  unfold column rowsOf
  refine MixtureTasks.mapM_ofFn fun i => ?_
  fin_cases j <;> simp [List.ofFn_succ]

theorem flatten_rows {n : ℕ} (y : Fin n → Fin 1 → ℝ) : (rowsOf y).flatten = List.ofFn fun i => y i 0 := by
  have : rowsOf y = (List.ofFn fun i => y i 0).map fun a => [a] := by
    simp [rowsOf, List.map_ofFn, Function.comp_def]
  rw [this]
  generalize (List.ofFn fun i => y i 0) = l
  induction l with
  | nil => rfl
  | cons a l ih => simpa using ih

theorem plotSampler_spec {R : JaxRandom Key} {κ : Measure Key} {s : Sampler Key} {P : Measure ((Fin 2 → ℝ) × (Fin 1 → ℝ))}
    (h : Correct R κ s 2 1 P) (ksg : Ksg) (n n' k : ℕ) (hk : 0 < k) (hw : Works (ksg [10]) n 2 1) (lab : String) :
    ∃ p m d, plotSampler ksg s n n' k lab = .ok p ∧ p.xlabel = lab ∧ Drawn21 s n' p.points p.colours ∧ Estimated s (ksg [10]) n k m d ∧
      p.title = "True: " ++ fixed 2 s.mi ++ ". Estimated: $" ++ fixed 2 m ++ " \\pm " ++ fixed 2 d ++ "$" := by
  obtain ⟨m, d, e1, e2⟩ := estimates2_spec h (ksg [10]) n k hk hw
  obtain ⟨x, y, hs⟩ := sample_rows h n' 42
  have hx0 := column_rows x 0
  have hx1 := column_rows x 1
  refine ⟨_, m, d, by
    unfold plotSampler
    simp only [e1, bind, Except.bind, hs]
    rw [show column 0 (rowsOf x) = _ from hx0, show column 1 (rowsOf x) = _ from hx1], rfl, ⟨x, y, hs, ?_, flatten_rows y⟩, e2, rfl⟩
  apply List.ext_getElem <;> simp

/-- The law of a normal pair with the first part turned. -/
noncomputable def turnedPair (dx dy : ℕ) (C : Matrix (Fin (dx + dy)) (Fin (dx + dy)) ℝ) (i j : Fin dx) (speed : ℝ) :
    Measure ((Fin dx → ℝ) × (Fin dy → ℝ)) := (normalPair dx dy C).map (Prod.map (fun x => turn i j (speed * sumSq x) x) id)

theorem turnedPair_zero (dx dy : ℕ) (C : Matrix (Fin (dx + dy)) (Fin (dx + dy)) ℝ) (i j : Fin dx) :
    turnedPair dx dy C i j 0 = normalPair dx dy C := by
  unfold turnedPair
  have : (Prod.map (fun x : Fin dx → ℝ => turn i j (0 * sumSq x) x) id : (Fin dx → ℝ) × (Fin dy → ℝ) → _) = id := by
    funext z
    simp only [zero_mul, turn_zero]
    rfl
  rw [this, Measure.map_id]

theorem turned_correct {R : JaxRandom Key} {κ : Measure Key} [IsProbabilityMeasure κ] {b : Sampler Key} {dx dy : ℕ}
    {C : Matrix (Fin (dx + dy)) (Fin (dx + dy)) ℝ} (hc : Correct R κ b dx dy (normalPair dx dy C)) {i j : Fin dx} (hij : i < j) (speed : ℝ) :
    ∃ s, transformed b (.row (SpiralObj.row ⟨dx, 1, (planeGen i j).map (· * speed)⟩)) .none 0 0 = .ok s ∧ s.mi = b.mi ∧
      Correct R κ s dx dy (turnedPair dx dy C i j speed) :=
  transformed_correct R κ b _ hc _ .none 0 0 le_rfl le_rfl (by simp) (by simp) _ id (measurable_turn hij speed) measurable_id
    (spiral_acts hij speed) (fun n a => rfl) Set.univ Set.univ MeasurableSet.univ MeasurableSet.univ (by simp) (by simp)
    (turn_injective hij speed).injOn Function.injective_id.injOn

/-- **C86**, what `main` does once the imports have succeeded; in full: running 2v1.py makes this figure, which is false
(`Scripts.concept_fails`).  The figure with two-dimensional `X`.  The three panels show samples of the laws of `(f(X), Y)` for a normal vector `(X, Y)`,
where `f` turns by 0, by half the squared length and by the squared length.  The title has the true mutual information of this very law,
which is 1.00 for all three of them, and the average and the standard deviation of 10 estimates for samples of it. -/
theorem main21_partial (R : JaxRandom Key) (κ : Measure Key) [IsProbabilityMeasure κ] (hR : IdealRandom R κ) (ksg : Ksg)
    (hw : Works (ksg [10]) 5000 2 1) :
    ∃ ps, main21 R ksg = .ok ps ∧
      List.Forall₂ (fun (l : ℝ × String) (p : Panel) => p.xlabel = l.2 ∧
        ∃ s m d, Correct R κ s 2 1 (turnedPair 2 1 !![0.8, 0.4, 0.644; 0.4, 0.8, 0.644; 0.644, 0.644, 0.8] 0 1 l.1) ∧
          s.mi = 1 / 2 * Real.log (30000 / 4079) ∧
          Drawn21 s 5000 p.points p.colours ∧ Estimated s (ksg [10]) 5000 10 m d ∧
          p.title = "True: 1.00. Estimated: $" ++ fixed 2 m ++ " \\pm " ++ fixed 2 d ++ "$")
        [(0, "$X$"), (0.5, "$f_1(X)$"), (1, "$f_2(X)$")] ps := by
  have h01 : (0 : Fin 2) < 1 := by simp
  obtain ⟨b, hb, hc⟩ := splitMultinormal_correct R κ hR 2 1 two_pos one_pos 0 cov21 cov21_posDef
  obtain ⟨b', hb', hn⟩ := splitMultinormal_number R 2 1 two_pos one_pos 0 cov21 cov21_posDef
  obtain rfl : b' = b := Except.ok.inj (hb'.symm.trans hb)
  have e0 : splitMultinormal R 2 1 covariance21 none = .ok b' := by
    refine (splitMultinormal_default_mean R 2 1 covariance21).trans (Eq.trans ?_ hb)
    congr 1
    simp [covariance21, rowsOf, cov21, List.ofFn_succ]
    norm_num
  have hc : Correct R κ b' 2 1 (normalPair 2 1 cov21) := hc
  have hmi : b'.mi = 1 / 2 * Real.log (30000 / 4079) := hn.trans cov21_number
  have e1 : soGenerator 2 0 1 = .ok (planeGen 0 1) := by simpa using soGenerator_eq_planeGen (0 : Fin 2) 1 h01
  obtain ⟨s1, a1, m1, c1⟩ := turned_correct hc h01 0.5
  obtain ⟨s2, a2, m2, c2⟩ := turned_correct hc h01 1
  have w0 : Correct R κ b' 2 1 (turnedPair 2 1 cov21 0 1 0) := by
    rw [turnedPair_zero]
    exact hc
  obtain ⟨p0, u0, d0, f0, g0, i0, j0, k0⟩ := plotSampler_spec w0 ksg 5000 5000 10 (by norm_num) hw "$X$"
  obtain ⟨p1, u1, d1, f1, g1, i1, j1, k1⟩ := plotSampler_spec c1 ksg 5000 5000 10 (by norm_num) hw "$f_1(X)$"
  obtain ⟨p2, u2, d2, f2, g2, i2, j2, k2⟩ := plotSampler_spec c2 ksg 5000 5000 10 (by norm_num) hw "$f_2(X)$"
  rw [hmi, fixed21] at k0
  rw [m1, hmi, fixed21] at k1
  rw [m2, hmi, fixed21] at k2
  refine ⟨[p0, p1, p2], ?_, .cons ⟨g0, b', u0, d0, w0, hmi, i0, j0, k0⟩ (.cons ⟨g1, s1, u1, d1, c1, m1.trans hmi, i1, j1, k1⟩
    (.cons ⟨g2, s2, u2, d2, c2, m2.trans hmi, i2, j2, k2⟩ .nil))⟩
  unfold main21
  simp only [e0, e1, bind, Except.bind, spiral_none]
  rw [a1]
  simp only
  rw [a2]
  simp only [f0, f1, f2]

/-! ## C87 -/

section
variable {dx dy : ℕ} {ρ : ℝ}

theorem oneCorrelated_form (hx : 0 < dx) (hy : 0 < dy) (x : Fin (dx + dy) → ℝ) :
    dotProduct x ((oneCorrelated dx dy ρ).mulVec x)
      = (∑ i, x i ^ 2) + 2 * ρ * (x (Fin.castAdd dy ⟨0, hx⟩) * x (Fin.natAdd dx ⟨0, hy⟩)) := by
  have hne : (Fin.castAdd dy ⟨0, hx⟩ : Fin (dx + dy)) ≠ Fin.natAdd dx ⟨0, hy⟩ := fun h => by
    have := congrArg Fin.val h
    simp at this
    omega
  have e : oneCorrelated dx dy ρ = 1 + ρ • (Matrix.single (Fin.castAdd dy ⟨0, hx⟩) (Fin.natAdd dx ⟨0, hy⟩) (1 : ℝ)
      + Matrix.single (Fin.natAdd dx ⟨0, hy⟩) (Fin.castAdd dy ⟨0, hx⟩) (1 : ℝ)) := by
    ext i j
    simp only [oneCorrelated, Matrix.add_apply, Matrix.one_apply, Matrix.smul_apply, Matrix.single_apply, Fin.ext_iff, Fin.val_castAdd,
      Fin.val_natAdd, add_zero, smul_eq_mul]
    by_cases h1 : (i : ℕ) = j
    · simp only [h1, if_true]
      rw [if_neg (by omega), if_neg (by omega)]
      simp
    · simp only [h1, if_false]
      by_cases h2 : (i : ℕ) = 0 ∧ (j : ℕ) = dx
      · rw [if_pos (.inl h2), if_pos (by omega), if_neg (by omega)]
        simp
      · by_cases h3 : (i : ℕ) = dx ∧ (j : ℕ) = 0
        · rw [if_pos (.inr h3), if_neg (by omega), if_pos (by omega)]
          simp
        · rw [if_neg (by omega), if_neg (by omega), if_neg (by omega)]
          simp
  rw [e, Matrix.add_mulVec, Matrix.one_mulVec, Matrix.smul_mulVec, Matrix.add_mulVec, Matrix.single_mulVec_eq, Matrix.single_mulVec_eq,
    dotProduct_add, dotProduct_smul, dotProduct_add, dotProduct_smul, dotProduct_smul, dotProduct_single_one, dotProduct_single_one]
  simp only [dotProduct, smul_eq_mul]
  simp only [← sq]
  ring

theorem oneCorrelated_posDef_iff (hx : 0 < dx) (hy : 0 < dy) : (oneCorrelated dx dy ρ).PosDef ↔ |ρ| < 1 := by
  have hne : (Fin.castAdd dy ⟨0, hx⟩ : Fin (dx + dy)) ≠ Fin.natAdd dx ⟨0, hy⟩ := fun h => by
    have := congrArg Fin.val h
    simp at this
    omega
  have two : ∀ x : Fin (dx + dy) → ℝ, x (Fin.castAdd dy ⟨0, hx⟩) ^ 2 + x (Fin.natAdd dx ⟨0, hy⟩) ^ 2 ≤ ∑ i, x i ^ 2 := by
    intro x
    rw [← Finset.sum_pair (f := fun i => x i ^ 2) hne]
    exact Finset.sum_le_sum_of_subset_of_nonneg (Finset.subset_univ _) fun i _ _ => sq_nonneg _
  constructor
  · intro h
    have test : ∀ c : ℝ, c ^ 2 = 1 → 0 < 2 + 2 * ρ * c := by
      intro c hc
      let v : Fin (dx + dy) → ℝ := Pi.single (Fin.castAdd dy ⟨0, hx⟩) 1 + Pi.single (Fin.natAdd dx ⟨0, hy⟩) c
      have v1 : v (Fin.castAdd dy ⟨0, hx⟩) = 1 := by
        simp only [v, Pi.add_apply, Pi.single_eq_same, Pi.single_eq_of_ne hne, add_zero]
      have v2 : v (Fin.natAdd dx ⟨0, hy⟩) = c := by
        simp only [v, Pi.add_apply, Pi.single_eq_same, Pi.single_eq_of_ne hne.symm, zero_add]
      have hv : v ≠ 0 := fun h0 => by
        have := congrFun h0 (Fin.castAdd dy ⟨0, hx⟩)
        rw [v1] at this
        exact one_ne_zero this
      have := h.dotProduct_mulVec_pos hv
      rw [star_trivial, oneCorrelated_form hx hy, v1, v2] at this
      have e : ∑ i, v i ^ 2 = 2 := by
        rw [← Finset.sum_subset (Finset.subset_univ {Fin.castAdd dy ⟨0, hx⟩, Fin.natAdd dx ⟨0, hy⟩}), Finset.sum_pair hne, v1, v2, hc]
        · norm_num
        · intro i _ hi
          simp only [Finset.mem_insert, Finset.mem_singleton, not_or] at hi
          simp only [v, Pi.add_apply, Pi.single_eq_of_ne hi.1, Pi.single_eq_of_ne hi.2, add_zero, ne_eq, OfNat.ofNat_ne_zero, not_false_eq_true, zero_pow]
      rw [e] at this
      linarith
    have h1 := test 1 (by norm_num)
    have h2 := test (-1) (by norm_num)
    rw [abs_lt]
    constructor <;> linarith
  · intro h
    refine Matrix.PosDef.of_dotProduct_mulVec_pos ?_ fun x hx0 => ?_
    · ext i j
      simp only [Matrix.conjTranspose_apply, oneCorrelated, star_trivial]
      by_cases h1 : (i : ℕ) = j
      · rw [if_pos h1, if_pos h1.symm]
      · rw [if_neg h1, if_neg fun h => h1 h.symm]
        congr 1
        simp only [eq_iff_iff]
        tauto
    · rw [star_trivial, oneCorrelated_form hx hy]
      have hs : 0 < ∑ i, x i ^ 2 := by
        obtain ⟨i, hi⟩ := Function.ne_iff.1 hx0
        exact Finset.sum_pos' (fun _ _ => sq_nonneg _) ⟨i, Finset.mem_univ _, by
          have : x i ≠ 0 := hi
          positivity⟩
      have h2 := two x
      generalize x (Fin.castAdd dy ⟨0, hx⟩) = a at *
      generalize x (Fin.natAdd dx ⟨0, hy⟩) = b at *
      obtain ⟨g1, g2⟩ := abs_lt.1 h
      have k1 : -(a ^ 2 + b ^ 2) ≤ 2 * (a * b) := by nlinarith [sq_nonneg (a + b)]
      have k2 : 2 * (a * b) ≤ a ^ 2 + b ^ 2 := by nlinarith [sq_nonneg (a - b)]
      have k3 : |2 * (a * b)| ≤ ∑ i, x i ^ 2 := abs_le.2 ⟨by linarith, by linarith⟩
      have k4 : |ρ * (2 * (a * b))| < ∑ i, x i ^ 2 := by
        rw [abs_mul]
        calc |ρ| * |2 * (a * b)| ≤ |ρ| * ∑ i, x i ^ 2 := mul_le_mul_of_nonneg_left k3 (abs_nonneg ρ)
          _ < 1 * ∑ i, x i ^ 2 := mul_lt_mul_of_pos_right h hs
          _ = _ := one_mul _
      have := (abs_lt.1 k4).1
      linarith

theorem oneCorrelated_number (hx : 0 < dx) (hy : 0 < dy) (h : |ρ| < 1) :
    (Real.log (blockX (oneCorrelated dx dy ρ)).det + Real.log (blockY (oneCorrelated dx dy ρ)).det
      - Real.log (oneCorrelated dx dy ρ).det) / 2 = -(1 / 2) * Real.log (1 - ρ ^ 2) := by
  have hm : 0 < min dx dy := by omega
  have := (Cca.canonical_number (oneCorrelated dx dy ρ) ((oneCorrelated_posDef_iff hx hy).2 h) ?_ ?_ ?_
    (fun i : Fin (min dx dy) => if (i : ℕ) = 0 then ρ else 0) ?_).2
  · rw [this, Finset.sum_eq_single (⟨0, hm⟩ : Fin (min dx dy))]
    · simp
      ring
    · intro b _ hb
      have : (b : ℕ) ≠ 0 := fun h => hb (Fin.ext h)
      simp [this]
    · simp
  · intro i j hij
    have : (i : ℕ) ≠ j := fun h => hij (Fin.ext h)
    simp only [oneCorrelated, Fin.val_castAdd]
    rw [if_neg this, if_neg (by omega)]
  · intro i j hij
    have : (i : ℕ) ≠ j := fun h => hij (Fin.ext h)
    simp only [oneCorrelated, Fin.val_natAdd]
    rw [if_neg (by omega), if_neg (by omega)]
  · intro i j hij
    simp only [oneCorrelated, Fin.val_natAdd, Fin.val_castAdd]
    rw [if_neg (by omega), if_neg (by omega)]
  · intro i
    simp only [oneCorrelated, Fin.val_natAdd, Fin.val_castAdd, if_true, mul_one, div_one]
    by_cases hi : (i : ℕ) = 0
    · simp only [hi, if_true, add_zero]
      rw [if_neg (by omega)]
      simp
    · rw [if_neg hi, if_neg (by omega), if_neg (by omega)]

theorem generateCovariance_ok (hx : 0 < dx) (hy : 0 < dy) (ρ : ℝ) : generateCovariance ρ dx dy = .ok (rowsOf (oneCorrelated dx dy ρ)) := by
  unfold generateCovariance
  simp only
  rw [if_neg (by omega), if_neg (by omega), if_neg (by omega)]
  congr 1
  have : ((dx : ℤ) + dy).toNat = dx + dy := by omega
  have key : ∀ m : ℕ, m = dx + dy → ∀ f : ℕ → ℕ → ℝ, (rowsOf fun i j : Fin m => f i j) = rowsOf fun i j : Fin (dx + dy) => f i j := by
    rintro m rfl f
    rfl
  rw [Int.toNat_natCast]
  have h2 := key _ this fun i j => if (i, j) = (0, dx) ∨ (i, j) = (dx, 0) then ρ else if i = j then 1 else 0
  simp only [Fin.ext_iff]
  refine h2.trans ?_
  congr 1
  funext i j
  simp only [oneCorrelated, Prod.mk.injEq]
  by_cases h1 : (i : ℕ) = j
  · rw [if_pos h1, if_neg (by omega), if_pos h1]
  · rw [if_neg h1, if_neg h1]

end

/-- **C87** A base sampler is made exactly for positive dimensions and a correlation inside of (-1, 1).  The correlation -1 passes the
assertion and is refused with `ValueError`. -/
theorem createBaseSampler_iff (R : JaxRandom Key) (dimX dimY : ℤ) (ρ : ℝ) :
    ((∃ s, createBaseSampler R dimX dimY ρ = .ok s) ↔ 0 < dimX ∧ 0 < dimY ∧ |ρ| < 1) ∧
      (0 < dimX → 0 < dimY → ¬ |ρ| < 1 → createBaseSampler R dimX dimY ρ = .error (if ρ = -1 then .valueError else .assertionError)) := by
  by_cases hd : 0 < dimX ∧ 0 < dimY
  · obtain ⟨h1, h2⟩ := hd
    obtain ⟨dx, rfl⟩ := Int.eq_ofNat_of_zero_le h1.le
    obtain ⟨dy, rfl⟩ := Int.eq_ofNat_of_zero_le h2.le
    have hx : 0 < dx := by omega
    have hy : 0 < dy := by omega
    have hm : entries (((dx : ℤ)).toNat + ((dy : ℤ)).toNat) (rowsOf (oneCorrelated dx dy ρ)) = oneCorrelated dx dy ρ :=
      toMatrix_rowsOf (oneCorrelated dx dy ρ)
    have acc := splitMultinormal_accepts_iff_partial R dx dy (rowsOf (oneCorrelated dx dy ρ)) none (by
      rw [hm]
      refine Matrix.IsSymm.ext fun i j => ?_
      simp only [oneCorrelated]
      by_cases h1 : (i : ℕ) = j
      · rw [if_pos h1, if_pos h1.symm]
      · rw [if_neg h1, if_neg fun h => h1 h.symm]
        congr 1
        simp only [eq_iff_iff]
        tauto)
    have hs := hasShape_rowsOf (oneCorrelated dx dy ρ)
    rw [hm, oneCorrelated_posDef_iff hx hy] at acc
    have acc1 : (∃ s, splitMultinormal R dx dy (rowsOf (oneCorrelated dx dy ρ)) none = .ok s) ↔ |ρ| < 1 := by
      rw [acc.1]
      refine ⟨fun h => h.2.2.2.2.2, fun h => ⟨h1, h2, by simp, by rw [hs.1]; simp, fun r hr => by rw [hs.2 r hr]; simp, h⟩⟩
    unfold createBaseSampler
    rw [generateCovariance_ok hx hy]
    simp only [bind, Except.bind]
    constructor
    · constructor
      · rintro ⟨s, h⟩
        split_ifs at h with ha
        exact ⟨h1, h2, acc1.1 ⟨s, h⟩⟩
      · rintro ⟨-, -, h⟩
        obtain ⟨s, hs⟩ := acc1.2 h
        obtain ⟨g1, g2⟩ := abs_lt.1 h
        exact ⟨s, by rw [if_neg (by push Not; exact ⟨g1.le, g2⟩)]; exact hs⟩
    · intro _ _ h
      by_cases hr : ρ = -1
      · rw [if_pos hr, if_neg (by rw [hr]; norm_num)]
        exact acc.2 fun ⟨s, hs⟩ => h (acc1.1 ⟨s, hs⟩)
      · rw [if_neg hr, if_pos]
        rintro ⟨g1, g2⟩
        exact h (abs_lt.2 ⟨lt_of_le_of_ne g1 fun h => hr h.symm, g2⟩)
  · refine ⟨⟨fun ⟨s, h⟩ => absurd ?_ hd, fun h => absurd ⟨h.1, h.2.1⟩ hd⟩, fun h1 h2 => absurd ⟨h1, h2⟩ hd⟩
    unfold createBaseSampler at h
    split_ifs at h with ha
    simp only [bind, Except.bind] at h
    split at h
    · cases h
    · obtain ⟨g1, g2, g3, g4, g5, g6, -⟩ := splitMultinormal_inv h
      exact ⟨by omega, by omega⟩

theorem zero_text : fixed 2 (0.0 : ℝ) = "0.00" ∧ fixed 2 (0.02 : ℝ) = "0.02" ∧ fixed 2 (0.1 : ℝ) = "0.10" ∧ fixed 2 (0.5 : ℝ) = "0.50" ∧
    fixed 2 (1.0 : ℝ) = "1.00" ∧ fixed 2 (10.0 : ℝ) = "10.00" := by
  refine ⟨?_, ?_, ?_, ?_, ?_, ?_⟩
  · rw [fixed_of (c := 0) (by norm_num) (by norm_num)]; rfl
  · rw [fixed_of (c := 2) (by norm_num) (by norm_num)]; rfl
  · rw [fixed_of (c := 10) (by norm_num) (by norm_num)]; rfl
  · rw [fixed_of (c := 50) (by norm_num) (by norm_num)]; rfl
  · rw [fixed_of (c := 100) (by norm_num) (by norm_num)]; rfl
  · rw [fixed_of (c := 1000) (by norm_num) (by norm_num)]; rfl

/-- **C87**, what `main` does once the imports have succeeded; in full: running ksg_spiral.py does this, which is false, since the import
of `bmi.api` fails (`Scripts.spiral_fails`).  For at least two dimensions of `X` the script prints the true mutual information, the estimate `e 0` for a sample, and a table of
estimates `e c` for the same sample with the points `x` turned by `c |x|²`.  The pairs so distorted have the same mutual information.  The
line for the speed 0 repeats the estimate without distortion. -/
theorem experiment_partial (R : JaxRandom Key) (κ : Measure Key) [IsProbabilityMeasure κ] (hR : IdealRandom R κ) (ksg : Ksg) (dx dy n : ℕ)
    (ρ : ℝ) (seed : ℤ) (hx : 1 < dx) (hy : 0 < dy) (hρ : |ρ| < 1) (hw : Works (ksg [5, 10]) n dx dy) :
    ∃ (b : Sampler Key) (x : Fin n → Fin dx → ℝ) (y : Fin n → Fin dy → ℝ) (e : ℝ → ℝ),
      Correct R κ b dx dy (normalPair dx dy (oneCorrelated dx dy ρ)) ∧ b.mi = -(1 / 2) * Real.log (1 - ρ ^ 2) ∧
      b.sample n (.seed seed) = .ok (rowsOf x, rowsOf y) ∧
      ksg [5, 10] (rowsOf x) (rowsOf y) = .ok (e 0) ∧
      (∀ c, ksg [5, 10] (rowsOf fun i => turn ⟨0, by omega⟩ ⟨1, hx⟩ (c * sumSq (x i)) (x i)) (rowsOf y) = .ok (e c)) ∧
      (∀ c, mutualInfo (turnedPair dx dy (oneCorrelated dx dy ρ) ⟨0, by omega⟩ ⟨1, hx⟩ c) = ENNReal.ofReal b.mi) ∧
      experiment R ksg ⟨dx, dy, ρ, n, seed⟩ = .ok ["True MI: " ++ fixed 3 b.mi, "KSG(X; Y) without distortion: " ++ fixed 3 (e 0),
        "-------------------", "speed\tKSG(spiral(X); Y)", "0.00\t " ++ fixed 3 (e 0), "0.02\t " ++ fixed 3 (e 0.02),
        "0.10\t " ++ fixed 3 (e 0.1), "0.50\t " ++ fixed 3 (e 0.5), "1.00\t " ++ fixed 3 (e 1), "10.00\t " ++ fixed 3 (e 10)] := by
  have hpos := (oneCorrelated_posDef_iff (ρ := ρ) (by omega : 0 < dx) hy).2 hρ
  obtain ⟨b, hb, hc⟩ := splitMultinormal_correct R κ hR dx dy (by omega) hy 0 _ hpos
  obtain ⟨b', hb', hn⟩ := splitMultinormal_number R dx dy (by omega) hy 0 _ hpos
  obtain rfl : b' = b := Except.ok.inj (hb'.symm.trans hb)
  have hc : Correct R κ b' dx dy (normalPair dx dy (oneCorrelated dx dy ρ)) := hc
  have h01 : (⟨0, by omega⟩ : Fin dx) < ⟨1, hx⟩ := by simp [Fin.lt_def]
  have eb : createBaseSampler R dx dy ρ = .ok b' := by
    obtain ⟨g1, g2⟩ := abs_lt.1 hρ
    unfold createBaseSampler
    rw [if_neg (by push Not; exact ⟨g1.le, g2⟩), generateCovariance_ok (by omega) hy]
    simp only [bind, Except.bind]
    exact (splitMultinormal_default_mean R dx dy _).trans hb
  obtain ⟨x, y, hs⟩ := sample_rows hc n seed
  have one := fun c : ℝ => hw (fun i => turn ⟨0, by omega⟩ ⟨1, hx⟩ (c * sumSq (x i)) (x i)) y
  choose e he using one
  have he0 : ksg [5, 10] (rowsOf x) (rowsOf y) = .ok (e 0) := by
    have := he 0
    simp only [zero_mul, turn_zero] at this
    exact this
  refine ⟨b', x, y, e, hc, hn.trans (oneCorrelated_number (by omega) hy hρ), hs, he0, he, fun c => ?_, ?_⟩
  · obtain ⟨s, -, h2, h3⟩ := turned_correct hc h01 c
    rw [← h2]
    exact h3.mi
  · have eg : soGenerator dx 0 1 = .ok (planeGen ⟨0, by omega⟩ ⟨1, hx⟩) := by
      simpa using soGenerator_eq_planeGen (⟨0, by omega⟩ : Fin dx) ⟨1, hx⟩ h01
    have line : ∀ c, tableLine ksg b' ⟨_, _, planeGen ⟨0, by omega⟩ ⟨1, hx⟩⟩ (rowsOf x) (rowsOf y) c
        = .ok (fixed 2 c ++ "\t " ++ fixed 3 (e c)) := by
      intro c
      obtain ⟨s, h1, -, -⟩ := turned_correct hc h01 c
      unfold tableLine
      simp only [spiral_none, bind, Except.bind]
      rw [h1]
      simp only
      rw [spiral_acts h01 c n x]
      have := he c
      simp only [defaultNeighborhoods, Transform.vectorized]
      rw [this]
    obtain ⟨t0, t1, t2, t3, t4, t5⟩ := zero_text
    have z0 : (0.0 : ℝ) = 0 := by norm_num
    have z1 : (1.0 : ℝ) = 1 := by norm_num
    have z10 : (10.0 : ℝ) = 10 := by norm_num
    have el : speeds.mapM (tableLine ksg b' ⟨_, _, planeGen ⟨0, by omega⟩ ⟨1, hx⟩⟩ (rowsOf x) (rowsOf y))
        = .ok (speeds.map fun c => fixed 2 c ++ "\t " ++ fixed 3 (e c)) := MiFigure.mapM_ok _ _ _ fun c _ => line c
    unfold experiment
    simp only [eb, bind, Except.bind, hs, defaultNeighborhoods, he0]
    rw [Int.toNat_natCast, eg]
    simp only [el]
    simp only [speeds, List.map_cons, List.map_nil, t0, t1, t2, t3, t4, t5]
    rw [z0, z1, z10]
    rfl

/-- **C87** With one dimension of `X` `main` raises, after the estimate. -/
theorem experiment_one (R : JaxRandom Key) (κ : Measure Key) (hR : IdealRandom R κ) (ksg : Ksg) (dy n : ℕ)
    (ρ : ℝ) (seed : ℤ) (hy : 0 < dy) (hρ : |ρ| < 1) (hw : Works (ksg [5, 10]) n 1 dy) :
    experiment R ksg ⟨1, dy, ρ, n, seed⟩ = .error .valueError := by
  have hpos := (oneCorrelated_posDef_iff (ρ := ρ) one_pos hy).2 hρ
  obtain ⟨b, hb, hc⟩ := splitMultinormal_correct R κ hR 1 dy one_pos hy 0 _ hpos
  have eb : createBaseSampler R 1 dy ρ = .ok b := by
    obtain ⟨g1, g2⟩ := abs_lt.1 hρ
    unfold createBaseSampler
    rw [if_neg (by push Not; exact ⟨g1.le, g2⟩), show (1 : ℤ) = ((1 : ℕ) : ℤ) from rfl, generateCovariance_ok one_pos hy]
    simp only [bind, Except.bind]
    exact (splitMultinormal_default_mean R 1 dy _).trans hb
  obtain ⟨x, y, hs⟩ := sample_rows hc n seed
  obtain ⟨v, hv⟩ := hw x y
  unfold experiment
  simp only [eb, bind, Except.bind, hs, defaultNeighborhoods, hv]
  rfl

/-- **C82** The identifiers of the figure of spirals end in the speeds. -/
theorem spiral_identifiers : ∀ p ∈ MiFigure.taskList, p.1 = "spiral-0.8-" ++ fixed 1 p.2 := by
  have key : ∀ (v : ℝ) (c : ℕ), 0 ≤ v → v * 10 = c → fixed 1 v = toString (c / 10) ++ "." ++ toString (c % 10) := by
    intro v c h0 h
    rw [fixed_of (c := c) h0 (by rw [pow_one, h]; norm_num)]
    simp [List.range_succ, String.join]
  intro p hp
  simp only [MiFigure.taskList, List.mem_cons, List.not_mem_nil, or_false] at hp
  rcases hp with rfl | rfl | rfl | rfl | rfl | rfl | rfl
  · rw [key _ 0 (by norm_num) (by norm_num)]; rfl
  · rw [key _ 1 (by norm_num) (by norm_num)]; rfl
  · rw [key _ 3 (by norm_num) (by norm_num)]; rfl
  · rw [key _ 5 (by norm_num) (by norm_num)]; rfl
  · rw [key _ 7 (by norm_num) (by norm_num)]; rfl
  · rw [key _ 10 (by norm_num) (by norm_num)]; rfl
  · rw [key _ 15 (by norm_num) (by norm_num)]; rfl

/-! ## Examples -/

/-- The estimator of Kraskov, Stögbauer and Grassberger, without standardisation. -/
noncomputable def exampleKsg : Ksg := fun ks x y =>
  (KSG.fastFit 0 (fun _ f => (Tuple.sort f : _ → _)) ⟨ks, false, .euclidean, .euclidean⟩ 10
    ⟨x.length, (x.headD []).length, fun i j => (x.getD i []).getD j 0⟩
    ⟨y.length, (y.headD []).length, fun i j => (y.getD i []).getD j 0⟩).map
      fun preds => (preds.map fun p => p.2.toReal).sum / preds.length

theorem exampleKsg_works {ks : List ℕ} (hk : ks ≠ []) {n dx dy : ℕ} (hn : ∀ k ∈ ks, k < n) (hx : 0 < dx) (hy : 0 < dy) :
    Works (exampleKsg ks) n dx dy := by
  intro x y
  have hn0 : 0 < n := by
    obtain ⟨k, hk⟩ := List.exists_mem_of_ne_nil ks hk
    exact lt_of_le_of_lt (Nat.zero_le _) (hn k hk)
  obtain ⟨n, rfl⟩ : ∃ m, n = m + 1 := ⟨n - 1, by omega⟩
  obtain ⟨preds, hp⟩ := KSG.fit_enough 0 (fun _ f => (Tuple.sort f : _ → _)) ⟨ks, false, .euclidean, .euclidean⟩ hk 10 (by norm_num)
    ⟨(rowsOf x).length, ((rowsOf x).headD []).length, fun i j => ((rowsOf x).getD i []).getD j 0⟩
    ⟨(rowsOf y).length, ((rowsOf y).headD []).length, fun i j => ((rowsOf y).getD i []).getD j 0⟩ (by simp [rowsOf])
    (by simpa [rowsOf, List.ofFn_succ] using ⟨hx, hy⟩) (by simpa [rowsOf] using hn)
  refine ⟨(preds.map fun p => p.2.toReal).sum / preds.length, ?_⟩
  unfold exampleKsg
  rw [hp]
  rfl

example : ∃ ps, main11 tree exampleKsg = .ok ps ∧ ps.length = 3 := by
  obtain ⟨ps, h1, h2⟩ := main11_partial tree treeLaw tree_ideal exampleKsg (exampleKsg_works (by simp) (by simp) one_pos one_pos)
  exact ⟨ps, h1, h2.length_eq.symm⟩

example : ∃ ps, main21 tree exampleKsg = .ok ps ∧ ps.length = 3 := by
  obtain ⟨ps, h1, h2⟩ := main21_partial tree treeLaw tree_ideal exampleKsg (exampleKsg_works (by simp) (by simp) two_pos one_pos)
  exact ⟨ps, h1, h2.length_eq.symm⟩

/-- The default arguments. -/
example : ∃ ls, experiment tree exampleKsg {} = .ok ls ∧ ls.length = 10 := by
  obtain ⟨b, x, y, e, -, -, -, -, -, -, h⟩ := experiment_partial tree treeLaw tree_ideal exampleKsg 3 2 5000 0.8 42 (by norm_num) (by norm_num)
    (by rw [abs_lt]; norm_num) (exampleKsg_works (by simp) (by simp) (by norm_num) (by norm_num))
  exact ⟨_, h, rfl⟩

example : experiment tree exampleKsg { dimX := 1 } = .error .valueError :=
  experiment_one tree treeLaw tree_ideal exampleKsg 2 5000 0.8 42 (by norm_num) (by rw [abs_lt]; norm_num)
    (exampleKsg_works (by simp) (by simp) (by norm_num) (by norm_num))

example : createBaseSampler tree 3 2 (-1) = .error .valueError := by
  have := (createBaseSampler_iff tree 3 2 (-1)).2 (by norm_num) (by norm_num) (by norm_num)
  simpa using this

end BMI.Concept
