import Verif.Lemmas.Losses
import Verif.Lemmas.InfoNCE

/-! Properties C29, C30 and C31: the objectives of the neural estimators
(/repo/src/bmi/estimators/neural/_backend_linear_memory.py, _backend_quadratic_memory.py). -/

namespace BMI.Neural

open MeasureTheory

variable {X Y : Type}

/-- A batch of `n` pairs as two functions. -/
theorem exists_ofFn (xs : List X) (ys : List Y) (h : xs.length = ys.length) :
    ∃ (n : ℕ) (x : Fin n → X) (y : Fin n → Y), xs.length = n ∧ xs = List.ofFn x ∧ ys = List.ofFn y :=
  ⟨xs.length, xs.get, fun i => ys.get (i.cast h), rfl, (List.ofFn_get xs).symm, by
    apply List.ext_getElem
    · simp [h]
    · intro i h1 h2
      simp⟩

/-! ## C29 -/

/-- **C29**: Donsker-Varadhan, both backends. -/
theorem donskerVaradhan_backends (f : X → Y → ℝ) (xs : List X) (ys : List Y) (h : xs.length = ys.length)
    (hn : 2 ≤ xs.length) : Linear.donskerVaradhan f xs ys = Quadratic.donskerVaradhan f xs ys := by
  obtain ⟨n, x, y, hl, rfl, rfl⟩ := exists_ofFn xs ys h
  rw [hl] at hn
  rw [Linear.donskerVaradhan_eq hn, Quadratic.donskerVaradhan_eq hn]

/-- **C29**: NWJ, both backends. -/
theorem nwj_backends (f : X → Y → ℝ) (xs : List X) (ys : List Y) (h : xs.length = ys.length)
    (hn : 2 ≤ xs.length) : Linear.nwj f xs ys = Quadratic.nwj f xs ys := by
  obtain ⟨n, x, y, hl, rfl, rfl⟩ := exists_ofFn xs ys h
  rw [hl] at hn
  rw [Linear.nwj_eq hn, Quadratic.nwj_eq hn]

/-- **C29**: InfoNCE, both backends (here a single pair is enough). -/
theorem infonce_backends (f : X → Y → ℝ) (xs : List X) (ys : List Y) (h : xs.length = ys.length)
    (hn : 1 ≤ xs.length) : Linear.infonce f xs ys = Quadratic.infonce f xs ys := by
  obtain ⟨n, x, y, hl, rfl, rfl⟩ := exists_ofFn xs ys h
  rw [hl] at hn
  rw [Linear.infonce_eq hn, Quadratic.infonce_eq hn]

/-- **C29**: the common values are the documented formulas, and finite. -/
theorem objectives_formulas {n : ℕ} (f : X → Y → ℝ) (x : Fin n → X) (y : Fin n → Y) (hn : 2 ≤ n) :
    Linear.donskerVaradhan f (List.ofFn x) (List.ofFn y) = ((Spec.donskerVaradhan f x y : ℝ) : EReal) ∧
    Linear.nwj f (List.ofFn x) (List.ofFn y) = ((Spec.nwj f x y : ℝ) : EReal) ∧
    Linear.infonce f (List.ofFn x) (List.ofFn y) = ((Spec.infonce f x y : ℝ) : EReal) :=
  ⟨Linear.donskerVaradhan_eq hn f x y, Linear.nwj_eq hn f x y, Linear.infonce_eq (by omega) f x y⟩

example : Linear.nwj (fun x y : ℝ => x * y) [1, 2, 3] [0, 5, -1] = Quadratic.nwj (fun x y => x * y) [1, 2, 3] [0, 5, -1] :=
  nwj_backends _ _ _ rfl (by simp)

/-! ## C30 -/

/-- **C30**: InfoNCE never exceeds the logarithm of the batch size. -/
theorem infonce_le_log (f : X → Y → ℝ) (xs : List X) (ys : List Y) (h : xs.length = ys.length) (hn : 1 ≤ xs.length) :
    Linear.infonce f xs ys ≤ ((Real.log xs.length : ℝ) : EReal) := by
  obtain ⟨n, x, y, hl, rfl, rfl⟩ := exists_ofFn xs ys h
  rw [hl] at hn ⊢
  haveI : NeZero n := ⟨by omega⟩
  have hn' : (0 : ℝ) < n := by exact_mod_cast hn
  rw [Linear.infonce_eq hn, EReal.coe_le_coe_iff]
  unfold Spec.infonce
  rw [div_le_iff₀ hn']
  have : ∀ i, Real.log (Real.exp (f (x i) (y i)) / ((∑ j, Real.exp (f (x i) (y j))) / n)) ≤ Real.log n := by
    intro i
    have hS : 0 < ∑ j, Real.exp (f (x i) (y j)) := Finset.sum_pos (fun j _ => Real.exp_pos _) Finset.univ_nonempty
    refine Real.log_le_log (div_pos (Real.exp_pos _) (div_pos hS hn')) ?_
    rw [div_le_iff₀ (div_pos hS hn'), mul_div_cancel₀ _ hn'.ne']
    exact Finset.single_le_sum (f := fun j => Real.exp (f (x i) (y j))) (fun j _ => (Real.exp_pos _).le)
      (Finset.mem_univ i)
  refine (Finset.sum_le_sum fun i _ => this i).trans (le_of_eq ?_)
  rw [Finset.sum_const, Finset.card_univ, Fintype.card_fin, nsmul_eq_mul, mul_comm]

/-- **C30**: NWJ never exceeds Donsker-Varadhan. -/
theorem nwj_le_donskerVaradhan (f : X → Y → ℝ) (xs : List X) (ys : List Y) (h : xs.length = ys.length)
    (hn : 2 ≤ xs.length) : Linear.nwj f xs ys ≤ Linear.donskerVaradhan f xs ys := by
  obtain ⟨n, x, y, hl, rfl, rfl⟩ := exists_ofFn xs ys h
  rw [hl] at hn
  rw [Linear.nwj_eq hn, Linear.donskerVaradhan_eq hn, EReal.coe_le_coe_iff]
  unfold Spec.nwj Spec.donskerVaradhan
  have hp := Linear.negative_pos hn f x y
  have := Real.log_le_sub_one_of_pos (mul_pos (Real.exp_pos (-1)) hp)
  rw [Real.log_mul (Real.exp_ne_zero _) hp.ne', Real.log_exp] at this
  linarith

/-- **C30**: adding a constant to the critic does not change Donsker-Varadhan. -/
theorem donskerVaradhan_shift (f : X → Y → ℝ) (c : ℝ) (xs : List X) (ys : List Y) (h : xs.length = ys.length)
    (hn : 2 ≤ xs.length) :
    Linear.donskerVaradhan (fun x y => f x y + c) xs ys = Linear.donskerVaradhan f xs ys := by
  obtain ⟨n, x, y, hl, rfl, rfl⟩ := exists_ofFn xs ys h
  rw [hl] at hn
  have hn' : (0 : ℝ) < n := by exact_mod_cast (by omega : 0 < n)
  rw [Linear.donskerVaradhan_eq hn, Linear.donskerVaradhan_eq hn]
  congr 1
  unfold Spec.donskerVaradhan Spec.positive
  rw [Linear.negative_shift, Real.log_mul (Real.exp_ne_zero _) (Linear.negative_pos hn f x y).ne', Real.log_exp,
    Finset.sum_add_distrib, Finset.sum_const, Finset.card_univ, Fintype.card_fin, nsmul_eq_mul]
  field_simp
  ring

/-- **C30**: adding any function of `x` to the critic does not change InfoNCE. -/
theorem infonce_shift (f : X → Y → ℝ) (c : X → ℝ) (xs : List X) (ys : List Y) (h : xs.length = ys.length)
    (hn : 1 ≤ xs.length) : Linear.infonce (fun x y => f x y + c x) xs ys = Linear.infonce f xs ys := by
  obtain ⟨n, x, y, hl, rfl, rfl⟩ := exists_ofFn xs ys h
  rw [hl] at hn
  rw [Linear.infonce_eq hn, Linear.infonce_eq hn]
  congr 1
  unfold Spec.infonce
  congr 1
  refine Finset.sum_congr rfl fun i _ => ?_
  congr 1
  simp only [Real.exp_add]
  rw [← Finset.sum_mul, mul_div_right_comm (∑ j, _), mul_div_mul_right _ _ (Real.exp_ne_zero _)]

/-- **C30**: the objectives do not depend on the order of the pairs in the batch. -/
theorem objectives_order {n : ℕ} (f : X → Y → ℝ) (x : Fin n → X) (y : Fin n → Y) (σ : Equiv.Perm (Fin n)) (hn : 2 ≤ n) :
    Linear.donskerVaradhan f (List.ofFn (x ∘ σ)) (List.ofFn (y ∘ σ)) = Linear.donskerVaradhan f (List.ofFn x) (List.ofFn y) ∧
    Linear.nwj f (List.ofFn (x ∘ σ)) (List.ofFn (y ∘ σ)) = Linear.nwj f (List.ofFn x) (List.ofFn y) ∧
    Linear.infonce f (List.ofFn (x ∘ σ)) (List.ofFn (y ∘ σ)) = Linear.infonce f (List.ofFn x) (List.ofFn y) := by
  have hp : Spec.positive f (x ∘ σ) (y ∘ σ) = Spec.positive f x y := by
    unfold Spec.positive
    rw [← Equiv.sum_comp σ fun i => f (x i) (y i)]
    rfl
  have hq : Spec.negative f (x ∘ σ) (y ∘ σ) = Spec.negative f x y := by
    unfold Spec.negative
    congr 1
    rw [← Equiv.sum_comp σ fun i => ∑ j, if i = j then 0 else Real.exp (f (x i) (y j))]
    refine Finset.sum_congr rfl fun i _ => ?_
    rw [← Equiv.sum_comp σ fun j => if σ i = j then 0 else Real.exp (f (x (σ i)) (y j))]
    refine Finset.sum_congr rfl fun j _ => ?_
    simp [σ.injective.eq_iff]
  have hi : Spec.infonce f (x ∘ σ) (y ∘ σ) = Spec.infonce f x y := by
    unfold Spec.infonce
    congr 1
    rw [← Equiv.sum_comp σ fun i => Real.log (Real.exp (f (x i) (y i)) / ((∑ j, Real.exp (f (x i) (y j))) / n))]
    refine Finset.sum_congr rfl fun i _ => ?_
    rw [← Equiv.sum_comp σ fun j => Real.exp (f (x (σ i)) (y j))]
    rfl
  refine ⟨?_, ?_, ?_⟩
  · rw [Linear.donskerVaradhan_eq hn, Linear.donskerVaradhan_eq hn, Spec.donskerVaradhan, hp, hq]
    rfl
  · rw [Linear.nwj_eq hn, Linear.nwj_eq hn, Spec.nwj, hp, hq]
    rfl
  · rw [Linear.infonce_eq (by omega), Linear.infonce_eq (by omega), hi]

example : Linear.infonce (fun x y : ℝ => x * y) [1, 2] [0, 5] ≤ ((Real.log 2 : ℝ) : EReal) :=
  infonce_le_log _ [1, 2] [0, 5] rfl (by simp)

/-- InfoNCE is not symmetric in its arguments: adding a function of `y` does change it, which is why C30 speaks of
functions of `x` only. -/
theorem infonce_shift_y : Linear.infonce (fun _ y : ℝ => 0 + y) [0, 0] [0, 1]
    ≠ Linear.infonce (fun _ _ : ℝ => (0 : ℝ)) [0, 0] [0, 1] := by
  have h1 := Linear.infonce_eq (n := 2) (by omega) (fun _ y : ℝ => 0 + y) ![0, 0] ![0, 1]
  have h2 := Linear.infonce_eq (n := 2) (by omega) (fun _ _ : ℝ => (0 : ℝ)) ![0, 0] ![0, 1]
  simp only [List.ofFn_succ, List.ofFn_zero, Matrix.cons_val_zero, Matrix.cons_val_succ, Fin.succ_zero_eq_one,
    Matrix.cons_val_one] at h1 h2
  rw [h1, h2]
  intro h
  have h := EReal.coe_injective h
  unfold Spec.infonce at h
  simp only [Fin.sum_univ_two, Matrix.cons_val_zero, Matrix.cons_val_one, zero_add, Real.exp_zero] at h
  have hp : (0 : ℝ) < (1 + Real.exp 1) / 2 := by positivity
  norm_num at h
  rw [Real.log_div (Real.exp_ne_zero _) (by positivity), Real.log_div (by norm_num) (by positivity), Real.log_exp] at h
  have hl : Real.log ((1 + Real.exp 1) / 2) = 1 / 2 := by
    have := Real.log_div (show (1 + Real.exp 1) ≠ 0 by positivity) (show (2 : ℝ) ≠ 0 by norm_num)
    linarith
  have he : (1 + Real.exp 1) / 2 = Real.exp (1 / 2) := by rw [← hl, Real.exp_log hp]
  have hs : Real.exp 1 = Real.exp (1 / 2) * Real.exp (1 / 2) := by rw [← Real.exp_add]; norm_num
  have h1 : 1 < Real.exp (1 / 2) := Real.one_lt_exp_iff.2 (by norm_num)
  nlinarith

/-! ## C31 -/

variable [MeasurableSpace X] [MeasurableSpace Y]

/-- **C31**: the population Donsker-Varadhan objective is at most the mutual information. -/
theorem donskerVaradhan_le_mi (P : Measure (X × Y)) [IsProbabilityMeasure P] (f : X → Y → ℝ)
    (hP : Integrable (fun p : X × Y => f p.1 p.2) P)
    (hQ : Integrable (fun p : X × Y => Real.exp (f p.1 p.2)) (P.fst.prod P.snd)) :
    ENNReal.ofReal (∫ p, f p.1 p.2 ∂P - Real.log (∫ p, Real.exp (f p.1 p.2) ∂(P.fst.prod P.snd))) ≤ mutualInfo P :=
  donskerVaradhan_bound P (P.fst.prod P.snd) hP hQ

/-- The expectation of NWJ over independent batches. -/
theorem integral_nwj (P : Measure (X × Y)) [IsProbabilityMeasure P] (f : X → Y → ℝ)
    (hP : Integrable (fun p : X × Y => f p.1 p.2) P)
    (hQ : Integrable (fun p : X × Y => Real.exp (f p.1 p.2)) (P.fst.prod P.snd)) (n : ℕ) (hn : 2 ≤ n) :
    Integrable (fun b => (Linear.nwj f (List.ofFn fun i => (b i).1) (List.ofFn fun i => (b i).2)).toReal)
        (Measure.pi fun _ : Fin n => P) ∧
    ∫ b, (Linear.nwj f (List.ofFn fun i => (b i).1) (List.ofFn fun i => (b i).2)).toReal
        ∂(Measure.pi fun _ : Fin n => P)
      = ∫ p, f p.1 p.2 ∂P - Real.exp (-1) * ∫ p, Real.exp (f p.1 p.2) ∂(P.fst.prod P.snd) := by
  have hn' : (0 : ℝ) < n := by exact_mod_cast (by omega : 0 < n)
  have hn1 : (0 : ℝ) < n * (n - 1) := by
    have : (2 : ℝ) ≤ n := by exact_mod_cast hn
    nlinarith
  simp only [Linear.nwj_eq hn, EReal.toReal_coe]
  unfold Spec.nwj Spec.positive Spec.negative
  have mp : ∀ i j : Fin n, Measurable fun b : Fin n → X × Y => ((b i).1, (b j).2) := fun i j =>
    (measurable_fst.comp (measurable_pi_apply i)).prodMk (measurable_snd.comp (measurable_pi_apply j))
  have i1 : ∀ i, Integrable (fun b : Fin n → X × Y => f (b i).1 (b i).2) (Measure.pi fun _ : Fin n => P) := fun i =>
    integrable_pair P i hP
  have i2 : ∀ i j, Integrable (fun b : Fin n → X × Y => if i = j then 0 else Real.exp (f (b i).1 (b j).2))
      (Measure.pi fun _ : Fin n => P) := fun i j => by
    by_cases hij : i = j
    · simp [hij]
    · simp only [if_neg hij]
      exact integrable_cross P hij hQ
  have i3 : Integrable (fun b : Fin n → X × Y => (∑ i, f (b i).1 (b i).2) / (n : ℝ)) (Measure.pi fun _ : Fin n => P) :=
    (integrable_finsetSum _ fun i _ => i1 i).div_const _
  have i4 : Integrable (fun b : Fin n → X × Y => Real.exp (-1) *
      ((∑ i, ∑ j, if i = j then 0 else Real.exp (f (b i).1 (b j).2)) / ((n : ℝ) * (n - 1))))
      (Measure.pi fun _ : Fin n => P) :=
    ((integrable_finsetSum _ fun i _ => integrable_finsetSum _ fun j _ => i2 i j).div_const _).const_mul _
  refine ⟨i3.sub i4, ?_⟩
  rw [integral_sub i3 i4, integral_div, integral_const_mul, integral_div, integral_finsetSum _ fun i _ => i1 i,
    integral_finsetSum _ fun i _ => integrable_finsetSum _ fun j _ => i2 i j]
  have e1 : ∀ i, ∫ b : Fin n → X × Y, f (b i).1 (b i).2 ∂(Measure.pi fun _ : Fin n => P) = ∫ p, f p.1 p.2 ∂P := by
    intro i
    exact integral_comp_eval (μ := fun _ : Fin n => P) (f := fun p : X × Y => f p.1 p.2) hP.1
  have e2 : ∀ i, ∫ b : Fin n → X × Y, (∑ j, if i = j then 0 else Real.exp (f (b i).1 (b j).2))
        ∂(Measure.pi fun _ : Fin n => P)
      = ∑ j, if i = j then 0 else ∫ p, Real.exp (f p.1 p.2) ∂(P.fst.prod P.snd) := by
    intro i
    rw [integral_finsetSum _ fun j _ => i2 i j]
    refine Finset.sum_congr rfl fun j _ => ?_
    by_cases hij : i = j
    · simp [hij]
    · simp only [if_neg hij]
      rw [← map_cross P hij, integral_map (mp i j).aemeasurable (by rw [map_cross P hij]; exact hQ.1)]
  simp only [e1, e2]
  have e3 : ∀ i : Fin n, (∑ j, if i = j then 0 else ∫ p, Real.exp (f p.1 p.2) ∂(P.fst.prod P.snd))
      = (n - 1) * ∫ p, Real.exp (f p.1 p.2) ∂(P.fst.prod P.snd) := by
    intro i
    have : ∀ j, (if i = j then 0 else ∫ p, Real.exp (f p.1 p.2) ∂(P.fst.prod P.snd))
        = (∫ p, Real.exp (f p.1 p.2) ∂(P.fst.prod P.snd))
          - if i = j then ∫ p, Real.exp (f p.1 p.2) ∂(P.fst.prod P.snd) else 0 := fun j => by
      split_ifs <;> ring
    simp only [this]
    rw [Finset.sum_sub_distrib, Finset.sum_ite_eq, if_pos (Finset.mem_univ _), Finset.sum_const, Finset.card_univ,
      Fintype.card_fin, nsmul_eq_mul]
    ring
  simp only [e3]
  rw [Finset.sum_const, Finset.sum_const, Finset.card_univ, Fintype.card_fin, nsmul_eq_mul, nsmul_eq_mul,
    mul_div_cancel_left₀ _ hn'.ne', ← mul_assoc, mul_div_cancel_left₀ _ hn1.ne']

/-- **C31**: over independent batches of any size, the expected NWJ objective is at most the mutual information. -/
theorem nwj_le_mi (P : Measure (X × Y)) [IsProbabilityMeasure P] (f : X → Y → ℝ)
    (hP : Integrable (fun p : X × Y => f p.1 p.2) P)
    (hQ : Integrable (fun p : X × Y => Real.exp (f p.1 p.2)) (P.fst.prod P.snd)) (n : ℕ) (hn : 2 ≤ n) :
    Integrable (fun b => (Linear.nwj f (List.ofFn fun i => (b i).1) (List.ofFn fun i => (b i).2)).toReal)
        (Measure.pi fun _ : Fin n => P) ∧
    ENNReal.ofReal (∫ b, (Linear.nwj f (List.ofFn fun i => (b i).1) (List.ofFn fun i => (b i).2)).toReal
        ∂(Measure.pi fun _ : Fin n => P)) ≤ mutualInfo P := by
  obtain ⟨hi, he⟩ := integral_nwj P f hP hQ n hn
  refine ⟨hi, ?_⟩
  rw [he]
  have e0 : (fun p : X × Y => Real.exp (f p.1 p.2 - 1)) = fun p => Real.exp (-1) * Real.exp (f p.1 p.2) := by
    funext p
    rw [← Real.exp_add]
    congr 1
    ring
  have h := gibbs P (P.fst.prod P.snd) (g := fun p => f p.1 p.2 - 1) (hP.sub (integrable_const (1 : ℝ))) (by
    rw [e0]
    exact hQ.const_mul _)
  have e1 : ∫ p : X × Y, (f p.1 p.2 - 1) ∂P = ∫ p, f p.1 p.2 ∂P - 1 := by
    rw [integral_sub hP (integrable_const _)]
    simp
  rw [e1, e0, integral_const_mul] at h
  refine le_trans (ENNReal.ofReal_le_ofReal (le_of_eq ?_)) h
  ring

/-- **C31**: over independent batches of any size, the expected InfoNCE objective is at most the mutual
information. -/
theorem infonce_le_mi (P : Measure (X × Y)) [IsProbabilityMeasure P] (f : X → Y → ℝ)
    (hP : Integrable (fun p : X × Y => f p.1 p.2) P) (hQ : Integrable (fun p : X × Y => f p.1 p.2) (P.fst.prod P.snd))
    (n : ℕ) (hn : 1 ≤ n) :
    Integrable (fun b => (Linear.infonce f (List.ofFn fun i => (b i).1) (List.ofFn fun i => (b i).2)).toReal)
        (Measure.pi fun _ : Fin n => P) ∧
    ENNReal.ofReal (∫ b, (Linear.infonce f (List.ofFn fun i => (b i).1) (List.ofFn fun i => (b i).2)).toReal
        ∂(Measure.pi fun _ : Fin n => P)) ≤ mutualInfo P := by
  obtain ⟨m, rfl⟩ : ∃ m, n = m + 1 := ⟨n - 1, by omega⟩
  have hn' : (0 : ℝ) < (m + 1 : ℕ) := by positivity
  simp only [Linear.infonce_eq hn, EReal.toReal_coe]
  unfold Spec.infonce
  have hI := fun i => integrable_log_share (m := m) P f hP hQ i
  refine ⟨(integrable_finsetSum _ fun i _ => hI i).div_const _, ?_⟩
  by_cases htop : mutualInfo P = ⊤
  · rw [htop]; exact le_top
  rw [ENNReal.ofReal_le_iff_le_toReal htop]
  -- a measurable version of the critic
  have hac : P ≪ P.fst.prod P.snd := (InformationTheory.klDiv_ne_top_iff.1 htop).1
  let g : X → Y → ℝ := fun x y => hQ.1.mk _ (x, y)
  have hg : Measurable fun p : X × Y => g p.1 p.2 := hQ.1.stronglyMeasurable_mk.measurable
  have hgf : (fun p : X × Y => f p.1 p.2) =ᵐ[P.fst.prod P.snd] fun p => g p.1 p.2 := hQ.1.ae_eq_mk
  have hgP := hP.congr (hac.ae_le hgf)
  have hgQ := hQ.congr hgf
  have hae : ∀ i : Fin (m + 1), ∀ᵐ b ∂(Measure.pi fun _ : Fin (m + 1) => P), ∀ j : Fin (m + 1),
      f (b i).1 (b j).2 = g (b i).1 (b j).2 := fun i => ae_all_iff.2 fun j => by
    by_cases hij : i = j
    · subst hij
      exact (measurePreserving_eval (fun _ : Fin (m + 1) => P) i).quasiMeasurePreserving.ae (hac.ae_le hgf)
    · have mp : Measurable fun b : Fin (m + 1) → X × Y => ((b i).1, (b j).2) :=
        (measurable_fst.comp (measurable_pi_apply i)).prodMk (measurable_snd.comp (measurable_pi_apply j))
      rw [← map_cross P hij] at hgf
      exact ae_of_ae_map mp.aemeasurable hgf
  rw [integral_div, div_le_iff₀ hn', integral_finsetSum _ fun i _ => hI i]
  refine (Finset.sum_le_sum fun i _ => ?_).trans (le_of_eq ?_) (b := ∑ _i : Fin (m + 1), (mutualInfo P).toReal)
  · refine (integral_congr_ae ?_).trans_le (integral_log_share_le P g hg hgP hgQ htop i)
    filter_upwards [hae i] with b hb
    simp only [hb]
  · rw [Finset.sum_const, Finset.card_univ, Fintype.card_fin, nsmul_eq_mul, mul_comm]

/-- The hypotheses of the three bounds hold, for instance, for every bounded critic. -/
theorem bounded_critic (P : Measure (X × Y)) [IsProbabilityMeasure P] (f : X → Y → ℝ)
    (hf : Measurable fun p : X × Y => f p.1 p.2) (C : ℝ) (hC : ∀ x y, |f x y| ≤ C) :
    Integrable (fun p : X × Y => f p.1 p.2) P ∧ Integrable (fun p : X × Y => f p.1 p.2) (P.fst.prod P.snd) ∧
    Integrable (fun p : X × Y => Real.exp (f p.1 p.2)) (P.fst.prod P.snd) :=
  ⟨integrable_of_bdd _ hf C fun p => hC _ _, integrable_of_bdd _ hf C fun p => hC _ _,
    integrable_exp_of_bdd _ hf C fun p => hC _ _⟩

/-- Two equal uniform variables and the critic `sin (x y)`. -/
example : ∃ (P : Measure (ℝ × ℝ)) (_ : IsProbabilityMeasure P),
    ENNReal.ofReal (∫ b, (Linear.infonce (fun x y : ℝ => Real.sin (x * y)) (List.ofFn fun i => (b i).1)
      (List.ofFn fun i => (b i).2)).toReal ∂(Measure.pi fun _ : Fin 64 => P)) ≤ mutualInfo P := by
  haveI : IsProbabilityMeasure (volume.restrict (Set.Icc (0 : ℝ) 1)) := ⟨by simp⟩
  haveI : IsProbabilityMeasure ((volume.restrict (Set.Icc (0 : ℝ) 1)).map fun x => (x, x)) :=
    Measure.isProbabilityMeasure_map (by fun_prop)
  obtain ⟨h1, h2, -⟩ := bounded_critic ((volume.restrict (Set.Icc (0 : ℝ) 1)).map fun x => (x, x))
    (fun x y : ℝ => Real.sin (x * y)) (by fun_prop) 1 fun x y => Real.abs_sin_le_one _
  exact ⟨(volume.restrict (Set.Icc (0 : ℝ) 1)).map fun x => (x, x), inferInstance, (infonce_le_mi _ _ h1 h2 64 (by norm_num)).2⟩

end BMI.Neural
