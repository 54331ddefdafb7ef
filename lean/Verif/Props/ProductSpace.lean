import Verif.Model.ProductSpace
import Mathlib.Tactic.Linarith
import Mathlib.Tactic.FieldSimp
import Mathlib.Tactic.Ring
import Mathlib.Algebra.Order.BigOperators.Group.Finset
import Mathlib.Algebra.BigOperators.Field

/-!
# C42 – `ProductSpace`
-/

namespace BMI.PSpace

/-! ### Standardisation of one column -/

/-- Specification: arithmetic mean. -/
noncomputable def avg {n : ℕ} (c : Fin n → ℝ) : ℝ := (∑ i, c i) / n

theorem colVar_nonneg {n : ℕ} (c : Fin n → ℝ) : 0 ≤ colVar c :=
  div_nonneg (Finset.sum_nonneg fun i _ => sq_nonneg _) (Nat.cast_nonneg n)

theorem colVar_eq_zero_iff {n : ℕ} (hn : 0 < n) (c : Fin n → ℝ) :
    colVar c = 0 ↔ ∀ i, c i = colMean c := by
  unfold colVar
  have hn' : (n : ℝ) ≠ 0 := by positivity
  rw [div_eq_zero_iff, or_iff_left hn', Finset.sum_eq_zero_iff_of_nonneg fun i _ => sq_nonneg _]
  simp [sub_eq_zero]

theorem sum_sub_mean {n : ℕ} (hn : 0 < n) (c : Fin n → ℝ) : ∑ i, (c i - colMean c) = 0 := by
  have hn' : (n : ℝ) ≠ 0 := by positivity
  rw [Finset.sum_sub_distrib]
  simp only [Finset.sum_const, Finset.card_univ, Fintype.card_fin, nsmul_eq_mul, colMean]
  field_simp; ring

/-- C42: every standardised column has mean zero. -/
theorem scaled_mean {n : ℕ} (hn : 0 < n) (ε : ℝ) (c : Fin n → ℝ) : avg (scaleCol ε c) = 0 := by
  unfold avg scaleCol
  rw [← Finset.sum_div, sum_sub_mean hn]; simp

/-- C42: a column that is not treated as constant has variance one after standardisation. -/
theorem scaled_var {n : ℕ} (ε : ℝ) (hε : 0 ≤ ε) (c : Fin n → ℝ) (hn : 0 < n)
    (hc : ¬ flagged ε c) :
    avg (fun i => (scaleCol ε c i - avg (scaleCol ε c)) ^ 2) = 1 := by
  have hpos : 0 < colVar c := by
    rcases (colVar_nonneg c).lt_or_eq with h | h
    · exact h
    · exfalso; apply hc; unfold flagged; rw [← h]; simp; positivity
  rw [scaled_mean hn]
  unfold avg scaleCol
  rw [if_neg hc]
  simp only [sub_zero, div_pow, Real.sq_sqrt hpos.le]
  rw [← Finset.sum_div, div_right_comm]
  exact div_self hpos.ne'

/-- C42: constant columns become zero. -/
theorem scaled_const {n : ℕ} (ε : ℝ) (c : Fin n → ℝ) (a : ℝ) (hc : ∀ i, c i = a) (i : Fin n) :
    scaleCol ε c i = 0 := by
  have hn : 0 < n := i.pos
  have hn' : (n : ℝ) ≠ 0 := by positivity
  have hm : colMean c = a := by
    unfold colMean; simp [hc]; field_simp
  unfold scaleCol
  rw [hm, hc i]; simp

/-- With exact arithmetic (ε = 0) the columns treated as constant are exactly the constant ones. -/
theorem flagged_zero_iff {n : ℕ} (hn : 0 < n) (c : Fin n → ℝ) :
    flagged 0 c ↔ ∀ i j, c i = c j := by
  unfold flagged
  have h0 := colVar_nonneg c
  simp only [mul_zero, zero_mul, ne_eq, OfNat.ofNat_ne_zero, not_false_eq_true, zero_pow, add_zero]
  constructor
  · intro h
    have := (colVar_eq_zero_iff hn c).1 (le_antisymm h h0)
    intro i j; rw [this i, this j]
  · intro h
    apply le_of_eq
    rw [colVar_eq_zero_iff hn]
    intro i
    have hn' : (n : ℝ) ≠ 0 := by positivity
    unfold colMean
    have : ∀ j, c j = c i := fun j => h j i
    simp [this]; field_simp

theorem colMean_affine {n : ℕ} (hn : 0 < n) (a b : ℝ) (c : Fin n → ℝ) :
    colMean (fun i => a * c i + b) = a * colMean c + b := by
  have hn' : (n : ℝ) ≠ 0 := by positivity
  unfold colMean
  rw [Finset.sum_add_distrib, ← Finset.mul_sum]
  simp; field_simp

theorem colVar_affine {n : ℕ} (hn : 0 < n) (a b : ℝ) (c : Fin n → ℝ) :
    colVar (fun i => a * c i + b) = a ^ 2 * colVar c := by
  unfold colVar
  rw [colMean_affine hn, ← mul_div_assoc, Finset.mul_sum]
  congr 1
  refine Finset.sum_congr rfl fun i _ => ?_
  ring

/-- C42: in exact arithmetic standardised data do not change when a column is shifted and rescaled by a
positive factor. -/
theorem scaled_affine_invariant {n : ℕ} (a b : ℝ) (ha : 0 < a) (c : Fin n → ℝ) (i : Fin n) :
    scaleCol 0 (fun i => a * c i + b) i = scaleCol 0 c i := by
  have hn : 0 < n := i.pos
  have hf : flagged 0 (fun i => a * c i + b) ↔ flagged 0 c := by
    rw [flagged_zero_iff hn, flagged_zero_iff hn]
    simp [ha.ne']
  unfold scaleCol
  rw [colMean_affine hn, colVar_affine hn]
  by_cases h : flagged 0 c
  · have hz : c i = colMean c := by
      have h0 := (flagged_zero_iff hn c).1 h
      have := (colVar_eq_zero_iff hn c).1 ?_
      · exact this i
      · unfold flagged at h
        simp only [mul_zero, zero_mul, ne_eq, OfNat.ofNat_ne_zero, not_false_eq_true, zero_pow,
          add_zero] at h
        exact le_antisymm h (colVar_nonneg c)
    simp [hz]
  · rw [if_neg h, if_neg (fun h' => h (hf.1 h')), Real.sqrt_mul (sq_nonneg a), Real.sqrt_sq ha.le]
    have : a * c i + b - (a * colMean c + b) = a * (c i - colMean c) := by ring
    rw [this, mul_div_mul_left _ _ ha.ne']

/-- C42: positive rescaling alone changes nothing even with the float-epsilon test in force. -/
theorem scaled_scale_invariant {n : ℕ} (ε a : ℝ) (ha : 0 < a) (c : Fin n → ℝ) (i : Fin n)
    (hc : ¬ flagged ε c) :
    scaleCol ε (fun i => a * c i) i = scaleCol ε c i := by
  have hn : 0 < n := i.pos
  have hm : colMean (fun i => a * c i) = a * colMean c := by
    simpa using colMean_affine hn a 0 c
  have hv : colVar (fun i => a * c i) = a ^ 2 * colVar c := by
    simpa using colVar_affine hn a 0 c
  have hf : ¬ flagged ε (fun i => a * c i) := by
    intro h
    apply hc
    unfold flagged at h ⊢
    rw [hm, hv] at h
    have e : n * ε * (a ^ 2 * colVar c) + (n * (a * colMean c) * ε) ^ 2
        = a ^ 2 * (n * ε * colVar c + (n * colMean c * ε) ^ 2) := by ring
    rw [e] at h
    exact le_of_mul_le_mul_left h (by positivity)
  unfold scaleCol
  rw [if_neg hc, if_neg hf, hm, hv, Real.sqrt_mul (sq_nonneg a), Real.sqrt_sq ha.le, ← mul_sub,
    mul_div_mul_left _ _ ha.ne']

/-! ### Construction and access -/

/-- C42: arrays of different lengths are rejected. -/
theorem init_length_mismatch (ε : ℝ) (h : Heap) (ax ay : ℕ) (mx my : Mat) (std : Bool)
    (hx : h[ax]? = some mx) (hy : h[ay]? = some my) (hne : mx.n ≠ my.n) :
    init ε h ax ay std = .error .valueError := by
  have hy' : (h ++ [mx])[ay]? = some my := by
    rw [List.getElem?_append_left (List.getElem?_eq_some_iff.1 hy).1]; exact hy
  simp [init, npArray, hx, hy', hne, bind, Except.bind]

/-- What the constructor stores. -/
noncomputable def stored (ε : ℝ) (std : Bool) (m : Mat) : Mat :=
  if std then ⟨m.n, m.d, fun i j => scaleCol ε (fun i' => m.v i' j) i⟩ else m

/-- C42: on non-empty arrays of equal lengths the constructor succeeds, stores the (standardised) data in new
buffers, and every array that existed before – the caller's in particular – still has its old contents;
`x` and `y` may even be the same object. -/
theorem init_spec (ε : ℝ) (h : Heap) (ax ay : ℕ) (mx my : Mat) (std : Bool)
    (hx : h[ax]? = some mx) (hy : h[ay]? = some my) (hn : mx.n = my.n)
    (hne : 0 < mx.n ∧ 0 < mx.d ∧ 0 < my.d) :
    ∃ h' bx by_, init ε h ax ay std = .ok (h', bx, by_) ∧
      h'[bx]? = some (stored ε std mx) ∧ h'[by_]? = some (stored ε std my) ∧
      ∀ (a : ℕ) (m : Mat), h[a]? = some m → h'[a]? = some m := by
  have hy' : (h ++ [mx])[ay]? = some my := by
    rw [List.getElem?_append_left (List.getElem?_eq_some_iff.1 hy).1]; exact hy
  have hn0 : my.n ≠ 0 := by omega
  have hn1 : mx.n ≠ 0 := by omega
  have hd0 : my.d ≠ 0 := by omega
  have hd1 : mx.d ≠ 0 := by omega
  have hold : ∀ (a : ℕ) (m : Mat) (p q : Mat), h[a]? = some m → (h ++ [p, q])[a]? = some m := by
    intro a m p q ha
    rw [List.getElem?_append_left (List.getElem?_eq_some_iff.1 ha).1]; exact ha
  cases std with
  | false =>
    refine ⟨h ++ [mx, my], h.length, h.length + 1, ?_, ?_, ?_, fun a m ha => hold a m _ _ ha⟩
    · simp [init, npArray, hx, hy', hn, bind, Except.bind]
    · simp [stored]
    · simp [stored]
  | true =>
    refine ⟨h ++ [stored ε true mx, stored ε true my], h.length, h.length + 1, ?_, ?_, ?_,
      fun a m ha => hold a m _ _ ha⟩
    · simp [init, npArray, hx, hy', hn, bind, Except.bind, fitTransform, stored, hn0, hd0, hd1]
    · simp
    · simp

/-- C42: row `i` of `xy`, and `space[i]`, is `x_i` followed by `y_i`; `space[-k]` counts from the end. -/
theorem getItem_spec (mx my : Mat) (e : mx.n = my.n) (i : ℤ) :
    (∀ k : Fin mx.n, (i = k ∨ i = (k : ℤ) - mx.n) →
      getItem mx my i = .ok (xy mx my e k) ∧
      (∀ j, xy mx my e k (Fin.castAdd _ j) = mx.v k j) ∧
      (∀ j, xy mx my e k (Fin.natAdd _ j) = my.v (Fin.cast e k) j)) ∧
    ((i < -mx.n ∨ (mx.n : ℤ) ≤ i) → getItem mx my i = .error .indexError) := by
  obtain ⟨n, d, v⟩ := mx
  obtain ⟨n', d', v'⟩ := my
  simp only at e
  subst e
  refine ⟨fun k hk => ⟨?_, fun j => by simp [xy], fun j => by simp [xy]⟩, fun hi => ?_⟩
  · have hk' : (k : ℕ) < n := k.isLt
    have key : (if i < 0 then i + (n : ℤ) else i) = (k : ℤ) := by
      rcases hk with rfl | rfl
      · rw [if_neg (by omega)]
      · rw [if_pos (by simp only at *; omega)]; simp
    unfold getItem
    simp only [key]
    rw [dif_pos (by constructor <;> omega), dif_pos (by constructor <;> omega)]
    simp [xy]
  · unfold getItem
    simp only at hi
    have : ¬ (0 ≤ (if i < 0 then i + (n : ℤ) else i) ∧ (if i < 0 then i + (n : ℤ) else i) < n) := by
      split <;> omega
    simp only [dif_neg this]

/-- Non-vacuity: a non-constant column, so the standardisation is the interesting one. -/
example : ¬ flagged 0 (fun i : Fin 2 => (i : ℝ)) := by
  rw [flagged_zero_iff (by decide)]
  intro h
  have := h 0 1
  norm_num at this

example : ∃ (h : Heap) (mx my : Mat), h[0]? = some mx ∧ h[1]? = some my ∧ mx.n = my.n ∧
    (0 < mx.n ∧ 0 < mx.d ∧ 0 < my.d) :=
  ⟨[⟨2, 1, fun i _ => i⟩, ⟨2, 3, fun i j => i + j⟩], _, _, rfl, rfl, rfl, by decide⟩

end BMI.PSpace
