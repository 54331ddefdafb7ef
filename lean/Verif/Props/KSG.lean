import Verif.Lemmas.KSGFit
import Mathlib.Data.Fin.Tuple.Sort
import Mathlib.Tactic.NormNum
import Mathlib.Tactic.Positivity
import Mathlib.NumberTheory.Harmonic.EulerMascheroni

/-! Properties C24–C27: the KSG estimators (/repo/src/bmi/estimators/ksg.py). -/

namespace BMI.KSG

open Spec BMI.PSpace

/-- A correct sort exists, so the hypothesis `∀ n, IsArgsort (s n)` used below can be met. -/
theorem isArgsort_tupleSort (n : ℕ) : IsArgsort (fun f : Fin n → ℝ => (Tuple.sort f : Fin n → Fin n)) :=
  ⟨fun f => (Tuple.sort f).bijective, fun f => Tuple.monotone_sort f⟩

/-- Two one-dimensional arrays, for the examples. -/
def col {n : ℕ} (v : Fin n → ℝ) : Mat := ⟨n, 1, fun i _ => v i⟩

/-! ### C24 -/

/-- C24, for parameter lists without repetition: the chunked estimator and the reference estimator return the same
dictionary or raise the same exception, for all data (also of different lengths), every positive chunk size, and
any two correct sorts.  Missing for the full claim: repeated neighbourhoods, where it is false
(`fast_ne_slow_of_repeated`). -/
theorem fast_eq_slow_partial (ε : ℝ) (s s' : (n : ℕ) → (Fin n → ℝ) → Fin n → Fin n)
    (hs : ∀ n, IsArgsort (s n)) (hs' : ∀ n, IsArgsort (s' n)) (p : Params)
    (hp : p.neighborhoods.Nodup) (c : ℤ) (hc : 0 < c) (mx my : Mat) :
    fastFit ε s p c mx my = slowFit ε s' p mx my := by
  obtain ⟨n, d, v⟩ := mx
  obtain ⟨n', e, w⟩ := my
  by_cases hn : n = n'
  · subst hn
    by_cases hb : bad p n d e
    · rw [fastFit_bad _ _ _ _ _ _ hb, slowFit_bad _ _ _ _ _ hb]
    · rw [fastFit_good ε s p c hc v w hb, slowFit_good ε s' p v w hb]
      congr 1
      refine List.map_congr_left fun k hk => ?_
      have hk' := (mem_keys _ _).1 hk
      have hkn : k < n := lt_of_le_of_lt (le_maxNbh hk') (not_le.1 fun h => hb (.inr h))
      rw [List.count_eq_one_of_mem hp hk', one_smul, total_sort (hs n) (hs' n) _ _ hkn]
  · rw [fastFit_mismatch _ _ _ _ _ _ hn, slowFit_mismatch _ _ _ _ _ hn]

example : ∃ (p : Params) (mx my : Mat), p.neighborhoods.Nodup ∧ p.neighborhoods.length = 2 ∧
    (fastFit 0 (fun _ f => (Tuple.sort f : _ → _)) p 2 mx my).isOk = true := by
  refine ⟨⟨[1, 2], false, .euclidean, .euclidean⟩, col (fun i : Fin 3 => (i : ℝ)),
    col (fun i : Fin 3 => -(i : ℝ)), by decide, rfl, ?_⟩
  unfold col
  rw [fastFit_good _ _ _ _ (by norm_num)]
  · rfl
  · unfold bad; simp [maxNbh]

private theorem psi_one : psi 1 = -Real.eulerMascheroniConstant := by simp [psi]

private theorem psi_two : psi 2 = 1 - Real.eulerMascheroniConstant := by simp [psi, harmonic]

private theorem two_total (s : (Fin 2 → ℝ) → Fin 2 → Fin 2) (hs : IsArgsort s)
    (v : Fin 2 → Fin 1 → ℝ) (hv : v = fun (i : Fin 2) _ => (i : ℝ)) :
    total s (dtab .euclidean v) (dtab .euclidean v) 1 = ((2 * (psi 1 + psi 1) : ℝ) : EReal) := by
  have h01 : ∀ i j : Fin 2, dtab .euclidean v i j = if i = j then 0 else 1 := by
    intro i j
    subst hv
    fin_cases i <;> fin_cases j <;> simp [dtab, Metric.dist]
  have hk : ∀ i, IsKth (joint (dtab .euclidean v) (dtab .euclidean v) i) 1 ((fun _ => 1 : Fin 2 → ℝ) i) := by
    intro i
    unfold IsKth joint
    simp only [h01, max_self]
    have e2 : (Finset.univ.filter fun j : Fin 2 => (if i = j then (0 : ℝ) else 1) ≤ 1) = Finset.univ := by
      rw [Finset.filter_eq_self]; intro j _; split_ifs <;> norm_num
    have e1 : (Finset.univ.filter fun j : Fin 2 => (if i = j then (0 : ℝ) else 1) < 1) = {i} := by
      ext j
      by_cases h : i = j
      · simp [h]
      · simp [h, Ne.symm h]
    rw [e1, e2]; simp
  rw [total_pos hs (isTable_dtab _ _) (isTable_dtab _ _) (by norm_num : 1 < 2) hk (fun _ => one_pos)]
  have ho : ∀ i, others (dtab .euclidean v) i 1 = 0 := by
    intro i
    unfold others
    rw [Finset.card_eq_zero, Finset.filter_eq_empty_iff]
    rintro j _ ⟨h1, h2⟩
    rw [h01, if_neg (Ne.symm h1)] at h2
    exact lt_irrefl _ h2
  simp [ho]
  norm_cast
  ring_nf

/-- The full claim of C24 fails: with a repeated neighbourhood the chunked estimator adds each contribution once
per repetition (`digammas_dict[k].append`, ksg.py:126, then `np.sum`, line 131), the reference estimator averages.
Two points, `neighborhoods = [1, 1]`: 1 against 1 + 2γ. -/
theorem fast_ne_slow_of_repeated (ε : ℝ) (s : (n : ℕ) → (Fin n → ℝ) → Fin n → Fin n)
    (hs : ∀ n, IsArgsort (s n)) (c : ℤ) (hc : 0 < c) :
    slowFit ε s ⟨[1, 1], false, .euclidean, .euclidean⟩ (col fun i : Fin 2 => (i : ℝ))
        (col fun i : Fin 2 => (i : ℝ)) = .ok [(1, ((1 : ℝ) : EReal))] ∧
    fastFit ε s ⟨[1, 1], false, .euclidean, .euclidean⟩ c (col fun i : Fin 2 => (i : ℝ))
        (col fun i : Fin 2 => (i : ℝ))
      = .ok [(1, ((1 + 2 * Real.eulerMascheroniConstant : ℝ) : EReal))] := by
  have hb : ¬ bad ⟨[1, 1], false, .euclidean, .euclidean⟩ 2 1 1 := by
    unfold bad; simp [maxNbh]
  have hγ := Real.one_half_lt_eulerMascheroniConstant
  have e2 : ((2 : ℕ) : EReal) = ((2 : ℝ) : EReal) := by norm_cast
  constructor
  · unfold col
    rw [slowFit_good ε s _ _ _ hb]
    simp only [keys, List.foldl_cons, List.foldl_nil, List.not_mem_nil, if_false, List.nil_append,
      List.mem_singleton, if_true, List.map_cons, List.map_nil]
    rw [two_total (s 2) (hs 2) _ (by simp [stdv]), dig_pos one_ne_zero, dig_pos two_ne_zero, e2,
      ← EReal.coe_div, ← EReal.coe_sub, ← EReal.coe_add, ← EReal.coe_zero,
      ← EReal.coe_strictMono.monotone.map_max, psi_one, psi_two, max_eq_right (by linarith)]
    congr 4
    ring
  · unfold col
    rw [fastFit_good ε s _ _ hc _ _ hb]
    simp only [keys, List.foldl_cons, List.foldl_nil, List.not_mem_nil, if_false, List.nil_append,
      List.mem_singleton, if_true, List.map_cons, List.map_nil]
    have hcnt : List.count 1 [1, 1] = 2 := by decide
    rw [two_total (s 2) (hs 2) _ (by simp [stdv]), dig_pos one_ne_zero, dig_pos two_ne_zero, e2, hcnt,
      ← EReal.coe_div, ← EReal.coe_nsmul, ← EReal.coe_sub, ← EReal.coe_add, ← EReal.coe_zero,
      ← EReal.coe_strictMono.monotone.map_max, psi_one, psi_two, max_eq_right (by simp only [nsmul_eq_mul]; push_cast; linarith)]
    congr 4
    simp only [nsmul_eq_mul]; push_cast; ring

/-! ### C25 -/

/-- Reordering the rows of an array. -/
def permRows (m : Mat) (σ : Equiv.Perm (Fin m.n)) : Mat := ⟨m.n, m.d, fun i => m.v (σ i)⟩

/-- C25: reordering the samples changes nothing, with or without standardisation. -/
theorem fit_perm (ε : ℝ) (s s' : (n : ℕ) → (Fin n → ℝ) → Fin n → Fin n) (hs : ∀ n, IsArgsort (s n))
    (hs' : ∀ n, IsArgsort (s' n)) (p : Params) (c : ℤ) {n d e : ℕ} (v : Fin n → Fin d → ℝ)
    (w : Fin n → Fin e → ℝ) (σ : Equiv.Perm (Fin n)) :
    fastFit ε s p c (permRows ⟨n, d, v⟩ σ) (permRows ⟨n, e, w⟩ σ)
      = fastFit ε s' p c ⟨n, d, v⟩ ⟨n, e, w⟩ := by
  unfold permRows
  by_cases hc : 0 < c
  · by_cases hb : bad p n d e
    · rw [fastFit_bad _ _ _ _ _ _ hb, fastFit_bad _ _ _ _ _ _ hb]
    · rw [fastFit_good ε s p c hc _ _ hb, fastFit_good ε s' p c hc _ _ hb]
      congr 1
      refine List.map_congr_left fun k hk => ?_
      have hkn : k < n := lt_of_le_of_lt (le_maxNbh ((mem_keys _ _).1 hk)) (not_le.1 fun h => hb (.inr h))
      rw [stdv_perm, stdv_perm]
      have := total_perm (hs n) (hs' n) σ (dtab p.metricX (stdv ε p.standardize v))
        (dtab p.metricY (stdv ε p.standardize w)) hkn
      rw [← this]
      rfl
  · rw [fastFit_chunk _ _ _ _ hc, fastFit_chunk _ _ _ _ hc]

/-- C25: exchanging X with Y together with their metrics changes nothing. -/
theorem fit_swap (ε : ℝ) (s s' : (n : ℕ) → (Fin n → ℝ) → Fin n → Fin n) (hs : ∀ n, IsArgsort (s n))
    (hs' : ∀ n, IsArgsort (s' n)) (p : Params) (c : ℤ) (mx my : Mat) :
    fastFit ε s ⟨p.neighborhoods, p.standardize, p.metricY, p.metricX⟩ c my mx
      = fastFit ε s' p c mx my := by
  obtain ⟨n, d, v⟩ := mx
  obtain ⟨n', e, w⟩ := my
  by_cases hn : n = n'
  · subst hn
    by_cases hc : 0 < c
    · by_cases hb : bad p n d e
      · have hb' : bad ⟨p.neighborhoods, p.standardize, p.metricY, p.metricX⟩ n e d := by
          unfold bad at hb ⊢; tauto
        rw [fastFit_bad _ _ _ _ _ _ hb, fastFit_bad _ _ _ _ _ _ hb']
      · have hb' : ¬ bad ⟨p.neighborhoods, p.standardize, p.metricY, p.metricX⟩ n e d := by
          unfold bad at hb ⊢; tauto
        rw [fastFit_good ε s _ c hc _ _ hb', fastFit_good ε s' p c hc _ _ hb]
        congr 1
        refine List.map_congr_left fun k hk => ?_
        have hkn : k < n :=
          lt_of_le_of_lt (le_maxNbh ((mem_keys _ _).1 hk)) (not_le.1 fun h => hb (.inr h))
        rw [total_swap (hs n) (hs' n) _ _ hkn]
    · rw [fastFit_chunk _ _ _ _ hc, fastFit_chunk _ _ _ _ hc]
  · rw [fastFit_mismatch _ _ _ _ _ _ (Ne.symm hn), fastFit_mismatch _ _ _ _ _ _ hn]

/-- C25: without standardisation, new coordinates (possibly in spaces of other dimension and with other metrics)
whose pairwise distances are the old ones, all multiplied by one positive constant, give the same predictions.
`c = 1` is invariance under isometries. -/
theorem fit_similarity (ε : ℝ) (s s' : (n : ℕ) → (Fin n → ℝ) → Fin n → Fin n)
    (hs : ∀ n, IsArgsort (s n)) (hs' : ∀ n, IsArgsort (s' n)) (nbh : List ℕ) (mX mY mX' mY' : Metric)
    (chunk : ℤ) {n d e d' e' : ℕ} (v : Fin n → Fin d → ℝ) (w : Fin n → Fin e → ℝ)
    (v' : Fin n → Fin d' → ℝ) (w' : Fin n → Fin e' → ℝ) (c : ℝ) (hc : 0 < c)
    (hv : ∀ i j, mX'.dist (v' i) (v' j) = c * mX.dist (v i) (v j))
    (hw : ∀ i j, mY'.dist (w' i) (w' j) = c * mY.dist (w i) (w j)) :
    fastFit ε s ⟨nbh, false, mX', mY'⟩ chunk ⟨n, d', v'⟩ ⟨n, e', w'⟩
      = fastFit ε s' ⟨nbh, false, mX, mY⟩ chunk ⟨n, d, v⟩ ⟨n, e, w⟩ := by
  by_cases hch : 0 < chunk
  · by_cases hb : n ≤ maxNbh nbh
    · rw [fastFit_bad _ _ _ _ _ _ (.inr hb), fastFit_bad _ _ _ _ _ _ (.inr hb)]
    · have hb1 : ¬ bad ⟨nbh, false, mX', mY'⟩ n d' e' := by unfold bad; simpa using hb
      have hb2 : ¬ bad ⟨nbh, false, mX, mY⟩ n d e := by unfold bad; simpa using hb
      rw [fastFit_good ε s _ _ hch _ _ hb1, fastFit_good ε s' _ _ hch _ _ hb2]
      congr 1
      refine List.map_congr_left fun k hk => ?_
      have hkn : k < n := lt_of_le_of_lt (le_maxNbh ((mem_keys _ _).1 hk)) (not_le.1 hb)
      have e1 : dtab mX' (stdv ε false v') = fun i j => c * dtab mX (stdv ε false v) i j := by
        funext i j; simpa [dtab, stdv] using hv i j
      have e2 : dtab mY' (stdv ε false w') = fun i j => c * dtab mY (stdv ε false w) i j := by
        funext i j; simpa [dtab, stdv] using hw i j
      simp only [e1, e2]
      rw [total_scale (hs n) (hs' n) c hc _ _ hkn]
  · rw [fastFit_chunk _ _ _ _ hch, fastFit_chunk _ _ _ _ hch]

/-- The hypotheses of `fit_similarity` hold for multiplying all coordinates by `c > 0`, for each metric. -/
theorem fit_rescale (ε : ℝ) (s : (n : ℕ) → (Fin n → ℝ) → Fin n → Fin n)
    (hs : ∀ n, IsArgsort (s n)) (nbh : List ℕ) (mX mY : Metric)
    (chunk : ℤ) {n d e : ℕ} (v : Fin n → Fin d → ℝ) (w : Fin n → Fin e → ℝ) (c : ℝ) (hc : 0 < c) :
    fastFit ε s ⟨nbh, false, mX, mY⟩ chunk ⟨n, d, fun i j => c * v i j⟩ ⟨n, e, fun i j => c * w i j⟩
      = fastFit ε s ⟨nbh, false, mX, mY⟩ chunk ⟨n, d, v⟩ ⟨n, e, w⟩ :=
  fit_similarity ε s s hs hs nbh mX mY mX mY chunk v w _ _ c hc
    (fun i j => dist_scale mX c hc (v i) (v j)) (fun i j => dist_scale mY c hc (w i) (w j))

/-- C25: with standardisation, a positive rescaling and a shift of every column separately change nothing
(ε = 0, i.e. exact arithmetic). -/
theorem fit_affine (s : (n : ℕ) → (Fin n → ℝ) → Fin n → Fin n) (p : Params)
    (hp : p.standardize = true) (chunk : ℤ) {n d e : ℕ} (v : Fin n → Fin d → ℝ) (w : Fin n → Fin e → ℝ)
    (a b : Fin d → ℝ) (a' b' : Fin e → ℝ) (ha : ∀ j, 0 < a j) (ha' : ∀ j, 0 < a' j) :
    fastFit 0 s p chunk ⟨n, d, fun i j => a j * v i j + b j⟩ ⟨n, e, fun i j => a' j * w i j + b' j⟩
      = fastFit 0 s p chunk ⟨n, d, v⟩ ⟨n, e, w⟩ := by
  by_cases hch : 0 < chunk
  · by_cases hb : bad p n d e
    · rw [fastFit_bad _ _ _ _ _ _ hb, fastFit_bad _ _ _ _ _ _ hb]
    · rw [fastFit_good 0 s p _ hch _ _ hb, fastFit_good 0 s p _ hch _ _ hb]
      have e1 : stdv 0 p.standardize (fun i j => a j * v i j + b j) = stdv 0 p.standardize v := by
        unfold stdv; simp only [hp, if_true]; funext i j
        exact scaled_affine_invariant (a j) (b j) (ha j) (fun i' => v i' j) i
      have e2 : stdv 0 p.standardize (fun i j => a' j * w i j + b' j) = stdv 0 p.standardize w := by
        unfold stdv; simp only [hp, if_true]; funext i j
        exact scaled_affine_invariant (a' j) (b' j) (ha' j) (fun i' => w i' j) i
      rw [e1, e2]
  · rw [fastFit_chunk _ _ _ _ hch, fastFit_chunk _ _ _ _ hch]

/-! ### C26 -/

/-- C26: predictions are never negative. -/
theorem prediction_nonneg (ε : ℝ) (s : (n : ℕ) → (Fin n → ℝ) → Fin n → Fin n) (p : Params) (c : ℤ)
    (mx my : Mat) (preds : List (ℕ × EReal)) (h : fastFit ε s p c mx my = .ok preds)
    (k : ℕ) (val : EReal) (hkv : (k, val) ∈ preds) : 0 ≤ val := by
  obtain ⟨n, d, v⟩ := mx
  obtain ⟨n', e, w⟩ := my
  by_cases hn : n = n'
  · subst hn
    by_cases hc : 0 < c
    · by_cases hb : bad p n d e
      · rw [fastFit_bad _ _ _ _ _ _ hb] at h; simp at h
      · rw [fastFit_good ε s p c hc _ _ hb] at h
        injection h with h
        subst h
        simp only [List.mem_map, Prod.mk.injEq] at hkv
        obtain ⟨k', _, rfl, rfl⟩ := hkv
        exact le_max_left _ _
    · rw [fastFit_chunk _ _ _ _ hc] at h; simp at h
  · rw [fastFit_mismatch _ _ _ _ _ _ hn] at h; simp at h

/-- Number of samples equal to sample `i` (itself included). -/
noncomputable def copies {n d e : ℕ} (v : Fin n → Fin d → ℝ) (w : Fin n → Fin e → ℝ) (i : Fin n) : ℕ :=
  open Classical in (Finset.univ.filter fun j => v j = v i ∧ w j = w i).card

private theorem joint_zero_iff (ε : ℝ) (hε : 0 ≤ ε) (std : Bool) (mX mY : Metric) {n d e : ℕ}
    (v : Fin n → Fin d → ℝ) (w : Fin n → Fin e → ℝ) (i j : Fin n) :
    joint (dtab mX (stdv ε std v)) (dtab mY (stdv ε std w)) i j ≤ 0 ↔ v j = v i ∧ w j = w i := by
  unfold joint dtab
  rw [max_le_iff, (dist_nonneg' mX _ _).ge_iff_eq', (dist_nonneg' mY _ _).ge_iff_eq',
    dist_eq_zero', dist_eq_zero', stdv_eq_iff ε hε, stdv_eq_iff ε hε, eq_comm (a := v i),
    eq_comm (a := w i)]

private theorem kth_zero_iff (ε : ℝ) (hε : 0 ≤ ε) (std : Bool) (mX mY : Metric) {n d e : ℕ}
    (v : Fin n → Fin d → ℝ) (w : Fin n → Fin e → ℝ) (i : Fin n) (k : ℕ) :
    IsKth (joint (dtab mX (stdv ε std v)) (dtab mY (stdv ε std w)) i) k 0 ↔ k < copies v w i := by
  unfold IsKth copies
  have h1 : (Finset.univ.filter fun j =>
      joint (dtab mX (stdv ε std v)) (dtab mY (stdv ε std w)) i j < 0) = ∅ := by
    rw [Finset.filter_eq_empty_iff]
    intro j _
    exact not_lt.2 ((isTable_joint (isTable_dtab mX _) (isTable_dtab mY _)).nonneg i j)
  rw [h1]
  simp only [Finset.card_empty, Nat.zero_le, true_and, joint_zero_iff ε hε]

/-- C26, and where its finiteness claim fails: for distinct neighbourhoods ≥ 1, the prediction for `k` is `+inf`
exactly if some sample occurs more than `k` times in the data (then `digamma(0) = -inf` is averaged).  Otherwise it
is the real number `max 0` of equation (8) for the distances (`v' i` is the distance to the `k`-th neighbour).
Holds with and without standardisation and for all metrics. -/
theorem prediction_infinite_iff_partial (ε : ℝ) (hε : 0 ≤ ε)
    (s : (n : ℕ) → (Fin n → ℝ) → Fin n → Fin n) (hs : ∀ n, IsArgsort (s n)) (p : Params)
    (hp : p.neighborhoods.Nodup) (hp1 : ∀ k ∈ p.neighborhoods, 1 ≤ k) (c : ℤ) {n d e : ℕ}
    (v : Fin n → Fin d → ℝ) (w : Fin n → Fin e → ℝ) (preds : List (ℕ × EReal))
    (h : fastFit ε s p c ⟨n, d, v⟩ ⟨n, e, w⟩ = .ok preds) (k : ℕ) (val : EReal)
    (hkv : (k, val) ∈ preds) :
    (val = ⊤ ↔ ∃ i, k < copies v w i) ∧
    (val ≠ ⊤ → ∃ v' : Fin n → ℝ,
      (∀ i, 0 < v' i ∧ IsKth (joint (dtab p.metricX (stdv ε p.standardize v))
        (dtab p.metricY (stdv ε p.standardize w)) i) k (v' i)) ∧
      val = ((max 0 (eq8 (dtab p.metricX (stdv ε p.standardize v))
        (dtab p.metricY (stdv ε p.standardize w)) k v') : ℝ) : EReal)) := by
  by_cases hc : 0 < c
  · by_cases hb : bad p n d e
    · rw [fastFit_bad _ _ _ _ _ _ hb] at h; simp at h
    · rw [fastFit_good ε s p c hc _ _ hb] at h
      injection h with h
      subst h
      simp only [List.mem_map, Prod.mk.injEq] at hkv
      obtain ⟨k', hk', rfl, rfl⟩ := hkv
      have hmem := (mem_keys _ _).1 hk'
      have hkn : k' < n := lt_of_le_of_lt (le_maxNbh hmem) (not_le.1 fun h => hb (.inr h))
      have hk0 : k' ≠ 0 := by have := hp1 k' hmem; omega
      rw [List.count_eq_one_of_mem hp hmem, one_smul]
      have hX := isTable_dtab p.metricX (stdv ε p.standardize v)
      have hY := isTable_dtab p.metricY (stdv ε p.standardize w)
      by_cases hex : ∃ i, k' < copies v w i
      · obtain ⟨i, hi⟩ := hex
        have := prediction_tied (hs n) hX hY hk0 hkn i ((kth_zero_iff ε hε _ _ _ v w i k').2 hi)
        rw [this]
        simp only [true_iff, ne_eq, not_true_eq_false, false_implies, and_true]
        exact ⟨i, hi⟩
      · choose v' hv' using fun i => pointTerm_exists (hs n) hkn
          (joint (dtab p.metricX (stdv ε p.standardize v)) (dtab p.metricY (stdv ε p.standardize w)) i)
        have hpos : ∀ i, 0 < v' i := by
          intro i
          rcases (isKth_nonneg (fun j => (isTable_joint hX hY).nonneg i j) (hv' i)).lt_or_eq with h | h
          · exact h
          · exfalso
            apply hex
            refine ⟨i, (kth_zero_iff ε hε p.standardize p.metricX p.metricY v w i k').1 ?_⟩
            rw [h]; exact hv' i
        rw [prediction_pos (hs n) hX hY hk0 hkn hv' hpos]
        refine ⟨⟨fun h => absurd h (EReal.coe_ne_top _), fun h => absurd h hex⟩, fun _ => ?_⟩
        exact ⟨v', fun i => ⟨hpos i, hv' i⟩, rfl⟩
  · rw [fastFit_chunk _ _ _ _ hc] at h; simp at h

/-- The finiteness part of C26 is false: two equal samples and `neighborhoods = [1]` give `+inf`. -/
theorem prediction_can_be_infinite (ε : ℝ) (hε : 0 ≤ ε) (s : (n : ℕ) → (Fin n → ℝ) → Fin n → Fin n)
    (hs : ∀ n, IsArgsort (s n)) (c : ℤ) (hc : 0 < c) :
    fastFit ε s ⟨[1], true, .euclidean, .euclidean⟩ c (col fun _ : Fin 2 => (7 : ℝ))
      (col fun _ : Fin 2 => (7 : ℝ)) = .ok [(1, ⊤)] := by
  have hb : ¬ bad ⟨[1], true, .euclidean, .euclidean⟩ 2 1 1 := by
    unfold bad; simp [maxNbh]
  unfold col
  rw [fastFit_good ε s _ _ hc _ _ hb]
  simp only [keys, List.foldl_cons, List.foldl_nil, List.not_mem_nil, if_false, List.nil_append,
    List.map_cons, List.map_nil, List.count_cons_self, List.count_nil, Nat.zero_add, one_smul]
  rw [prediction_tied (hs 2) (isTable_dtab _ _) (isTable_dtab _ _) one_ne_zero (by norm_num) 0
    ((kth_zero_iff ε hε _ _ _ _ _ 0 1).2 (by simp [copies]))]

/-- C26: without ties among the joint distances from any point, the prediction for `k` is at most `ψ(n) - ψ(k)`. -/
theorem prediction_le (ε : ℝ) (s : (n : ℕ) → (Fin n → ℝ) → Fin n → Fin n)
    (hs : ∀ n, IsArgsort (s n)) (p : Params) (hp : p.neighborhoods.Nodup)
    (hp1 : ∀ k ∈ p.neighborhoods, 1 ≤ k) (c : ℤ) {n d e : ℕ}
    (v : Fin n → Fin d → ℝ) (w : Fin n → Fin e → ℝ)
    (hties : ∀ i, Function.Injective (joint (dtab p.metricX (stdv ε p.standardize v))
        (dtab p.metricY (stdv ε p.standardize w)) i))
    (preds : List (ℕ × EReal)) (h : fastFit ε s p c ⟨n, d, v⟩ ⟨n, e, w⟩ = .ok preds) (k : ℕ) (val : EReal)
    (hkv : (k, val) ∈ preds) :
    ∃ r : ℝ, val = r ∧ 0 ≤ r ∧ r ≤ psi n - psi k := by
  by_cases hc : 0 < c
  · by_cases hb : bad p n d e
    · rw [fastFit_bad _ _ _ _ _ _ hb] at h; simp at h
    · rw [fastFit_good ε s p c hc _ _ hb] at h
      injection h with h
      subst h
      simp only [List.mem_map, Prod.mk.injEq] at hkv
      obtain ⟨k', hk', rfl, rfl⟩ := hkv
      have hmem := (mem_keys _ _).1 hk'
      have hkn : k' < n := lt_of_le_of_lt (le_maxNbh hmem) (not_le.1 fun h => hb (.inr h))
      have hk0 : k' ≠ 0 := by have := hp1 k' hmem; omega
      rw [List.count_eq_one_of_mem hp hmem, one_smul]
      generalize hDX : dtab p.metricX (stdv ε p.standardize v) = DX at *
      generalize hDY : dtab p.metricY (stdv ε p.standardize w) = DY at *
      have hX : IsTable DX := hDX ▸ isTable_dtab _ _
      have hY : IsTable DY := hDY ▸ isTable_dtab _ _
      choose v' hv' using fun i => pointTerm_exists (hs n) hkn (joint DX DY i)
      have hlt : ∀ i, k' ≤ (Finset.univ.filter fun j => joint DX DY i j < v' i).card := by
        intro i
        have h2 := (hv' i).2
        have hsub : (Finset.univ.filter fun j => joint DX DY i j ≤ v' i) ⊆
            (Finset.univ.filter fun j => joint DX DY i j < v' i) ∪
            (Finset.univ.filter fun j => joint DX DY i j = v' i) := by
          intro j hj
          simp only [Finset.mem_filter, Finset.mem_univ, true_and, Finset.mem_union] at hj ⊢
          exact hj.lt_or_eq
        have h3 := (Finset.card_le_card hsub).trans (Finset.card_union_le _ _)
        have h4 : (Finset.univ.filter fun j => joint DX DY i j = v' i).card ≤ 1 := by
          rw [Finset.card_le_one]
          intro a ha b hb
          simp only [Finset.mem_filter, Finset.mem_univ, true_and] at ha hb
          exact hties i (ha.trans hb.symm)
        omega
      have hpos : ∀ i, 0 < v' i := by
        intro i
        have := hlt i
        obtain ⟨j, hj⟩ : (Finset.univ.filter fun j => joint DX DY i j < v' i).Nonempty := by
          rw [← Finset.card_pos]; omega
        simp only [Finset.mem_filter, Finset.mem_univ, true_and] at hj
        exact lt_of_le_of_lt ((isTable_joint hX hY).nonneg i j) hj
      have hoth : ∀ (D : Fin n → Fin n → ℝ), IsTable D → (∀ i j, D i j ≤ joint DX DY i j) →
          ∀ i, psi k' ≤ psi (others D i (v' i) + 1) := by
        intro D hD hle i
        apply psi_mono _ hk0
        rw [← countLt_eq hD i _ (hpos i)]
        refine (hlt i).trans (Finset.card_le_card fun j hj => ?_)
        simp only [Finset.mem_filter, Finset.mem_univ, true_and] at hj ⊢
        exact lt_of_le_of_lt (hle i j) hj
      refine ⟨_, prediction_pos (hs n) hX hY hk0 hkn hv' hpos, le_max_left _ _, ?_⟩
      have hn0 : (0 : ℝ) < n := by
        have : 0 < n := by omega
        exact_mod_cast this
      refine max_le (sub_nonneg.2 (psi_mono hkn.le hk0)) ?_
      unfold eq8
      have hsum : (n : ℝ) * (2 * psi k')
          ≤ ∑ i, (psi (others DX i (v' i) + 1) + psi (others DY i (v' i) + 1)) := by
        have : ∀ i ∈ (Finset.univ : Finset (Fin n)), 2 * psi k'
            ≤ psi (others DX i (v' i) + 1) + psi (others DY i (v' i) + 1) := by
          intro i _
          have h1 := hoth DX hX (fun i j => le_max_left _ _) i
          have h2 := hoth DY hY (fun i j => le_max_right _ _) i
          linarith
        have := Finset.card_nsmul_le_sum _ _ _ this
        simpa using this
      have h5 : 2 * psi k'
          ≤ (∑ i, (psi (others DX i (v' i) + 1) + psi (others DY i (v' i) + 1))) / n := by
        rw [le_div_iff₀ hn0]; linarith
      linarith
  · rw [fastFit_chunk _ _ _ _ hc] at h; simp at h

/-- The no-ties hypothesis can be met: three points at 0, 1 and 3. -/
example : ∀ i, Function.Injective (joint
    (dtab .euclidean (stdv 0 false (fun (i : Fin 3) (_ : Fin 1) => ([0, 1, 3] : List ℝ).getD i 0)))
    (dtab .euclidean (stdv 0 false (fun (i : Fin 3) (_ : Fin 1) => ([0, 1, 3] : List ℝ).getD i 0))) i) := by
  intro i a b h
  revert h
  fin_cases i <;> fin_cases a <;> fin_cases b <;>
    simp [joint, dtab, stdv, Metric.dist, Real.sqrt_sq_eq_abs] <;> norm_num

/-! ### C27 -/

/-- C27: construction fails exactly for an empty list or a neighbourhood below one; otherwise the parameters are
stored as given, `metric_y` defaulting to `metric_x`. -/
theorem mkParams_spec (nbh : List ℤ) (std : Bool) (mX : Metric) (mY : Option Metric) :
    ((nbh = [] ∨ ∃ k ∈ nbh, k < 1) → mkParams nbh std mX mY = .error .validationError) ∧
    (nbh ≠ [] → (∀ k ∈ nbh, 1 ≤ k) → ∃ p, mkParams nbh std mX mY = .ok p ∧
      p.neighborhoods.map (fun k : ℕ => (k : ℤ)) = nbh ∧ p.standardize = std ∧ p.metricX = mX ∧
      (∀ m, mY = some m → p.metricY = m) ∧ (mY = none → p.metricY = mX) ∧
      ∀ k ∈ p.neighborhoods, 1 ≤ k) := by
  unfold mkParams
  constructor
  · rintro (h | ⟨k, hk, h1⟩)
    · rw [if_pos h]
    · split_ifs with h2 h3
      · rfl
      · rfl
      · exfalso; apply h3
        rw [List.any_eq_true]
        exact ⟨k, hk, by simpa using h1⟩
  · intro hne hall
    rw [if_neg hne, if_neg]
    · refine ⟨_, rfl, ?_, rfl, rfl, ?_, ?_, ?_⟩
      · simp only [List.map_map]
        conv_rhs => rw [← List.map_id nbh]
        refine List.map_congr_left fun k hk => ?_
        have := hall k hk
        simp only [Function.comp, id]
        omega
      · rintro m rfl; rfl
      · rintro rfl; rfl
      · intro k hk
        simp only [List.mem_map] at hk
        obtain ⟨z, hz, rfl⟩ := hk
        have := hall z hz
        omega
    · rw [List.any_eq_true]
      rintro ⟨k, hk, h1⟩
      have := hall k hk
      simp only [decide_eq_true_eq] at h1
      omega

/-- C27: too few points (not more than *some* neighbourhood) or arrays of different lengths raise `ValueError`,
for both estimators. -/
theorem fit_too_few (ε : ℝ) (s : (n : ℕ) → (Fin n → ℝ) → Fin n → Fin n) (p : Params) (c : ℤ)
    (mx my : Mat) (h : mx.n ≠ my.n ∨ ∃ k ∈ p.neighborhoods, mx.n ≤ k) :
    fastFit ε s p c mx my = .error .valueError ∧ slowFit ε s p mx my = .error .valueError := by
  obtain ⟨n, d, v⟩ := mx
  obtain ⟨n', e, w⟩ := my
  by_cases hn : n = n'
  · subst hn
    rcases h with h | ⟨k, hk, hle⟩
    · exact absurd rfl h
    · have hb : bad p n d e := .inr (le_trans hle (le_maxNbh hk))
      exact ⟨fastFit_bad _ _ _ _ _ _ hb, slowFit_bad _ _ _ _ _ hb⟩
  · exact ⟨fastFit_mismatch _ _ _ _ _ _ hn, slowFit_mismatch _ _ _ _ _ hn⟩

/-- C27: conversely enough points always give a result. -/
theorem fit_enough (ε : ℝ) (s : (n : ℕ) → (Fin n → ℝ) → Fin n → Fin n) (p : Params)
    (hp : p.neighborhoods ≠ []) (c : ℤ) (hc : 0 < c) (mx my : Mat) (hn : mx.n = my.n)
    (hd : 0 < mx.d ∧ 0 < my.d) (h : ∀ k ∈ p.neighborhoods, k < mx.n) :
    ∃ preds, fastFit ε s p c mx my = .ok preds := by
  obtain ⟨n, d, v⟩ := mx
  obtain ⟨n', e, w⟩ := my
  obtain rfl : n = n' := hn
  have hmax := h _ (maxNbh_mem hp)
  simp only at hd hmax
  refine ⟨_, fastFit_good ε s p c hc v w ?_⟩
  unfold bad
  omega

/-- C27: a successful fit has exactly one entry per distinct neighbourhood, in order of first appearance. -/
theorem fit_keys (ε : ℝ) (s : (n : ℕ) → (Fin n → ℝ) → Fin n → Fin n) (p : Params) (c : ℤ)
    (mx my : Mat) (preds : List (ℕ × EReal)) (h : fastFit ε s p c mx my = .ok preds) :
    preds.map Prod.fst = keys p.neighborhoods ∧ (preds.map Prod.fst).Nodup ∧
      ∀ k, k ∈ preds.map Prod.fst ↔ k ∈ p.neighborhoods := by
  have key : preds.map Prod.fst = keys p.neighborhoods := by
    obtain ⟨n, d, v⟩ := mx
    obtain ⟨n', e, w⟩ := my
    by_cases hn : n = n'
    · subst hn
      by_cases hc : 0 < c
      · by_cases hb : bad p n d e
        · rw [fastFit_bad _ _ _ _ _ _ hb] at h; simp at h
        · rw [fastFit_good ε s p c hc _ _ hb] at h
          injection h with h
          subst h
          simp [List.map_map, Function.comp_def]
      · rw [fastFit_chunk _ _ _ _ hc] at h; simp at h
    · rw [fastFit_mismatch _ _ _ _ _ _ hn] at h; simp at h
  exact ⟨key, key ▸ keys_nodup _, fun k => by rw [key, mem_keys]⟩

/-- A call on an estimator object. -/
inductive Op where
  | fit (mx my : Mat)
  | estimate (mx my : Mat)
  | predict

/-- The object after a call. -/
noncomputable def Op.apply (ε : ℝ) (s : (n : ℕ) → (Fin n → ℝ) → Fin n → Fin n) (p : Params) (c : ℤ)
    (st : State) : Op → State
  | .fit mx my => (st.fit (fastFit ε s p c mx my)).2
  | .estimate mx my => (st.estimate (fastFit ε s p c mx my)).2
  | .predict => st

/-- Specification: the predictions of the last call of `fit`/`estimate` that did not raise. -/
noncomputable def lastGood (ε : ℝ) (s : (n : ℕ) → (Fin n → ℝ) → Fin n → Fin n) (p : Params) (c : ℤ)
    (ops : List Op) : Option (List (ℕ × EReal)) :=
  (ops.reverse.filterMap fun op => match op with
    | .fit mx my => (fastFit ε s p c mx my).toOption
    | .estimate mx my => (fastFit ε s p c mx my).toOption
    | .predict => none).head?

private theorem estimate_state (st : State) (r : Except Err (List (ℕ × EReal))) :
    (st.estimate r).2 = (st.fit r).2 := by
  unfold State.estimate State.fit State.getPredictions
  cases r <;> rfl

private theorem fit_store (ε : ℝ) (s : (n : ℕ) → (Fin n → ℝ) → Fin n → Fin n) (p : Params) (c : ℤ)
    (st : State) (mx my : Mat) (preds : List (ℕ × EReal)) (h : fastFit ε s p c mx my = .ok preds)
    (hst : st.miDict = [] ∨ st.miDict.map Prod.fst = keys p.neighborhoods) :
    preds.foldl (fun d e => setKey d e.1 e.2) st.miDict = preds := by
  have hk := (fit_keys ε s p c mx my preds h).1
  have hform : ∀ (l : List (ℕ × EReal)), l.map Prod.fst = keys p.neighborhoods →
      ∃ g : ℕ → EReal, l = (keys p.neighborhoods).map fun k => (k, g k) := by
    intro l hl
    have hnd : (l.map Prod.fst).Nodup := hl ▸ keys_nodup _
    refine ⟨fun k => (l.find? fun e => e.1 = k).elim 0 Prod.snd, ?_⟩
    rw [← hl, List.map_map]
    conv_lhs => rw [← List.map_id l]
    refine List.map_congr_left fun e he => ?_
    simp only [Function.comp, id]
    have : l.find? (fun e' => e'.1 = e.1) = some e := by
      clear hl hst hk h
      induction l with
      | nil => simp at he
      | cons a l ih =>
        rw [List.find?_cons]
        rcases List.mem_cons.1 he with rfl | he'
        · simp
        · have hne : a.1 ≠ e.1 := by
            intro h'
            rw [List.map_cons, List.nodup_cons] at hnd
            exact hnd.1 (h' ▸ List.mem_map_of_mem he')
          simp only [hne, decide_false]
          exact ih (List.nodup_cons.1 hnd).2 he'
    rw [this]; rfl
  obtain ⟨g, hg⟩ := hform preds hk
  rw [hg]
  rcases hst with h0 | h0
  · rw [h0]; exact setKey_fresh _ (keys_nodup _) g
  · obtain ⟨g', hg'⟩ := hform _ h0
    rw [hg']
    exact setKey_foldl _ (keys_nodup _) g' g

/-- C27: after any sequence of calls on one estimator object, `get_predictions` raises
`EstimatorNotFittedException` as long as no fit has succeeded, and otherwise returns exactly the predictions of the
last successful fit; failed fits leave no trace. -/
theorem predictions_history (ε : ℝ) (s : (n : ℕ) → (Fin n → ℝ) → Fin n → Fin n) (p : Params) (c : ℤ)
    (ops : List Op) :
    (ops.foldl (Op.apply ε s p c) {}).getPredictions
      = (lastGood ε s p c ops).elim (.error .notFitted) .ok := by
  suffices H : (ops.foldl (Op.apply ε s p c) {}) =
      (lastGood ε s p c ops).elim {} (fun preds => ⟨true, preds⟩) ∧
      (∀ preds, lastGood ε s p c ops = some preds → preds.map Prod.fst = keys p.neighborhoods) by
    rw [H.1]
    cases lastGood ε s p c ops <;> rfl
  induction ops using List.reverseRecOn with
  | nil => simp [lastGood]
  | append_singleton ops op ih =>
    obtain ⟨ih1, ih2⟩ := ih
    have hfit : ∀ mx my, (op = .fit mx my ∨ op = .estimate mx my) →
        (ops ++ [op]).foldl (Op.apply ε s p c) {}
          = ((ops.foldl (Op.apply ε s p c) {}).fit (fastFit ε s p c mx my)).2 ∧
        lastGood ε s p c (ops ++ [op]) =
          match fastFit ε s p c mx my with
          | .ok preds => some preds
          | .error _ => lastGood ε s p c ops := by
      intro mx my hop
      constructor
      · rw [List.foldl_append, List.foldl_cons, List.foldl_nil]
        rcases hop with rfl | rfl
        · rfl
        · exact estimate_state _ _
      · unfold lastGood
        rcases hop with rfl | rfl <;>
          (rw [List.reverse_append, List.reverse_singleton, List.singleton_append, List.filterMap_cons]
           cases hr : fastFit ε s p c mx my <;> simp only [hr, Except.toOption, List.head?_cons])
    have hdone : ∀ mx my, (op = .fit mx my ∨ op = .estimate mx my) →
        (ops ++ [op]).foldl (Op.apply ε s p c) {} =
          (lastGood ε s p c (ops ++ [op])).elim {} (fun preds => ⟨true, preds⟩) ∧
        (∀ preds, lastGood ε s p c (ops ++ [op]) = some preds →
          preds.map Prod.fst = keys p.neighborhoods) := by
      intro mx my hop
      obtain ⟨h1, h2⟩ := hfit mx my hop
      rw [h1, h2]
      cases hr : fastFit ε s p c mx my with
      | error e => simp only [State.fit]; exact ⟨ih1, ih2⟩
      | ok preds =>
        refine ⟨?_, ?_⟩
        · simp only [State.fit, Option.elim]
          rw [fit_store ε s p c _ mx my preds hr]
          rw [ih1]
          cases hl : lastGood ε s p c ops with
          | none => left; rfl
          | some q => right; exact ih2 q hl
        · rintro q hq
          injection hq with hq
          subst hq
          exact (fit_keys ε s p c mx my _ hr).1
    cases op with
    | fit mx my => exact hdone mx my (.inl rfl)
    | estimate mx my => exact hdone mx my (.inr rfl)
    | predict =>
      have e : lastGood ε s p c (ops ++ [.predict]) = lastGood ε s p c ops := by
        unfold lastGood; simp
      rw [e, List.foldl_append]
      exact ⟨ih1, ih2⟩

/-- C27: `estimate` raises what `fit` raises, and otherwise returns the average of the predictions of this very
fit (also on an object with any history of earlier calls). -/
theorem estimate_mean (ε : ℝ) (s : (n : ℕ) → (Fin n → ℝ) → Fin n → Fin n) (p : Params) (c : ℤ)
    (ops : List Op) (mx my : Mat) :
    ((ops.foldl (Op.apply ε s p c) {}).estimate (fastFit ε s p c mx my)).1 =
      match fastFit ε s p c mx my with
      | .error e => .error e
      | .ok preds => .ok ((preds.map Prod.snd).sum / (preds.length : EReal)) := by
  have hist := predictions_history ε s p c (ops ++ [.fit mx my])
  rw [List.foldl_append, List.foldl_cons, List.foldl_nil] at hist
  cases hr : fastFit ε s p c mx my with
  | error e => rfl
  | ok preds =>
    have hl : lastGood ε s p c (ops ++ [.fit mx my]) = some preds := by
      unfold lastGood
      rw [List.reverse_append, List.reverse_singleton, List.singleton_append, List.filterMap_cons]
      simp [hr, Except.toOption]
    rw [hl] at hist
    simp only [Op.apply, hr, Option.elim] at hist
    unfold State.estimate
    generalize hst : State.fit (ops.foldl (Op.apply ε s p c) {}) (.ok preds) = r at *
    obtain ⟨r1, r2⟩ := r
    have : r1 = .ok () := by
      have := congrArg Prod.fst hst
      simpa [State.fit] using this.symm
    subst this
    simp only
    rw [hist]

/-- A history with a failing fit between two successful ones exists. -/
example : ∃ (p : Params) (good bad' : Mat), (fastFit 0 (fun _ f => (Tuple.sort f : _ → _)) p 1 good good).isOk = true ∧
    (fastFit 0 (fun _ f => (Tuple.sort f : _ → _)) p 1 good bad').isOk = false := by
  refine ⟨⟨[1, 2], false, .euclidean, .chebyshev⟩, col (fun i : Fin 3 => (i : ℝ)), col (fun i : Fin 2 => (i : ℝ)), ?_, ?_⟩
  · unfold col
    rw [fastFit_good _ _ _ _ (by norm_num)]
    · rfl
    · unfold bad; simp [maxNbh]
  · rw [fastFit_mismatch _ _ _ _ _ _ (by simp [col])]; rfl

end BMI.KSG
