import Verif.Lemmas.Scaling
import Verif.Props.Task
import Mathlib.Tactic.FinCases

/-!
# C64 – tasks that preprocess samples

`transform_rescale`, `transform_uniformise`, `transform_gaussianise` and `scale_tasks`.
-/

namespace BMI.Scaling

open BMI.SampleIO (NdArr)
open BMI.Task (Task Sampler)
open BMI.Training (Fl)

/-! ### Rescaling -/

theorem sum_sub_mean {n : ℕ} (hn : 0 < n) (c : Fin n → ℝ) : ∑ i, (c i - mean c) = 0 := by
  have hn' : (n : ℝ) ≠ 0 := by positivity
  rw [Finset.sum_sub_distrib]
  simp only [Finset.sum_const, Finset.card_univ, Fintype.card_fin, nsmul_eq_mul, mean]
  field_simp; ring

open Classical in
/-- What a column is divided by is positive. -/
theorem divisor_pos {eps : ℝ} (heps : 0 < eps) {n : ℕ} (c : Fin n → ℝ) :
    0 < (if std c < 10 * eps then 1 else std c) := by
  by_cases h : std c < 10 * eps
  · rw [if_pos h]; norm_num
  · rw [if_neg h]; linarith

/-- C64: rescaling a non-empty sample moves and stretches every coordinate by an affine map with positive slope, the same
for all points.  All columns get mean zero.  A column whose standard deviation is not below `10 eps` gets variance one,
and the others, in particular constant columns, are only centred. -/
theorem rescale_spec {eps : ℝ} (heps : 0 < eps) {n d : ℕ} (hn : 0 < n) (hd : 0 < d) (v : Fin n → Fin d → ℝ) :
    ∃ w, rescale eps (.mat n d v) = .ok (.mat n d w) ∧
      (∃ a b : Fin d → ℝ, (∀ j, 0 < a j) ∧ ∀ i j, w i j = a j * v i j + b j) ∧
      (∀ j, ∑ i, w i j = 0) ∧
      (∀ j, n * (10 * eps) ^ 2 ≤ ∑ i, (v i j - (∑ i', v i' j) / n) ^ 2 → (∑ i, (w i j) ^ 2) / n = 1) ∧
      (∀ j, ∑ i, (v i j - (∑ i', v i' j) / n) ^ 2 < n * (10 * eps) ^ 2 →
        ∀ i, w i j = v i j - (∑ i', v i' j) / n) := by
  classical
  have hn' : (0 : ℝ) < n := by exact_mod_cast hn
  refine ⟨fun i j => scaleCol eps (fun i' => v i' j) i, ?_, ?_, ?_, ?_, ?_⟩
  · simp [rescale, hn.ne', hd.ne']
  · refine ⟨fun j => (if std (fun i' => v i' j) < 10 * eps then 1 else std (fun i' => v i' j))⁻¹,
      fun j => -mean (fun i' => v i' j) / (if std (fun i' => v i' j) < 10 * eps then 1
        else std (fun i' => v i' j)), fun j => inv_pos.2 (divisor_pos heps _), fun i j => ?_⟩
    simp only [scaleCol]
    rw [div_eq_inv_mul, div_eq_inv_mul]; ring
  · intro j
    unfold scaleCol
    rw [← Finset.sum_div, sum_sub_mean hn]; simp
  · intro j hj
    have hs : ¬ std (fun i' => v i' j) < 10 * eps := by
      unfold std mean
      rw [not_lt]
      apply Real.le_sqrt_of_sq_le
      rw [le_div_iff₀ hn']; linarith
    have hv : 0 < (∑ i, (v i j - (∑ i', v i' j) / n) ^ 2) / n :=
      div_pos (lt_of_lt_of_le (by positivity) hj) hn'
    unfold scaleCol
    simp only [if_neg hs, div_pow]
    rw [← Finset.sum_div]
    unfold std mean
    rw [Real.sq_sqrt hv.le, div_right_comm]
    exact div_self hv.ne'
  · intro j hj i
    have hs : std (fun i' => v i' j) < 10 * eps := by
      unfold std mean
      rw [Real.sqrt_lt' (by positivity), div_lt_iff₀ hn']; linarith
    unfold scaleCol
    simp only [if_pos hs, div_one, mean]

/-- C64: order and ties within each column stay as they were. -/
theorem rescale_order {eps : ℝ} (heps : 0 < eps) {n d : ℕ} (v w : Fin n → Fin d → ℝ)
    (h : rescale eps (.mat n d v) = .ok (.mat n d w)) (j : Fin d) (i i' : Fin n) :
    (w i j < w i' j ↔ v i j < v i' j) ∧ (w i j = w i' j ↔ v i j = v i' j) := by
  obtain ⟨w', hw, ⟨a, b, ha, hab⟩, -⟩ := rescale_spec heps i.pos j.pos v
  rw [h] at hw
  simp only [Except.ok.injEq, NdArr.mat.injEq, heq_eq_eq, true_and] at hw
  subst hw
  rw [hab, hab]
  constructor
  · rw [add_lt_add_iff_right, mul_lt_mul_iff_of_pos_left (ha j)]
  · rw [add_left_inj, mul_right_inj' (ha j).ne']

/-- C64: rescaled data do not depend on the units and origins in which the columns are given, as long as no standard
deviation is below the threshold. -/
theorem rescale_affine {eps : ℝ} {n d : ℕ} (v : Fin n → Fin d → ℝ) (a b : Fin d → ℝ) (ha : ∀ j, 0 < a j)
    (hs : ∀ j, 10 * eps ≤ std fun i => v i j) (hs' : ∀ j, 10 * eps ≤ a j * std fun i => v i j) :
    rescale eps (.mat n d fun i j => a j * v i j + b j) = rescale eps (.mat n d v) := by
  classical
  simp only [rescale]
  by_cases hnd : n = 0 ∨ d = 0
  · rw [if_pos hnd, if_pos hnd]
  rw [if_neg hnd, if_neg hnd]
  have hn : 0 < n := by omega
  have hn' : (n : ℝ) ≠ 0 := by positivity
  congr 2
  funext i j
  have hm : mean (fun i' => a j * v i' j + b j) = a j * mean (fun i' => v i' j) + b j := by
    unfold mean
    rw [Finset.sum_add_distrib, ← Finset.mul_sum]
    simp; field_simp
  have hsd : std (fun i' => a j * v i' j + b j) = a j * std fun i' => v i' j := by
    unfold std
    rw [hm, ← Real.sqrt_sq (ha j).le, ← Real.sqrt_mul (sq_nonneg _), Real.sqrt_sq (ha j).le]
    congr 1
    rw [← mul_div_assoc, Finset.mul_sum]
    congr 1
    refine Finset.sum_congr rfl fun i _ => ?_
    ring
  unfold scaleCol
  rw [hm, hsd, if_neg (not_lt.2 (hs j)), if_neg (not_lt.2 (hs' j)),
    show a j * v i j + b j - (a j * mean (fun i' => v i' j) + b j) = a j * (v i j - mean fun i' => v i' j) by ring,
    mul_div_mul_left _ _ (ha j).ne']

/-- C64: empty samples are refused. -/
theorem rescale_empty (eps : ℝ) {n d : ℕ} (v : Fin n → Fin d → ℝ) (h : n = 0 ∨ d = 0) :
    rescale eps (.mat n d v) = .error .valueError := by
  simp [rescale, h]

example : ∃ w, rescale (1 / 100) (.mat 2 1 fun i _ => if i = 0 then 1 else 3) = .ok (.mat 2 1 w) ∧
    (∑ i, (w i 0) ^ 2) / ((2 : ℕ) : ℝ) = 1 := by
  obtain ⟨w, h, -, -, h1, -⟩ := rescale_spec (eps := 1 / 100) (by norm_num) (n := 2) (d := 1) (by norm_num)
    (by norm_num) (fun i _ => if i = 0 then 1 else 3)
  refine ⟨w, h, h1 0 ?_⟩
  simp [Fin.sum_univ_two]; norm_num

/-! ### Quantile transforms -/

theorem lastQuantile_pos {nq n : ℕ} (h : 2 ≤ nq) (hn : 2 ≤ n) : 0 < lastQuantile nq n := by
  unfold lastQuantile; omega

theorem quantiles_first (L : Lib) (seed : ℤ) (m : ℕ) {n : ℕ} (j : ℕ) (c : Fin (n + 1) → ℝ)
    (hL : n + 1 ≤ L.subsample) : quantiles L seed m j c 0 = sorted c 0 := by
  unfold quantiles
  rw [if_neg (by omega), reference_zero, percentile_zero]

theorem quantiles_last (L : Lib) (seed : ℤ) {m : ℕ} (hm : 0 < m) {n : ℕ} (j : ℕ) (c : Fin (n + 1) → ℝ)
    (hL : n + 1 ≤ L.subsample) : quantiles L seed m j c m = sorted c n := by
  unfold quantiles
  rw [if_neg (by omega), reference_last hm, percentile_one]

theorem quantiles_ends (L : Lib) (seed : ℤ) (m : ℕ) {n : ℕ} (j : ℕ) (c : Fin (n + 1) → ℝ) :
    quantiles L seed m j c 0 ≤ quantiles L seed m j c m := by
  unfold quantiles
  rcases Nat.eq_zero_or_pos m with h | h
  · subst h; exact le_rfl
  · rw [reference_last h, reference_zero]
    split
    · rw [percentile_zero, percentile_one]; exact sorted_mono _ (Nat.zero_le _)
    · rw [percentile_zero, percentile_one]; exact sorted_mono _ (Nat.zero_le _)

/-- C64: uniformising with at least two quantiles, a sample small enough that the quantiles are computed from all rows:
in every column the order and the ties are unchanged, the smallest value becomes zero, and the largest one, unless it
is also the smallest. All values lie in the unit interval. -/
theorem uniformise_spec (L : Lib) (nq : ℕ) (seed : ℤ) {n d : ℕ} (hn : 0 < n) (hd : 0 < d) (hnq : 2 ≤ nq)
    (hL : nq ≤ L.subsample) (hnL : n ≤ L.subsample) (v : Fin n → Fin d → ℝ) :
    ∃ w, quantileTransform L nq .uniform seed (.mat n d v) = .ok (.mat n d w) ∧
      (∀ j i i', (w i j < w i' j ↔ v i j < v i' j) ∧ (w i j = w i' j ↔ v i j = v i' j)) ∧
      (∀ i j, 0 ≤ w i j ∧ w i j ≤ 1) ∧
      (∀ i j, (∀ i', v i j ≤ v i' j) → w i j = 0) ∧
      (∀ i j, (∀ i', v i' j ≤ v i j) → (∃ i', v i' j ≠ v i j) → w i j = 1) := by
  obtain ⟨n, rfl⟩ : ∃ k, n = k + 1 := ⟨n - 1, by omega⟩
  set m := lastQuantile nq (n + 1) with hm
  refine ⟨fun i j => toUnit 0 m (quantiles L seed m j fun i' => v i' j) (v i j), ?_, ?_, ?_, ?_, ?_⟩
  · simp only [quantileTransform]
    rw [if_neg (by omega), if_neg (by omega), if_neg (by omega)]
    rfl
  · -- strictly increasing on the sample
    have key : ∀ j i i', v i j < v i' j →
        toUnit 0 m (quantiles L seed m j fun i' => v i' j) (v i j)
          < toUnit 0 m (quantiles L seed m j fun i' => v i' j) (v i' j) := by
      intro j i i' hlt
      have hm0 : 0 < m := by
        rcases Nat.eq_zero_or_pos n with h | h
        · subst h
          have : i = i' := Fin.ext (by omega)
          rw [this] at hlt; exact absurd hlt (lt_irrefl _)
        · exact lastQuantile_pos hnq (by omega)
      apply toUnit_strict
      · rw [quantiles_first _ _ _ _ _ hnL]
        obtain ⟨k, -, hk⟩ := sorted_mem (fun i' => v i' j) i
        rw [← hk]; exact sorted_mono _ (Nat.zero_le _)
      · exact hlt
      · rw [quantiles_last _ _ hm0 _ _ hnL]
        obtain ⟨k, hkn, hk⟩ := sorted_mem (fun i' => v i' j) i'
        rw [← hk]; exact sorted_mono _ hkn
    intro j i i'
    have hiff : ∀ i i', toUnit 0 m (quantiles L seed m j fun i' => v i' j) (v i j)
          < toUnit 0 m (quantiles L seed m j fun i' => v i' j) (v i' j) ↔ v i j < v i' j := by
      intro i i'
      refine ⟨fun h => ?_, key j i i'⟩
      rcases lt_trichotomy (v i j) (v i' j) with h1 | h1 | h1
      · exact h1
      · rw [h1] at h; exact absurd h (lt_irrefl _)
      · exact absurd h (key j i' i h1).asymm
    refine ⟨hiff i i', ?_, fun h => by simp only [h]⟩
    intro h
    rcases lt_trichotomy (v i j) (v i' j) with h1 | h1 | h1
    · exact absurd h (key j i i' h1).ne
    · exact h1
    · exact absurd h (key j i' i h1).ne'
  · exact fun i j => toUnit_bounds 0 _
  · intro i j hmin
    have : v i j = quantiles L seed m j (fun i' => v i' j) 0 := by
      rw [quantiles_first _ _ _ _ _ hnL]
      apply le_antisymm
      · obtain ⟨k, hk⟩ := sorted_attained (fun i' => v i' j) 0
        rw [hk]; exact hmin k
      · obtain ⟨k, -, hk⟩ := sorted_mem (fun i' => v i' j) i
        rw [← hk]; exact sorted_mono _ (Nat.zero_le _)
    dsimp only
    rw [this]; exact toUnit_zero_lower
  · rintro i j hmax ⟨i', hne⟩
    have hm0 : 0 < m := by
      rcases Nat.eq_zero_or_pos n with h | h
      · subst h
        have : i = i' := Fin.ext (by omega)
        rw [this] at hne; exact absurd rfl hne
      · exact lastQuantile_pos hnq (by omega)
    have : v i j = quantiles L seed m j (fun i' => v i' j) m := by
      rw [quantiles_last _ _ hm0 _ _ hnL]
      apply le_antisymm
      · obtain ⟨k, hkn, hk⟩ := sorted_mem (fun i' => v i' j) i
        rw [← hk]; exact sorted_mono _ hkn
      · obtain ⟨k, hk⟩ := sorted_attained (fun i' => v i' j) n
        rw [hk]; exact hmax k
    dsimp only
    rw [this]
    apply toUnit_zero_upper
    rw [← this, quantiles_first _ _ _ _ _ hnL]
    obtain ⟨k, -, hk⟩ := sorted_mem (fun i' => v i' j) i'
    exact (sorted_mono _ (Nat.zero_le k)).trans_lt (hk ▸ lt_of_le_of_ne (hmax i') hne)

theorem quantiles_all (L : Lib) (seed : ℤ) {n : ℕ} (hn : 0 < n) (j : ℕ) (c : Fin (n + 1) → ℝ)
    (hL : n + 1 ≤ L.subsample) (k : ℕ) : quantiles L seed n j c k = sorted c k := by
  have hn' : (n : ℝ) ≠ 0 := by exact_mod_cast hn.ne'
  unfold quantiles
  rw [if_neg (by omega), reference, if_neg hn.ne', percentile, div_mul_cancel₀ _ hn']
  simp

/-- At a node of a strictly increasing table the interpolation returns the entry. -/
theorem interp_node {m k : ℕ} {xp fp : ℕ → ℝ} (hx : ∀ a b, a < b → b ≤ m → xp a < xp b) (hk : k ≤ m) :
    interp m xp fp (xp k) = fp k := by
  have h0 : xp 0 ≤ xp k := by
    rcases Nat.eq_zero_or_pos k with h | h
    · rw [h]
    · exact (hx 0 k h hk).le
  rcases interp_piece (m := m) (fp := fp) h0 with ⟨h, e⟩ | ⟨j, hj, h1, h2, -, e⟩
  · rcases hk.lt_or_eq with hlt | heq
    · exact absurd (hx k m hlt le_rfl) (not_lt.2 h)
    · rw [e, heq]
  · have : k = j := by
      rcases lt_trichotomy k j with h | h | h
      · exact absurd (hx k j h hj.le) (not_lt.2 h1)
      · exact h
      · rcases (Nat.succ_le_of_lt h).lt_or_eq with h' | h'
        · exact absurd (hx _ k h' hk) h2.not_gt
        · rw [← h'] at h2; exact absurd h2 (lt_irrefl _)
    rw [e, this]; ring

/-- C64: with at least as many quantiles as points, uniformising a column without ties gives the rank of each value: the
fraction of the other points that lie below it. -/
theorem uniformise_rank (L : Lib) (nq : ℕ) (seed : ℤ) {n d : ℕ} (hn : 2 ≤ n) (hd : 0 < d) (hnq : n ≤ nq)
    (hL : nq ≤ L.subsample) (v : Fin n → Fin d → ℝ) :
    ∃ w, quantileTransform L nq .uniform seed (.mat n d v) = .ok (.mat n d w) ∧
      ∀ j, (∀ i i', v i j = v i' j → i = i') →
        ∀ i, w i j = ((Finset.univ.filter fun i' => v i' j < v i j).card : ℝ) / ((n : ℝ) - 1) := by
  classical
  obtain ⟨n, rfl⟩ : ∃ k, n = k + 1 := ⟨n - 1, by omega⟩
  have hm : lastQuantile nq (n + 1) = n := by unfold lastQuantile; omega
  have hn0 : 0 < n := by omega
  refine ⟨fun i j => toUnit 0 n (quantiles L seed n j fun i' => v i' j) (v i j), ?_, ?_⟩
  · simp only [quantileTransform]
    rw [if_neg (by omega), if_neg (by omega), if_neg (by omega), hm]
    rfl
  intro j hinj i
  set c : Fin (n + 1) → ℝ := fun i' => v i' j with hc
  have hcinj : Function.Injective c := fun a b h => hinj a b h
  have hsm : StrictMono (c ∘ Tuple.sort c) :=
    (Tuple.monotone_sort c).strictMono_of_injective (hcinj.comp (Tuple.sort c).injective)
  have hq : (quantiles L seed n j c) = sorted c := funext fun k => quantiles_all L seed hn0 j c (by omega) k
  have hstrict : ∀ a b, a < b → b ≤ n → sorted c a < sorted c b := by
    intro a b hab hb
    unfold sorted
    exact hsm (show (⟨min a n, _⟩ : Fin (n + 1)) < ⟨min b n, _⟩ by simp only [Fin.mk_lt_mk]; omega)
  obtain ⟨s, hs⟩ := (Tuple.sort c).surjective i
  have hci : v i j = sorted c s := by
    unfold sorted
    have : (⟨min (s : ℕ) n, by omega⟩ : Fin (n + 1)) = s := by apply Fin.ext; simp only; omega
    rw [this, hs]
  have hcard : (Finset.univ.filter fun i' => v i' j < v i j).card = (s : ℕ) := by
    have h1 : (Finset.univ.filter fun i' => v i' j < v i j) = (Finset.Iio s).map (Tuple.sort c).toEmbedding := by
      ext i'
      obtain ⟨s', hs'⟩ := (Tuple.sort c).surjective i'
      simp only [Finset.mem_filter, Finset.mem_univ, true_and, Finset.mem_map_equiv, Finset.mem_Iio]
      rw [← hs', ← hs, Equiv.symm_apply_apply]
      exact hsm.lt_iff_lt
    rw [h1, Finset.card_map, Fin.card_Iio]
  have hsn : (s : ℕ) ≤ n := by omega
  have hbet : between n (sorted c) (sorted c s) = (s : ℕ) / (n : ℝ) := by
    unfold between
    rw [interp_node hstrict hsn]
    have h2 := interp_node (m := n) (k := n - s) (xp := fun k => -sorted c (n - k)) (fp := fun k => -reference n (n - k))
      (fun a b hab hb => neg_lt_neg (hstrict _ _ (by omega) (by omega))) (by omega)
    have h3 : n - (n - (s : ℕ)) = s := by omega
    simp only [h3] at h2
    rw [h2, reference, if_neg hn0.ne']
    ring
  dsimp only
  rw [hq, hcard, hci]
  have hn' : (n : ℝ) ≠ 0 := by exact_mod_cast hn0.ne'
  have hcast : ((n + 1 : ℕ) : ℝ) - 1 = n := by push_cast; ring
  rw [hcast]
  rcases Nat.eq_zero_or_pos (s : ℕ) with h0 | h0
  · rw [h0, toUnit_zero_lower]; simp
  · rcases hsn.lt_or_eq with h1 | h1
    · rw [toUnit_zero_inner (hstrict 0 s h0 hsn) (hstrict s n h1 le_rfl), hbet]
    · rw [h1, toUnit_zero_upper (hstrict 0 n hn0 le_rfl), div_self hn']

example : ∃ w, quantileTransform ⟨0, 10, fun _ n _ s => ⟨min s n, by omega⟩, id⟩ 7 .uniform 0
    (.mat 3 1 fun i _ => ((i : ℕ) : ℝ) ^ 2) = .ok (.mat 3 1 w) ∧ w 1 0 = 1 / 2 := by
  obtain ⟨w, h, hr⟩ := uniformise_rank ⟨0, 10, fun _ n _ s => ⟨min s n, by omega⟩, id⟩ 7 0 (n := 3) (d := 1) (by norm_num)
    (by norm_num) (by norm_num) (by norm_num) (fun i _ => ((i : ℕ) : ℝ) ^ 2)
  refine ⟨w, h, ?_⟩
  rw [hr 0 (by
    intro i i' h
    have h' : ((i : ℕ) : ℝ) = ((i' : ℕ) : ℝ) := (pow_left_inj₀ (by positivity) (by positivity) two_ne_zero).1 h
    exact Fin.ext (by exact_mod_cast h')) 1]
  have : (Finset.univ.filter fun i' : Fin 3 => ((i' : ℕ) : ℝ) ^ 2 < (((1 : Fin 3) : ℕ) : ℝ) ^ 2) = {0} := by
    ext i'
    fin_cases i' <;> norm_num
  rw [this]
  norm_num

/-- C64: a uniformised sample does not depend on units and origins of the columns; this holds for samples of every size. -/
theorem uniformise_affine (L : Lib) (nq : ℕ) (seed : ℤ) {n d : ℕ} (v : Fin n → Fin d → ℝ) (a b : Fin d → ℝ)
    (ha : ∀ j, 0 < a j) :
    quantileTransform L nq .uniform seed (.mat n d fun i j => a j * v i j + b j)
      = quantileTransform L nq .uniform seed (.mat n d v) := by
  rcases n with _ | n
  · rfl
  · simp only [quantileTransform, transformed]
    have : ∀ (i : Fin (n + 1)) (j : Fin d),
        toUnit 0 (lastQuantile nq (n + 1)) (quantiles L seed (lastQuantile nq (n + 1)) j
          fun i' => a j * v i' j + b j) (a j * v i j + b j)
        = toUnit 0 (lastQuantile nq (n + 1)) (quantiles L seed (lastQuantile nq (n + 1)) j
          fun i' => v i' j) (v i j) := by
      intro i j
      have hq : quantiles L seed (lastQuantile nq (n + 1)) j (fun i' => a j * v i' j + b j)
          = fun k => a j * quantiles L seed (lastQuantile nq (n + 1)) j (fun i' => v i' j) k + b j := by
        funext k
        unfold quantiles
        split
        · exact percentile_affine (fun s => v (L.pick seed n j s) j) (a j) (b j) (ha j) _
        · exact percentile_affine (fun i' => v i' j) (a j) (b j) (ha j) _
      rw [hq, toUnit_affine _ _ (ha j)]
    simp only [this]

/-- C64: rescaling before uniformising changes nothing. -/
theorem uniformise_rescale (L : Lib) (heps : 0 < L.eps) (nq : ℕ) (seed : ℤ) (x : NdArr ℝ) :
    (rescale L.eps x).bind (quantileTransform L nq .uniform seed) = quantileTransform L nq .uniform seed x := by
  rcases x with ⟨n, d, v⟩ | _
  · by_cases h : n = 0 ∨ d = 0
    · rw [rescale_empty _ _ h]
      rcases n with _ | n
      · rfl
      · have hd : d = 0 := by omega
        simp [quantileTransform, hd, Except.bind]
    · obtain ⟨w, hw, ⟨a, b, ha, hab⟩, -⟩ := rescale_spec heps (n := n) (d := d) (by omega) (by omega) v
      rw [hw]
      have : w = fun i j => a j * v i j + b j := by funext i j; exact hab i j
      rw [this]
      exact uniformise_affine L nq seed v a b ha
  · rfl

/-- C64: with one quantile, which is accepted, uniformising maps every value to zero: nothing of the sample is left. -/
theorem uniformise_one_quantile (L : Lib) (hL : 1 ≤ L.subsample) (seed : ℤ) {n d : ℕ} (hn : 0 < n) (hd : 0 < d)
    (v : Fin n → Fin d → ℝ) :
    quantileTransform L 1 .uniform seed (.mat n d v) = .ok (.mat n d fun _ _ => 0) := by
  obtain ⟨n, rfl⟩ : ∃ k, n = k + 1 := ⟨n - 1, by omega⟩
  have hm : lastQuantile 1 (n + 1) = 0 := by unfold lastQuantile; omega
  simp only [quantileTransform, transformed]
  rw [if_neg (by omega), if_neg (by norm_num), if_neg (by omega), hm]
  congr 2
  funext i j
  have h0 := (toUnit_bounds (m := 0) (q := quantiles L seed 0 j fun i' => v i' j) 0 (v i j)).1
  refine le_antisymm ?_ h0
  classical
  unfold toUnit
  by_cases h : v i j = quantiles L seed 0 j (fun i' => v i' j) 0
  · simp [h]
  · simp only [if_true, h, if_false]
    unfold between
    have h1 := interp_bounds (m := 0) (xp := quantiles L seed 0 j fun i' => v i' j) (fp := reference 0)
      reference_lt (v i j)
    have h2 := interp_bounds (m := 0) (xp := fun k => -quantiles L seed 0 j (fun i' => v i' j) (0 - k))
      (fp := fun k => -reference 0 (0 - k)) reference_rev (-v i j)
    simp only [Nat.sub_zero, reference_zero, neg_zero] at h1 h2
    linarith [h1.2, h2.1]

theorem clippedPpf_mono (L : Lib) (h0 : 0 < threshold - L.eps) (h1 : threshold - L.eps < 1 / 2)
    (hp : StrictMonoOn L.ppf (Set.Ioo 0 1)) {u u' : ℝ} (h : u ≤ u') : clippedPpf L u ≤ clippedPpf L u' := by
  classical
  have hlo : L.ppf (threshold - L.eps) ≤ L.ppf (1 - (threshold - L.eps)) :=
    (hp ⟨h0, by linarith⟩ ⟨by linarith, by linarith⟩ (by linarith)).le
  unfold clippedPpf
  dsimp only
  by_cases a : u ≤ 0
  · rw [if_pos a]
    by_cases a' : u' ≤ 0
    · rw [if_pos a']
    · rw [if_neg a']
      by_cases b' : 1 ≤ u'
      · rw [if_pos b']; exact hlo
      · rw [if_neg b']; exact le_min hlo (le_max_left _ _)
  · rw [if_neg a, if_neg (show ¬ u' ≤ 0 by linarith)]
    by_cases b : 1 ≤ u
    · rw [if_pos b, if_pos (by linarith)]
    · rw [if_neg b]
      by_cases b' : 1 ≤ u'
      · rw [if_pos b']; exact min_le_left _ _
      · rw [if_neg b']
        have hu : L.ppf u ≤ L.ppf u' :=
          hp.monotoneOn ⟨by linarith, by linarith⟩ ⟨by linarith, by linarith⟩ h
        exact min_le_min le_rfl (max_le_max le_rfl hu)

theorem clippedPpf_range (L : Lib) (h0 : 0 < threshold - L.eps) (h1 : threshold - L.eps < 1 / 2)
    (hp : StrictMonoOn L.ppf (Set.Ioo 0 1)) (u : ℝ) :
    L.ppf (threshold - L.eps) ≤ clippedPpf L u ∧ clippedPpf L u ≤ L.ppf (1 - (threshold - L.eps)) := by
  classical
  have hlo : L.ppf (threshold - L.eps) ≤ L.ppf (1 - (threshold - L.eps)) :=
    (hp ⟨h0, by linarith⟩ ⟨by linarith, by linarith⟩ (by linarith)).le
  unfold clippedPpf
  dsimp only
  by_cases a : u ≤ 0
  · rw [if_pos a]; exact ⟨le_rfl, hlo⟩
  · rw [if_neg a]
    by_cases b : 1 ≤ u
    · rw [if_pos b]; exact ⟨hlo, le_rfl⟩
    · rw [if_neg b]; exact ⟨le_min hlo (le_max_left _ _), min_le_left _ _⟩

theorem threshold_pos : 0 < threshold := by unfold threshold; positivity

/-- C64: gaussianising never reverses the order of two values in a column and stays between the clipping bounds. -/
theorem gaussianise_monotone (L : Lib) (h0 : 0 ≤ L.eps) (h1 : L.eps < 1 / 10 ^ 7)
    (hp : StrictMonoOn L.ppf (Set.Ioo 0 1)) (nq : ℕ) (seed : ℤ) {n d : ℕ} (hn : 0 < n) (hd : 0 < d) (hnq : 1 ≤ nq)
    (hL : nq ≤ L.subsample) (v : Fin n → Fin d → ℝ) :
    ∃ w, quantileTransform L nq .normal seed (.mat n d v) = .ok (.mat n d w) ∧
      (∀ j i i', v i j ≤ v i' j → w i j ≤ w i' j) ∧
      ∀ i j, L.ppf (1 / 10 ^ 7 - L.eps) ≤ w i j ∧ w i j ≤ L.ppf (1 - (1 / 10 ^ 7 - L.eps)) := by
  obtain ⟨n, rfl⟩ : ∃ k, n = k + 1 := ⟨n - 1, by omega⟩
  have e0 : 0 < threshold - L.eps := by unfold threshold; linarith
  have e1 : threshold - L.eps < 1 / 2 := by unfold threshold; norm_num at h1 ⊢; linarith
  refine ⟨fun i j => clippedPpf L (toUnit threshold (lastQuantile nq (n + 1))
    (quantiles L seed (lastQuantile nq (n + 1)) j fun i' => v i' j) (v i j)), ?_, fun j i i' h => ?_, fun i j => ?_⟩
  · simp only [quantileTransform]
    rw [if_neg (by omega), if_neg (by omega), if_neg (by omega)]
    rfl
  · exact clippedPpf_mono L e0 e1 hp (toUnit_mono _ threshold_pos.le (quantiles_ends _ _ _ _ _) h)
  · exact clippedPpf_range L e0 e1 hp _

open Classical in
/-- C64: gaussianising is not injective on samples: values closer than `1e-7` to the smallest value of their column all
become the lower clipping bound. -/
theorem gaussianise_collapses (L : Lib) (nq : ℕ) (seed : ℤ) {n d : ℕ} (hnL : n ≤ L.subsample)
    (v w : Fin n → Fin d → ℝ) (h : quantileTransform L nq .normal seed (.mat n d v) = .ok (.mat n d w))
    (j : Fin d) (i₀ i : Fin n) (hmin : ∀ i', v i₀ j ≤ v i' j) (hi : v i j < v i₀ j + 1 / 10 ^ 7) :
    w i j = L.ppf (1 / 10 ^ 7 - L.eps) := by
  obtain ⟨n, rfl⟩ : ∃ k, n = k + 1 := ⟨n - 1, by have := i.pos; omega⟩
  simp only [quantileTransform] at h
  split_ifs at h
  simp only [Except.ok.injEq, NdArr.mat.injEq, heq_eq_eq, true_and] at h
  rw [← h]
  simp only [transformed]
  have hq : quantiles L seed (lastQuantile nq (n + 1)) j (fun i' => v i' j) 0 = v i₀ j := by
    rw [quantiles_first _ _ _ _ _ hnL]
    apply le_antisymm
    · obtain ⟨k, -, hk⟩ := sorted_mem (fun i' => v i' j) i₀
      rw [← hk]; exact sorted_mono _ (Nat.zero_le _)
    · obtain ⟨k, hk⟩ := sorted_attained (fun i' => v i' j) 0
      rw [hk]; exact hmin k
  have hu : toUnit threshold (lastQuantile nq (n + 1))
      (quantiles L seed (lastQuantile nq (n + 1)) j fun i' => v i' j) (v i j) = 0 := by
    unfold toUnit
    rw [if_pos]
    rw [if_neg threshold_pos.ne', hq]
    unfold threshold
    linarith
  rw [hu]
  simp [clippedPpf, threshold]

/-- C64: for samples larger than the limit the quantiles come from a random subset of the rows; all values below the
smallest one drawn become zero, so that distinct points can become equal. -/
theorem uniformise_large_collapses (L : Lib) (nq : ℕ) (seed : ℤ) {n d : ℕ} (hL : L.subsample < n + 1)
    (v w : Fin (n + 1) → Fin d → ℝ)
    (h : quantileTransform L nq .uniform seed (.mat (n + 1) d v) = .ok (.mat (n + 1) d w)) (j : Fin d) (i : Fin (n + 1))
    (hi : ∀ s, v i j < v (L.pick seed n j s) j) : w i j = 0 := by
  classical
  simp only [quantileTransform] at h
  split_ifs at h
  simp only [Except.ok.injEq, NdArr.mat.injEq, heq_eq_eq, true_and] at h
  rw [← h]
  simp only [transformed]
  set q := quantiles L seed (lastQuantile nq (n + 1)) j fun i' => v i' j with hq
  have hends := quantiles_ends L seed (lastQuantile nq (n + 1)) j fun i' => v i' j
  have h0 : v i j < q 0 := by
    rw [hq]
    unfold quantiles
    rw [if_pos hL, reference_zero, percentile_zero]
    obtain ⟨s, hs⟩ := sorted_attained (fun s => v (L.pick seed n j s) j) 0
    rw [hs]; exact hi s
  have : toUnit 0 (lastQuantile nq (n + 1)) q (v i j) = between (lastQuantile nq (n + 1)) q (v i j) := by
    unfold toUnit
    rw [if_neg (by rw [if_pos rfl]; exact h0.ne), if_neg (by rw [if_pos rfl]; intro e; rw [← hq] at hends; linarith)]
  rw [this, between_below hends h0]

/-- C64: which calls of the quantile transforms succeed. -/
theorem quantileTransform_ok_iff (L : Lib) (nq : ℕ) (out : Output) (seed : ℤ) {n d : ℕ} (v : Fin n → Fin d → ℝ) :
    (∃ r, quantileTransform L nq out seed (.mat n d v) = .ok r) ↔
      0 < n ∧ 0 < d ∧ 1 ≤ nq ∧ nq ≤ L.subsample := by
  rcases n with _ | n
  · simp [quantileTransform]
  · simp only [quantileTransform]
    by_cases h1 : d = 0
    · rw [if_pos h1]; simp [h1]
    rw [if_neg h1]
    by_cases h2 : nq = 0
    · rw [if_pos h2]; simp [h2]
    rw [if_neg h2]
    by_cases h3 : L.subsample < nq
    · rw [if_pos h3]
      constructor
      · rintro ⟨r, hr⟩; cases hr
      · intro h; omega
    · rw [if_neg h3]
      exact ⟨fun _ => ⟨by omega, by omega, by omega, by omega⟩, fun _ => ⟨_, rfl⟩⟩

/-- The library parameters of the examples: limit 10, first rows drawn, `ppf` replaced by the identity. -/
noncomputable def exampleLib : Lib where
  eps := 1 / 10 ^ 16
  subsample := 10
  pick := fun _ n _ s => ⟨min s n, by omega⟩
  ppf := id

example : ∃ w, quantileTransform exampleLib 3 .uniform 0 (.mat 3 1 fun i _ => (i : ℝ) ^ 2) = .ok (.mat 3 1 w) ∧
    w 0 0 = 0 ∧ w 0 0 < w 1 0 ∧ w 2 0 = 1 := by
  obtain ⟨w, h, ho, -, hmin, hmax⟩ := uniformise_spec exampleLib 3 0 (n := 3) (d := 1) (by norm_num) (by norm_num)
    (by norm_num) (by norm_num [exampleLib]) (by norm_num [exampleLib]) (fun i _ => ((i : ℕ) : ℝ) ^ 2)
  refine ⟨w, h, hmin 0 0 fun i' => ?_, ((ho 0 0 1).1).2 (by norm_num), hmax 2 0 (fun i' => ?_) ⟨0, by norm_num⟩⟩
  · simp
  · fin_cases i' <;> norm_num

example : ∃ w, quantileTransform exampleLib 3 .normal 0 (.mat 2 1 fun i _ => (i : ℝ)) = .ok (.mat 2 1 w) ∧
    w 0 0 ≤ w 1 0 := by
  obtain ⟨w, h, ho, -⟩ := gaussianise_monotone exampleLib (by norm_num [exampleLib]) (by norm_num [exampleLib])
    (fun _ _ _ _ h => h) 3 0 (n := 2) (d := 1) (by norm_num) (by norm_num) (by norm_num) (by norm_num [exampleLib])
    (fun i _ => ((i : ℕ) : ℝ))
  exact ⟨w, h, ho 0 0 1 (by norm_num)⟩

/-- Two different points become equal. -/
example : ∃ w, quantileTransform exampleLib 3 .normal 0
      (.mat 3 1 fun i _ => if i = 0 then 0 else if i = 1 then 1 / 10 ^ 8 else 1) = .ok (.mat 3 1 w) ∧ w 0 0 = w 1 0 := by
  obtain ⟨w, h, -⟩ := gaussianise_monotone exampleLib (by norm_num [exampleLib]) (by norm_num [exampleLib])
    (fun _ _ _ _ h => h) 3 0 (n := 3) (d := 1) (by norm_num) (by norm_num) (by norm_num) (by norm_num [exampleLib])
    (fun i _ => if i = 0 then 0 else if i = 1 then 1 / 10 ^ 8 else 1)
  have hmin : ∀ i' : Fin 3, (fun (i : Fin 3) (_ : Fin 1) => if i = 0 then (0 : ℝ) else if i = 1 then 1 / 10 ^ 8 else 1) 0 0
      ≤ (fun (i : Fin 3) (_ : Fin 1) => if i = 0 then (0 : ℝ) else if i = 1 then 1 / 10 ^ 8 else 1) i' 0 := by
    intro i'; fin_cases i' <;> norm_num
  refine ⟨w, h, ?_⟩
  rw [gaussianise_collapses exampleLib 3 0 (by norm_num [exampleLib]) _ w h 0 0 0 hmin (by norm_num),
    gaussianise_collapses exampleLib 3 0 (by norm_num [exampleLib]) _ w h 0 0 1 hmin (by norm_num)]

/-! ### Tasks -/

variable {α V : Type} [LinearOrder α] [Zero α]

theorem wrap_ok (base : Sampler α ℝ) (f g : NdArr ℝ → Except Err (NdArr ℝ)) {dx dy : ℕ} (hx : base.dimX = .ok dx)
    (hy : base.dimY = .ok dy) (h1 : 1 ≤ dx) (h2 : 1 ≤ dy) :
    ∃ s, wrap base f g = .ok s ∧ s.dimX = .ok dx ∧ s.dimY = .ok dy ∧ s.mi = base.mi ∧
      ∀ n seed, s.sample n seed = (base.sample n seed).bind fun xy =>
        (f xy.1).bind fun x => (g xy.2).map fun y => (x, y) := by
  refine ⟨{ dimX := .ok dx
            dimY := .ok dy
            mi := base.mi
            sample := fun n seed => do
              let xy ← base.sample n seed
              let x ← f xy.1
              let y ← g xy.2
              .ok (x, y) }, ?_, rfl, rfl, rfl, fun n seed => ?_⟩
  · simp only [wrap, hx, hy, bind, Except.bind]
    rw [if_neg (by omega)]
  · simp only [bind, Except.bind]
    rcases base.sample n seed with e | xy
    · rfl
    · dsimp only
      rcases f xy.1 with e | x
      · rfl
      · dsimp only
        rcases g xy.2 with e | y <;> rfl

/-- A task whose metadata can be read (C43): dimensions at least one and a non-negative number as mutual information. -/
structure Readable (t : Task α ℝ (String × V)) (dx dy : ℕ) (a : α) : Prop where
  dimX : t.sampler.dimX = .ok dx
  dimY : t.sampler.dimY = .ok dy
  pos : 1 ≤ dx ∧ 1 ≤ dy
  mi : t.sampler.mi = .ok (.num a)
  nonneg : 0 ≤ a

/-- C64: rescaling a readable task gives a readable task with the same dimensions, mutual information and parameters;
its identifier and name are the given ones, or those of the base task with a prefix, and a sample is the sample of the
base task for the same seed with `X` and `Y` rescaled separately. -/
theorem rescale_task (eps : ℝ) (base : Task α ℝ (String × V)) {dx dy : ℕ} {a : α} (hb : Readable base dx dy a)
    (name id : Option String) :
    ∃ t, transformRescale eps base name id = .ok t ∧
      t.id = .ok (if id.getD "" = "" then "rescale-" ++ base.taskId else id.getD "") ∧
      t.name = .ok (if name.getD "" = "" then "Rescale @ " ++ base.taskName else name.getD "") ∧
      t.dimX = .ok dx ∧ t.dimY = .ok dy ∧ t.mi = .ok (.num a) ∧ t.getParams = base.getParams ∧
      ∀ n seed, t.sample n seed = (base.sample n seed).bind fun xy =>
        (rescale eps xy.1).bind fun x => (rescale eps xy.2).map fun y => (x, y) := by
  obtain ⟨h1, h2, -, -, -, h6⟩ := Task.task_advertises base dx dy a hb.dimX hb.dimY hb.mi hb.nonneg
  obtain ⟨s, hs, sx, sy, sm, ss⟩ := wrap_ok base.sampler (rescale eps) (rescale eps) hb.dimX hb.dimY hb.pos.1 hb.pos.2
  have hor : ∀ (g : Option String) (d : String), orElse g (.ok d) = .ok (if g.getD "" = "" then d else g.getD "") := by
    intro g d
    cases g with
    | none => simp [orElse]
    | some s =>
      by_cases he : s = ""
      · simp [orElse, he]
      · simp [orElse, he]
  refine ⟨⟨s, if id.getD "" = "" then "rescale-" ++ base.taskId else id.getD "",
    if name.getD "" = "" then "Rescale @ " ++ base.taskName else name.getD "", some (base.params.getD [])⟩, ?_, ?_⟩
  · simp only [transformRescale, hs, h1, h2, h6, Except.map, hor, bind, Except.bind]
  · obtain ⟨t1, t2, t3, t4, t5, t6⟩ := Task.task_advertises
      ⟨s, if id.getD "" = "" then "rescale-" ++ base.taskId else id.getD "",
        if name.getD "" = "" then "Rescale @ " ++ base.taskName else name.getD "", some (base.params.getD [])⟩
      dx dy a sx sy (sm.trans hb.mi) hb.nonneg
    refine ⟨t1, t2, t3.trans sx, t4.trans sy, t5.trans (sm.trans hb.mi), ?_, ss⟩
    rw [t6, h6]; rfl

/-- C64: the same for the quantile transforms; the number of quantiles is added to the parameters. -/
theorem quantile_task (L : Lib) (nat : ℕ → V) (out : Output) (base : Task α ℝ (String × V)) {dx dy : ℕ} {a : α}
    (hb : Readable base dx dy a) (name : Option String) (nq : ℕ) (seed₀ : ℤ) :
    ∃ t, transformQuantile L nat out base name nq seed₀ = .ok t ∧
      t.id = .ok ((if out = .uniform then "uniformise-" else "gaussianise-") ++ base.taskId) ∧
      t.name = .ok (if name.getD "" = "" then
        (if out = .uniform then "Uniformise @ " else "Gaussianise @ ") ++ base.taskName else name.getD "") ∧
      t.dimX = .ok dx ∧ t.dimY = .ok dy ∧ t.mi = .ok (.num a) ∧
      t.getParams = .ok (merge (base.params.getD []) "n_quantiles" (nat nq)) ∧
      ∀ n seed, t.sample n seed = (base.sample n seed).bind fun xy =>
        (quantileTransform L nq out seed₀ xy.1).bind fun x =>
          (quantileTransform L nq out seed₀ xy.2).map fun y => (x, y) := by
  obtain ⟨h1, h2, -, -, -, h6⟩ := Task.task_advertises base dx dy a hb.dimX hb.dimY hb.mi hb.nonneg
  obtain ⟨s, hs, sx, sy, sm, ss⟩ := wrap_ok base.sampler (quantileTransform L nq out seed₀)
    (quantileTransform L nq out seed₀) hb.dimX hb.dimY hb.pos.1 hb.pos.2
  have hor : ∀ (g : Option String) (d : String), orElse g (.ok d) = .ok (if g.getD "" = "" then d else g.getD "") := by
    intro g d
    cases g with
    | none => simp [orElse]
    | some s =>
      by_cases he : s = ""
      · simp [orElse, he]
      · simp [orElse, he]
  refine ⟨⟨s, (if out = .uniform then "uniformise-" else "gaussianise-") ++ base.taskId,
    if name.getD "" = "" then (if out = .uniform then "Uniformise @ " else "Gaussianise @ ") ++ base.taskName
      else name.getD "", some (merge (base.params.getD []) "n_quantiles" (nat nq))⟩, ?_, ?_⟩
  · cases out <;>
    simp only [transformQuantile, hs, h1, h2, h6, Except.map, hor, bind, Except.bind, if_true, reduceCtorEq, if_false]
  · obtain ⟨t1, t2, t3, t4, t5, t6⟩ := Task.task_advertises
      ⟨s, (if out = .uniform then "uniformise-" else "gaussianise-") ++ base.taskId,
        if name.getD "" = "" then (if out = .uniform then "Uniformise @ " else "Gaussianise @ ") ++ base.taskName
          else name.getD "", some (merge (base.params.getD []) "n_quantiles" (nat nq))⟩
      dx dy a sx sy (sm.trans hb.mi) hb.nonneg
    exact ⟨t1, t2, t3.trans sx, t4.trans sy, t5.trans (sm.trans hb.mi), by rw [t6]; rfl, ss⟩

/-- C64: parameters of the base task are kept, except for one called `n_quantiles`, which is replaced. -/
theorem merge_lookup (params : List (String × V)) (key : String) (value : V) (k : String) :
    (merge params key value).lookup k = if k = key then some value else params.lookup k := by
  unfold merge
  by_cases h : params.any (·.1 == key) = true
  · rw [if_pos h]
    induction params with
    | nil => simp at h
    | cons p rest ih =>
      obtain ⟨pk, pv⟩ := p
      by_cases hp : pk = key
      · subst hp
        simp only [List.map_cons, beq_self_eq_true, if_true]
        by_cases hk : k = pk
        · subst hk; simp [List.lookup]
        · rw [if_neg hk]
          have hk' : (k == pk) = false := by simpa using hk
          simp only [List.lookup, hk']
          by_cases hr : rest.any (·.1 == pk) = true
          · rw [ih hr, if_neg hk]
          · have : (rest.map fun p => if p.1 == pk then (pk, value) else p) = rest := by
              conv_rhs => rw [← List.map_id rest]
              apply List.map_congr_left
              intro q hq
              have : ¬ (q.1 == pk) = true := fun hh => hr (List.any_eq_true.2 ⟨q, hq, hh⟩)
              simp only [this, id]
              rfl
            rw [this]
      · have hp' : (pk == key) = false := by simpa using hp
        have hr : rest.any (·.1 == key) = true := by
          simpa [hp'] using h
        have hmap : ((pk, pv) :: rest).map (fun p => if p.1 == key then (key, value) else p)
            = (pk, pv) :: rest.map fun p => if p.1 == key then (key, value) else p := by
          simp [hp]
        rw [hmap]
        by_cases hk : k = pk
        · subst hk
          rw [if_neg hp]
          simp [List.lookup]
        · have hk' : (k == pk) = false := by simpa using hk
          simp only [List.lookup, hk']
          exact ih hr
  · rw [if_neg h]
    have hno : params.lookup key = none := by
      rw [List.lookup_eq_none_iff]
      intro p hp
      rw [bne_iff_ne]
      intro hpk
      exact h (List.any_eq_true.2 ⟨p, hp, by simp [hpk]⟩)
    rw [List.lookup_append]
    by_cases hk : k = key
    · subst hk; rw [hno]; simp [List.lookup]
    · have hk' : (k == key) = false := by simpa using hk
      rw [if_neg hk]
      simp [List.lookup, hk']

/-- C64: uniformising twice leaves only the outer number of quantiles in the parameters. -/
theorem merge_merge_lookup (params : List (String × V)) (a b : V) :
    (merge (merge params "n_quantiles" a) "n_quantiles" b).lookup "n_quantiles" = some b := by
  rw [merge_lookup]; simp

/-- C64: `scale_tasks` keeps keys and their order, and each task keeps its id, name, dimensions, mutual information and
parameters; only its samples are rescaled. -/
theorem scaleTasks_spec (eps : ℝ) (tasks : List (String × Task α ℝ (String × V)))
    (h : ∀ kt ∈ tasks, (∃ dx dy a, Readable kt.2 dx dy a) ∧ kt.2.taskId ≠ "" ∧ kt.2.taskName ≠ "") :
    ∃ r, scaleTasks eps tasks = .ok r ∧ List.Forall₂ (fun kt kt' => kt'.1 = kt.1 ∧ kt'.2.id = kt.2.id ∧
      kt'.2.name = kt.2.name ∧ kt'.2.dimX = kt.2.dimX ∧ kt'.2.dimY = kt.2.dimY ∧ kt'.2.mi = kt.2.mi ∧
      kt'.2.getParams = kt.2.getParams ∧
      ∀ n seed, kt'.2.sample n seed = (kt.2.sample n seed).bind fun xy =>
        (rescale eps xy.1).bind fun x => (rescale eps xy.2).map fun y => (x, y)) tasks r := by
  induction tasks with
  | nil => exact ⟨[], rfl, .nil⟩
  | cons kt rest ih =>
    obtain ⟨r, hr, hrel⟩ := ih fun k hk => h k (List.mem_cons_of_mem _ hk)
    obtain ⟨⟨dx, dy, a, hb⟩, hid, hname⟩ := h kt List.mem_cons_self
    obtain ⟨h1, h2, h3, h4, h5, -⟩ := Task.task_advertises kt.2 dx dy a hb.dimX hb.dimY hb.mi hb.nonneg
    obtain ⟨t, ht, t1, t2, t3, t4, t5, t6, t7⟩ := rescale_task eps kt.2 hb (some kt.2.taskName) (some kt.2.taskId)
    refine ⟨(kt.1, t) :: r, ?_, .cons ⟨rfl, ?_, ?_, ?_, ?_, ?_, t6, t7⟩ hrel⟩
    · unfold scaleTasks at hr ⊢
      rw [List.mapM_cons, hr]
      simp [h1, h2, ht, bind, Except.bind, pure, Except.pure]
    · simpa [hid, h1] using t1
    · simpa [hname, h2] using t2
    · rw [t3, h3, hb.dimX]
    · rw [t4, h4, hb.dimY]
    · rw [t5, h5, hb.mi]

/-- A readable task. -/
def exampleTask : Task ℚ ℝ (String × ℕ) where
  sampler := { dimX := .ok 1, dimY := .ok 1, mi := .ok (.num 0),
               sample := fun _ _ => .ok (.mat 2 1 fun i _ => (i : ℕ), .mat 2 1 fun i _ => (i : ℕ)) }
  taskId := "t"
  taskName := "T"
  params := none

theorem exampleTask_readable : Readable exampleTask 1 1 0 := ⟨rfl, rfl, ⟨le_rfl, le_rfl⟩, rfl, le_rfl⟩

example : ∃ t, transformRescale (1 / 100) exampleTask none (some "") = .ok t ∧ t.id = .ok "rescale-t" := by
  obtain ⟨t, h1, h2, -⟩ := rescale_task (1 / 100) exampleTask exampleTask_readable none (some "")
  exact ⟨t, h1, by rw [h2]; rfl⟩

example : ∃ t, transformQuantile exampleLib id .normal exampleTask none 7 0 = .ok t ∧ t.id = .ok "gaussianise-t" := by
  obtain ⟨t, h1, h2, -⟩ := quantile_task exampleLib id .normal exampleTask exampleTask_readable none 7 0
  exact ⟨t, h1, by rw [h2]; rfl⟩

example : ∃ r, scaleTasks (1 / 100) [("k", exampleTask)] = .ok r ∧ r.length = 1 := by
  obtain ⟨r, h1, h2⟩ := scaleTasks_spec (1 / 100) [("k", exampleTask)] (by
    intro kt hkt
    simp only [List.mem_singleton] at hkt
    subst hkt
    exact ⟨⟨1, 1, 0, exampleTask_readable⟩, by decide, by decide⟩)
  exact ⟨r, h1, h2.length_eq.symm⟩

end BMI.Scaling
