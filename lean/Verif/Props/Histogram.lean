import Verif.Lemmas.Histogram
import Mathlib.Tactic.NormNum

/-! Property C28: the histogram estimator (/repo/src/bmi/estimators/_histogram.py). -/

namespace BMI.Histogram

open BMI.PlugIn BMI.PSpace

/-- Cell numbers of the rows of one array. -/
private noncomputable def cells {n d : ℕ} (b : ℕ) (v : Fin n → Fin d → ℝ) (i : Fin n) (j : Fin d) : ℕ :=
  binOf (outerEdges fun i' => v i' j).1 (outerEdges fun i' => v i' j).2 b (v i j)

private theorem cells_spec {n d : ℕ} (b : ℕ) (hb : 0 < b) (v : Fin n → Fin d → ℝ) (i : Fin n) (j : Fin d) :
    ∃ lo hi, IsRange (fun i' => v i' j) lo hi ∧ IsCell lo hi b (v i j) (cells b v i j) := by
  have hr := isRange_outerEdges i.pos (fun i' => v i' j)
  have hb' := range_bounds hr
  exact ⟨_, _, hr, isCell_binOf _ _ hb'.1 b hb _ (hb'.2 i).1 (hb'.2 i).2⟩

private theorem cellRow_eq {n d e : ℕ} (p : Params) (v : Fin n → Fin d → ℝ) (w : Fin n → Fin e → ℝ) (i : Fin n) :
    cellRow (bins p d e) (xy ⟨n, d, v⟩ ⟨n, e, w⟩ rfl) i
      = List.ofFn (cells p.nBinsX v i) ++ List.ofFn (cells p.nBinsY w i) := by
  unfold cellRow
  rw [← List.ofFn_fin_append]
  congr 1
  funext j
  refine Fin.addCases (fun j => ?_) (fun j => ?_) j
  · simp [xy, bins, cells]
  · simp [xy, bins, cells]

private theorem estimate_eq {n d e : ℕ} (hn : 0 < n) (p : Params) (hx : 0 < p.nBinsX) (hy : 0 < p.nBinsY)
    (v : Fin n → Fin d → ℝ) (w : Fin n → Fin e → ℝ) :
    tableMI (p.nBinsX ^ d) (p.nBinsY ^ e)
        (flat p.nBinsX d p.nBinsY e (hist (bins p d e) (xy ⟨n, d, v⟩ ⟨n, e, w⟩ rfl)))
      = info (cells p.nBinsX v) (cells p.nBinsY w) := by
  classical
  have hinj : ∀ m : ℕ, Function.Injective (fun f : Fin m → ℕ => List.ofFn f) := fun m => List.ofFn_injective
  rw [← info_map (cells p.nBinsX v) (cells p.nBinsY w) List.ofFn List.ofFn List.ofFn_injective
    List.ofFn_injective]
  apply tableMI_info _ _ _ _ _ _ ?_ ?_ _ ?_ hn
  · intro i
    rw [mem_product]
    refine ⟨by simp, ?_⟩
    intro c hc
    rw [List.mem_ofFn] at hc
    obtain ⟨j, rfl⟩ := hc
    obtain ⟨_, _, _, h⟩ := cells_spec p.nBinsX hx v i j
    exact h.1
  · intro i
    rw [mem_product]
    refine ⟨by simp, ?_⟩
    intro c hc
    rw [List.mem_ofFn] at hc
    obtain ⟨j, rfl⟩ := hc
    obtain ⟨_, _, _, h⟩ := cells_spec p.nBinsY hy w i j
    exact h.1
  · intro x hx' y _
    have hlen := ((mem_product _ _ _).1 hx').1
    have hnr : (n : ℝ) ≠ 0 := by positivity
    unfold hist freq
    rw [mul_div_cancel₀ _ hnr]
    congr 1
    have e1 : ∀ i, (cellRow (bins p d e) (xy ⟨n, d, v⟩ ⟨n, e, w⟩ rfl) i = x ++ y)
        ↔ (List.ofFn (cells p.nBinsX v i) = x ∧ List.ofFn (cells p.nBinsY w i) = y) := by
      intro i
      rw [cellRow_eq]
      constructor
      · intro h; exact List.append_inj h (by simp [hlen])
      · rintro ⟨h1, h2⟩; rw [h1, h2]
    simp only [e1]
    rw [← List.toFinset_card_of_nodup ((List.nodup_finRange n).filter _)]
    congr 1
    ext i
    simp

/-- C28 (main part): on non-empty data, the estimate is the mutual information of the empirical distribution of
(cell of x, cell of y).  The cells cut the range of every column (of the standardised data, if requested) into
`n_bins` cells of equal width. -/
theorem estimate_is_plugin (ε : ℝ) (p : Params) (hx : 0 < p.nBinsX) (hy : 0 < p.nBinsY) {n d e : ℕ}
    (v : Fin n → Fin d → ℝ) (w : Fin n → Fin e → ℝ) (hn : 0 < n) (hd : 0 < d) (he : 0 < e) :
    ∃ (A : Fin n → Fin d → ℕ) (B : Fin n → Fin e → ℕ),
      estimate ε p ⟨n, d, v⟩ ⟨n, e, w⟩ = .ok (info A B) ∧
      (∀ i j, ∃ lo hi, IsRange (fun i' => KSG.stdv ε p.standardize v i' j) lo hi ∧
        IsCell lo hi p.nBinsX (KSG.stdv ε p.standardize v i j) (A i j)) ∧
      (∀ i j, ∃ lo hi, IsRange (fun i' => KSG.stdv ε p.standardize w i' j) lo hi ∧
        IsCell lo hi p.nBinsY (KSG.stdv ε p.standardize w i j) (B i j)) := by
  refine ⟨cells p.nBinsX (KSG.stdv ε p.standardize v), cells p.nBinsY (KSG.stdv ε p.standardize w), ?_,
    cells_spec _ hx _, cells_spec _ hy _⟩
  have hs : KSG.space ε p.standardize ⟨n, d, v⟩ ⟨n, e, w⟩
      = .ok (⟨n, d, KSG.stdv ε p.standardize v⟩, ⟨n, e, KSG.stdv ε p.standardize w⟩) := by
    unfold KSG.space KSG.stdv
    cases p.standardize
    · simp
    · have : ¬ (n = 0 ∨ d = 0 ∨ e = 0) := by omega
      simp [this]
  unfold estimate
  rw [hs]
  simp only [dif_pos]
  rw [estimate_eq hn p hx hy]

/-- Cells are unique, so `estimate_is_plugin` determines the estimate. -/
theorem isCell_unique (lo hi : ℝ) (h : lo < hi) (m : ℕ) (x : ℝ) (a b : ℕ) (ha : IsCell lo hi m x a)
    (hb : IsCell lo hi m x b) : a = b := by
  have key : ∀ a b : ℕ, IsCell lo hi m x a → IsCell lo hi m x b → ¬ a < b := by
    intro a b ha hb hlt
    have hm : (0 : ℝ) < m := by
      have : 0 < m := by have := ha.1; omega
      exact_mod_cast this
    rcases ha.2.2 with h1 | ⟨h1, _⟩
    · have hle : ((a : ℝ) + 1) ≤ b := by exact_mod_cast hlt
      have hd : 0 ≤ hi - lo := by linarith
      have : lo + (hi - lo) * (a + 1) / m ≤ lo + (hi - lo) * b / m := by gcongr
      have := hb.2.1
      linarith
    · have := hb.1
      omega
  have h1 := key a b ha hb
  have h2 := key b a hb ha
  omega

theorem isRange_unique {n : ℕ} (c : Fin n → ℝ) (lo hi lo' hi' : ℝ) (h : IsRange c lo hi)
    (h' : IsRange c lo' hi') : lo = lo' ∧ hi = hi' := by
  obtain ⟨a, b, hall, h⟩ := h
  obtain ⟨a', b', hall', h'⟩ := h'
  have e1 : c a = c a' := le_antisymm (hall a').1 (hall' a).1
  have e2 : c b = c b' := le_antisymm (hall' b).2 (hall b').2
  rcases h with ⟨h0, rfl, rfl⟩ | ⟨h0, rfl, rfl⟩ <;> rcases h' with ⟨h0', rfl, rfl⟩ | ⟨h0', rfl, rfl⟩
  · exact ⟨e1, e2⟩
  · exfalso; rw [e1, e2, h0'] at h0; exact lt_irrefl _ h0
  · exfalso; rw [← e1, ← e2, h0] at h0'; exact lt_irrefl _ h0'
  · exact ⟨by rw [e1], by rw [e1]⟩

/-- C28: the estimate lies between zero and the logarithm of the smaller number of cells. -/
theorem estimate_bounds (ε : ℝ) (p : Params) (hx : 0 < p.nBinsX) (hy : 0 < p.nBinsY) {n d e : ℕ}
    (v : Fin n → Fin d → ℝ) (w : Fin n → Fin e → ℝ) (hn : 0 < n) (hd : 0 < d) (he : 0 < e) :
    ∃ r, estimate ε p ⟨n, d, v⟩ ⟨n, e, w⟩ = .ok r ∧ 0 ≤ r ∧
      r ≤ Real.log (min (p.nBinsX ^ d) (p.nBinsY ^ e) : ℕ) := by
  classical
  obtain ⟨A, B, h1, h2, h3⟩ := estimate_is_plugin ε p hx hy v w hn hd he
  refine ⟨_, h1, info_nonneg hn A B, ?_⟩
  have bound : ∀ {d : ℕ} (b : ℕ) (A : Fin n → Fin d → ℕ), (∀ i j, A i j < b) →
      ∃ S : Finset (Fin d → ℕ), S.card = b ^ d ∧ ∀ i, A i ∈ S := by
    intro d b A hA
    refine ⟨Fintype.piFinset fun _ => Finset.range b, by simp, fun i => ?_⟩
    rw [Fintype.mem_piFinset]
    exact fun j => Finset.mem_range.2 (hA i j)
  rcases min_choice (p.nBinsX ^ d) (p.nBinsY ^ e) with h | h
  · obtain ⟨S, hS, hA⟩ := bound p.nBinsX A fun i j => by
      obtain ⟨_, _, _, hc⟩ := h2 i j; exact hc.1
    rw [h, ← hS]
    exact info_le_log_card hn A B S hA
  · obtain ⟨S, hS, hB⟩ := bound p.nBinsY B fun i j => by
      obtain ⟨_, _, _, hc⟩ := h3 i j; exact hc.1
    rw [h, ← hS, ← info_swap]
    exact info_le_log_card hn B A S hB

private theorem estimate_cells (ε : ℝ) (p : Params) (hx : 0 < p.nBinsX) (hy : 0 < p.nBinsY) {n d e : ℕ}
    (v : Fin n → Fin d → ℝ) (w : Fin n → Fin e → ℝ) (hn : 0 < n) (hd : 0 < d) (he : 0 < e) :
    estimate ε p ⟨n, d, v⟩ ⟨n, e, w⟩
      = .ok (info (cells p.nBinsX (KSG.stdv ε p.standardize v)) (cells p.nBinsY (KSG.stdv ε p.standardize w))) := by
  have hs : KSG.space ε p.standardize ⟨n, d, v⟩ ⟨n, e, w⟩
      = .ok (⟨n, d, KSG.stdv ε p.standardize v⟩, ⟨n, e, KSG.stdv ε p.standardize w⟩) := by
    unfold KSG.space KSG.stdv
    cases p.standardize
    · simp
    · have : ¬ (n = 0 ∨ d = 0 ∨ e = 0) := by omega
      simp [this]
  unfold estimate
  rw [hs]
  simp only [dif_pos]
  rw [estimate_eq hn p hx hy]

/-- C28: exchanging X and Y, with their bin numbers, does not change the estimate. -/
theorem estimate_swap (ε : ℝ) (p : Params) (hx : 0 < p.nBinsX) (hy : 0 < p.nBinsY) {n d e : ℕ}
    (v : Fin n → Fin d → ℝ) (w : Fin n → Fin e → ℝ) (hn : 0 < n) (hd : 0 < d) (he : 0 < e) :
    estimate ε ⟨p.nBinsY, p.nBinsX, p.standardize⟩ ⟨n, e, w⟩ ⟨n, d, v⟩
      = estimate ε p ⟨n, d, v⟩ ⟨n, e, w⟩ := by
  rw [estimate_cells ε p hx hy v w hn hd he, estimate_cells ε _ hy hx w v hn he hd, info_swap]

/-- C28: reordering the samples does not change the estimate. -/
theorem estimate_perm (ε : ℝ) (p : Params) (hx : 0 < p.nBinsX) (hy : 0 < p.nBinsY) {n d e : ℕ}
    (v : Fin n → Fin d → ℝ) (w : Fin n → Fin e → ℝ) (hn : 0 < n) (hd : 0 < d) (he : 0 < e)
    (σ : Equiv.Perm (Fin n)) :
    estimate ε p ⟨n, d, fun i => v (σ i)⟩ ⟨n, e, fun i => w (σ i)⟩
      = estimate ε p ⟨n, d, v⟩ ⟨n, e, w⟩ := by
  have hcells : ∀ {d : ℕ} (b : ℕ) (v : Fin n → Fin d → ℝ),
      cells b (fun i => v (σ i)) = fun i => cells b v (σ i) := by
    intro d b v
    funext i j
    unfold cells
    rw [outerEdges_perm (fun i => v i j) σ]
  rw [estimate_cells ε p hx hy _ _ hn hd he, estimate_cells ε p hx hy v w hn hd he,
    KSG.stdv_perm, KSG.stdv_perm, hcells, hcells, info_perm]

/-- C28: standardisation has no influence on the estimate. -/
theorem estimate_standardize (ε : ℝ) (hε : 0 ≤ ε) (p : Params) (hx : 0 < p.nBinsX) (hy : 0 < p.nBinsY)
    {n d e : ℕ} (v : Fin n → Fin d → ℝ) (w : Fin n → Fin e → ℝ) (hn : 0 < n) (hd : 0 < d) (he : 0 < e) :
    estimate ε ⟨p.nBinsX, p.nBinsY, true⟩ ⟨n, d, v⟩ ⟨n, e, w⟩
      = estimate ε ⟨p.nBinsX, p.nBinsY, false⟩ ⟨n, d, v⟩ ⟨n, e, w⟩ := by
  rw [estimate_cells ε ⟨p.nBinsX, p.nBinsY, true⟩ hx hy v w hn hd he,
    estimate_cells ε ⟨p.nBinsX, p.nBinsY, false⟩ hx hy v w hn hd he]
  have hcells : ∀ {d : ℕ} (b : ℕ) (v : Fin n → Fin d → ℝ),
      cells b (KSG.stdv ε true v) = cells b (KSG.stdv ε false v) := by
    intro d b v
    funext i j
    exact bin_scaleCol ε hε (fun i' => v i' j) b i
  simp only [hcells]

/-- C28: two samples in different cells of two-cell histograms: the estimate is `log 2`, so the bound is attained. -/
example : estimate 0 ⟨2, 2, false⟩ ⟨2, 1, fun i _ => (i : ℝ)⟩ ⟨2, 1, fun i _ => (i : ℝ)⟩ = .ok (Real.log 2) := by
  rw [estimate_cells 0 ⟨2, 2, false⟩ (by norm_num) (by norm_num) _ _ (by norm_num) (by norm_num) (by norm_num)]
  congr 1
  have hc : ∀ i j, cells 2 (KSG.stdv 0 false (fun (i : Fin 2) (_ : Fin 1) => (i : ℝ))) i j = i := by
    intro i j
    obtain ⟨lo, hi, hr, hcell⟩ := cells_spec 2 (by norm_num)
      (KSG.stdv 0 false (fun (i : Fin 2) (_ : Fin 1) => (i : ℝ))) i j
    have hr0 : IsRange (fun i' : Fin 2 => KSG.stdv 0 false (fun (i : Fin 2) (_ : Fin 1) => (i : ℝ)) i' j) 0 1 := by
      refine ⟨0, 1, fun i => ?_, .inl ?_⟩
      · fin_cases i <;> simp [KSG.stdv]
      · simp [KSG.stdv]
    obtain ⟨rfl, rfl⟩ := isRange_unique _ _ _ _ _ hr hr0
    refine isCell_unique 0 1 one_pos 2 _ _ _ hcell ?_
    fin_cases i <;> simp [IsCell, KSG.stdv]
    norm_num
  have e : cells 2 (KSG.stdv 0 false (fun (i : Fin 2) (_ : Fin 1) => (i : ℝ))) = fun (i : Fin 2) _ => (i : ℕ) := by
    funext i j; exact hc i j
  rw [e]
  have hinj : Function.Injective (fun (k : ℕ) (_ : Fin 1) => k) := fun a b h => congrFun h 0
  rw [info_map (fun i : Fin 2 => (i : ℕ)) (fun i : Fin 2 => (i : ℕ)) _ _ hinj hinj]
  rw [info_eq _ _ {0, 1} {0, 1} (fun i => by fin_cases i <;> simp) (fun i => by fin_cases i <;> simp)]
  have f1 : ∀ k : ℕ, k = 0 ∨ k = 1 → freq1 (fun i : Fin 2 => (i : ℕ)) k = 1 / 2 := by
    intro k hk
    have : ∃ i : Fin 2, (i : ℕ) = k := by
      rcases hk with rfl | rfl
      · exact ⟨0, rfl⟩
      · exact ⟨1, rfl⟩
    obtain ⟨i0, rfl⟩ := this
    unfold freq1
    have hf : ∀ i : Fin 2, ((i : ℕ) = (i0 : ℕ)) ↔ i = i0 := fun i => by rw [Fin.ext_iff]
    simp only [hf, Finset.filter_eq', Finset.mem_univ, if_true, Finset.card_singleton]
    norm_num
  have f2 : ∀ k l : ℕ, k = l → freq (fun i : Fin 2 => (i : ℕ)) (fun i : Fin 2 => (i : ℕ)) k l
      = freq1 (fun i : Fin 2 => (i : ℕ)) k := by
    rintro k l rfl; simp [freq, freq1]
  have f3 : ∀ k l : ℕ, k ≠ l → freq (fun i : Fin 2 => (i : ℕ)) (fun i : Fin 2 => (i : ℕ)) k l = 0 := by
    intro k l h; apply freq_eq_zero; rintro i ⟨rfl, h'⟩; exact h h'
  rw [Finset.sum_pair (by norm_num), Finset.sum_pair (by norm_num), Finset.sum_pair (by norm_num),
    f2 0 0 rfl, f2 1 1 rfl, f3 0 1 (by norm_num), f3 1 0 (by norm_num), f1 0 (.inl rfl), f1 1 (.inr rfl)]
  norm_num
  ring

/-- C28: parameters are refused exactly if a bin number is below one; `n_bins_y = 0` counts as omitted. -/
theorem mkParams_spec (nx : ℤ) (ny : Option ℤ) (std : Bool) :
    (∀ p, mkParams nx ny std = .ok p → (p.nBinsX : ℤ) = nx ∧ 0 < p.nBinsX ∧ 0 < p.nBinsY ∧
      ((ny = none ∨ ny = some 0) → p.nBinsY = p.nBinsX) ∧
      (∀ m, ny = some m → m ≠ 0 → (p.nBinsY : ℤ) = m)) ∧
    (nx ≤ 0 → mkParams nx ny std = .error .validationError) ∧
    (∀ m, ny = some m → m < 0 → mkParams nx ny std = .error .validationError) ∧
    (0 < nx → (∀ m, ny = some m → 0 ≤ m) → ∃ p, mkParams nx ny std = .ok p) := by
  refine ⟨?_, ?_, ?_, ?_⟩
  · intro p hp
    rcases ny with _ | m
    · simp only [mkParams] at hp
      split_ifs at hp with h
      injection hp with hp
      subst hp
      simp; omega
    · by_cases hm : m = 0
      · subst hm
        simp only [mkParams, if_true] at hp
        split_ifs at hp with h
        injection hp with hp
        subst hp
        simp; omega
      · simp only [mkParams, hm, if_false] at hp
        split_ifs at hp with h
        injection hp with hp
        subst hp
        simp [hm]; omega
  · intro h
    simp [mkParams, h]
  · rintro m rfl hm
    have : m ≠ 0 := by omega
    simp [mkParams, this, hm.le]
  · intro h hall
    rcases ny with _ | m
    · simp only [mkParams]
      rw [if_neg (by omega)]
      exact ⟨_, rfl⟩
    · have := hall m rfl
      simp only [mkParams]
      rw [if_neg]
      · exact ⟨_, rfl⟩
      · split_ifs <;> omega

end BMI.Histogram
