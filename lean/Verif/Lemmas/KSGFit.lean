import Verif.Lemmas.KSG
import Verif.Props.ProductSpace
import Mathlib.Algebra.BigOperators.Group.Finset.Basic

/-! Helper lemmas: the result of a whole `fit` in closed form. -/

namespace BMI.KSG

open Spec BMI.PSpace

/-- The coordinates after optional standardisation. -/
noncomputable def stdv (ε : ℝ) (std : Bool) {n d : ℕ} (v : Fin n → Fin d → ℝ) : Fin n → Fin d → ℝ :=
  if std then fun i j => scaleCol ε (fun i' => v i' j) i else v

/-- Table of distances of rows. -/
noncomputable def dtab (m : Metric) {n d : ℕ} (v : Fin n → Fin d → ℝ) : Fin n → Fin n → ℝ :=
  fun i j => m.dist (v i) (v j)

/-- All reasons for a `ValueError` in `fit` for arrays with equally many rows. -/
def bad (p : Params) (n d e : ℕ) : Prop :=
  (p.standardize = true ∧ (n = 0 ∨ d = 0 ∨ e = 0)) ∨ n ≤ maxNbh p.neighborhoods

theorem fastFit_mismatch (ε : ℝ) (s) (p : Params) (c : ℤ) (mx my : Mat) (h : mx.n ≠ my.n) :
    fastFit ε s p c mx my = .error .valueError := by
  simp [fastFit, space, h]

theorem slowFit_mismatch (ε : ℝ) (s) (p : Params) (mx my : Mat) (h : mx.n ≠ my.n) :
    slowFit ε s p mx my = .error .valueError := by
  simp [slowFit, space, h]

theorem fastFit_bad (ε : ℝ) (s) (p : Params) (c : ℤ) {n d e : ℕ} (v : Fin n → Fin d → ℝ)
    (w : Fin n → Fin e → ℝ) (h : bad p n d e) :
    fastFit ε s p c ⟨n, d, v⟩ ⟨n, e, w⟩ = .error .valueError := by
  unfold fastFit space
  rcases h with ⟨h1, h2⟩ | h
  · simp [h1, h2]
  · by_cases hs : p.standardize = true
    · by_cases h2 : n = 0 ∨ d = 0 ∨ e = 0
      · simp [hs, h2]
      · simp [hs, h2, h]
    · simp [hs, h]

theorem slowFit_bad (ε : ℝ) (s) (p : Params) {n d e : ℕ} (v : Fin n → Fin d → ℝ)
    (w : Fin n → Fin e → ℝ) (h : bad p n d e) :
    slowFit ε s p ⟨n, d, v⟩ ⟨n, e, w⟩ = .error .valueError := by
  unfold slowFit space
  rcases h with ⟨h1, h2⟩ | h
  · simp [h1, h2]
  · by_cases hs : p.standardize = true
    · by_cases h2 : n = 0 ∨ d = 0 ∨ e = 0
      · simp [hs, h2]
      · simp [hs, h2, h]
    · simp [hs, h]

theorem space_good (ε : ℝ) (p : Params) {n d e : ℕ} (v : Fin n → Fin d → ℝ)
    (w : Fin n → Fin e → ℝ) (h : ¬ bad p n d e) :
    space ε p.standardize ⟨n, d, v⟩ ⟨n, e, w⟩
      = .ok (⟨n, d, stdv ε p.standardize v⟩, ⟨n, e, stdv ε p.standardize w⟩) := by
  unfold bad at h
  unfold space stdv
  by_cases hs : p.standardize = true
  · have : ¬ (n = 0 ∨ d = 0 ∨ e = 0) := fun h' => h (.inl ⟨hs, h'⟩)
    simp [hs, this]
  · simp [hs]

theorem fastFit_good (ε : ℝ) (s : (n : ℕ) → (Fin n → ℝ) → Fin n → Fin n) (p : Params) (c : ℤ)
    (hc : 0 < c) {n d e : ℕ} (v : Fin n → Fin d → ℝ) (w : Fin n → Fin e → ℝ) (h : ¬ bad p n d e) :
    fastFit ε s p c ⟨n, d, v⟩ ⟨n, e, w⟩ = .ok ((keys p.neighborhoods).map fun k => (k,
      max 0 (dig k - p.neighborhoods.count k •
        (total (s n) (dtab p.metricX (stdv ε p.standardize v)) (dtab p.metricY (stdv ε p.standardize w)) k
          / (n : EReal)) + dig n))) := by
  have hm : ¬ n ≤ maxNbh p.neighborhoods := fun h' => h (.inr h')
  have hn : n ≠ 0 := by omega
  obtain ⟨ss, h1, h2⟩ := Chunker.chunker_concat (List.finRange n) c
    (by intro h0; apply hn; simpa using congrArg List.length h0) hc
  rw [List.length_finRange] at h1
  unfold fastFit
  rw [space_good ε p v w h]
  simp only [dif_pos, hm, if_false, h1]
  congr 1
  exact fastCore_eq hn _ _ _ _ _ h2

theorem fastFit_chunk (ε : ℝ) (s : (n : ℕ) → (Fin n → ℝ) → Fin n → Fin n) (p : Params) (c : ℤ)
    (hc : ¬ 0 < c) {n d e : ℕ} (v : Fin n → Fin d → ℝ) (w : Fin n → Fin e → ℝ) :
    fastFit ε s p c ⟨n, d, v⟩ ⟨n, e, w⟩ = .error .valueError := by
  by_cases h : bad p n d e
  · exact fastFit_bad ε s p c v w h
  · have hm : ¬ n ≤ maxNbh p.neighborhoods := fun h' => h (.inr h')
    unfold fastFit
    rw [space_good ε p v w h]
    have := (Chunker.chunker_error_iff n c).2 (.inr (by omega))
    simp only [dif_pos, hm, if_false, this]

theorem slowFit_good (ε : ℝ) (s : (n : ℕ) → (Fin n → ℝ) → Fin n → Fin n) (p : Params)
    {n d e : ℕ} (v : Fin n → Fin d → ℝ) (w : Fin n → Fin e → ℝ) (h : ¬ bad p n d e) :
    slowFit ε s p ⟨n, d, v⟩ ⟨n, e, w⟩ = .ok ((keys p.neighborhoods).map fun k => (k,
      max 0 (dig k -
        total (s n) (dtab p.metricX (stdv ε p.standardize v)) (dtab p.metricY (stdv ε p.standardize w)) k
          / (n : EReal) + dig n))) := by
  have hm : ¬ n ≤ maxNbh p.neighborhoods := fun h' => h (.inr h')
  have hn : n ≠ 0 := by omega
  unfold slowFit
  rw [space_good ε p v w h]
  simp only [dif_pos, hm, if_false]
  congr 1
  exact slowCore_eq hn _ _ _ _

theorem le_maxNbh {l : List ℕ} {k : ℕ} (h : k ∈ l) : k ≤ maxNbh l := by
  suffices H : ∀ (l : List ℕ) (a : ℕ), a ≤ l.foldl max a ∧ ∀ k ∈ l, k ≤ l.foldl max a from (H l 0).2 k h
  intro l
  induction l with
  | nil => simp
  | cons b l ih =>
    intro a
    rw [List.foldl_cons]
    obtain ⟨h1, h2⟩ := ih (max a b)
    refine ⟨(le_max_left a b).trans h1, ?_⟩
    intro k hk
    rcases List.mem_cons.1 hk with rfl | hk
    · exact (le_max_right a k).trans h1
    · exact h2 k hk

theorem maxNbh_mem {l : List ℕ} (h : l ≠ []) : maxNbh l ∈ l := by
  suffices H : ∀ (l : List ℕ) (a : ℕ), l.foldl max a = a ∨ l.foldl max a ∈ l from by
    obtain ⟨b, t, rfl⟩ := List.exists_cons_of_ne_nil h
    unfold maxNbh
    rw [List.foldl_cons, Nat.zero_max]
    rcases H t b with h | h
    · rw [h]; simp
    · exact List.mem_cons_of_mem _ h
  intro l
  induction l with
  | nil => simp
  | cons b l ih =>
    intro a
    rw [List.foldl_cons]
    rcases ih (max a b) with h | h
    · rw [h]
      rcases le_total a b with h' | h'
      · right; simp [max_eq_right h']
      · left; exact max_eq_left h'
    · right; exact List.mem_cons_of_mem _ h

/-! ### The term of one point, without sorting -/

theorem pointTerm_eq {n : ℕ} {s : (Fin n → ℝ) → Fin n → Fin n} (hs : IsArgsort s)
    (dx dy : Fin n → ℝ) {k : ℕ} (hk : k < n) {v : ℝ} (hv : IsKth (fun j => max (dx j) (dy j)) k v) :
    pointTerm s dx dy k = dig (countLt dx v) + dig (countLt dy v) := by
  have e := isKth_unique (isKth_argsort hs (fun j => max (dx j) (dy j)) k hk) hv
  unfold pointTerm
  simp only [dif_pos hk]
  rw [e]

theorem card_perm {n : ℕ} (σ : Equiv.Perm (Fin n)) (P : Fin n → Prop) [DecidablePred P] :
    (Finset.univ.filter fun j => P (σ j)).card = (Finset.univ.filter P).card := by
  refine Finset.card_bij (fun j _ => σ j) ?_ ?_ ?_
  · intro a ha; simpa using ha
  · intro a _ b _ hab; exact σ.injective hab
  · intro b hb
    refine ⟨σ.symm b, by simpa using hb, by simp⟩

theorem pointTerm_perm {n : ℕ} {s s' : (Fin n → ℝ) → Fin n → Fin n} (hs : IsArgsort s)
    (hs' : IsArgsort s') (σ : Equiv.Perm (Fin n)) (dx dy : Fin n → ℝ) {k : ℕ} (hk : k < n) :
    pointTerm s (fun j => dx (σ j)) (fun j => dy (σ j)) k = pointTerm s' dx dy k := by
  obtain ⟨v, hv⟩ : ∃ v, IsKth (fun j => max (dx j) (dy j)) k v := pointTerm_exists hs hk _
  rw [pointTerm_eq hs' dx dy hk hv, pointTerm_eq hs _ _ hk (v := v)]
  · unfold countLt
    rw [card_perm σ (fun j => dx j < v), card_perm σ (fun j => dy j < v)]
  · unfold IsKth at hv ⊢
    rw [card_perm σ (fun j => max (dx j) (dy j) < v), card_perm σ (fun j => max (dx j) (dy j) ≤ v)]
    exact hv

theorem pointTerm_scale {n : ℕ} {s s' : (Fin n → ℝ) → Fin n → Fin n} (hs : IsArgsort s)
    (hs' : IsArgsort s') (c : ℝ) (hc : 0 < c) (dx dy : Fin n → ℝ) {k : ℕ} (hk : k < n) :
    pointTerm s (fun j => c * dx j) (fun j => c * dy j) k = pointTerm s' dx dy k := by
  obtain ⟨v, hv⟩ : ∃ v, IsKth (fun j => max (dx j) (dy j)) k v := pointTerm_exists hs hk _
  rw [pointTerm_eq hs' dx dy hk hv, pointTerm_eq hs _ _ hk (v := c * v)]
  · unfold countLt
    simp only [mul_lt_mul_iff_right₀ hc]
  · unfold IsKth at hv ⊢
    have e : ∀ j, max (c * dx j) (c * dy j) = c * max (dx j) (dy j) := fun j =>
      (mul_max_of_nonneg _ _ hc.le).symm
    simp only [e, mul_lt_mul_iff_right₀ hc, mul_le_mul_iff_right₀ hc]
    exact hv

theorem pointTerm_swap {n : ℕ} {s s' : (Fin n → ℝ) → Fin n → Fin n} (hs : IsArgsort s)
    (hs' : IsArgsort s') (dx dy : Fin n → ℝ) {k : ℕ} (hk : k < n) :
    pointTerm s dy dx k = pointTerm s' dx dy k := by
  obtain ⟨v, hv⟩ : ∃ v, IsKth (fun j => max (dx j) (dy j)) k v := pointTerm_exists hs hk _
  rw [pointTerm_eq hs' dx dy hk hv, pointTerm_eq hs _ _ hk (v := v), add_comm]
  have e : (fun j => max (dy j) (dx j)) = fun j => max (dx j) (dy j) := funext fun j => max_comm _ _
  rw [e]; exact hv

theorem pointTerm_sort {n : ℕ} {s s' : (Fin n → ℝ) → Fin n → Fin n} (hs : IsArgsort s)
    (hs' : IsArgsort s') (dx dy : Fin n → ℝ) {k : ℕ} (hk : k < n) :
    pointTerm s dx dy k = pointTerm s' dx dy k :=
  pointTerm_perm hs hs' (Equiv.refl _) dx dy hk

theorem total_sort {n : ℕ} {s s' : (Fin n → ℝ) → Fin n → Fin n} (hs : IsArgsort s)
    (hs' : IsArgsort s') (DX DY : Fin n → Fin n → ℝ) {k : ℕ} (hk : k < n) :
    total s DX DY k = total s' DX DY k :=
  Finset.sum_congr rfl fun _ _ => pointTerm_sort hs hs' _ _ hk

theorem total_perm {n : ℕ} {s s' : (Fin n → ℝ) → Fin n → Fin n} (hs : IsArgsort s)
    (hs' : IsArgsort s') (σ : Equiv.Perm (Fin n)) (DX DY : Fin n → Fin n → ℝ) {k : ℕ} (hk : k < n) :
    total s (fun i j => DX (σ i) (σ j)) (fun i j => DY (σ i) (σ j)) k = total s' DX DY k := by
  unfold total
  rw [← Equiv.sum_comp σ fun i => pointTerm s' (DX i) (DY i) k]
  exact Finset.sum_congr rfl fun i _ => pointTerm_perm hs hs' σ (DX (σ i)) (DY (σ i)) hk

theorem total_scale {n : ℕ} {s s' : (Fin n → ℝ) → Fin n → Fin n} (hs : IsArgsort s)
    (hs' : IsArgsort s') (c : ℝ) (hc : 0 < c) (DX DY : Fin n → Fin n → ℝ) {k : ℕ} (hk : k < n) :
    total s (fun i j => c * DX i j) (fun i j => c * DY i j) k = total s' DX DY k :=
  Finset.sum_congr rfl fun i _ => pointTerm_scale hs hs' c hc (DX i) (DY i) hk

theorem total_swap {n : ℕ} {s s' : (Fin n → ℝ) → Fin n → Fin n} (hs : IsArgsort s)
    (hs' : IsArgsort s') (DX DY : Fin n → Fin n → ℝ) {k : ℕ} (hk : k < n) :
    total s DY DX k = total s' DX DY k :=
  Finset.sum_congr rfl fun i _ => pointTerm_swap hs hs' (DX i) (DY i) hk

/-! ### Metrics -/

theorem dist_nonneg' (m : Metric) {d : ℕ} (a b : Fin d → ℝ) : 0 ≤ m.dist a b := by
  cases m with
  | euclidean => exact Real.sqrt_nonneg _
  | manhattan => exact Finset.sum_nonneg fun j _ => abs_nonneg _
  | chebyshev => exact NNReal.coe_nonneg _

theorem dist_eq_zero' (m : Metric) {d : ℕ} (a b : Fin d → ℝ) : m.dist a b = 0 ↔ a = b := by
  cases m with
  | euclidean =>
    simp only [Metric.dist]
    rw [Real.sqrt_eq_zero (Finset.sum_nonneg fun j _ => sq_nonneg _),
      Finset.sum_eq_zero_iff_of_nonneg fun j _ => sq_nonneg _]
    simp [sub_eq_zero, funext_iff]
  | manhattan =>
    simp only [Metric.dist]
    rw [Finset.sum_eq_zero_iff_of_nonneg fun j _ => abs_nonneg _]
    simp [sub_eq_zero, funext_iff]
  | chebyshev =>
    simp only [Metric.dist]
    rw [NNReal.coe_eq_zero, ← bot_eq_zero, Finset.sup_eq_bot_iff]
    simp [sub_eq_zero, funext_iff]

theorem dist_scale (m : Metric) {d : ℕ} (c : ℝ) (hc : 0 < c) (a b : Fin d → ℝ) :
    m.dist (fun j => c * a j) (fun j => c * b j) = c * m.dist a b := by
  cases m with
  | euclidean =>
    simp only [Metric.dist]
    simp_rw [← mul_sub, mul_pow]
    rw [← Finset.mul_sum, Real.sqrt_mul (sq_nonneg c), Real.sqrt_sq hc.le]
  | manhattan =>
    simp only [Metric.dist]
    simp_rw [← mul_sub, abs_mul, abs_of_pos hc]
    rw [← Finset.mul_sum]
  | chebyshev =>
    simp only [Metric.dist]
    have e : ∀ j, Real.nnabs (c * a j - c * b j) = Real.nnabs c * Real.nnabs (a j - b j) := by
      intro j; rw [← mul_sub, map_mul]
    simp_rw [e]
    rw [← NNReal.mul_finset_sup, NNReal.coe_mul]
    simp [abs_of_pos hc]

theorem isTable_dtab (m : Metric) {n d : ℕ} (v : Fin n → Fin d → ℝ) : IsTable (dtab m v) :=
  ⟨fun _ => (dist_eq_zero' m _ _).2 rfl, fun _ _ => dist_nonneg' m _ _⟩

/-! ### Standardisation -/

open Classical in
theorem scaleCol_inj {n : ℕ} (ε : ℝ) (hε : 0 ≤ ε) (c : Fin n → ℝ) (i j : Fin n) :
    scaleCol ε c i = scaleCol ε c j ↔ c i = c j := by
  unfold scaleCol
  have hd : (if flagged ε c then (1 : ℝ) else √(colVar c)) ≠ 0 := by
    split_ifs with h
    · exact one_ne_zero
    · have hpos : 0 < colVar c := by
        rcases (colVar_nonneg c).lt_or_eq with h' | h'
        · exact h'
        · exfalso; apply h; unfold flagged; rw [← h']; simp; positivity
      exact (Real.sqrt_pos.2 hpos).ne'
  rw [div_left_inj' hd, sub_left_inj]

theorem stdv_eq_iff (ε : ℝ) (hε : 0 ≤ ε) (std : Bool) {n d : ℕ} (v : Fin n → Fin d → ℝ) (i j : Fin n) :
    stdv ε std v i = stdv ε std v j ↔ v i = v j := by
  unfold stdv
  cases std with
  | false => simp
  | true =>
    simp only [if_true, funext_iff]
    exact forall_congr' fun l => scaleCol_inj ε hε _ _ _

theorem scaleCol_perm {n : ℕ} (ε : ℝ) (c : Fin n → ℝ) (σ : Equiv.Perm (Fin n)) (i : Fin n) :
    scaleCol ε (fun j => c (σ j)) i = scaleCol ε c (σ i) := by
  have hm : colMean (fun j => c (σ j)) = colMean c := by
    unfold colMean; rw [Equiv.sum_comp σ c]
  have hv : colVar (fun j => c (σ j)) = colVar c := by
    unfold colVar; rw [hm, Equiv.sum_comp σ fun j => (c j - colMean c) ^ 2]
  have hf : flagged ε (fun j => c (σ j)) ↔ flagged ε c := by
    unfold flagged; rw [hm, hv]
  unfold scaleCol
  rw [hm, hv]
  by_cases h : flagged ε c
  · rw [if_pos h, if_pos (hf.2 h)]
  · rw [if_neg h, if_neg fun h' => h (hf.1 h')]

theorem stdv_perm (ε : ℝ) (std : Bool) {n d : ℕ} (v : Fin n → Fin d → ℝ) (σ : Equiv.Perm (Fin n)) :
    stdv ε std (fun i => v (σ i)) = fun i => stdv ε std v (σ i) := by
  unfold stdv
  cases std with
  | false => simp
  | true =>
    simp only [if_true]
    funext i l
    exact scaleCol_perm ε (fun i' => v i' l) σ i

/-! ### Dictionaries of predictions -/

theorem setKey_foldl (K : List ℕ) (hK : K.Nodup) (old new : ℕ → EReal) :
    ((K.map fun k => (k, new k)).foldl (fun d e => setKey d e.1 e.2) (K.map fun k => (k, old k)))
      = K.map fun k => (k, new k) := by
  have step : ∀ (L : List ℕ) (g : ℕ → EReal), (∀ k ∈ L, k ∈ K) →
      (L.map fun k => (k, new k)).foldl (fun d e => setKey d e.1 e.2) (K.map fun k => (k, g k))
        = K.map fun k => (k, if k ∈ L then new k else g k) := by
    intro L
    induction L with
    | nil => intro g _; simp
    | cons a L ih =>
      intro g hL
      rw [List.map_cons, List.foldl_cons]
      have e : setKey (K.map fun k => (k, g k)) a (new a)
          = K.map fun k => (k, if k = a then new a else g k) := by
        unfold setKey
        have hany : (K.map fun k => (k, g k)).any (fun e => e.1 = a) = true := by
          simp only [List.any_map, List.any_eq_true]
          exact ⟨a, hL a (by simp), by simp⟩
        rw [if_pos hany, List.map_map]
        refine List.map_congr_left fun k _ => ?_
        simp only [Function.comp]
        by_cases h : k = a <;> simp [h]
      simp only [e]
      rw [ih _ fun k hk => hL k (List.mem_cons_of_mem _ hk)]
      refine List.map_congr_left fun k _ => ?_
      by_cases h1 : k ∈ L
      · simp [h1]
      · by_cases h2 : k = a <;> simp [h1, h2]
  rw [step K old fun k hk => hk]
  refine List.map_congr_left fun k hk => ?_
  simp [hk]

theorem setKey_fresh (K : List ℕ) (hK : K.Nodup) (new : ℕ → EReal) :
    ((K.map fun k => (k, new k)).foldl (fun d e => setKey d e.1 e.2) [])
      = K.map fun k => (k, new k) := by
  have step : ∀ (L M : List ℕ), (M ++ L).Nodup →
      (L.map fun k => (k, new k)).foldl (fun d e => setKey d e.1 e.2) (M.map fun k => (k, new k))
        = (M ++ L).map fun k => (k, new k) := by
    intro L
    induction L with
    | nil => intro M _; simp
    | cons a L ih =>
      intro M h
      rw [List.map_cons, List.foldl_cons]
      have ha : a ∉ M := by
        intro ha
        rw [List.nodup_append] at h
        exact h.2.2 a ha a (by simp) rfl
      have e : setKey (M.map fun k => (k, new k)) a (new a) = (M ++ [a]).map fun k => (k, new k) := by
        unfold setKey
        rw [if_neg]
        · simp
        · simp only [List.any_map, List.any_eq_true, not_exists, not_and]
          intro k hk
          have : k ≠ a := fun h' => ha (h' ▸ hk)
          simp [this]
      simp only [e]
      rw [ih (M ++ [a]) (by simpa using h)]
      simp
  simpa using step K [] (by simpa using hK)

end BMI.KSG
