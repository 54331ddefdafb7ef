import Verif.Model.Histogram
import Verif.Lemmas.PlugIn
import Verif.Lemmas.KSGFit
import Mathlib.Data.List.FinRange
import Mathlib.Data.List.OfFn
import Mathlib.Algebra.BigOperators.Group.Finset.Basic
import Mathlib.Data.List.ProdSigma

/-! Helper lemmas for the histogram estimator. -/

namespace BMI.Histogram

open BMI.PlugIn

/-! ### Cells -/

theorem filter_range_mono (N : ℕ) (P : ℕ → Prop) [DecidablePred P] (hP : ∀ i j, i ≤ j → P j → P i) :
    ∀ i, i < N → (P i ↔ i < ((List.range N).filter fun i => decide (P i)).length) := by
  induction N with
  | zero => intro i hi; omega
  | succ N ih =>
    intro i hi
    rw [List.range_succ, List.filter_append, List.length_append]
    by_cases hN : P N
    · have hall : (List.range N).filter (fun i => decide (P i)) = List.range N := by
        rw [List.filter_eq_self]
        intro a ha
        rw [List.mem_range] at ha
        simpa using hP a N ha.le hN
      rw [hall]
      simp [hN]
      constructor
      · intro _; omega
      · intro _; exact hP i N (by omega) hN
    · simp only [List.filter_cons, hN, decide_false, List.filter_nil, Bool.false_eq_true, if_false, List.length_nil,
        Nat.add_zero]
      by_cases hi' : i < N
      · exact ih i hi'
      · have : i = N := by omega
        subst this
        have hle := List.length_filter_le (fun i => decide (P i)) (List.range i)
        rw [List.length_range] at hle
        constructor
        · intro h; exact absurd h hN
        · intro h; omega

theorem isCell_binOf (lo hi : ℝ) (hlt : lo < hi) (b : ℕ) (hb : 0 < b) (x : ℝ) (h1 : lo ≤ x) (h2 : x ≤ hi) :
    IsCell lo hi b x (binOf lo hi b x) := by
  classical
  have hbr : (0 : ℝ) < b := by exact_mod_cast hb
  have hmono : ∀ i j : ℕ, i ≤ j → edge lo hi b i ≤ edge lo hi b j := by
    intro i j hij
    unfold edge
    have : (i : ℝ) ≤ j := by exact_mod_cast hij
    have hd : 0 ≤ hi - lo := by linarith
    gcongr
  have hlast : edge lo hi b b = hi := by unfold edge; field_simp; ring
  have hfirst : edge lo hi b 0 = lo := by unfold edge; simp
  have key := filter_range_mono (b + 1) (fun i => edge lo hi b i ≤ x)
    (fun i j hij h => (hmono i j hij).trans h)
  unfold binOf
  set cnt := ((List.range (b + 1)).filter fun i => decide (edge lo hi b i ≤ x)).length with hcnt
  have hcle : cnt ≤ b + 1 := by
    have := List.length_filter_le (fun i => decide (edge lo hi b i ≤ x)) (List.range (b + 1))
    rwa [List.length_range] at this
  have hpos : 0 < cnt := (key 0 (by omega)).1 (by rw [hfirst]; exact h1)
  have hform : ∀ c : ℕ, lo + (hi - lo) * c / b = edge lo hi b c := fun c => rfl
  have hform' : ∀ c : ℕ, lo + (hi - lo) * ((c : ℝ) + 1) / b = edge lo hi b (c + 1) := by
    intro c; unfold edge; push_cast; rfl
  unfold IsCell
  rw [hform, hform']
  by_cases hx : x = edge lo hi b b
  · have hall : b < cnt := (key b (by omega)).1 hx.ge
    have : cnt = b + 1 := by omega
    simp only [if_pos hx]
    rw [this]
    refine ⟨by omega, ?_, .inr ⟨by omega, by rw [hx, hlast]⟩⟩
    calc edge lo hi b (b + 1 - 1 - 1) ≤ edge lo hi b b := hmono _ _ (by omega)
      _ = x := hx.symm
  · simp only [if_neg hx]
    have hb' : ¬ b < cnt := by
      intro h
      have := (key b (by omega)).2 h
      exact hx (le_antisymm (h2.trans hlast.ge) this)
    refine ⟨by omega, (key (cnt - 1) (by omega)).2 (by omega), .inl ?_⟩
    by_contra hge
    have := (key (cnt - 1 + 1) (by omega)).1 (not_lt.1 hge)
    omega

theorem isRange_outerEdges {n : ℕ} (hn : 0 < n) (c : Fin n → ℝ) :
    IsRange c (outerEdges c).1 (outerEdges c).2 := by
  have hne : (Finset.univ : Finset (Fin n)).Nonempty := ⟨⟨0, hn⟩, Finset.mem_univ _⟩
  obtain ⟨a, _, ha⟩ := Finset.exists_mem_eq_inf' hne c
  obtain ⟨b, _, hb⟩ := Finset.exists_mem_eq_sup' hne c
  refine ⟨a, b, fun i => ⟨ha ▸ Finset.inf'_le _ (Finset.mem_univ i), hb ▸ Finset.le_sup' _ (Finset.mem_univ i)⟩, ?_⟩
  have hle : c a ≤ c b := ha ▸ Finset.inf'_le _ (Finset.mem_univ b)
  unfold outerEdges
  simp only [dif_pos hn]
  rw [ha, hb]
  by_cases h : c a = c b
  · right
    rw [if_pos h]
    refine ⟨h, by norm_num, by rw [← h]; norm_num⟩
  · left
    rw [if_neg h]
    exact ⟨lt_of_le_of_ne hle h, rfl, rfl⟩

theorem range_bounds {n : ℕ} {c : Fin n → ℝ} {lo hi : ℝ} (h : IsRange c lo hi) :
    lo < hi ∧ ∀ i, lo ≤ c i ∧ c i ≤ hi := by
  obtain ⟨a, b, hall, h | h⟩ := h
  · obtain ⟨h0, rfl, rfl⟩ := h
    exact ⟨h0, hall⟩
  · obtain ⟨h0, rfl, rfl⟩ := h
    refine ⟨by linarith, fun i => ?_⟩
    have := hall i
    constructor <;> linarith

theorem outerEdges_perm {n : ℕ} (c : Fin n → ℝ) (σ : Equiv.Perm (Fin n)) :
    outerEdges (fun i => c (σ i)) = outerEdges c := by
  unfold outerEdges
  by_cases hn : 0 < n
  · simp only [dif_pos hn]
    have hne : (Finset.univ : Finset (Fin n)).Nonempty := ⟨⟨0, hn⟩, Finset.mem_univ _⟩
    have e1 : Finset.univ.inf' hne (fun i => c (σ i)) = Finset.univ.inf' hne c := by
      apply le_antisymm
      · refine Finset.le_inf' _ _ fun i _ => ?_
        have := Finset.inf'_le (s := Finset.univ) (fun i => c (σ i)) (Finset.mem_univ (σ.symm i))
        simp only [Equiv.apply_symm_apply] at this
        exact this
      · exact Finset.le_inf' _ _ fun i _ => Finset.inf'_le _ (Finset.mem_univ _)
    have e2 : Finset.univ.sup' hne (fun i => c (σ i)) = Finset.univ.sup' hne c := by
      apply le_antisymm
      · exact Finset.sup'_le _ _ fun i _ => Finset.le_sup' _ (Finset.mem_univ _)
      · refine Finset.sup'_le _ _ fun i _ => ?_
        have := Finset.le_sup' (s := Finset.univ) (fun i => c (σ i)) (Finset.mem_univ (σ.symm i))
        simp only [Equiv.apply_symm_apply] at this
        exact this
    rw [e1, e2]
  · simp only [dif_neg hn]

/-! ### The enumeration of cells -/

theorem mem_product (b d : ℕ) (t : List ℕ) : t ∈ product b d ↔ t.length = d ∧ ∀ c ∈ t, c < b := by
  induction d generalizing t with
  | zero => simp [product]; rintro rfl; simp
  | succ d ih =>
    simp only [product, List.mem_flatMap, List.mem_range, List.mem_map, ih]
    constructor
    · rintro ⟨i, hi, t', ⟨h1, h2⟩, rfl⟩
      refine ⟨by simp [h1], ?_⟩
      intro c hc
      rcases List.mem_cons.1 hc with rfl | hc
      · exact hi
      · exact h2 c hc
    · rintro ⟨h1, h2⟩
      cases t with
      | nil => simp at h1
      | cons i t =>
        refine ⟨i, h2 i (by simp), t, ⟨by simpa using h1, fun c hc => h2 c (by simp [hc])⟩, rfl⟩

theorem length_product (b d : ℕ) : (product b d).length = b ^ d := by
  induction d with
  | zero => simp [product]
  | succ d ih => simp [product, List.length_flatMap, ih, pow_succ, mul_comm]

theorem nodup_product (b d : ℕ) : (product b d).Nodup := by
  induction d with
  | zero => simp [product]
  | succ d ih =>
    rw [product, List.nodup_flatMap]
    refine ⟨fun i _ => ih.map fun a b h => (List.cons_eq_cons.1 h).2, ?_⟩
    have := List.nodup_range (n := b)
    refine this.imp ?_
    intro i j hij x hx hy
    simp only [List.mem_map] at hx hy
    obtain ⟨t, _, rfl⟩ := hx
    obtain ⟨t', _, h⟩ := hy
    exact hij (List.cons_eq_cons.1 h).1.symm

/-! ### The loops -/

theorem foldl_cond (l : List ℕ) (P : ℕ → Prop) [DecidablePred P] (g : ℕ → ℝ) (m : ℝ) :
    l.foldl (fun mi j => if P j then mi + g j else mi) m = m + (l.map fun j => if P j then g j else 0).sum := by
  induction l generalizing m with
  | nil => simp
  | cons a l ih =>
    rw [List.foldl_cons, ih, List.map_cons, List.sum_cons]
    by_cases h : P a <;> simp [h, add_assoc]

theorem foldl_add (l : List ℕ) (g : ℕ → ℝ) (m : ℝ) :
    l.foldl (fun mi j => mi + g j) m = m + (l.map g).sum := by
  induction l generalizing m with
  | nil => simp
  | cons a l ih => rw [List.foldl_cons, ih, List.map_cons, List.sum_cons]; ring

theorem range_map_getD {α β : Type} (l : List α) (d : β) (f : α → β) (G : ℕ → β → ℝ)
    (H : α → ℝ) (h : ∀ i (hi : i < l.length), G i (f l[i]) = H l[i]) :
    ((List.range l.length).map fun i => G i ((l.map f).getD i d)).sum = (l.map H).sum := by
  congr 1
  apply List.ext_getElem
  · simp
  · intro i h1 h2
    have hi : i < l.length := by simpa using h1
    simp [List.getD, hi, h i hi]

theorem tableMI_eq (X Y : List (List ℕ)) (h : List ℕ → List ℕ → ℝ) :
    tableMI X.length Y.length (X.map fun x => Y.map fun y => h x y)
      = (X.map fun x => (Y.map fun y =>
          if h x y / (X.map fun x => (Y.map fun y => h x y).sum).sum > 0 then
            h x y / (X.map fun x => (Y.map fun y => h x y).sum).sum *
              (Real.log (h x y / (X.map fun x => (Y.map fun y => h x y).sum).sum)
                - Real.log (Y.map fun y => h x y / (X.map fun x => (Y.map fun y => h x y).sum).sum).sum
                - Real.log (X.map fun x => h x y / (X.map fun x => (Y.map fun y => h x y).sum).sum).sum)
          else 0).sum).sum := by
  unfold tableMI
  simp only [List.map_map, Function.comp_def]
  generalize (X.map fun x => (Y.map fun y => h x y).sum).sum = tot
  simp only [foldl_cond, foldl_add, zero_add]
  have hpy : ∀ j (hj : j < Y.length),
      ((List.range Y.length).map fun j => (X.map fun x => (Y.map fun y => h x y / tot).getD j 0).sum).getD j 0
        = (X.map fun x => h x Y[j] / tot).sum := by
    intro j hj
    simp [List.getD, hj]
  apply range_map_getD X [] (fun x => Y.map fun y => h x y / tot)
    (fun i r => ((List.range Y.length).map fun j =>
      if r.getD j 0 > 0 then r.getD j 0 * (Real.log (r.getD j 0)
          - Real.log ((X.map fun x => (Y.map fun y => h x y / tot).sum).getD i 0)
          - Real.log (((List.range Y.length).map fun j =>
              (X.map fun x => (Y.map fun y => h x y / tot).getD j 0).sum).getD j 0)) else 0).sum)
  intro i hi
  apply range_map_getD Y 0 (fun y => h X[i] y / tot)
    (fun j r => if r > 0 then r * (Real.log r
          - Real.log ((X.map fun x => (Y.map fun y => h x y / tot).sum).getD i 0)
          - Real.log (((List.range Y.length).map fun j =>
              (X.map fun x => (Y.map fun y => h x y / tot).getD j 0).sum).getD j 0)) else 0)
  intro j hj
  rw [hpy j hj]
  simp [List.getD, hi]

/-- The loops compute the empirical mutual information of the two cell numbers. -/
theorem tableMI_info {n : ℕ} (A B : Fin n → List ℕ) (bx dx by_ dy : ℕ)
    (hA : ∀ i, A i ∈ product bx dx) (hB : ∀ i, B i ∈ product by_ dy) (H : List ℕ → ℝ)
    (hH : ∀ x ∈ product bx dx, ∀ y ∈ product by_ dy, H (x ++ y) = n * freq A B x y) (hn : 0 < n) :
    tableMI (bx ^ dx) (by_ ^ dy) (flat bx dx by_ dy H) = info A B := by
  classical
  have hnr : (n : ℝ) ≠ 0 := by positivity
  unfold flat
  rw [← length_product bx dx, ← length_product by_ dy, tableMI_eq _ _ fun x y => H (x ++ y)]
  have sX : ∀ f : List ℕ → ℝ, ((product bx dx).map f).sum = ∑ x ∈ (product bx dx).toFinset, f x :=
    fun f => (List.sum_toFinset f (nodup_product bx dx)).symm
  have sY : ∀ f : List ℕ → ℝ, ((product by_ dy).map f).sum = ∑ x ∈ (product by_ dy).toFinset, f x :=
    fun f => (List.sum_toFinset f (nodup_product by_ dy)).symm
  simp only [sX, sY]
  have hAS : ∀ i, A i ∈ (product bx dx).toFinset := fun i => List.mem_toFinset.2 (hA i)
  have hBS : ∀ i, B i ∈ (product by_ dy).toFinset := fun i => List.mem_toFinset.2 (hB i)
  have htot : ∑ x ∈ (product bx dx).toFinset, ∑ y ∈ (product by_ dy).toFinset, H (x ++ y) = n := by
    have : ∀ x ∈ (product bx dx).toFinset, ∑ y ∈ (product by_ dy).toFinset, H (x ++ y) = n * freq1 A x := by
      intro x hx
      rw [Finset.sum_congr rfl fun y hy => hH x (List.mem_toFinset.1 hx) y (List.mem_toFinset.1 hy),
        ← Finset.mul_sum, sum_freq A B x _ hBS]
    rw [Finset.sum_congr rfl this, ← Finset.mul_sum, sum_freq1 hn A _ hAS, mul_one]
  rw [htot, info_eq A B _ _ hAS hBS]
  have hdiv : ∀ x ∈ (product bx dx).toFinset, ∀ y ∈ (product by_ dy).toFinset,
      H (x ++ y) / n = freq A B x y := by
    intro x hx y hy
    rw [hH x (List.mem_toFinset.1 hx) y (List.mem_toFinset.1 hy)]; field_simp
  refine Finset.sum_congr rfl fun x hx => Finset.sum_congr rfl fun y hy => ?_
  rw [hdiv x hx y hy, Finset.sum_congr rfl fun y' hy' => hdiv x hx y' hy', sum_freq A B x _ hBS,
    Finset.sum_congr rfl fun x' hx' => hdiv x' hx' y hy]
  have : ∑ x' ∈ (product bx dx).toFinset, freq A B x' y = freq1 B y := by
    rw [← sum_freq B A y _ hAS]
    exact Finset.sum_congr rfl fun x' _ => (freq_swap A B x' y).symm
  rw [this]
  rcases (freq_nonneg A B x y).lt_or_eq with h | h
  · have ha := h.trans_le (freq_le_left A B x y)
    have hb := h.trans_le (freq_le_right A B x y)
    rw [if_pos h, Real.log_div h.ne' (by positivity), Real.log_mul ha.ne' hb.ne']
    ring
  · rw [← h]; simp

/-! ### Affine changes of a column -/

theorem edge_affine (a t : ℝ) (lo hi : ℝ) (b i : ℕ) :
    edge (a * lo + t) (a * hi + t) b i = a * edge lo hi b i + t := by
  unfold edge; ring

theorem binOf_affine (a t : ℝ) (ha : 0 < a) (lo hi : ℝ) (b : ℕ) (x : ℝ) :
    binOf (a * lo + t) (a * hi + t) b (a * x + t) = binOf lo hi b x := by
  classical
  unfold binOf
  have h1 : ∀ i, edge (a * lo + t) (a * hi + t) b i ≤ a * x + t ↔ edge lo hi b i ≤ x := by
    intro i; rw [edge_affine, add_le_add_iff_right, mul_le_mul_iff_right₀ ha]
  have h2 : a * x + t = edge (a * lo + t) (a * hi + t) b b ↔ x = edge lo hi b b := by
    rw [edge_affine, add_left_inj, mul_right_inj' ha.ne']
  simp only [h1, h2]

theorem outerEdges_affine {n : ℕ} (hn : 0 < n) (c : Fin n → ℝ) (a t : ℝ) (ha : 0 < a)
    (h : ∃ i j, c i ≠ c j) :
    outerEdges (fun i => a * c i + t) = (a * (outerEdges c).1 + t, a * (outerEdges c).2 + t) := by
  have hne : (Finset.univ : Finset (Fin n)).Nonempty := ⟨⟨0, hn⟩, Finset.mem_univ _⟩
  have hm : Monotone fun x : ℝ => a * x + t := fun x y hxy => by
    have := mul_le_mul_of_nonneg_left hxy ha.le
    simpa using this
  have e1 : Finset.univ.inf' hne (fun i => a * c i + t) = a * Finset.univ.inf' hne c + t := by
    obtain ⟨k, _, hk⟩ := Finset.exists_mem_eq_inf' hne c
    refine le_antisymm ?_ (Finset.le_inf' _ _ fun i _ => hm (Finset.inf'_le _ (Finset.mem_univ i)))
    rw [hk]
    exact Finset.inf'_le (fun i => a * c i + t) (Finset.mem_univ k)
  have e2 : Finset.univ.sup' hne (fun i => a * c i + t) = a * Finset.univ.sup' hne c + t :=
    (Finset.comp_sup'_eq_sup'_comp hne (fun x : ℝ => a * x + t) (fun x y => hm.map_max)).symm
  have hlt : Finset.univ.inf' hne c ≠ Finset.univ.sup' hne c := by
    intro he
    obtain ⟨i, j, hij⟩ := h
    apply hij
    have h1 := Finset.inf'_le c (Finset.mem_univ i)
    have h2 := Finset.le_sup' c (Finset.mem_univ i)
    have h3 := Finset.inf'_le c (Finset.mem_univ j)
    have h4 := Finset.le_sup' c (Finset.mem_univ j)
    linarith
  have hlt' : a * Finset.univ.inf' hne c + t ≠ a * Finset.univ.sup' hne c + t := by
    rw [Ne, add_left_inj, mul_right_inj' ha.ne']; exact hlt
  unfold outerEdges
  simp only [dif_pos hn]
  rw [e1, e2, if_neg hlt', if_neg hlt]

theorem outerEdges_const {n : ℕ} (hn : 0 < n) (c : Fin n → ℝ) (m : ℝ) (h : ∀ i, c i = m) :
    outerEdges c = (m - 0.5, m + 0.5) := by
  have hne : (Finset.univ : Finset (Fin n)).Nonempty := ⟨⟨0, hn⟩, Finset.mem_univ _⟩
  obtain rfl : c = fun _ => m := funext h
  unfold outerEdges
  simp only [dif_pos hn]
  rw [Finset.inf'_const hne, Finset.sup'_const hne, if_pos rfl]

/-- Standardising a column does not change any cell number. -/
theorem bin_scaleCol {n : ℕ} (ε : ℝ) (hε : 0 ≤ ε) (c : Fin n → ℝ) (b : ℕ) (i : Fin n) :
    binOf (outerEdges (PSpace.scaleCol ε c)).1 (outerEdges (PSpace.scaleCol ε c)).2 b (PSpace.scaleCol ε c i)
      = binOf (outerEdges c).1 (outerEdges c).2 b (c i) := by
  classical
  have hn : 0 < n := i.pos
  by_cases h : ∃ i j, c i ≠ c j
  · obtain ⟨s, hs, hsc⟩ : ∃ s : ℝ, 0 < s ∧ ∀ i, PSpace.scaleCol ε c i = s⁻¹ * c i + -(s⁻¹ * PSpace.colMean c) := by
      unfold PSpace.scaleCol
      by_cases hf : PSpace.flagged ε c
      · refine ⟨1, one_pos, fun i => ?_⟩
        rw [if_pos hf]; ring
      · have hpos : 0 < PSpace.colVar c := by
          rcases (PSpace.colVar_nonneg c).lt_or_eq with h' | h'
          · exact h'
          · exfalso; apply hf; unfold PSpace.flagged; rw [← h']; simp; positivity
        refine ⟨_, Real.sqrt_pos.2 hpos, fun i => ?_⟩
        rw [if_neg hf]; ring
    have e : PSpace.scaleCol ε c = fun i => s⁻¹ * c i + -(s⁻¹ * PSpace.colMean c) := funext hsc
    rw [e, outerEdges_affine hn c _ _ (inv_pos.2 hs) h]
    exact binOf_affine _ _ (inv_pos.2 hs) _ _ _ _
  · push Not at h
    have hc : ∀ j, c j = c i := fun j => h j i
    have hs := PSpace.scaled_const ε c (c i) hc
    rw [outerEdges_const hn _ 0 hs, outerEdges_const hn c (c i) hc, hs i]
    have := binOf_affine 1 (c i) one_pos (0 - 0.5) (0 + 0.5) b 0
    calc _ = binOf (1 * (0 - 0.5) + c i) (1 * (0 + 0.5) + c i) b (1 * 0 + c i) := this.symm
      _ = _ := by congr 1 <;> ring

end BMI.Histogram
