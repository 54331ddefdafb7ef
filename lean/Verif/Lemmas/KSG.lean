import Verif.Model.KSG
import Verif.Spec.KSG
import Verif.Props.Chunker
import Mathlib.NumberTheory.Harmonic.GammaDeriv
import Mathlib.Tactic.Linarith
import Mathlib.Tactic.Ring
import Mathlib.Tactic.FieldSimp
import Mathlib.Order.Interval.Finset.Fin

/-! Helper lemmas about the KSG model. -/

namespace BMI.KSG

open Spec

theorem psi_succ (m : ℕ) : psi (m + 1) = (harmonic m : ℝ) - Real.eulerMascheroniConstant := by
  simp [psi]

theorem dig_pos {m : ℕ} (hm : m ≠ 0) : dig m = (psi m : EReal) := by
  obtain ⟨m, rfl⟩ := Nat.exists_eq_succ_of_ne_zero hm
  rw [dig, if_neg hm]
  congr 1
  rw [logDeriv_apply]
  push_cast
  rw [Real.deriv_Gamma_nat, Real.Gamma_nat_eq_factorial, psi_succ]
  have : (m.factorial : ℝ) ≠ 0 := by exact_mod_cast m.factorial_ne_zero
  field_simp
  ring

theorem dig_zero : dig 0 = ⊥ := by simp [dig]

theorem psi_mono {a b : ℕ} (h : a ≤ b) (ha : a ≠ 0) : psi a ≤ psi b := by
  unfold psi
  have : (harmonic (a - 1) : ℝ) ≤ harmonic (b - 1) := by
    have h' : a - 1 ≤ b - 1 := by omega
    unfold harmonic
    push_cast
    refine Finset.sum_le_sum_of_subset_of_nonneg (Finset.range_mono h') ?_
    intro i _ _
    positivity
  linarith

/-! ### Order statistics -/

theorem isKth_argsort {n : ℕ} {s : (Fin n → ℝ) → Fin n → Fin n} (hs : IsArgsort s) (f : Fin n → ℝ)
    (k : ℕ) (hk : k < n) : IsKth f k (f (s f ⟨k, hk⟩)) := by
  have hb := hs.bij f
  have hm := hs.mono f
  constructor
  · have hsub : (Finset.univ.filter fun j => f j < f (s f ⟨k, hk⟩)) ⊆
        (Finset.Iio (⟨k, hk⟩ : Fin n)).image (s f) := by
      intro j hj
      simp only [Finset.mem_filter, Finset.mem_univ, true_and] at hj
      obtain ⟨m, rfl⟩ := hb.2 j
      simp only [Finset.mem_image, Finset.mem_Iio]
      refine ⟨m, ?_, rfl⟩
      by_contra hlt
      exact absurd (hm (not_lt.1 hlt)) (not_le.2 hj)
    calc _ ≤ _ := Finset.card_le_card hsub
      _ ≤ _ := Finset.card_image_le
      _ = k := by simp
  · have hsub : (Finset.Iic (⟨k, hk⟩ : Fin n)).image (s f) ⊆
        (Finset.univ.filter fun j => f j ≤ f (s f ⟨k, hk⟩)) := by
      intro j hj
      simp only [Finset.mem_image, Finset.mem_Iic] at hj
      obtain ⟨m, hmk, rfl⟩ := hj
      simp only [Finset.mem_filter, Finset.mem_univ, true_and]
      exact hm hmk
    have h1 := Finset.card_le_card hsub
    rw [Finset.card_image_of_injective _ hb.1] at h1
    simp only [Fin.card_Iic] at h1
    omega

theorem isKth_unique {n : ℕ} {f : Fin n → ℝ} {k : ℕ} {v w : ℝ} (hv : IsKth f k v)
    (hw : IsKth f k w) : v = w := by
  have key : ∀ {v w : ℝ}, IsKth f k v → IsKth f k w → ¬ v < w := by
    intro v w hv hw hlt
    have hsub : (Finset.univ.filter fun j => f j ≤ v) ⊆ (Finset.univ.filter fun j => f j < w) := by
      intro j hj
      simp only [Finset.mem_filter, Finset.mem_univ, true_and] at hj ⊢
      linarith
    have := Finset.card_le_card hsub
    have h1 := hv.2
    have h2 := hw.1
    omega
  exact le_antisymm (not_lt.1 (key hw hv)) (not_lt.1 (key hv hw))

theorem isKth_nonneg {n : ℕ} {f : Fin n → ℝ} (hf : ∀ j, 0 ≤ f j) {k : ℕ} {v : ℝ}
    (hv : IsKth f k v) : 0 ≤ v := by
  by_contra hneg
  have : (Finset.univ.filter fun j => f j ≤ v) = ∅ := by
    rw [Finset.filter_eq_empty_iff]
    intro j _
    have := hf j
    linarith
  have h2 := hv.2
  rw [this] at h2
  simp at h2

/-! ### Dictionaries -/

theorem keys_foldl (l acc : List ℕ) (hn : acc.Nodup) :
    (l.foldl (fun acc k => if k ∈ acc then acc else acc ++ [k]) acc).Nodup ∧
    ∀ k, k ∈ l.foldl (fun acc k => if k ∈ acc then acc else acc ++ [k]) acc ↔ k ∈ acc ∨ k ∈ l := by
  induction l generalizing acc with
  | nil => simp [hn]
  | cons a l ih =>
    rw [List.foldl_cons]
    by_cases h : a ∈ acc
    · rw [if_pos h]
      have := ih acc hn
      refine ⟨this.1, fun k => ?_⟩
      rw [this.2 k]
      constructor
      · rintro (h' | h') <;> simp [h']
      · rintro (h' | h')
        · exact .inl h'
        · rcases List.mem_cons.1 h' with rfl | h''
          · exact .inl h
          · exact .inr h''
    · rw [if_neg h]
      have hn' : (acc ++ [a]).Nodup := by
        rw [List.nodup_append]
        refine ⟨hn, by simp, ?_⟩
        intro x hx y hy hxy
        simp only [List.mem_singleton] at hy
        subst hxy; subst hy; exact h hx
      have := ih _ hn'
      refine ⟨this.1, fun k => ?_⟩
      rw [this.2 k]
      simp only [List.mem_append, List.mem_singleton, List.mem_cons]
      tauto

theorem keys_nodup (l : List ℕ) : (keys l).Nodup := (keys_foldl l [] List.nodup_nil).1

theorem mem_keys (l : List ℕ) (k : ℕ) : k ∈ keys l ↔ k ∈ l := by
  have := (keys_foldl l [] List.nodup_nil).2 k
  simpa [keys] using this

theorem keys_eq_self (l : List ℕ) (hl : l.Nodup) : keys l = l := by
  suffices H : ∀ (l acc : List ℕ), (acc ++ l).Nodup →
      l.foldl (fun acc k => if k ∈ acc then acc else acc ++ [k]) acc = acc ++ l from by
    simpa [keys] using H l [] (by simpa using hl)
  intro l
  induction l with
  | nil => intro acc _; simp
  | cons a l ih =>
    intro acc h
    have hna : a ∉ acc := by
      intro ha
      rw [List.nodup_append] at h
      exact h.2.2 a ha a (by simp) rfl
    rw [List.foldl_cons, if_neg hna, ih (acc ++ [a]) (by simpa using h)]
    simp

theorem foldl_appendTo (K nbh : List ℕ) (c : ℕ → EReal) (L : ℕ → List EReal) :
    nbh.foldl (fun dict k => appendTo dict k (c k)) (K.map fun k => (k, L k))
      = K.map fun k => (k, L k ++ List.replicate (nbh.count k) (c k)) := by
  induction nbh generalizing L with
  | nil => simp
  | cons a nbh ih =>
    rw [List.foldl_cons]
    have e : appendTo (K.map fun k => (k, L k)) a (c a)
        = K.map fun k => (k, if k = a then L k ++ [c a] else L k) := by
      simp only [appendTo, List.map_map]
      refine List.map_congr_left fun k _ => ?_
      simp only [Function.comp]
      by_cases h : k = a <;> simp [h]
    rw [e, ih]
    refine List.map_congr_left fun k _ => ?_
    by_cases h : k = a
    · subst h
      simp [List.replicate_succ]
    · have h' : ¬ a = k := fun h' => h h'.symm
      simp [h, h', List.count_cons]

theorem foldl_chunks {σ : Type} (K nbh : List ℕ) (xs : List σ) (c : σ → ℕ → EReal) (L : ℕ → List EReal) :
    xs.foldl (fun dict s => nbh.foldl (fun dict k => appendTo dict k (c s k)) dict)
        (K.map fun k => (k, L k))
      = K.map fun k => (k, L k ++ xs.flatMap fun s => List.replicate (nbh.count k) (c s k)) := by
  induction xs generalizing L with
  | nil => simp
  | cons s xs ih =>
    rw [List.foldl_cons, foldl_appendTo K nbh (c s), ih]
    refine List.map_congr_left fun k _ => ?_
    simp [List.flatMap_cons, List.append_assoc]

theorem sum_flatMap_replicate {σ : Type} (xs : List σ) (m : ℕ) (c : σ → EReal) :
    (xs.flatMap fun s => List.replicate m (c s)).sum = m • (xs.map c).sum := by
  induction xs with
  | nil => simp
  | cons a xs ih => simp [List.flatMap_cons, ih, smul_add, List.sum_replicate]

/-! ### Sums in the extended reals -/

theorem sum_div_nat (l : List EReal) (n : ℕ) (hn : n ≠ 0) :
    (l.map fun t => t / (n : EReal)).sum = l.sum / (n : EReal) := by
  have h0 : (0 : EReal) ≤ (n : EReal)⁻¹ := by
    apply EReal.inv_nonneg_of_nonneg; exact_mod_cast Nat.zero_le n
  have ht : ((n : EReal)⁻¹) ≠ ⊤ := by
    have e : ((n : ℕ) : EReal) = ((n : ℝ) : EReal) := by simp
    rw [e, ← EReal.coe_inv]
    exact EReal.coe_ne_top _
  induction l with
  | nil => simp
  | cons a l ih =>
    rw [List.map_cons, List.sum_cons, ih, List.sum_cons]
    simp only [EReal.div_eq_inv_mul]
    rw [EReal.left_distrib_of_nonneg_of_ne_top h0 ht]

/-- Sum of the terms of all points. -/
noncomputable def total {n : ℕ} (s : (Fin n → ℝ) → Fin n → Fin n) (DX DY : Fin n → Fin n → ℝ)
    (k : ℕ) : EReal := ∑ i, pointTerm s (DX i) (DY i) k

theorem finRange_sum {n : ℕ} (f : Fin n → EReal) : ((List.finRange n).map f).sum = ∑ i, f i := by
  rw [← List.ofFn_eq_map, List.sum_ofFn]

theorem sum_chunks {σ : Type} (chunks : List σ) {ι : Type} (pieces : σ → List ι) (f : ι → EReal) :
    (chunks.map fun s => ((pieces s).map f).sum).sum = (((chunks.map pieces).flatten).map f).sum := by
  induction chunks with
  | nil => simp
  | cons a l ih => simp [ih]

theorem fastCore_eq {n : ℕ} (hn : n ≠ 0) (s : (Fin n → ℝ) → Fin n → Fin n)
    (DX DY : Fin n → Fin n → ℝ) (nbh : List ℕ) (chunks : List Chunker.Slice)
    (hc : (chunks.map fun c => c.apply (List.finRange n)).flatten = List.finRange n) :
    fastCore s DX DY nbh chunks
      = (keys nbh).map fun k => (k,
          max 0 (dig k - nbh.count k • (total s DX DY k / (n : EReal)) + dig n)) := by
  unfold fastCore
  simp only []
  rw [foldl_chunks, List.map_map]
  refine List.map_congr_left fun k _ => ?_
  simp only [Function.comp, List.nil_append, sum_flatMap_replicate]
  rw [sum_chunks chunks (fun c => c.apply (List.finRange n))
    (fun i => pointTerm s (DX i) (DY i) k / (n : EReal)), hc]
  have e : (List.finRange n).map (fun i => pointTerm s (DX i) (DY i) k / (n : EReal))
      = ((List.finRange n).map fun i => pointTerm s (DX i) (DY i) k).map fun t => t / (n : EReal) := by
    rw [List.map_map]; rfl
  rw [e, sum_div_nat _ _ hn, finRange_sum]
  rfl

theorem nsmul_div_nat (x : EReal) (c n : ℕ) (hc : c ≠ 0) (hn : n ≠ 0) :
    (c • x) / ((n * c : ℕ) : EReal) = x / (n : EReal) := by
  have hcr : (0 : ℝ) < c := by positivity
  have hnr : (0 : ℝ) < n := by positivity
  have e1 : ((n * c : ℕ) : EReal) = ((n * c : ℝ) : EReal) := by
    push_cast; simp
  have e2 : ((n : ℕ) : EReal) = ((n : ℝ) : EReal) := by simp
  rw [e1, e2]
  have hnsm : c • x = (c : ℝ) * x := by
    rw [EReal.nsmul_eq_mul]; simp
  rw [hnsm]
  induction x with
  | bot =>
    rw [EReal.coe_mul_bot_of_pos hcr, EReal.bot_div_of_pos_ne_top, EReal.bot_div_of_pos_ne_top]
    · exact_mod_cast hnr
    · exact EReal.coe_ne_top _
    · exact_mod_cast mul_pos hnr hcr
    · exact EReal.coe_ne_top _
  | top =>
    rw [EReal.coe_mul_top_of_pos hcr, EReal.top_div_of_pos_ne_top, EReal.top_div_of_pos_ne_top]
    · exact_mod_cast hnr
    · exact EReal.coe_ne_top _
    · exact_mod_cast mul_pos hnr hcr
    · exact EReal.coe_ne_top _
  | coe x =>
    rw [← EReal.coe_mul, ← EReal.coe_div, ← EReal.coe_div]
    congr 1
    field_simp

theorem slowCore_eq {n : ℕ} (hn : n ≠ 0) (s : (Fin n → ℝ) → Fin n → Fin n)
    (DX DY : Fin n → Fin n → ℝ) (nbh : List ℕ) :
    slowCore s DX DY nbh
      = (keys nbh).map fun k => (k, max 0 (dig k - total s DX DY k / (n : EReal) + dig n)) := by
  unfold slowCore
  simp only []
  rw [foldl_chunks, List.map_map]
  refine List.map_congr_left fun k hk => ?_
  have hc : nbh.count k ≠ 0 := by
    rw [mem_keys] at hk
    exact (List.count_pos_iff.2 hk).ne'
  have hlen : ((List.finRange n).flatMap fun i =>
      List.replicate (nbh.count k) (pointTerm s (DX i) (DY i) k)).length = n * nbh.count k := by
    simp [List.length_flatMap]
  simp only [Function.comp, List.nil_append, sum_flatMap_replicate, hlen]
  rw [nsmul_div_nat _ _ _ hc hn, finRange_sum]
  rfl

/-! ### The terms -/

theorem countLt_eq {n : ℕ} {D : Fin n → Fin n → ℝ} (hD : IsTable D) (i : Fin n) (v : ℝ)
    (hv : 0 < v) : countLt (D i) v = others D i v + 1 := by
  unfold countLt others
  have : (Finset.univ.filter fun j => D i j < v)
      = insert i (Finset.univ.filter fun j => j ≠ i ∧ D i j < v) := by
    ext j
    simp only [Finset.mem_filter, Finset.mem_univ, true_and, Finset.mem_insert]
    by_cases h : j = i
    · subst h; simp [hD.diag, hv]
    · simp [h]
  rw [this, Finset.card_insert_of_notMem (by simp)]

theorem countLt_zero {n : ℕ} {D : Fin n → Fin n → ℝ} (hD : IsTable D) (i : Fin n) :
    countLt (D i) 0 = 0 := by
  unfold countLt
  rw [Finset.card_eq_zero, Finset.filter_eq_empty_iff]
  intro j _
  exact not_lt.2 (hD.nonneg i j)

theorem isTable_joint {n : ℕ} {DX DY : Fin n → Fin n → ℝ} (hX : IsTable DX) (hY : IsTable DY) :
    IsTable (joint DX DY) :=
  ⟨fun i => by simp [joint, hX.diag, hY.diag], fun i j => le_max_of_le_left (hX.nonneg i j)⟩

theorem pointTerm_pos {n : ℕ} {s : (Fin n → ℝ) → Fin n → Fin n} (hs : IsArgsort s)
    {DX DY : Fin n → Fin n → ℝ} (hX : IsTable DX) (hY : IsTable DY) {k : ℕ} (hk : k < n) (i : Fin n)
    {v : ℝ} (hv : IsKth (joint DX DY i) k v) (hpos : 0 < v) :
    pointTerm s (DX i) (DY i) k
      = ((psi (others DX i v + 1) + psi (others DY i v + 1) : ℝ) : EReal) := by
  have e : joint DX DY i (s (joint DX DY i) ⟨k, hk⟩) = v :=
    isKth_unique (isKth_argsort hs _ k hk) hv
  unfold pointTerm
  simp only [dif_pos hk]
  change dig (countLt (DX i) (joint DX DY i (s (joint DX DY i) ⟨k, hk⟩)))
    + dig (countLt (DY i) (joint DX DY i (s (joint DX DY i) ⟨k, hk⟩))) = _
  rw [e, countLt_eq hX i v hpos, countLt_eq hY i v hpos, dig_pos (Nat.succ_ne_zero _),
    dig_pos (Nat.succ_ne_zero _), EReal.coe_add]

theorem pointTerm_zero {n : ℕ} {s : (Fin n → ℝ) → Fin n → Fin n} (hs : IsArgsort s)
    {DX DY : Fin n → Fin n → ℝ} (hX : IsTable DX) (hY : IsTable DY) {k : ℕ} (hk : k < n) (i : Fin n)
    (hv : IsKth (joint DX DY i) k 0) :
    pointTerm s (DX i) (DY i) k = ⊥ := by
  have e : joint DX DY i (s (joint DX DY i) ⟨k, hk⟩) = 0 :=
    isKth_unique (isKth_argsort hs _ k hk) hv
  unfold pointTerm
  simp only [dif_pos hk]
  change dig (countLt (DX i) (joint DX DY i (s (joint DX DY i) ⟨k, hk⟩)))
    + dig (countLt (DY i) (joint DX DY i (s (joint DX DY i) ⟨k, hk⟩))) = _
  rw [e, countLt_zero hX, dig_zero, EReal.bot_add]

theorem sum_eq_bot {n : ℕ} (f : Fin n → EReal) (i : Fin n) (h : f i = ⊥) : ∑ j, f j = ⊥ := by
  rw [← Finset.add_sum_erase _ _ (Finset.mem_univ i), h, EReal.bot_add]

theorem pointTerm_exists {n : ℕ} {s : (Fin n → ℝ) → Fin n → Fin n} (hs : IsArgsort s)
    {k : ℕ} (hk : k < n) (f : Fin n → ℝ) : ∃ v, IsKth f k v := ⟨_, isKth_argsort hs f k hk⟩

/-- Value of the total when every `k`-th neighbour distance is positive. -/
theorem total_pos {n : ℕ} {s : (Fin n → ℝ) → Fin n → Fin n} (hs : IsArgsort s)
    {DX DY : Fin n → Fin n → ℝ} (hX : IsTable DX) (hY : IsTable DY) {k : ℕ} (hk : k < n)
    {v : Fin n → ℝ} (hv : ∀ i, IsKth (joint DX DY i) k (v i)) (hpos : ∀ i, 0 < v i) :
    total s DX DY k
      = ((∑ i, (psi (others DX i (v i) + 1) + psi (others DY i (v i) + 1)) : ℝ) : EReal) := by
  unfold total
  rw [Finset.sum_congr rfl fun i _ => pointTerm_pos hs hX hY hk i (hv i) (hpos i)]
  exact (map_sum (⟨⟨Real.toEReal, EReal.coe_zero⟩, EReal.coe_add⟩ : ℝ →+ EReal) _ _).symm

/-- The prediction in terms of equation (8). -/
theorem prediction_pos {n : ℕ} {s : (Fin n → ℝ) → Fin n → Fin n} (hs : IsArgsort s)
    {DX DY : Fin n → Fin n → ℝ} (hX : IsTable DX) (hY : IsTable DY) {k : ℕ} (hk0 : k ≠ 0) (hk : k < n)
    {v : Fin n → ℝ} (hv : ∀ i, IsKth (joint DX DY i) k (v i)) (hpos : ∀ i, 0 < v i) :
    max 0 (dig k - total s DX DY k / (n : EReal) + dig n)
      = ((max 0 (eq8 DX DY k v) : ℝ) : EReal) := by
  have hn : n ≠ 0 := by omega
  rw [total_pos hs hX hY hk hv hpos, dig_pos hk0, dig_pos hn]
  have e : ((n : ℕ) : EReal) = ((n : ℝ) : EReal) := by simp
  rw [e, ← EReal.coe_div, ← EReal.coe_sub, ← EReal.coe_add, ← EReal.coe_zero,
    ← EReal.coe_strictMono.monotone.map_max]
  congr 2
  unfold eq8
  ring

theorem prediction_tied {n : ℕ} {s : (Fin n → ℝ) → Fin n → Fin n} (hs : IsArgsort s)
    {DX DY : Fin n → Fin n → ℝ} (hX : IsTable DX) (hY : IsTable DY) {k : ℕ} (hk0 : k ≠ 0) (hk : k < n)
    (i : Fin n) (hv : IsKth (joint DX DY i) k 0) :
    max 0 (dig k - total s DX DY k / (n : EReal) + dig n) = ⊤ := by
  have hn : n ≠ 0 := by omega
  have ht : total s DX DY k = ⊥ := sum_eq_bot _ i (pointTerm_zero hs hX hY hk i hv)
  have e : ((n : ℕ) : EReal) = ((n : ℝ) : EReal) := by simp
  have hpos : (0 : EReal) < ((n : ℝ) : EReal) := by
    have : (0 : ℝ) < n := by positivity
    exact_mod_cast this
  rw [ht, e, EReal.bot_div_of_pos_ne_top hpos (EReal.coe_ne_top _), dig_pos hk0, dig_pos hn,
    EReal.coe_sub_bot, EReal.top_add_coe]
  simp

end BMI.KSG
