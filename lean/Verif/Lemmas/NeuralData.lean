import Verif.Spec.NeuralData

/-! Lemmas on indexing arrays by lists of indices. -/

namespace BMI.NeuralData

variable {Key X Y : Type}

theorem gather_eq_filterMap (xs : List X) (ix : List ℕ) (h : ∀ i ∈ ix, i < xs.length) :
    gather xs ix = ix.filterMap fun i => xs[i]? := by
  unfold gather
  refine List.filterMap_congr fun i hi => ?_
  rw [min_eq_left (by have := h i hi; omega)]

theorem gather_length (xs : List X) (ix : List ℕ) (h : ∀ i ∈ ix, i < xs.length) :
    (gather xs ix).length = ix.length := by
  rw [gather_eq_filterMap xs ix h]
  induction ix with
  | nil => rfl
  | cons i ix ih =>
    have hi := h i (by simp)
    rw [List.filterMap_cons_some (List.getElem?_eq_getElem hi)]
    simp [ih fun j hj => h j (by simp [hj])]

theorem gather_range (xs : List X) : gather xs (List.range xs.length) = xs := by
  rw [gather_eq_filterMap _ _ (by simp)]
  refine List.ext_getElem ?_ ?_
  · rw [← gather_eq_filterMap _ _ (by simp), gather_length _ _ (by simp), List.length_range]
  · intro i h1 h2
    have key : ∀ n ≤ xs.length, (List.range n).filterMap (fun i => xs[i]?) = xs.take n := by
      intro n hn
      induction n with
      | zero => simp
      | succ n ih =>
        rw [List.range_succ, List.filterMap_append, ih (by omega),
          List.take_succ_eq_append_getElem (by omega)]
        simp [List.getElem?_eq_getElem (show n < xs.length by omega)]
    simp [key _ le_rfl]

theorem gather_perm (xs : List X) (ix : List ℕ) (h : ix.Perm (List.range xs.length)) : (gather xs ix).Perm xs := by
  have := h.filterMap fun i => xs[min i (xs.length - 1)]?
  exact this.trans (List.Perm.of_eq (gather_range xs))

theorem gather_subperm (xs : List X) (ix : List ℕ) (h : ∀ i ∈ ix, i < xs.length) (hn : ix.Nodup) :
    (gather xs ix).Subperm xs := by
  have h1 : ix.Subperm (List.range xs.length) := hn.subperm fun i hi => List.mem_range.2 (h i hi)
  obtain ⟨l, hl, hs⟩ := h1
  have h2 : (gather xs l).Sublist (gather xs (List.range xs.length)) := hs.filterMap _
  rw [gather_range] at h2
  exact ⟨_, hl.filterMap _, h2⟩

theorem gather_zip (xs : List X) (ys : List Y) (ix : List ℕ) (e : xs.length = ys.length)
    (h : ∀ i ∈ ix, i < xs.length) : (gather xs ix).zip (gather ys ix) = gather (xs.zip ys) ix := by
  rw [gather_eq_filterMap xs ix h, gather_eq_filterMap ys ix (e ▸ h),
    gather_eq_filterMap _ ix (by simpa [← e] using h)]
  induction ix with
  | nil => rfl
  | cons i ix ih =>
    have hi := h i (by simp)
    have hj : i < ys.length := e ▸ hi
    rw [List.filterMap_cons_some (List.getElem?_eq_getElem hi),
      List.filterMap_cons_some (List.getElem?_eq_getElem hj), List.zip_cons_cons,
      ih fun j hj => h j (by simp [hj]), List.filterMap_cons_some (b := (xs[i], ys[i]))]
    rw [List.getElem?_eq_getElem (by simp; omega)]
    simp

end BMI.NeuralData
