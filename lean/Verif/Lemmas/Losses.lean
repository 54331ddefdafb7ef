import Verif.Model.Losses
import Verif.Spec.Losses

/-! The two backends compute the formulas of `Verif/Spec/Losses.lean`. -/

namespace BMI.Neural

variable {X Y : Type} {n : ℕ}

theorem logNat_pos (n : ℕ) (hn : 0 < n) : logNat n = ((Real.log n : ℝ) : EReal) := by
  unfold logNat
  rw [← ENNReal.ofReal_natCast, ENNReal.log_ofReal_of_pos (by exact_mod_cast hn)]

theorem sum_coe (l : List ℝ) : (l.map fun v : ℝ => (v : EReal)).sum = ((l.sum : ℝ) : EReal) := by
  induction l with
  | nil => simp
  | cons a l ih => simp [ih]

theorem mean_coe (l : List ℝ) : mean (l.map fun v : ℝ => (v : EReal)) = ((l.sum / l.length : ℝ) : EReal) := by
  unfold mean
  rw [sum_coe, List.length_map, EReal.coe_div]
  rfl

theorem mean_ofFn (g : Fin n → ℝ) : mean (List.ofFn fun i => ((g i : ℝ) : EReal)) = (((∑ i, g i) / n : ℝ) : EReal) := by
  have : (List.ofFn fun i => ((g i : ℝ) : EReal)) = (List.ofFn g).map fun v : ℝ => (v : EReal) := by
    rw [List.map_ofFn]; rfl
  rw [this, mean_coe, List.sum_ofFn, List.length_ofFn]

/-- Scores whose exponential is the given non-negative number. -/
theorem logsumexp_of (l : List EReal) (w : List ℝ) (h : l.map EReal.exp = w.map ENNReal.ofReal) (hw : ∀ v ∈ w, 0 ≤ v)
    (hs : 0 < w.sum) : logsumexp l = ((Real.log w.sum : ℝ) : EReal) := by
  unfold logsumexp
  have e : (w.map ENNReal.ofReal).sum = ENNReal.ofReal w.sum := by
    clear h hs
    induction w with
    | nil => simp
    | cons a w ih =>
      rw [List.map_cons, List.sum_cons, List.sum_cons, ih fun v hv => hw v (List.mem_cons_of_mem _ hv),
        ENNReal.ofReal_add (hw a (List.mem_cons_self ..))
          (List.sum_nonneg fun v hv => hw v (List.mem_cons_of_mem _ hv))]
  rw [h, e, ENNReal.log_ofReal_of_pos hs]

theorem logsumexp_ofFn (g : Fin n → ℝ) (hn : 0 < n) :
    logsumexp (List.ofFn fun i => ((g i : ℝ) : EReal)) = ((Real.log (∑ i, Real.exp (g i)) : ℝ) : EReal) := by
  haveI : NeZero n := ⟨hn.ne'⟩
  have := logsumexp_of (List.ofFn fun i => ((g i : ℝ) : EReal)) (List.ofFn fun i => Real.exp (g i))
    (by simp [List.map_ofFn, Function.comp_def]) (by
      intro v hv
      rw [List.mem_ofFn] at hv
      obtain ⟨i, rfl⟩ := hv
      exact (Real.exp_pos _).le)
    (by rw [List.sum_ofFn]; exact Finset.sum_pos (fun i _ => Real.exp_pos _) Finset.univ_nonempty)
  rw [this, List.sum_ofFn]

theorem masked_pos (hn : 2 ≤ n) (i : Fin n) (g : Fin n → ℝ) :
    0 < ∑ j, if i = j then 0 else Real.exp (g j) := by
  haveI : Nontrivial (Fin n) := Fin.nontrivial_iff_two_le.2 hn
  obtain ⟨j, hj⟩ := exists_ne i
  refine Finset.sum_pos' (fun k _ => ?_) ⟨j, Finset.mem_univ _, ?_⟩
  · split_ifs
    · exact le_rfl
    · exact (Real.exp_pos _).le
  · rw [if_neg hj.symm]
    exact Real.exp_pos _

theorem logsumexp_masked (hn : 2 ≤ n) (i : Fin n) (g : Fin n → ℝ) :
    logsumexp ((List.ofFn fun j => ((g j : ℝ) : EReal)).set i ⊥)
      = ((Real.log (∑ j, if i = j then 0 else Real.exp (g j)) : ℝ) : EReal) := by
  have e : (List.ofFn fun j => ((g j : ℝ) : EReal)).set i ⊥
      = List.ofFn fun j => if i = j then (⊥ : EReal) else ((g j : ℝ) : EReal) := by
    apply List.ext_getElem
    · simp
    · intro k h1 h2
      simp [List.getElem_set, Fin.ext_iff]
  rw [e]
  have := logsumexp_of (List.ofFn fun j => if i = j then (⊥ : EReal) else ((g j : ℝ) : EReal))
    (List.ofFn fun j => if i = j then 0 else Real.exp (g j))
    (by
      rw [List.map_ofFn, List.map_ofFn]
      congr 1
      funext j
      simp only [Function.comp_apply]
      split_ifs <;> simp) (by
      intro v hv
      rw [List.mem_ofFn] at hv
      obtain ⟨j, rfl⟩ := hv
      split_ifs
      · exact le_rfl
      · exact (Real.exp_pos _).le)
    (by rw [List.sum_ofFn]; exact masked_pos hn i g)
  rw [this, List.sum_ofFn]

namespace Linear

theorem paired_ofFn (f : X → Y → ℝ) (x : Fin n → X) (y : Fin n → Y) :
    paired f (List.ofFn x) (List.ofFn y) = List.ofFn fun i => ((f (x i) (y i) : ℝ) : EReal) := by
  unfold paired
  apply List.ext_getElem
  · simp
  · intro i h1 h2
    simp

theorem mean_paired (f : X → Y → ℝ) (x : Fin n → X) (y : Fin n → Y) :
    mean (paired f (List.ofFn x) (List.ofFn y)) = ((Spec.positive f x y : ℝ) : EReal) := by
  rw [paired_ofFn, mean_ofFn]
  rfl

/-- The scan of `logmeanexp_nodiag`. -/
theorem scan_eq (f : X → Y → ℝ) (ys : List Y) (offset : ℝ) (xs : List X) (k : ℕ) (acc : List EReal) :
    xs.foldl (fun (acc : ℕ × List EReal) (x : X) =>
        (acc.1 + 1, acc.2 ++ [logsumexp (((scoresOf f x ys).map (· + (offset : EReal))).set acc.1 ⊥)])) (k, acc)
      = (k + xs.length, acc ++ xs.mapIdx fun i x =>
          logsumexp (((scoresOf f x ys).map (· + (offset : EReal))).set (k + i) ⊥)) := by
  induction xs generalizing k acc with
  | nil => simp
  | cons x xs ih =>
    rw [List.foldl_cons, ih]
    simp [List.mapIdx_cons, Nat.add_assoc, Nat.add_comm 1]

theorem logmeanexpNodiag_eq (hn : 2 ≤ n) (f : X → Y → ℝ) (x : Fin n → X) (y : Fin n → Y) (offset : ℝ) :
    logmeanexpNodiag f (List.ofFn x) (List.ofFn y) offset
      = ((Real.log (Spec.negative (fun a b => f a b + offset) x y) : ℝ) : EReal) := by
  unfold logmeanexpNodiag
  simp only
  rw [scan_eq]
  have e : (List.ofFn x).mapIdx (fun i x' =>
      logsumexp (((scoresOf f x' (List.ofFn y)).map (· + (offset : EReal))).set (0 + i) ⊥))
      = List.ofFn fun i => ((Real.log (∑ j, if i = j then 0 else Real.exp (f (x i) (y j) + offset)) : ℝ) : EReal) := by
    apply List.ext_getElem
    · simp
    · intro i h1 h2
      have hi : i < n := by simpa using h2
      rw [List.getElem_mapIdx, List.getElem_ofFn, List.getElem_ofFn]
      have e1 : (scoresOf f (x ⟨i, hi⟩) (List.ofFn y)).map (· + (offset : EReal))
          = List.ofFn fun j => ((f (x ⟨i, hi⟩) (y j) + offset : ℝ) : EReal) := by
        unfold scoresOf
        rw [List.map_ofFn, List.map_ofFn]
        rfl
      rw [e1, Nat.zero_add]
      exact logsumexp_masked hn ⟨i, hi⟩ _
  rw [e, List.nil_append, logsumexp_ofFn _ (by omega), List.length_ofFn, Nat.zero_add,
    logNat_pos _ (Nat.mul_pos (by omega) (by omega)), ← EReal.coe_sub]
  congr 1
  have hp : ∀ i, Real.exp (Real.log (∑ j, if i = j then 0 else Real.exp (f (x i) (y j) + offset)))
      = ∑ j, if i = j then 0 else Real.exp (f (x i) (y j) + offset) := fun i =>
    Real.exp_log (masked_pos hn i _)
  simp only [hp]
  haveI : NeZero n := ⟨by omega⟩
  have hn1 : (1 : ℕ) ≤ n := by omega
  have hn2 : (0 : ℝ) < n * (n - 1) := by
    have : (2 : ℝ) ≤ n := by exact_mod_cast hn
    nlinarith
  unfold Spec.negative
  rw [Real.log_div (Finset.sum_pos (fun i _ => masked_pos hn i _) Finset.univ_nonempty).ne' hn2.ne',
    Nat.cast_mul, Nat.cast_sub hn1, Nat.cast_one]

theorem negative_pos (hn : 2 ≤ n) (f : X → Y → ℝ) (x : Fin n → X) (y : Fin n → Y) : 0 < Spec.negative f x y := by
  haveI : NeZero n := ⟨by omega⟩
  have hn2 : (0 : ℝ) < n * (n - 1) := by
    have : (2 : ℝ) ≤ n := by exact_mod_cast hn
    nlinarith
  exact div_pos (Finset.sum_pos (fun i _ => masked_pos hn i _) Finset.univ_nonempty) hn2

theorem negative_shift (f : X → Y → ℝ) (x : Fin n → X) (y : Fin n → Y) (c : ℝ) :
    Spec.negative (fun a b => f a b + c) x y = Real.exp c * Spec.negative f x y := by
  unfold Spec.negative
  rw [mul_div_assoc', Finset.mul_sum]
  congr 1
  refine Finset.sum_congr rfl fun i _ => ?_
  rw [Finset.mul_sum]
  refine Finset.sum_congr rfl fun j _ => ?_
  split_ifs
  · simp
  · rw [Real.exp_add, mul_comm]

theorem donskerVaradhan_eq (hn : 2 ≤ n) (f : X → Y → ℝ) (x : Fin n → X) (y : Fin n → Y) :
    donskerVaradhan f (List.ofFn x) (List.ofFn y) = ((Spec.donskerVaradhan f x y : ℝ) : EReal) := by
  unfold donskerVaradhan
  rw [mean_paired, logmeanexpNodiag_eq hn, ← EReal.coe_sub]
  simp [Spec.donskerVaradhan]

theorem expE_log {t : ℝ} (ht : 0 < t) : expE ((Real.log t : ℝ) : EReal) = (t : EReal) := by
  unfold expE
  rw [EReal.exp_coe, Real.exp_log ht, EReal.coe_ennreal_ofReal, max_eq_left ht.le]

theorem nwj_eq (hn : 2 ≤ n) (f : X → Y → ℝ) (x : Fin n → X) (y : Fin n → Y) :
    nwj f (List.ofFn x) (List.ofFn y) = ((Spec.nwj f x y : ℝ) : EReal) := by
  unfold nwj
  simp only
  rw [mean_paired, logmeanexpNodiag_eq hn, expE_log (negative_pos hn _ x y), ← EReal.coe_sub, negative_shift]
  rfl

theorem infonce_eq (hn : 0 < n) (f : X → Y → ℝ) (x : Fin n → X) (y : Fin n → Y) :
    infonce f (List.ofFn x) (List.ofFn y) = ((Spec.infonce f x y : ℝ) : EReal) := by
  haveI : NeZero n := ⟨hn.ne'⟩
  have hn' : (0 : ℝ) < n := by exact_mod_cast hn
  unfold infonce
  simp only
  have e : (List.ofFn x).map (fun x' => logsumexp (scoresOf f x' (List.ofFn y)))
      = List.ofFn fun i => ((Real.log (∑ j, Real.exp (f (x i) (y j))) : ℝ) : EReal) := by
    rw [List.map_ofFn]
    congr 1
    funext i
    have e1 : scoresOf f (x i) (List.ofFn y) = List.ofFn fun j => ((f (x i) (y j) : ℝ) : EReal) := by
      unfold scoresOf
      rw [List.map_ofFn]
      rfl
    simp only [Function.comp_apply]
    rw [e1, logsumexp_ofFn _ hn]
  rw [e, mean_paired, mean_ofFn, List.length_ofFn, logNat_pos n hn, ← EReal.coe_sub, ← EReal.coe_add]
  congr 1
  unfold Spec.infonce Spec.positive
  have hp : ∀ i, 0 < ∑ j, Real.exp (f (x i) (y j)) := fun i =>
    Finset.sum_pos (fun j _ => Real.exp_pos _) Finset.univ_nonempty
  have : ∀ i, Real.log (Real.exp (f (x i) (y i)) / ((∑ j, Real.exp (f (x i) (y j))) / n))
      = f (x i) (y i) - Real.log (∑ j, Real.exp (f (x i) (y j))) + Real.log n := by
    intro i
    rw [Real.log_div (Real.exp_ne_zero _) (div_pos (hp i) hn').ne', Real.log_exp, Real.log_div (hp i).ne' hn'.ne']
    ring
  simp only [this]
  rw [Finset.sum_add_distrib, Finset.sum_sub_distrib, Finset.sum_const, Finset.card_univ, Fintype.card_fin,
    nsmul_eq_mul]
  field_simp

end Linear

namespace Quadratic

/-- The table of scores of a batch. -/
theorem fullScores_ofFn (f : X → Y → ℝ) (x : Fin n → X) (y : Fin n → Y) :
    fullScores f (List.ofFn x) (List.ofFn y)
      = List.ofFn fun i => List.ofFn fun j => ((f (x i) (y j) : ℝ) : EReal) := by
  unfold fullScores
  rw [List.map_ofFn]
  congr 1
  funext i
  simp only [Function.comp_apply]
  rw [List.map_ofFn]
  rfl

theorem diagonal_ofFn (g : Fin n → Fin n → ℝ) :
    diagonal (List.ofFn fun i => List.ofFn fun j => ((g i j : ℝ) : EReal)) = List.ofFn fun i => ((g i i : ℝ) : EReal) := by
  unfold diagonal
  apply List.ext_getElem
  · simp
  · intro i h1 h2
    have hi : i < n := by simpa using h2
    simp [List.getD_eq_getElem?_getD, hi]

theorem sum_flatten_ofFn (g : Fin n → Fin n → ENNReal) :
    (List.ofFn fun i => List.ofFn (g i)).flatten.sum = ∑ i, ∑ j, g i j := by
  rw [List.sum_flatten, List.map_ofFn, List.sum_ofFn]
  simp [List.sum_ofFn]

theorem logmeanexpNodiag_eq (hn : 2 ≤ n) (g : Fin n → Fin n → ℝ) :
    logmeanexpNodiag (List.ofFn fun i => List.ofFn fun j => ((g i j : ℝ) : EReal))
      = ((Real.log (Spec.negative g (id : Fin n → Fin n) (id : Fin n → Fin n)) : ℝ) : EReal) := by
  haveI : NeZero n := ⟨by omega⟩
  unfold logmeanexpNodiag
  simp only
  have e : (List.ofFn fun i => List.ofFn fun j => ((g i j : ℝ) : EReal)).mapIdx
      (fun i r => r.mapIdx fun j v => v + (if i = j then (⊥ : EReal) else 0))
      = List.ofFn fun i : Fin n => List.ofFn fun j : Fin n => if i = j then (⊥ : EReal) else ((g i j : ℝ) : EReal) := by
    apply List.ext_getElem
    · simp
    · intro i h1 h2
      rw [List.getElem_mapIdx, List.getElem_ofFn, List.getElem_ofFn]
      apply List.ext_getElem
      · simp
      · intro j h3 h4
        rw [List.getElem_mapIdx, List.getElem_ofFn, List.getElem_ofFn]
        by_cases hij : i = j
        · simp [hij]
        · simp [hij, Fin.ext_iff]
  rw [e]
  unfold logsumexp
  rw [List.map_flatten, List.map_ofFn]
  have e2 : (List.map EReal.exp ∘ fun i : Fin n => List.ofFn fun j : Fin n =>
      if i = j then (⊥ : EReal) else ((g i j : ℝ) : EReal))
      = fun i => List.ofFn fun j => ENNReal.ofReal (if i = j then 0 else Real.exp (g i j)) := by
    funext i
    simp only [Function.comp_apply]
    rw [List.map_ofFn]
    congr 1
    funext j
    simp only [Function.comp_apply]
    split_ifs <;> simp
  have hnn : ∀ i j : Fin n, 0 ≤ (if i = j then 0 else Real.exp (g i j)) := fun i j => by
    split_ifs
    · exact le_rfl
    · exact (Real.exp_pos _).le
  have hpos : 0 < ∑ i : Fin n, ∑ j : Fin n, (if i = j then 0 else Real.exp (g i j)) :=
    Finset.sum_pos (fun i _ => masked_pos hn i _) Finset.univ_nonempty
  rw [e2, sum_flatten_ofFn]
  have e3 : (∑ i : Fin n, ∑ j : Fin n, ENNReal.ofReal (if i = j then 0 else Real.exp (g i j)))
      = ENNReal.ofReal (∑ i : Fin n, ∑ j : Fin n, (if i = j then 0 else Real.exp (g i j))) := by
    rw [ENNReal.ofReal_sum_of_nonneg fun i _ => Finset.sum_nonneg fun j _ => hnn i j]
    refine Finset.sum_congr rfl fun i _ => ?_
    rw [ENNReal.ofReal_sum_of_nonneg fun j _ => hnn i j]
  rw [e3, ENNReal.log_ofReal_of_pos hpos, List.length_ofFn, logNat_pos _ (Nat.mul_pos (by omega) (by omega)),
    ← EReal.coe_sub]
  congr 1
  have hn1 : (1 : ℕ) ≤ n := by omega
  have hn2 : (0 : ℝ) < n * (n - 1) := by
    have : (2 : ℝ) ≤ n := by exact_mod_cast hn
    nlinarith
  unfold Spec.negative
  simp only [id]
  rw [Real.log_div hpos.ne' hn2.ne', Nat.cast_mul, Nat.cast_sub hn1, Nat.cast_one]

theorem donskerVaradhan_eq (hn : 2 ≤ n) (f : X → Y → ℝ) (x : Fin n → X) (y : Fin n → Y) :
    donskerVaradhan f (List.ofFn x) (List.ofFn y) = ((Spec.donskerVaradhan f x y : ℝ) : EReal) := by
  unfold donskerVaradhan
  simp only
  rw [fullScores_ofFn, diagonal_ofFn, mean_ofFn, logmeanexpNodiag_eq hn, ← EReal.coe_sub]
  rfl

theorem nwj_eq (hn : 2 ≤ n) (f : X → Y → ℝ) (x : Fin n → X) (y : Fin n → Y) :
    nwj f (List.ofFn x) (List.ofFn y) = ((Spec.nwj f x y : ℝ) : EReal) := by
  have hn' : (0 : ℝ) < n := by exact_mod_cast (by omega : 0 < n)
  unfold nwj
  simp only
  have e : (fullScores f (List.ofFn x) (List.ofFn y)).map (fun r => r.map fun v => v - 1)
      = List.ofFn fun i => List.ofFn fun j => ((f (x i) (y j) + (-1) : ℝ) : EReal) := by
    rw [fullScores_ofFn, List.map_ofFn]
    congr 1
    funext i
    simp only [Function.comp_apply]
    rw [List.map_ofFn]
    congr 1
  rw [e, diagonal_ofFn, mean_ofFn, logmeanexpNodiag_eq hn, Linear.expE_log (Linear.negative_pos hn _ _ _)]
  have e1 : (1 : EReal) = ((1 : ℝ) : EReal) := rfl
  rw [e1, ← EReal.coe_add, ← EReal.coe_sub]
  congr 1
  have := Linear.negative_shift (n := n) f x y (-1)
  have e2 : Spec.negative (fun i j => f (x i) (y j) + -1) (id : Fin n → Fin n) (id : Fin n → Fin n)
      = Spec.negative (fun a b => f a b + -1) x y := rfl
  rw [e2, this]
  unfold Spec.nwj Spec.positive
  rw [Finset.sum_add_distrib, Finset.sum_const, Finset.card_univ, Fintype.card_fin, nsmul_eq_mul]
  field_simp
  ring

theorem infonce_eq (hn : 0 < n) (f : X → Y → ℝ) (x : Fin n → X) (y : Fin n → Y) :
    infonce f (List.ofFn x) (List.ofFn y) = ((Spec.infonce f x y : ℝ) : EReal) := by
  have hn' : (0 : ℝ) < n := by exact_mod_cast hn
  rw [← Linear.infonce_eq hn]
  unfold infonce Linear.infonce
  simp only
  rw [fullScores_ofFn, diagonal_ofFn, mean_ofFn, List.length_ofFn, List.length_ofFn, logNat_pos n hn, Linear.mean_paired]
  have e : (List.ofFn x).map (fun x' => logsumexp (Linear.scoresOf f x' (List.ofFn y)))
      = List.ofFn fun i => ((Real.log (∑ j, Real.exp (f (x i) (y j))) : ℝ) : EReal) := by
    rw [List.map_ofFn]
    congr 1
    funext i
    have e1 : Linear.scoresOf f (x i) (List.ofFn y) = List.ofFn fun j => ((f (x i) (y j) : ℝ) : EReal) := by
      unfold Linear.scoresOf
      rw [List.map_ofFn]
      rfl
    simp only [Function.comp_apply]
    rw [e1, logsumexp_ofFn _ hn]
  rw [e, mean_ofFn, List.map_ofFn, List.map_ofFn]
  have e2 : ((fun v : EReal => ((Real.log n : ℝ) : EReal) + v) ∘ (fun r : List EReal =>
      (((∑ i, f (x i) (y i)) / n : ℝ) : EReal) - logsumexp r) ∘
        fun i : Fin n => List.ofFn fun j => ((f (x i) (y j) : ℝ) : EReal))
      = fun i => ((Real.log n + ((∑ i, f (x i) (y i)) / n - Real.log (∑ j, Real.exp (f (x i) (y j)))) : ℝ) : EReal) := by
    funext i
    simp only [Function.comp_apply]
    rw [logsumexp_ofFn _ hn, ← EReal.coe_sub, ← EReal.coe_add]
  rw [e2, mean_ofFn, ← EReal.coe_sub, ← EReal.coe_add]
  congr 1
  unfold Spec.positive
  rw [Finset.sum_add_distrib, Finset.sum_sub_distrib, Finset.sum_const, Finset.sum_const, Finset.card_univ,
    Fintype.card_fin, nsmul_eq_mul, nsmul_eq_mul]
  field_simp
  ring

end Quadratic

end BMI.Neural
