import Verif.Lemmas.Cca

/-! C51: the CCA estimator. -/

namespace BMI.Cca

open BMI.Samplers

variable {n p q : ℕ}

/-- C51: whatever scores the fit produces, the estimate is NaN (exactly if one of the columns is constant or there is
only one point) or a number that is not negative, namely the sum of the numbers of the components. -/
theorem estimate_spec (fit : Fit n p q) (scale : Bool) (x : Fin n → Fin p → ℝ) (y : Fin n → Fin q → ℝ)
    (xs ys : List (Fin n → ℝ)) (hfit : fit (min p q) scale x y = .ok (xs, ys)) (hl : xs.length = ys.length) :
    ∃ v, estimate fit scale x y = .ok v ∧
      (v = none ↔ none ∈ List.zipWith corr xs ys) ∧
      ∀ t, v = some t → 0 ≤ t ∧ ∃ rs : List ℝ, List.zipWith corr xs ys = rs.map some ∧ t = (rs.map miGauss).sum ∧
        (t = ⊤ ↔ ∃ r ∈ rs, r ^ 2 = 1) := by
  set cs := List.zipWith corr xs ys with hcs
  have hest : estimate fit scale x y = .ok (total (cs.map fun r => r.map miGauss)) := by
    unfold estimate
    simp only [hfit, bind, Except.bind]
    rw [if_neg (by simpa using hl.symm)]
  have hcase : none ∈ cs ∨ ∃ rs : List ℝ, cs = rs.map some := by
    clear_value cs
    clear hest hcs
    induction cs with
    | nil => exact Or.inr ⟨[], rfl⟩
    | cons c cs ih =>
      cases c with
      | none => exact Or.inl (by simp)
      | some r =>
        rcases ih with h | ⟨rs, rfl⟩
        · exact Or.inl (by simp [h])
        · exact Or.inr ⟨r :: rs, rfl⟩
  refine ⟨_, hest, ?_⟩
  rcases hcase with h | ⟨rs, hrs⟩
  · have : total (cs.map fun r => r.map miGauss) = none :=
      (total_spec _).1 (List.mem_map.2 ⟨none, h, rfl⟩)
    rw [this]
    exact ⟨by simp [h], by simp⟩
  · have htot : total (cs.map fun r => r.map miGauss) = some (rs.map miGauss).sum := by
      refine (total_spec _).2 _ ?_
      rw [hrs, List.map_map, List.map_map]
      rfl
    have hle : ∀ r ∈ rs, r ^ 2 ≤ 1 := by
      intro r hr
      have : some r ∈ List.zipWith corr xs ys := by
        rw [← hcs, hrs]; exact List.mem_map.2 ⟨r, hr, rfl⟩
      obtain ⟨i, hi, h⟩ := List.getElem_of_mem this
      rw [List.getElem_zipWith] at h
      exact (corr_some h).2.2.2
    rw [htot]
    refine ⟨by simp [hrs], fun t ht => ?_⟩
    rw [Option.some.injEq] at ht
    subst ht
    have hsum : ∀ rs : List ℝ, (∀ r ∈ rs, r ^ 2 ≤ 1) → 0 ≤ (rs.map miGauss).sum ∧
        ((rs.map miGauss).sum = ⊤ ↔ ∃ r ∈ rs, r ^ 2 = 1) := by
      intro rs
      induction rs with
      | nil => intro _; simp
      | cons r rs ih =>
        intro h
        obtain ⟨i1, i2⟩ := ih fun r' hr' => h r' (by simp [hr'])
        have h0 := miGauss_nonneg (h r (by simp))
        rw [List.map_cons, List.sum_cons]
        refine ⟨add_nonneg h0 i1, ?_⟩
        rw [add_eq_top_iff h0 i1, i2]
        constructor
        · rintro (h1 | ⟨r', hr', h1⟩)
          · refine ⟨r, by simp, ?_⟩
            by_contra hne
            rw [miGauss_of_lt (lt_of_le_of_ne (h r (by simp)) hne)] at h1
            exact EReal.coe_ne_top _ h1
          · exact ⟨r', by simp [hr'], h1⟩
        · rintro ⟨r', hr', h1⟩
          rcases List.mem_cons.1 hr' with rfl | hr'
          · exact Or.inl (miGauss_of_eq h1)
          · exact Or.inr ⟨r', hr', h1⟩
    exact ⟨(hsum rs hle).1, rs, hrs, rfl, (hsum rs hle).2⟩

/-- If the two score arrays have different numbers of columns the assertion fails. -/
theorem estimate_mismatch (fit : Fit n p q) (scale : Bool) (x : Fin n → Fin p → ℝ) (y : Fin n → Fin q → ℝ)
    (xs ys : List (Fin n → ℝ)) (hfit : fit (min p q) scale x y = .ok (xs, ys)) (hl : xs.length ≠ ys.length) :
    estimate fit scale x y = .error .assertionError := by
  unfold estimate
  simp only [hfit, bind, Except.bind]
  rw [if_pos (by simpa using hl.symm)]

/-! ### Invariances -/

theorem average_perm (σ : Equiv.Perm (Fin n)) (v : Fin n → ℝ) : average (v ∘ σ) = average v := by
  unfold average
  congr 1
  exact Equiv.sum_comp σ v

theorem cov_perm (σ : Equiv.Perm (Fin n)) (v w : Fin n → ℝ) : cov (v ∘ σ) (w ∘ σ) = cov v w := by
  unfold cov
  rw [average_perm, average_perm]
  congr 1
  exact Equiv.sum_comp σ fun s => (v s - average v) * (w s - average w)

theorem corr_perm (σ : Equiv.Perm (Fin n)) (v w : Fin n → ℝ) : corr (v ∘ σ) (w ∘ σ) = corr v w := by
  unfold corr
  rw [cov_perm, cov_perm, cov_perm]

/-- C51: reordering the samples does not change the estimate, provided the fitted scores are reordered with them. -/
theorem estimate_perm (fit : Fit n p q) (scale : Bool) (σ : Equiv.Perm (Fin n)) (x : Fin n → Fin p → ℝ)
    (y : Fin n → Fin q → ℝ) (hfit : fit (min p q) scale (x ∘ σ) (y ∘ σ) =
      (fit (min p q) scale x y).map fun s => (s.1.map (· ∘ σ), s.2.map (· ∘ σ))) :
    estimate fit scale (x ∘ σ) (y ∘ σ) = estimate fit scale x y := by
  unfold estimate
  dsimp only
  rw [hfit]
  cases fit (min p q) scale x y with
  | error e => rfl
  | ok s =>
    simp only [Except.map, bind, Except.bind, List.length_map, List.zipWith_map, corr_perm]

/-- Rescaling, shifting or flipping a score column changes at most the sign of the correlation, hence not the
number: which of the possible score vectors the fit returns does not matter. -/
theorem corr_affine (v w : Fin n → ℝ) (a b c d : ℝ) (ha : a ≠ 0) (hc : c ≠ 0) :
    (corr (fun s => a * v s + b) (fun s => c * w s + d)).map miGauss = (corr v w).map miGauss := by
  by_cases h : n < 2 ∨ cov v v = 0 ∨ cov w w = 0
  · have h1 : corr v w = none := by unfold corr; rw [if_pos h]
    have h2 : corr (fun s => a * v s + b) (fun s => c * w s + d) = none := by
      unfold corr
      rw [if_pos]
      rcases h with h | h
      · exact Or.inl h
      · by_cases hn : n = 0
        · exact Or.inl (by omega)
        · rw [cov_affine hn, cov_affine hn]
          rcases h with h | h <;> simp [h]
    rw [h1, h2]
  · push_neg at h
    have hn : n ≠ 0 := by omega
    obtain ⟨r, h1, -, h3, -⟩ := corr_eq v w h.1 h.2.1 h.2.2
    obtain ⟨r', h1', -, h3', -⟩ := corr_eq (fun s => a * v s + b) (fun s => c * w s + d) h.1
      (by rw [cov_affine hn]; exact mul_ne_zero (mul_ne_zero ha ha) h.2.1)
      (by rw [cov_affine hn]; exact mul_ne_zero (mul_ne_zero hc hc) h.2.2)
    have : r' ^ 2 = r ^ 2 := by
      rw [h3', h3, cov_affine hn, cov_affine hn, cov_affine hn]
      have hv := h.2.1
      have hw := h.2.2
      field_simp
    rw [h1, h1', Option.map_some, Option.map_some, miGauss, miGauss, this]

/-- With two points every correlation that is not NaN is plus or minus one, so the estimate is infinite. -/
theorem corr_two_points (v w : Fin 2 → ℝ) (r : ℝ) (h : corr v w = some r) : r ^ 2 = 1 := by
  obtain ⟨-, h1, h2, -⟩ := corr_some h
  obtain ⟨r', e1, -, e3, -⟩ := corr_eq v w le_rfl h1 h2
  rw [h, Option.some.injEq] at e1
  subst e1
  rw [e3, div_eq_one_iff_eq (mul_ne_zero h1 h2)]
  simp only [cov, average, Fin.sum_univ_two]
  ring

/-! ### Canonical variables -/

/-- C51: if the fit returns canonical variables - linear combinations `A x` and `B y` (up to shifts) of the columns with
invertible `A` and `B`, mutually uncorrelated except for equal indices - then the estimate is the mutual information of
the normal distribution whose covariance is the sample covariance of the data.  In particular it does not depend on which
canonical variables were found. -/
theorem estimate_canonical (fit : Fit n p q) (scale : Bool) (x : Fin n → Fin p → ℝ) (y : Fin n → Fin q → ℝ) (hn : 2 ≤ n)
    (hS : (sampleCov fun s => Fin.append (x s) (y s)).PosDef) (A : Matrix (Fin p) (Fin p) ℝ)
    (B : Matrix (Fin q) (Fin q) ℝ) (hA : A.det ≠ 0) (hB : B.det ≠ 0)
    (hu : ∀ i j, i ≠ j → cov (fun s => A.mulVec (x s) i) (fun s => A.mulVec (x s) j) = 0)
    (hv : ∀ i j, i ≠ j → cov (fun s => B.mulVec (y s) i) (fun s => B.mulVec (y s) j) = 0)
    (huv : ∀ (i : Fin p) (j : Fin q), i.val ≠ j.val →
      cov (fun s => A.mulVec (x s) i) (fun s => B.mulVec (y s) j) = 0) (e f : Fin (min p q) → ℝ)
    (hfit : fit (min p q) scale x y =
      .ok (List.ofFn fun (i : Fin (min p q)) (s : Fin n) => A.mulVec (x s) ⟨i, by omega⟩ + e i,
        List.ofFn fun (i : Fin (min p q)) (s : Fin n) => B.mulVec (y s) ⟨i, by omega⟩ + f i))
    (mean : Fin (p + q) → ℝ) :
    mutualInfo (splitNormal p q mean (sampleCov fun s => Fin.append (x s) (y s))) ≠ ⊤ ∧
    estimate fit scale x y = .ok (some
      ((mutualInfo (splitNormal p q mean (sampleCov fun s => Fin.append (x s) (y s)))).toReal : EReal)) := by
  set S := sampleCov fun s => Fin.append (x s) (y s) with hS_def
  set z : Fin n → Fin (p + q) → ℝ := fun s => (actOn A B).mulVec (Fin.append (x s) (y s)) with hz
  have hC : sampleCov z = actOn A B * S * (actOn A B).transpose := sampleCov_linear _ _
  have hzl : ∀ s i, z s (Fin.castAdd q i) = A.mulVec (x s) i := by
    intro s i
    have := congrFun (congrArg Prod.fst (actOn_mulVec A B (Fin.append (x s) (y s)))) i
    simpa [parts, Fin.append_left] using this
  have hzr : ∀ s j, z s (Fin.natAdd p j) = B.mulVec (y s) j := by
    intro s j
    have := congrFun (congrArg Prod.snd (actOn_mulVec A B (Fin.append (x s) (y s)))) j
    simpa [parts, Fin.append_right] using this
  have hD : IsUnit (actOn A B) := by
    rw [Matrix.isUnit_iff_isUnit_det, actOn_det]
    exact (mul_ne_zero hA hB).isUnit
  have hCpos : (sampleCov z).PosDef := by
    rw [hC]
    have := hS.mul_mul_conjTranspose_same (B := actOn A B) (Matrix.vecMul_injective_of_isUnit hD)
    rwa [Matrix.conjTranspose_eq_transpose_of_trivial] at this
  have hCxx : ∀ i j, sampleCov z (Fin.castAdd q i) (Fin.castAdd q j) =
      cov (fun s => A.mulVec (x s) i) (fun s => A.mulVec (x s) j) := fun i j => by
    simp only [sampleCov, Matrix.of_apply, hzl]
  have hCyy : ∀ i j, sampleCov z (Fin.natAdd p i) (Fin.natAdd p j) =
      cov (fun s => B.mulVec (y s) i) (fun s => B.mulVec (y s) j) := fun i j => by
    simp only [sampleCov, Matrix.of_apply, hzr]
  have hCxy : ∀ i j, sampleCov z (Fin.castAdd q i) (Fin.natAdd p j) =
      cov (fun s => A.mulVec (x s) i) (fun s => B.mulVec (y s) j) := fun i j => by
    simp only [sampleCov, Matrix.of_apply, hzl, hzr]
  have hr : ∀ i : Fin (min p q), ∃ r, corr (fun s => A.mulVec (x s) ⟨i, by omega⟩ + e i)
      (fun s => B.mulVec (y s) ⟨i, by omega⟩ + f i) = some r ∧
      r ^ 2 = sampleCov z (Fin.castAdd q ⟨i, by omega⟩) (Fin.natAdd p ⟨i, by omega⟩) ^ 2 /
      (sampleCov z (Fin.castAdd q ⟨i, by omega⟩) (Fin.castAdd q ⟨i, by omega⟩) *
        sampleCov z (Fin.natAdd p ⟨i, by omega⟩) (Fin.natAdd p ⟨i, by omega⟩)) := by
    intro i
    have hn0 : n ≠ 0 := by omega
    have c1 := cov_affine hn0 1 (e i) 1 (e i) (fun s => A.mulVec (x s) ⟨i, by omega⟩)
      (fun s => A.mulVec (x s) ⟨i, by omega⟩)
    have c2 := cov_affine hn0 1 (f i) 1 (f i) (fun s => B.mulVec (y s) ⟨i, by omega⟩)
      (fun s => B.mulVec (y s) ⟨i, by omega⟩)
    have c3 := cov_affine hn0 1 (e i) 1 (f i) (fun s => A.mulVec (x s) ⟨i, by omega⟩)
      (fun s => B.mulVec (y s) ⟨i, by omega⟩)
    simp only [one_mul] at c1 c2 c3
    rw [← hCxx] at c1
    rw [← hCyy] at c2
    rw [← hCxy] at c3
    obtain ⟨r, h1, -, h2, -⟩ := corr_eq (fun s => A.mulVec (x s) ⟨i, by omega⟩ + e i)
      (fun s => B.mulVec (y s) ⟨i, by omega⟩ + f i) hn (by rw [c1]; exact hCpos.diag_pos.ne')
      (by rw [c2]; exact hCpos.diag_pos.ne')
    rw [c1, c2, c3] at h2
    exact ⟨r, h1, h2⟩
  choose ρ hρ1 hρ2 using hr
  obtain ⟨hlt, hsum⟩ := canonical_number (sampleCov z) hCpos (fun i j h => by rw [hCxx]; exact hu i j h)
    (fun i j h => by rw [hCyy]; exact hv i j h) (fun i j h => by rw [hCxy]; exact huv i j h) ρ hρ2
  obtain ⟨hmi, hmi0⟩ := splitNormal_mi (mean := mean) hS
  have hnum : (Real.log (blockX (sampleCov z)).det + Real.log (blockY (sampleCov z)).det -
      Real.log (sampleCov z).det) / 2 = (Real.log (blockX S).det + Real.log (blockY S).det - Real.log S.det) / 2 := by
    have h1 := (blockX_posDef hS).det_pos
    have h2 := (blockY_posDef hS).det_pos
    have h3 := hS.det_pos
    rw [hC, (actOn_blocks A B S).1, (actOn_blocks A B S).2]
    simp only [Matrix.det_mul, Matrix.det_transpose, actOn_det]
    rw [Real.log_mul (by positivity) hA, Real.log_mul hA h1.ne', Real.log_mul (by positivity) hB,
      Real.log_mul hB h2.ne', Real.log_mul (by positivity) (by positivity), Real.log_mul (by positivity) h3.ne',
      Real.log_mul hA hB]
    ring
  refine ⟨by rw [hmi]; exact ENNReal.ofReal_ne_top, ?_⟩
  rw [hmi, ENNReal.toReal_ofReal hmi0, ← hnum, hsum]
  unfold estimate
  dsimp only
  rw [hfit]
  simp only [bind, Except.bind]
  rw [if_neg (by simp)]
  congr 1
  have hz : List.zipWith corr (List.ofFn fun (i : Fin (min p q)) (s : Fin n) => A.mulVec (x s) ⟨i, by omega⟩ + e i)
      (List.ofFn fun (i : Fin (min p q)) (s : Fin n) => B.mulVec (y s) ⟨i, by omega⟩ + f i) =
      List.ofFn fun i => some (ρ i) := by
    refine List.ext_getElem (by simp) fun k h1 h2 => ?_
    simp only [List.getElem_zipWith, List.getElem_ofFn]
    exact hρ1 ⟨k, by simpa using h2⟩
  rw [hz]
  rw [(total_spec _).2 (List.ofFn fun i => ((-(Real.log (1 - ρ i ^ 2)) / 2 : ℝ) : EReal))]
  · congr 1
    rw [List.sum_ofFn]
    exact (map_sum (⟨⟨Real.toEReal, EReal.coe_zero⟩, EReal.coe_add⟩ : ℝ →+ EReal) _ _).symm
  · rw [List.map_ofFn, List.map_ofFn]
    congr 1
    funext i
    simp only [Function.comp_apply, Option.map_some]
    rw [miGauss_of_lt (hlt i)]

/-- The theorem applies: three points, one column each, identity as canonical directions. -/
example : estimate (fun _ _ x y => .ok ([fun s => x s 0], [fun s => y s 0])) true
    (![![(0 : ℝ)], ![1], ![2]] : Fin 3 → Fin 1 → ℝ) (![![(0 : ℝ)], ![1], ![1]] : Fin 3 → Fin 1 → ℝ) =
    .ok (some ((mutualInfo (splitNormal 1 1 0 !![1, 1 / 2; 1 / 2, 1 / 3])).toReal : EReal)) := by
  have he : (sampleCov fun s : Fin 3 => Fin.append ((![![(0 : ℝ)], ![1], ![2]] : Fin 3 → Fin 1 → ℝ) s)
      ((![![(0 : ℝ)], ![1], ![1]] : Fin 3 → Fin 1 → ℝ) s)) = !![1, 1 / 2; 1 / 2, 1 / 3] := by
    ext i j
    fin_cases i <;> fin_cases j <;>
      norm_num [sampleCov, cov, average, Fin.sum_univ_succ, Fin.append, Fin.addCases]
  have hpos : (!![1, 1 / 2; 1 / 2, 1 / 3] : Matrix (Fin (1 + 1)) (Fin (1 + 1)) ℝ).PosDef := by
    refine Matrix.PosDef.of_dotProduct_mulVec_pos ?_ fun v hv => ?_
    · ext i j
      fin_cases i <;> fin_cases j <;> simp
    · have h0 : v 0 ≠ 0 ∨ v 1 ≠ 0 := by
        by_contra h
        push Not at h
        exact hv (funext fun i => by fin_cases i <;> simp [h.1, h.2])
      simp only [Matrix.mulVec, dotProduct, Fin.sum_univ_two, star_trivial, Pi.star_apply, Matrix.of_apply]
      norm_num
      rcases h0 with h0 | h0
      · nlinarith [sq_pos_of_ne_zero h0, sq_nonneg (3 * v 0 + 2 * v 1), sq_nonneg (2 * v 0 + v 1)]
      · nlinarith [sq_pos_of_ne_zero h0, sq_nonneg (3 * v 0 + 2 * v 1), sq_nonneg (2 * v 0 + v 1)]
  have := (estimate_canonical (fun _ _ x y => .ok ([fun s => x s 0], [fun s => y s 0])) true
    (![![(0 : ℝ)], ![1], ![2]] : Fin 3 → Fin 1 → ℝ) (![![(0 : ℝ)], ![1], ![1]] : Fin 3 → Fin 1 → ℝ) (by norm_num)
    (by rw [he]; exact hpos) 1 1 (by simp) (by simp) (fun i j h => absurd (Subsingleton.elim i j) h)
    (fun i j h => absurd (Subsingleton.elim i j) h) (fun i j h => absurd (by omega) h) 0 0 (by simp) 0).2
  rw [he] at this
  exact this

/-- Two points determine a line: the estimate is infinite. -/
example : estimate (fun _ _ x y => .ok ([fun s => x s 0], [fun s => y s 0])) true
    (![![(0 : ℝ)], ![1]] : Fin 2 → Fin 1 → ℝ) (![![(3 : ℝ)], ![1]] : Fin 2 → Fin 1 → ℝ) = .ok (some ⊤) := by
  obtain ⟨v, h1, h2, h3⟩ := estimate_spec (fun _ _ x y => .ok ([fun s => x s 0], [fun s => y s 0])) true
    (![![(0 : ℝ)], ![1]] : Fin 2 → Fin 1 → ℝ) (![![(3 : ℝ)], ![1]] : Fin 2 → Fin 1 → ℝ) _ _ rfl rfl
  have hne : v ≠ none := by
    rw [Ne, h2]
    norm_num [corr, cov, average, Fin.sum_univ_two]
    simp
  obtain ⟨t, rfl⟩ := Option.ne_none_iff_exists'.1 hne
  obtain ⟨-, rs, hr, -, ht⟩ := h3 t rfl
  obtain ⟨r, rfl⟩ : ∃ r, rs = [r] := List.length_eq_one_iff.1 (by simpa using (congrArg List.length hr).symm)
  rw [h1, ht.2 ⟨r, by simp, corr_two_points _ _ r (by simpa using hr)⟩]

end BMI.Cca
