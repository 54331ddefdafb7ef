import Verif.Props.MixtureTasks

/-! Property C63: which arguments the mixture tasks refuse. -/

namespace BMI.MixtureTasks

open MeasureTheory ProbabilityTheory BMI.Samplers BMI.Bmm BMI.Student BMI.MatrixUtils

variable {Key : Type} [MeasurableSpace Key] {T : Tfp Key} {κ : Measure Key}

omit [MeasurableSpace Key] in
theorem small_refused (J : JointDistribution Key) {size : ℤ} (h : size < 1) :
    bmmSampler J none (.seed 0) size = .error .valueError :=
  (bmmSampler_accepts_iff J none (.seed 0) size).2 fun hs => by
    have := ((bmmSampler_accepts_iff J none (.seed 0) size).1.1 hs).2.2
    omega

omit [MeasurableSpace Key] in
theorem refuse_small {a : Except Err (List (JointDistribution Key))} {p : List ℝ} {s : BmmSampler Key}
    (h : (a >>= fun c => mixture T p c >>= fun M => bmmSampler M none (.seed 0) 1) = .ok s) {size : ℤ} (hs : size < 1) :
    (a >>= fun c => mixture T p c >>= fun M => bmmSampler M none (.seed 0) size) = .error .valueError := by
  cases a with
  | error e => cases h
  | ok c =>
    change (mixture T p c >>= fun M => bmmSampler M none (.seed 0) 1) = .ok s at h
    show (mixture T p c >>= fun M => bmmSampler M none (.seed 0) size) = .error .valueError
    cases hm : mixture T p c with
    | error e => rw [hm] at h; cases h
    | ok M => exact small_refused M hs

omit [MeasurableSpace Key] in
theorem refuse_small_bind {a : Except Err (List (JointDistribution Key))} {p : List ℝ} {β : Type} {k : BmmSampler Key → Except Err β}
    {s : β} (h : (a >>= fun c => mixture T p c >>= fun M => bmmSampler M none (.seed 0) 1 >>= k) = .ok s) {size : ℤ}
    (hs : size < 1) :
    (a >>= fun c => mixture T p c >>= fun M => bmmSampler M none (.seed 0) size >>= k) = .error .valueError := by
  cases a with
  | error e => cases h
  | ok c =>
    change (mixture T p c >>= fun M => bmmSampler M none (.seed 0) 1 >>= k) = .ok s at h
    show (mixture T p c >>= fun M => bmmSampler M none (.seed 0) size >>= k) = .error .valueError
    cases hm : mixture T p c with
    | error e => rw [hm] at h; cases h
    | ok M =>
      show (bmmSampler M none (.seed 0) size >>= k) = _
      rw [small_refused M hs]
      rfl

omit [MeasurableSpace Key] in
/-- A symmetric matrix which is not positive definite is refused. -/
theorem normal_refused (R : JaxRandom Key) (dimX dimY : ℤ) (cov : Arr) (mean : List ℝ)
    (hsym : (entries (dimX.toNat + dimY.toNat) cov).IsSymm)
    (h : ¬ (0 < dimX ∧ 0 < dimY ∧ (entries (dimX.toNat + dimY.toNat) cov).PosDef)) :
    multivariateNormalDistribution R T dimX dimY cov (some mean) = .error .valueError := by
  obtain ⟨h1, h2⟩ := splitMultinormal_accepts_iff_partial R dimX dimY cov (some mean) hsym
  have h3 := h2 fun hs => h ⟨(h1.1 hs).1, (h1.1 hs).2.1, (h1.1 hs).2.2.2.2.2⟩
  unfold multivariateNormalDistribution
  rw [if_neg (by simp), Option.getD_some]
  simp only [h3]
  rfl

/-- **C63**: `task_x` accepts correlations strictly between -1 and 1 and at least one point for the estimate, and raises
`ValueError` otherwise. -/
theorem taskX_accepts_iff (hT : IdealTfp T κ) (R : JaxRandom Key) (ρ : ℝ) (size : ℤ) :
    ((∃ s, taskX R T ρ size = .ok s) ↔ |ρ| < 1 ∧ 1 ≤ size) ∧
    ((¬ ∃ s, taskX R T ρ size = .ok s) → taskX R T ρ size = .error .valueError) := by
  by_cases hρ : |ρ| < 1
  · by_cases hs : 1 ≤ size
    · obtain ⟨n, rfl⟩ : ∃ n : ℕ, size = n := ⟨size.toNat, by omega⟩
      obtain ⟨s, h, -⟩ := taskX_correct hT R ρ hρ n (by omega)
      exact ⟨⟨fun _ => ⟨hρ, hs⟩, fun _ => ⟨s, h⟩⟩, fun hn => absurd ⟨s, h⟩ hn⟩
    · obtain ⟨s, h, -⟩ := taskX_correct hT R ρ hρ 1 one_pos
      have h' : taskX R T ρ size = .error .valueError := refuse_small h (by omega)
      rw [h']
      exact ⟨⟨(fun ⟨_, h⟩ => by cases h), fun h => absurd h.2 hs⟩, fun _ => rfl⟩
  · obtain ⟨m, a1, a2⟩ := canonical_pair (-1 * ρ)
    have h' : taskX R T ρ size = .error .valueError := by
      have e : multivariateNormalDistribution R T 1 1 (rowsOf m) (some [0, 0]) = .error .valueError := by
        rw [a2]
        have he : entries ((1 : ℤ).toNat + (1 : ℤ).toNat) (rowsOf (!![1, -1 * ρ; -1 * ρ, 1] : Matrix (Fin 2) (Fin 2) ℝ))
            = !![1, -1 * ρ; -1 * ρ, 1] := by
          ext i j
          fin_cases i <;> fin_cases j <;> simp [entries, rowsOf]
        refine normal_refused R 1 1 _ _ ?_ ?_
        · rw [he]
          ext i j
          fin_cases i <;> fin_cases j <;> simp
        · rw [he]
          rintro ⟨-, -, h⟩
          have := h.det_pos
          rw [Matrix.det_fin_two_of] at this
          exact hρ ((sq_lt_one_iff_abs_lt_one ρ).1 (by nlinarith))
      unfold taskX
      simp only [List.mapM_cons, a1, bind, Except.bind, e]
    rw [h']
    exact ⟨⟨(fun ⟨_, h⟩ => by cases h), fun h => absurd h.1 hρ⟩, fun _ => rfl⟩

/-- **C63**: `task_ai` only refuses fewer than one point. -/
theorem taskAi_accepts_iff (hT : IdealTfp T κ) (R : JaxRandom Key) (size : ℤ) :
    ((∃ s, taskAi R T size = .ok s) ↔ 1 ≤ size) ∧ (size < 1 → taskAi R T size = .error .valueError) := by
  have h' : size < 1 → taskAi R T size = .error .valueError := fun hs => by
    obtain ⟨s, h, -⟩ := taskAi_correct hT R 1 one_pos
    exact refuse_small h hs
  refine ⟨⟨fun ⟨s, h⟩ => not_lt.1 fun hs => ?_, fun hs => ?_⟩, h'⟩
  · rw [h' hs] at h
    cases h
  · obtain ⟨n, rfl⟩ : ∃ n : ℕ, size = n := ⟨size.toNat, by omega⟩
    obtain ⟨s, h, -⟩ := taskAi_correct hT R n (by omega)
    exact ⟨s, h⟩

/-- **C63**: `task_galaxy` only refuses fewer than one point. -/
theorem taskGalaxy_accepts_iff (hT : IdealTfp T κ) (R : JaxRandom Key) (speed d : ℝ) (size : ℤ) :
    ((∃ s, taskGalaxy R T speed d size = .ok s) ↔ 1 ≤ size) ∧
    (size < 1 → taskGalaxy R T speed d size = .error .valueError) := by
  have h' : size < 1 → taskGalaxy R T speed d size = .error .valueError := fun hs => by
    obtain ⟨s, t, h, -⟩ := taskGalaxy_correct hT R speed d 1 one_pos
    exact refuse_small_bind h hs
  refine ⟨⟨fun ⟨s, h⟩ => not_lt.1 fun hs => ?_, fun hs => ?_⟩, h'⟩
  · rw [h' hs] at h
    cases h
  · obtain ⟨n, rfl⟩ : ∃ n : ℕ, size = n := ⟨size.toNat, by omega⟩
    obtain ⟨s, t, h, -⟩ := taskGalaxy_correct hT R speed d n (by omega)
    exact ⟨_, h⟩

/-- **C63**: `task_waves` requires at least one component and one point. -/
theorem taskWaves_accepts_iff (hT : IdealTfp T κ) (R : JaxRandom Key) (n : ℤ) (amplitude frequency : ℝ) (size : ℤ) :
    ((∃ s, taskWaves R T n amplitude frequency size = .ok s) ↔ 1 ≤ n ∧ 1 ≤ size) ∧
    (n ≤ 0 → taskWaves R T n amplitude frequency size = .error .assertionError) ∧
    (1 ≤ n → size < 1 → taskWaves R T n amplitude frequency size = .error .valueError) := by
  have h0 : n ≤ 0 → taskWaves R T n amplitude frequency size = .error .assertionError := fun h => by
    unfold taskWaves
    rw [if_pos (by omega)]
  have h' : 1 ≤ n → size < 1 → taskWaves R T n amplitude frequency size = .error .valueError := fun hn hs => by
    obtain ⟨m, rfl⟩ : ∃ m : ℕ, n = m := ⟨n.toNat, by omega⟩
    obtain ⟨s, t, h, -⟩ := taskWaves_correct hT R m (by omega) amplitude frequency 1 one_pos
    unfold taskWaves at h ⊢
    rw [if_neg (by omega)] at h ⊢
    exact refuse_small_bind h hs
  refine ⟨⟨fun ⟨s, h⟩ => ?_, fun ⟨hn, hs⟩ => ?_⟩, h0, h'⟩
  · have hn : 1 ≤ n := not_lt.1 fun hn => by
      rw [h0 (by omega)] at h
      cases h
    refine ⟨hn, not_lt.1 fun hs => ?_⟩
    rw [h' hn hs] at h
    cases h
  · obtain ⟨k, rfl⟩ : ∃ k : ℕ, size = k := ⟨size.toNat, by omega⟩
    obtain ⟨m, rfl⟩ : ∃ m : ℕ, n = m := ⟨n.toNat, by omega⟩
    obtain ⟨s, t, h, -⟩ := taskWaves_correct hT R m (by omega) amplitude frequency k (by omega)
    exact ⟨_, h⟩

/-- **C63**: `task_concentric_multinormal` requires at least one component, one dimension and one point. -/
theorem taskConcentric_accepts_iff (hT : IdealTfp T κ) (R : JaxRandom Key) (d n size : ℤ) :
    ((∃ s, taskConcentric R T d n size = .ok s) ↔ 1 ≤ d ∧ 1 ≤ n ∧ 1 ≤ size) ∧
    (n ≤ 0 → taskConcentric R T d n size = .error .assertionError) ∧
    (1 ≤ n → (d < 1 ∨ size < 1) → taskConcentric R T d n size = .error .valueError) := by
  have h0 : n ≤ 0 → taskConcentric R T d n size = .error .assertionError := fun h => by
    unfold taskConcentric
    rw [if_pos (by omega)]
  have h' : 1 ≤ n → (d < 1 ∨ size < 1) → taskConcentric R T d n size = .error .valueError := fun hn hs => by
    by_cases hd : 1 ≤ d
    · obtain ⟨m, rfl⟩ : ∃ m : ℕ, n = m := ⟨n.toNat, by omega⟩
      obtain ⟨e, rfl⟩ : ∃ e : ℕ, d = e := ⟨d.toNat, by omega⟩
      obtain ⟨s, h, -⟩ := taskConcentric_correct hT R e m (by omega) (by omega) 1 one_pos
      unfold taskConcentric at h ⊢
      rw [if_neg (by omega)] at h ⊢
      exact refuse_small h (by omega)
    · have hd0 : d.toNat = 0 := by omega
      have e : ∀ i : ℕ, multivariateNormalDistribution R T d 1 (diag (List.replicate d.toNat ((i : ℝ) ^ 2) ++ [0.0001]))
          (some (List.replicate d.toNat 0.0 ++ [1.0 * (i : ℝ)])) = .error .valueError := fun i => by
        refine normal_refused R d 1 _ _ ?_ fun h => by omega
        rw [hd0]
        ext a b
        fin_cases a
        fin_cases b
        rfl
      obtain ⟨m, hm⟩ : ∃ m : ℕ, n.toNat = m + 1 := ⟨n.toNat - 1, by omega⟩
      unfold taskConcentric
      rw [if_neg (by omega), hm, List.range_succ_eq_map, List.map_cons]
      simp only [List.mapM_cons, e, bind, Except.bind]
  refine ⟨⟨fun ⟨s, h⟩ => ?_, fun ⟨hd, hn, hs⟩ => ?_⟩, h0, h'⟩
  · have hn : 1 ≤ n := not_lt.1 fun hn => by
      rw [h0 (by omega)] at h
      cases h
    refine ⟨not_lt.1 fun hd => ?_, hn, not_lt.1 fun hs => ?_⟩
    · rw [h' hn (.inl hd)] at h
      cases h
    · rw [h' hn (.inr hs)] at h
      cases h
  · obtain ⟨k, rfl⟩ : ∃ k : ℕ, size = k := ⟨size.toNat, by omega⟩
    obtain ⟨m, rfl⟩ : ∃ m : ℕ, n = m := ⟨n.toNat, by omega⟩
    obtain ⟨e, rfl⟩ : ∃ e : ℕ, d = e := ⟨d.toNat, by omega⟩
    obtain ⟨s, h, -⟩ := taskConcentric_correct hT R e m (by omega) (by omega) k (by omega)
    exact ⟨_, h⟩

/-- **C63**: `task_multinormal_sparse_w_inliers` requires a fraction between 0 and 1, positive dimensions, a number of
interacting pairs between 0 and the smaller dimension, and at least one point. -/
theorem taskInliers_accepts_iff (hT : IdealTfp T κ) (R : JaxRandom Key) (dx dy k : ℤ) (strength ε : ℝ) (size : ℤ) :
    ((∃ s, taskInliers R T dx dy k strength ε size = .ok s) ↔
      (0 ≤ ε ∧ ε ≤ 1) ∧ 1 ≤ dx ∧ 1 ≤ dy ∧ 0 ≤ k ∧ k ≤ dx ∧ k ≤ dy ∧ 1 ≤ size) ∧
    (¬ (0 ≤ ε ∧ ε ≤ 1) → taskInliers R T dx dy k strength ε size = .error .assertionError) ∧
    (0 ≤ ε ∧ ε ≤ 1 → ¬ (1 ≤ dx ∧ 1 ≤ dy ∧ 0 ≤ k ∧ k ≤ dx ∧ k ≤ dy ∧ 1 ≤ size) →
      taskInliers R T dx dy k strength ε size = .error .valueError) := by
  have h0 : ¬ (0 ≤ ε ∧ ε ≤ 1) → taskInliers R T dx dy k strength ε size = .error .assertionError := fun h => by
    unfold taskInliers
    rw [if_pos h]
  have h' : 0 ≤ ε ∧ ε ≤ 1 → ¬ (1 ≤ dx ∧ 1 ≤ dy ∧ 0 ≤ k ∧ k ≤ dx ∧ k ≤ dy ∧ 1 ≤ size) →
      taskInliers R T dx dy k strength ε size = .error .valueError := fun hε hs => by
    by_cases hk : 0 ≤ k ∧ k ≤ dx ∧ k ≤ dy
    · obtain ⟨k, rfl⟩ : ∃ m : ℕ, k = m := ⟨k.toNat, by omega⟩
      obtain ⟨dx, rfl⟩ : ∃ m : ℕ, dx = m := ⟨dx.toNat, by omega⟩
      obtain ⟨dy, rfl⟩ : ∃ m : ℕ, dy = m := ⟨dy.toNat, by omega⟩
      by_cases hd : 1 ≤ dx ∧ 1 ≤ dy
      · obtain ⟨s, h, -⟩ := taskInliers_correct hT R dx dy k hd.1 hd.2 (by omega) (by omega) strength ε hε.1 hε.2 1 one_pos
        unfold taskInliers at h ⊢
        rw [if_neg (not_not.2 hε)] at h ⊢
        cases h1 : gaussianLVM dx dy k 0 strength 1 none 0 none strength none with
        | error e => rw [h1] at h; cases h
        | ok m =>
          rw [h1] at h
          simp only [bind, Except.bind] at h ⊢
          cases h2 : m.correlation with
          | error e => rw [h2] at h; cases h
          | ok r =>
            rw [h2] at h
            simp only at h ⊢
            cases h3 : multivariateNormalDistribution R T dx dy (rowsOf r) none with
            | error e => rw [h3] at h; cases h
            | ok J =>
              rw [h3] at h
              simp only at h ⊢
              cases h4 : productDistribution T J.distX J.distY with
              | error e => rw [h4] at h; cases h
              | ok K =>
                rw [h4] at h
                simp only at h ⊢
                cases h5 : mixture T [1 - ε, ε] [J, K] with
                | error e => rw [h5] at h; cases h
                | ok M => exact small_refused M (by omega)
      · obtain ⟨m, c, c1, -, C, c3, -, r, c4, c5⟩ := lvm_covariance dx dy k (by omega) (by omega) 0 strength 0 strength
        rw [sparse_is_pairs (by omega) (by omega) strength c3] at c5
        have e : multivariateNormalDistribution R T dx dy (rowsOf (pairs dx dy k (strength ^ 2 / (1 + strength ^ 2))))
            (some (List.ofFn (0 : Fin (dx + dy) → ℝ))) = .error .valueError := by
          refine normal_refused R dx dy _ _ ?_ fun h => by omega
          have he : entries ((dx : ℤ).toNat + (dy : ℤ).toNat) (rowsOf (pairs dx dy k (strength ^ 2 / (1 + strength ^ 2))))
              = pairs dx dy k (strength ^ 2 / (1 + strength ^ 2)) := by
            ext i j
            simp [entries, rowsOf]
          rw [he]
          have := (pairs_posDef (dx := dx) (dy := dy) (k := k) (by omega) (strength_lt strength)).isHermitian
          rwa [Matrix.IsHermitian, Matrix.conjTranspose_eq_transpose_of_trivial] at this
        unfold taskInliers
        rw [if_neg (not_not.2 hε)]
        simp only [c1, bind, Except.bind, c4, c5, normal_default, e]
    · unfold taskInliers
      rw [if_neg (not_not.2 hε), (gaussianLVM_spec dx dy k 0 strength 1 none 0 none strength none).2 hk]
      rfl
  refine ⟨⟨fun ⟨s, h⟩ => ?_, fun ⟨hε, hd, he, h1, h2, h3, hs⟩ => ?_⟩, h0, h'⟩
  · have hε : 0 ≤ ε ∧ ε ≤ 1 := by
      by_contra hε
      rw [h0 hε] at h
      cases h
    refine ⟨hε, ?_⟩
    by_contra hs
    rw [h' hε hs] at h
    cases h
  · obtain ⟨k, rfl⟩ : ∃ m : ℕ, k = m := ⟨k.toNat, by omega⟩
    obtain ⟨dx, rfl⟩ : ∃ m : ℕ, dx = m := ⟨dx.toNat, by omega⟩
    obtain ⟨dy, rfl⟩ : ∃ m : ℕ, dy = m := ⟨dy.toNat, by omega⟩
    obtain ⟨size, rfl⟩ : ∃ m : ℕ, size = m := ⟨size.toNat, by omega⟩
    obtain ⟨s, h, -⟩ := taskInliers_correct hT R dx dy k (by omega) (by omega) (by omega) (by omega) strength ε hε.1 hε.2 size
      (by omega)
    exact ⟨s, h⟩

/-- The X distribution with the default correlation 0.9 is built; correlation 1 and an estimate from no point are refused. -/
example (R : JaxRandom PathKey) : (∃ s, taskX R path 0.9 100000 = .ok s) ∧ taskX R path 1 100000 = .error .valueError ∧
    taskX R path 0.9 0 = .error .valueError := by
  refine ⟨(taskX_accepts_iff path_ideal R 0.9 100000).1.2 ⟨by norm_num [abs_of_pos], by norm_num⟩,
    (taskX_accepts_iff path_ideal R 1 100000).2 fun h => ?_, (taskX_accepts_iff path_ideal R 0.9 0).2 fun h => ?_⟩
  · have := ((taskX_accepts_iff path_ideal R 1 100000).1.1 h).1
    norm_num at this
  · have := ((taskX_accepts_iff path_ideal R 0.9 0).1.1 h).2
    norm_num at this

/-- The defaults of the other tasks are accepted; wrong arguments are refused. -/
example (R : JaxRandom PathKey) : (∃ s, taskAi R path 100000 = .ok s) ∧ (∃ s, taskGalaxy R path 0.5 3 100000 = .ok s) ∧
    (∃ s, taskWaves R path 12 5 3 100000 = .ok s) ∧ taskWaves R path 0 5 3 100000 = .error .assertionError ∧
    (∃ s, taskConcentric R path 5 3 100000 = .ok s) ∧ taskConcentric R path 0 3 100000 = .error .valueError ∧
    (∃ s, taskInliers R path 5 4 2 2 0.2 100000 = .ok s) ∧ taskInliers R path 5 4 2 2 1.2 100000 = .error .assertionError ∧
    taskInliers R path 5 1 2 2 0.2 100000 = .error .valueError :=
  ⟨(taskAi_accepts_iff path_ideal R _).1.2 (by norm_num), (taskGalaxy_accepts_iff path_ideal R _ _ _).1.2 (by norm_num),
    (taskWaves_accepts_iff path_ideal R _ _ _ _).1.2 (by norm_num), (taskWaves_accepts_iff path_ideal R _ _ _ _).2.1 le_rfl,
    (taskConcentric_accepts_iff path_ideal R _ _ _).1.2 (by norm_num),
    (taskConcentric_accepts_iff path_ideal R _ _ _).2.2 (by norm_num) (.inl (by norm_num)),
    (taskInliers_accepts_iff path_ideal R _ _ _ _ _ _).1.2 (by norm_num),
    (taskInliers_accepts_iff path_ideal R _ _ _ _ _ _).2.1 (by norm_num),
    (taskInliers_accepts_iff path_ideal R _ _ _ _ _ _).2.2 (by norm_num) (by norm_num)⟩

end BMI.MixtureTasks
