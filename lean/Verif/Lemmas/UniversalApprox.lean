import Mathlib.Topology.ContinuousMap.StoneWeierstrass
import Mathlib.Analysis.SpecialFunctions.Exp
import Mathlib.Topology.MetricSpace.ProperSpace.Real
import Mathlib.Algebra.BigOperators.Fin

/-! Sums of cut-off affine functions are dense in the continuous functions on a compact set. -/

namespace BMI.Critic

open Topology

/-- `∑ aᵢ max(wᵢ · z + bᵢ, 0)`. -/
noncomputable def unitSum {d h : ℕ} (a : Fin h → ℝ) (w : Fin h → Fin d → ℝ) (b : Fin h → ℝ) (z : Fin d → ℝ) : ℝ :=
  ∑ i, a i * max (∑ j, w i j * z j + b i) 0

/-- Interpolation of a function of one variable at the points `x₀ + k s`. -/
noncomputable def ramps (g : ℝ → ℝ) (x₀ s : ℝ) : ℕ → ℝ → ℝ
  | 0, _ => g x₀
  | k + 1, t => ramps g x₀ s k t + (g (x₀ + (k + 1 : ℕ) * s) - g (x₀ + k * s)) / s * (max (t - (x₀ + k * s)) 0 - max (t - (x₀ + (k + 1 : ℕ) * s)) 0)

theorem ramps_spec {g : ℝ → ℝ} {x₀ s ε : ℝ} (hs : 0 < s) {N : ℕ}
    (hg : ∀ t t', x₀ ≤ t → t ≤ x₀ + N * s → x₀ ≤ t' → t' ≤ x₀ + N * s → |t - t'| ≤ s → |g t - g t'| ≤ ε) :
    ∀ k ≤ N, (∀ t, x₀ + k * s ≤ t → ramps g x₀ s k t = g (x₀ + k * s)) ∧
      ∀ t, x₀ ≤ t → t ≤ x₀ + k * s → |ramps g x₀ s k t - g t| ≤ 2 * ε := by
  intro k
  induction k with
  | zero =>
    intro _
    refine ⟨fun t _ => by simp [ramps], fun t h1 h2 => ?_⟩
    have ht : t = x₀ := le_antisymm (by simpa using h2) h1
    have : 0 ≤ ε := by
      have hN : (0 : ℝ) ≤ N * s := by positivity
      have := hg x₀ x₀ le_rfl (by linarith) le_rfl (by linarith) (by simpa using hs.le)
      exact (abs_nonneg _).trans this
    rw [ht]
    simp only [ramps, sub_self, abs_zero]
    linarith
  | succ k ih =>
    intro hk
    obtain ⟨i1, i2⟩ := ih (by omega)
    have hk' : ((k + 1 : ℕ) : ℝ) = k + 1 := by push_cast; ring
    have hkN : ((k : ℝ) + 1) * s ≤ N * s := by
      refine mul_le_mul_of_nonneg_right ?_ hs.le
      exact_mod_cast hk
    have hk0 : (0 : ℝ) ≤ k * s := by positivity
    refine ⟨fun t ht => ?_, fun t h1 h2 => ?_⟩
    · rw [hk'] at ht ⊢
      simp only [ramps, hk']
      rw [i1 t (by linarith), max_eq_left (by linarith), max_eq_left (by linarith)]
      field_simp
      ring
    · rw [hk'] at h2
      simp only [ramps, hk']
      rcases le_total t (x₀ + k * s) with h | h
      · rw [max_eq_right (by linarith), max_eq_right (by linarith), sub_zero, mul_zero, add_zero]
        exact i2 t h1 h
      · rw [i1 t h, max_eq_left (by linarith), max_eq_right (by linarith), sub_zero]
        have e1 := hg (x₀ + k * s) t (by linarith) (by linarith) h1 (by linarith) (by rw [abs_sub_comm, abs_of_nonneg (by linarith)]; linarith)
        have e2 := hg (x₀ + (k + 1) * s) (x₀ + k * s) (by linarith) (by linarith) (by linarith) (by linarith)
          (by rw [abs_of_nonneg (by linarith)]; linarith)
        have e3 : |(g (x₀ + (k + 1) * s) - g (x₀ + k * s)) / s * (t - (x₀ + k * s))| ≤ ε := by
          rw [abs_mul, abs_div, abs_of_pos hs, abs_of_nonneg (show 0 ≤ t - (x₀ + k * s) by linarith), div_mul_eq_mul_div, div_le_iff₀ hs]
          exact mul_le_mul e2 (by linarith) (by linarith) ((abs_nonneg _).trans e2)
        calc _ = |(g (x₀ + k * s) - g t) + (g (x₀ + (k + 1) * s) - g (x₀ + k * s)) / s * (t - (x₀ + k * s))| := by congr 1; ring
          _ ≤ ε + ε := (abs_add_le _ _).trans (add_le_add e1 e3)
          _ = 2 * ε := by ring

variable {d : ℕ} (K : Set (Fin d → ℝ))

theorem continuous_form (w : Fin d → ℝ) : Continuous fun z : K => ∑ j, w j * z.1 j :=
  continuous_finset_sum _ fun j _ => continuous_const.mul ((continuous_apply j).comp continuous_subtype_val)

/-- A unit, on a set. -/
def unitOn (w : Fin d → ℝ) (b : ℝ) : C(K, ℝ) := ⟨fun z => max (∑ j, w j * z.1 j + b) 0, ((continuous_form K w).add continuous_const).max continuous_const⟩

/-- A function of a linear form, on a set. -/
def ridgeOn (g : C(ℝ, ℝ)) (w : Fin d → ℝ) : C(K, ℝ) := ⟨fun z => g (∑ j, w j * z.1 j), g.continuous.comp (continuous_form K w)⟩

/-- The combinations of units. -/
def units : Submodule ℝ C(K, ℝ) := Submodule.span ℝ (Set.range fun p : (Fin d → ℝ) × ℝ => unitOn K p.1 p.2)

theorem unitOn_mem (w : Fin d → ℝ) (b : ℝ) : unitOn K w b ∈ units K := Submodule.subset_span ⟨(w, b), rfl⟩

theorem ramps_mem (g : ℝ → ℝ) (x₀ s : ℝ) (w : Fin d → ℝ) (k : ℕ) : ∃ f ∈ units K, ∀ z : K, f z = ramps g x₀ s k (∑ j, w j * z.1 j) := by
  induction k with
  | zero => exact ⟨g x₀ • unitOn K 0 1, (units K).smul_mem _ (unitOn_mem K _ _), fun z => by simp [unitOn, ramps]⟩
  | succ k ih =>
    obtain ⟨f, hf, hfz⟩ := ih
    refine ⟨f + ((g (x₀ + (k + 1 : ℕ) * s) - g (x₀ + k * s)) / s) • (unitOn K w (-(x₀ + k * s)) - unitOn K w (-(x₀ + (k + 1 : ℕ) * s))),
      (units K).add_mem hf ((units K).smul_mem _ ((units K).sub_mem (unitOn_mem K _ _) (unitOn_mem K _ _))), fun z => ?_⟩
    simp only [ContinuousMap.add_apply, ContinuousMap.smul_apply, ContinuousMap.sub_apply, hfz, unitOn, ContinuousMap.coe_mk, ramps, smul_eq_mul]
    simp only [sub_eq_add_neg]

variable {K}

/-- Functions of one linear form are limits of combinations of units. -/
theorem ridge_mem [CompactSpace K] (g : C(ℝ, ℝ)) (w : Fin d → ℝ) : ridgeOn K g w ∈ (units K).topologicalClosure := by
  rw [← SetLike.mem_coe, Submodule.topologicalClosure_coe, Metric.mem_closure_iff]
  intro ε hε
  obtain ⟨M, hM0, hM⟩ : ∃ M : ℝ, 0 < M ∧ ∀ z : K, |∑ j, w j * z.1 j| ≤ M := by
    obtain ⟨M, hM⟩ := isCompact_univ.exists_bound_of_continuousOn (f := fun z : K => ∑ j, w j * z.1 j) (continuous_form K w).continuousOn
    exact ⟨max M 1, by positivity, fun z => (hM z trivial).trans (le_max_left _ _)⟩
  obtain ⟨δ, hδ, hu⟩ := Metric.uniformContinuousOn_iff_le.1 ((isCompact_Icc (a := -M) (b := M)).uniformContinuousOn_of_continuous g.continuous.continuousOn)
    (ε / 4) (by positivity)
  obtain ⟨N, hN⟩ := exists_nat_gt (2 * M / δ)
  have hN0 : (0 : ℝ) < N := lt_trans (by positivity) hN
  have hs : 0 < 2 * M / N := by positivity
  have hNs : -M + N * (2 * M / N) = M := by field_simp; ring
  have hsδ : 2 * M / N ≤ δ := by
    rw [div_lt_iff₀ hδ] at hN
    rw [div_le_iff₀ hN0]
    linarith
  obtain ⟨f, hf, hfz⟩ := ramps_mem K g (-M) (2 * M / N) w N
  refine ⟨f, hf, ?_⟩
  refine lt_of_le_of_lt ((ContinuousMap.dist_le (by positivity : (0 : ℝ) ≤ 2 * (ε / 4))).2 fun z => ?_) (by linarith : 2 * (ε / 4) < ε)
  rw [dist_comm, Real.dist_eq, hfz]
  have hz := abs_le.1 (hM z)
  refine ((ramps_spec hs (N := N) (ε := ε / 4) fun t t' h1 h2 h3 h4 h5 => ?_) N le_rfl).2 _ hz.1 (by rw [hNs]; exact hz.2)
  rw [hNs] at h2 h4
  have := hu t ⟨h1, h2⟩ t' ⟨h3, h4⟩ (by rw [Real.dist_eq]; exact h5.trans hsδ)
  rwa [Real.dist_eq] at this

/-- Combinations of units are dense. -/
theorem units_dense [CompactSpace K] : (units K).topologicalClosure = ⊤ := by
  set S : Set C(K, ℝ) := Set.range fun w : Fin d → ℝ => ridgeOn K ⟨Real.exp, Real.continuous_exp⟩ w with hS
  have hclosed : (Submonoid.closure S : Set C(K, ℝ)) ⊆ S := by
    let T : Submonoid C(K, ℝ) :=
      { carrier := S
        one_mem' := ⟨0, by ext z; simp [ridgeOn]⟩
        mul_mem' := by
          rintro _ _ ⟨w, rfl⟩ ⟨w', rfl⟩
          refine ⟨w + w', ?_⟩
          ext z
          simp [ridgeOn, ← Real.exp_add, add_mul, Finset.sum_add_distrib] }
    exact (Submonoid.closure_le (S := T)).2 subset_rfl
  have hspan : Subalgebra.toSubmodule (Algebra.adjoin ℝ S) = Submodule.span ℝ S :=
    Algebra.adjoin_eq_span_of_subset ℝ (hclosed.trans Submodule.subset_span)
  have hle : Submodule.span ℝ S ≤ (units K).topologicalClosure := by
    rw [Submodule.span_le]
    rintro _ ⟨w, rfl⟩
    exact ridge_mem _ w
  have hsep : (Algebra.adjoin ℝ S).SeparatesPoints := by
    intro z z' hzz
    obtain ⟨j, hj⟩ : ∃ j, z.1 j ≠ z'.1 j := by
      by_contra h
      push Not at h
      exact hzz (Subtype.ext (funext h))
    refine ⟨_, ⟨ridgeOn K ⟨Real.exp, Real.continuous_exp⟩ (Pi.single j 1), Algebra.subset_adjoin ⟨_, rfl⟩, rfl⟩, ?_⟩
    simpa [ridgeOn, Pi.single_apply] using hj
  have htop := ContinuousMap.subalgebra_topologicalClosure_eq_top_of_separatesPoints _ hsep
  rw [eq_top_iff]
  intro f _
  have hf : f ∈ (Algebra.adjoin ℝ S).topologicalClosure := by rw [htop]; trivial
  have h1 : f ∈ closure ((Algebra.adjoin ℝ S : Subalgebra ℝ C(K, ℝ)) : Set C(K, ℝ)) := hf
  have h2 : ((Algebra.adjoin ℝ S : Subalgebra ℝ C(K, ℝ)) : Set C(K, ℝ)) ⊆ ((units K).topologicalClosure : Set C(K, ℝ)) := by
    intro x hx
    refine hle ?_
    rw [← hspan]
    exact hx
  exact closure_minimal h2 (units K).isClosed_topologicalClosure h1

/-- The elements of the span are sums of units. -/
theorem units_form {f : C(K, ℝ)} (hf : f ∈ units K) : ∃ (h : ℕ) (a : Fin h → ℝ) (w : Fin h → Fin d → ℝ) (b : Fin h → ℝ), ∀ z : K, f z = unitSum a w b z.1 := by
  induction hf using Submodule.span_induction with
  | mem x hx =>
    obtain ⟨⟨w, b⟩, rfl⟩ := hx
    exact ⟨1, fun _ => 1, fun _ => w, fun _ => b, fun z => by simp [unitSum, unitOn]⟩
  | zero => exact ⟨0, Fin.elim0, Fin.elim0, Fin.elim0, fun z => by simp [unitSum]⟩
  | add x y _ _ hx hy =>
    obtain ⟨h, a, w, b, e⟩ := hx
    obtain ⟨h', a', w', b', e'⟩ := hy
    exact ⟨h + h', Fin.append a a', Fin.append w w', Fin.append b b', fun z => by simp [unitSum, Fin.sum_univ_add, e, e']⟩
  | smul r x _ hx =>
    obtain ⟨h, a, w, b, e⟩ := hx
    exact ⟨h, fun i => r * a i, w, b, fun z => by simp [unitSum, e, Finset.mul_sum, mul_assoc]⟩

/-- **Universal approximation.** -/
theorem exists_unitSum {K : Set (Fin d → ℝ)} (hK : IsCompact K) {φ : (Fin d → ℝ) → ℝ} (hφ : Continuous φ) {ε : ℝ} (hε : 0 < ε) :
    ∃ (h : ℕ) (a : Fin (h + 1) → ℝ) (w : Fin (h + 1) → Fin d → ℝ) (b : Fin (h + 1) → ℝ), ∀ z ∈ K, |φ z - unitSum a w b z| ≤ ε := by
  haveI : CompactSpace K := isCompact_iff_compactSpace.1 hK
  set F : C(K, ℝ) := ⟨fun z => φ z.1, by fun_prop⟩ with hF
  have h1 : F ∈ (units K).topologicalClosure := by rw [units_dense]; trivial
  rw [← SetLike.mem_coe, Submodule.topologicalClosure_coe, Metric.mem_closure_iff] at h1
  obtain ⟨f, hf, hd⟩ := h1 ε hε
  obtain ⟨h, a, w, b, e⟩ := units_form hf
  refine ⟨h, Fin.cons 0 a, Fin.cons 0 w, Fin.cons 0 b, fun z hz => ?_⟩
  have h2 := (ContinuousMap.dist_apply_le_dist ⟨z, hz⟩).trans hd.le
  rw [Real.dist_eq, e] at h2
  have h3 : unitSum (Fin.cons 0 a : Fin (h + 1) → ℝ) (Fin.cons 0 w : Fin (h + 1) → Fin d → ℝ) (Fin.cons 0 b : Fin (h + 1) → ℝ) z = unitSum a w b z := by
    simp [unitSum, Fin.sum_univ_succ]
  rw [h3]
  exact h2

end BMI.Critic
