import Verif.Lemmas.CcaTower
import Verif.Props.CcaTasks

/-! C112: CCA finds too little on normal variables after a transform which is not linear. -/

namespace BMI.Cca

open MeasureTheory ProbabilityTheory Filter Topology BMI.Cca.Spec BMI.Kde BMI.Kde.Spec BMI.Gebelein BMI.Consistency BMI.Samplers BMI.Student
  BMI.Registry BMI.TaskIds BMI.MatrixUtils BMI.Search Matrix

variable {Key State : Type} [MeasurableSpace Key] [MeasurableSpace State] {R : JaxRandom Key} {κ : Measure Key}
  {N : NpRandom State} {μ : Measure State}

/-- **C112** Dependent pairs of normal variables after a transform of single coordinates which is not linear: in the limit CCA finds less
than the mutual information. -/
theorem cca_bent {F : Type} (hR : IdealRandom R κ) (hN : IdealStudent N μ) (val : F → ℝ) (other : Call F → Except Err (Built Key State))
    (c : Call F) (hc : Valid val c) (ht : Bent val c) :
    ∃ b, build R N val other c = .ok b ∧ b.dimX = .ok (lawOf val c).dx ∧ b.dimY = .ok (lawOf val c).dy ∧ b.mi = numberOf val c ∧
      mutualInfo (lawOf val c).law = ENNReal.ofReal b.mi ∧
      ∃ v, 0 ≤ v ∧ v < b.mi ∧ ∀ (fit : (n : ℕ) → Fit n (lawOf val c).dx (lawOf val c).dy) (scale : Bool), CanonicalFit fit scale →
        Finds κ μ (ccaGives fit scale) v b := by
  obtain ⟨b, h1, h2, h3⟩ := build_honest hR hN val other c hc
  obtain ⟨S, s1, s2, s3⟩ := below_bent val c ht hc
  exact ⟨b, h1, (honest_dims h3).1, (honest_dims h3).2, h2, (task_mi h3).1, gauss S, gauss_nonneg s2, h2 ▸ s3,
    fun fit scale hfit => task_cca h3 s1 s2 hfit⟩

/-- **C112** The Swiss roll: in the limit CCA finds less than the mutual information. -/
theorem cca_roll {F : Type} (hR : IdealRandom R κ) (hN : IdealStudent N μ) (val : F → ℝ) (other : Call F → Except Err (Built Key State))
    (ρ : F) (hl : -1 < val ρ) (hu : val ρ < 1) (h0 : val ρ ≠ 0) :
    ∃ b, build R N val other (.swissroll (.normalCdf (.binormal ρ))) = .ok b ∧ b.mi = -(1 / 2 * Real.log (1 - val ρ ^ 2)) ∧
      ∃ v, 0 ≤ v ∧ v < b.mi ∧ ∀ (fit : (n : ℕ) → Fit n 2 1) (scale : Bool), CanonicalFit fit scale → Finds κ μ (ccaGives fit scale) v b := by
  have hv := valid_swissroll val (.binormal ρ) ⟨hl, hu⟩ rfl
  obtain ⟨b, h1, h2, h3⟩ := build_honest hR hN val other (.swissroll (.normalCdf (.binormal ρ))) hv
  obtain ⟨S, s1, s2, s3⟩ := below_swissroll val ρ h0 (by nlinarith)
  exact ⟨b, h1, by rw [h2]; simp [numberOf], gauss S, gauss_nonneg s2, h2 ▸ s3, fun fit scale hfit => task_cca h3 s1 s2 hfit⟩

theorem bentTasks_bent : ∀ c ∈ bentTasks, Bent regVal c ∨ c = .swissroll (.normalCdf (.binormal .f0_75)) := by
  norm_num [bentTasks, Bent, Linked, twoPair, regVal]

theorem below_bentTasks (c : Call RegF) (h : c ∈ bentTasks) (hv : Valid regVal c) : Below (lawOf regVal c) (numberOf regVal c) := by
  rcases bentTasks_bent c h with h | rfl
  · exact below_bent regVal c h hv
  · exact below_swissroll regVal .f0_75 (by norm_num [regVal]) (by norm_num [regVal])

/-- **C112** Ten tasks of the benchmark. -/
theorem cca_bent_benchmark (hR : IdealRandom R κ) (hN : IdealStudent N μ) (other : Call RegF → Except Err (Built Key State)) :
    ∃ tasks : List (TaskObj Key State), benchmarkTasks R N other = .ok (tasks.map fun t => (t.id, t)) ∧ tasks.length = 40 ∧
      (∀ c ∈ bentTasks, ∃ e ∈ Registry.entries, e.call = c) ∧
      List.Forall₂ (fun e t => t.id = e.call.id regFormat ∧
        (e.call ∈ bentTasks → ∃ dx dy v, t.sampler.dimX = .ok dx ∧ t.sampler.dimY = .ok dy ∧ 0 ≤ v ∧ v < t.sampler.mi ∧
          ∀ (fit : (n : ℕ) → Fit n dx dy) (scale : Bool), CanonicalFit fit scale → Finds κ μ (ccaGives fit scale) v t.sampler))
        Registry.entries tasks := by
  obtain ⟨tasks, h1, h2, -, -, -, h3⟩ := benchmark_tasks_partial hR hN other
  refine ⟨tasks, h1, h2, fun c hc => ?_, ?_⟩
  · have : c ∈ registry := by
      revert c
      simp [bentTasks, registry]
    rw [← entries_calls] at this
    exact List.mem_map.1 this
  have h4 : List.Forall₂ (fun e t => e ∈ Registry.entries ∧ t.id = e.call.id regFormat ∧ t.name = e.name ∧ (e.call ≠ .bimodal .f0_75 →
      HonestTask R κ N μ (lawOf regVal e.call) t.sampler)) Registry.entries tasks :=
    (List.forall₂_and_left Registry.entries tasks).2 ⟨fun e he => he, h3⟩
  refine h4.imp fun e t h => ⟨h.2.1, fun hl => ?_⟩
  obtain ⟨he, -, -, hh⟩ := h
  have hb : e.call ≠ .bimodal .f0_75 := fun hb => by
    rw [hb] at hl
    simp [bentTasks, twoPair] at hl
  have hv := (entries_valid e he).resolve_left hb
  have hd := honest_dims (hh hb)
  obtain ⟨m1, m2⟩ := task_mi (hh hb)
  obtain ⟨b, -, c2, c3⟩ := build_honest hR hN regVal other e.call hv
  obtain ⟨m3, m4⟩ := task_mi c3
  have e1 : t.sampler.mi = numberOf regVal e.call := by
    rw [m1, ENNReal.ofReal_eq_ofReal_iff m2 m4, c2] at m3
    exact m3
  obtain ⟨S, s1, s2, s3⟩ := below_bentTasks e.call hl hv
  exact ⟨_, _, gauss S, hd.1, hd.2, gauss_nonneg s2, by rw [e1]; exact s3, fun fit scale hfit => task_cca (hh hb) s1 s2 hfit⟩

/-- **C112** Variables mapped to the unit interval after any transforms of single coordinates. -/
theorem cca_squashed {F : Type} (hR : IdealRandom R κ) (hN : IdealStudent N μ) (val : F → ℝ) (other : Call F → Except Err (Built Key State))
    (t : Call F) (hc : Valid val t) (ht : LinkedTower val t) :
    ∃ b, build R N val other (.normalCdf t) = .ok b ∧ b.dimX = .ok (lawOf val t).dx ∧ b.dimY = .ok (lawOf val t).dy ∧ b.mi = numberOf val t ∧
      mutualInfo (lawOf val (.normalCdf t)).law = ENNReal.ofReal b.mi ∧
      ∃ v, 0 ≤ v ∧ v < b.mi ∧ ∀ (fit : (n : ℕ) → Fit n (lawOf val t).dx (lawOf val t).dy) (scale : Bool), CanonicalFit fit scale →
        Finds κ μ (ccaGives fit scale) v b := by
  obtain ⟨b, h1, h2, h3⟩ := build_honest hR hN val other (.normalCdf t) hc
  obtain ⟨S, s1, s2, s3⟩ := below_squashed val t ht hc
  exact ⟨b, h1, (honest_dims h3).1, (honest_dims h3).2, h2, (task_mi h3).1, gauss S, gauss_nonneg s2, h2 ▸ s3,
    fun fit scale hfit => task_cca h3 s1 s2 hfit⟩

/-- **C112** Two transforms can cancel: after the half-cube and the power 2/3 CCA finds the mutual information. -/
theorem cca_undone {F : Type} (hR : IdealRandom R κ) (hN : IdealStudent N μ) (val : F → ℝ) (other : Call F → Except Err (Built Key State))
    (t : Call F) (hc : Valid val t) (ht : Linked val t) (α : F) (hα : val α = 2 / 3) :
    ∃ b, build R N val other (.power (.halfCube t) α) = .ok b ∧ b.dimX = .ok (lawOf val t).dx ∧ b.dimY = .ok (lawOf val t).dy ∧
      b.mi = numberOf val t ∧ 0 < b.mi ∧
      ∀ (fit : (n : ℕ) → Fit n (lawOf val t).dx (lawOf val t).dy) (scale : Bool), CanonicalFit fit scale → Finds κ μ (ccaGives fit scale) b.mi b := by
  obtain ⟨b, h1, h2, h3⟩ := build_honest hR hN val other (.power (.halfCube t) α) ⟨hc, by rw [hα]; norm_num⟩
  rw [undone_law val t α hα] at h3
  obtain ⟨dx, dy, k, ρ, k1, k2, k3, k4, k5, k6, k7, k8, k9, -⟩ := linked_law val t ht hc
  have h2' : b.mi = -(k / 2 * Real.log (1 - ρ ^ 2)) := h2.trans k9
  have hp : 0 < b.mi := by
    have hl := Real.log_neg (x := 1 - ρ ^ 2) (by linarith) (by have : 0 < ρ ^ 2 := by positivity
                                                               linarith)
    have hk : (0 : ℝ) < k / 2 := by positivity
    rw [h2']
    nlinarith
  refine ⟨b, h1, (honest_dims h3).1, (honest_dims h3).2, h2, hp, ?_⟩
  rw [k8] at h3 ⊢
  have hS := pairs_posDef (dx := dx) (dy := dy) k4 k7
  intro fit scale hfit
  have e : b.mi = gauss (pairs dx dy k ρ) := by
    unfold gauss
    rw [pairs_number k4 k5 k7, h2']
  rw [e]
  exact task_cca h3 (normalLaw_hasCov 0 hS.posSemidef) hS hfit

/-! ## The assumptions can be met -/

/-- A tower of four transforms. -/
example : ∃ (fit : (n : ℕ) → Fit n 3 4) (b : _) (v : ℝ), build tree table (fun x : ℝ => x) (fun _ => .error .valueError)
      (.normalCdf (.halfCube (.wiggly (.power (.sparse 3 4 2 2) 3)))) = .ok b ∧ 0 ≤ v ∧ v < b.mi ∧ Finds treeLaw tableLaw (ccaGives fit true) v b := by
  obtain ⟨fit, hfit⟩ := exists_canonicalFit 3 4 true
  obtain ⟨b, h1, -, -, -, -, v, h2, h3, h4⟩ := cca_squashed tree_ideal table_ideal (fun x : ℝ => x) (fun _ => .error .valueError)
    (.halfCube (.wiggly (.power (.sparse 3 4 2 2) 3))) (by norm_num [Valid]) (by norm_num [LinkedTower])
  exact ⟨fit, b, v, h1, h2, h3, h4 fit true hfit⟩

/-- The Swiss roll. -/
example : ∃ (fit : (n : ℕ) → Fit n 2 1) (b : _) (v : ℝ), build tree table (fun x : ℝ => x) (fun _ => .error .valueError)
      (.swissroll (.normalCdf (.binormal 0.75))) = .ok b ∧ 0 ≤ v ∧ v < b.mi ∧ Finds treeLaw tableLaw (ccaGives fit true) v b := by
  obtain ⟨fit, hfit⟩ := exists_canonicalFit 2 1 true
  obtain ⟨b, h1, -, v, h2, h3, h4⟩ := cca_roll tree_ideal table_ideal (fun x : ℝ => x) (fun _ => .error .valueError) 0.75 (by norm_num) (by norm_num)
    (by norm_num)
  exact ⟨fit, b, v, h1, h2, h3, h4 fit true hfit⟩

/-- Two transforms which cancel. -/
example : ∃ (fit : (n : ℕ) → Fit n 1 1) (b : _), build tree table (fun x : ℝ => x) (fun _ => .error .valueError)
      (.power (.halfCube (.binormal 0.75)) (2 / 3)) = .ok b ∧ 0 < b.mi ∧ Finds treeLaw tableLaw (ccaGives fit true) b.mi b := by
  obtain ⟨fit, hfit⟩ := exists_canonicalFit 1 1 true
  obtain ⟨b, h1, -, -, -, h2, h3⟩ := cca_undone tree_ideal table_ideal (fun x : ℝ => x) (fun _ => .error .valueError)
    (.binormal 0.75) (by norm_num [Valid]) (by norm_num [Linked]) (2 / 3) rfl
  exact ⟨fit, b, h1, h2, h3 fit true hfit⟩


/-- The square roots of two pairs of variables, signs kept. -/
example : ∃ (fit : (n : ℕ) → Fit n 3 4) (b : _) (v : ℝ), build tree table (fun x : ℝ => x) (fun _ => .error .valueError)
      (.power (.sparse 3 4 2 2) (1 / 2)) = .ok b ∧ 0 ≤ v ∧ v < b.mi ∧ Finds treeLaw tableLaw (ccaGives fit true) v b := by
  obtain ⟨fit, hfit⟩ := exists_canonicalFit 3 4 true
  obtain ⟨b, h1, -, -, -, -, v, h2, h3, h4⟩ := cca_bent tree_ideal table_ideal (fun x : ℝ => x) (fun _ => .error .valueError)
    (.power (.sparse 3 4 2 2) (1 / 2)) (by norm_num [Valid]) (by norm_num [Bent, Linked])
  exact ⟨fit, b, v, h1, h2, h3, h4 fit true hfit⟩

/-- The wiggly transform of a pair. -/
example : ∃ (fit : (n : ℕ) → Fit n 1 1) (b : _) (v : ℝ), build tree table (fun x : ℝ => x) (fun _ => .error .valueError)
      (.wiggly (.binormal (-0.3))) = .ok b ∧ 0 ≤ v ∧ v < b.mi ∧ Finds treeLaw tableLaw (ccaGives fit false) v b := by
  obtain ⟨fit, hfit⟩ := exists_canonicalFit 1 1 false
  obtain ⟨b, h1, -, -, -, -, v, h2, h3, h4⟩ := cca_bent tree_ideal table_ideal (fun x : ℝ => x) (fun _ => .error .valueError)
    (.wiggly (.binormal (-0.3))) (by norm_num [Valid]) (by norm_num [Bent, Linked])
  exact ⟨fit, b, v, h1, h2, h3, h4 fit false hfit⟩

/-- All tasks of the benchmark, with ideal generators. -/
example : ∃ tasks : List (TaskObj _ _), benchmarkTasks tree table (fun _ => .error .valueError) = .ok (tasks.map fun t => (t.id, t)) ∧ tasks.length = 40 := by
  obtain ⟨tasks, h1, h2, -⟩ := cca_bent_benchmark tree_ideal table_ideal fun _ => .error .valueError
  exact ⟨tasks, h1, h2⟩

end BMI.Cca
