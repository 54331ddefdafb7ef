import Verif.Lemmas.CcaSpiral

/-! C110: CCA on the tasks of the benchmark which are not normal, and on a variable together with its square. -/

namespace BMI.Cca

open MeasureTheory ProbabilityTheory Filter Topology BMI.Cca.Spec BMI.Kde BMI.Kde.Spec BMI.Gebelein BMI.Consistency BMI.Samplers BMI.Student
  BMI.Registry BMI.TaskIds BMI.MatrixUtils BMI.Search Matrix

variable {Key State : Type} [MeasurableSpace Key] [MeasurableSpace State] {R : JaxRandom Key} {κ : Measure Key}
  {N : NpRandom State} {μ : Measure State}

/-! ## The tasks of the benchmark -/

theorem gauss_nonneg {p q : ℕ} {S : Matrix (Fin (p + q)) (Fin (p + q)) ℝ} (hS : S.PosDef) : 0 ≤ gauss S := (splitNormal_mi 0 hS).2

theorem honest_cca {K : Type} [MeasurableSpace K] {κ : Measure K} {init : ℤ → K} {ok : Set ℤ} {sizes : Set ℕ} {s : Sampler K} {p : Part}
    (h : Honest κ init ok sizes s p) (hn : ∀ n, n ≠ 1 → n ∈ sizes) {S : Matrix (Fin (p.dx + p.dy)) (Fin (p.dx + p.dy)) ℝ} (hP : HasCov p.law S)
    (hS : S.PosDef) {fit : (n : ℕ) → Fit n p.dx p.dy} {scale : Bool} (hfit : CanonicalFit fit scale) :
    ConvergesTo κ s (ccaGives fit scale) (gauss S) := by
  haveI := h.prob
  have := (cca_converges (fun n h1 => h.law n (hn n h1)) hP hS hfit 0).2
  rwa [(splitNormal_mi 0 hS).1, ENNReal.toReal_ofReal (splitNormal_mi 0 hS).2] at this

theorem task_cca {p : Part} {b : Built Key State} (h : HonestTask R κ N μ p b) {S : Matrix (Fin (p.dx + p.dy)) (Fin (p.dx + p.dy)) ℝ}
    (hP : HasCov p.law S) (hS : S.PosDef) {fit : (n : ℕ) → Fit n p.dx p.dy} {scale : Bool} (hfit : CanonicalFit fit scale) :
    Finds κ μ (ccaGives fit scale) (gauss S) b := by
  cases b with
  | jax s => exact honest_cca (s := s) h (fun n _ => trivial) hP hS hfit
  | np s => exact honest_cca (s := s) h (fun n hn => hn) hP hS hfit

theorem task_mi {p : Part} {b : Built Key State} (h : HonestTask R κ N μ p b) : mutualInfo p.law = ENNReal.ofReal b.mi ∧ 0 ≤ b.mi := by
  cases b with
  | jax s => exact ⟨Honest.mi h, Honest.nonneg h⟩
  | np s => exact ⟨Honest.mi h, Honest.nonneg h⟩

theorem under_treated {F : Type} (val : F → ℝ) (c : Call F) (hc : Valid val c) (ht : Treated val c)
    (hm : mutualInfo (lawOf val c).law = ENNReal.ofReal (numberOf val c)) (h0 : 0 ≤ numberOf val c) : Under (lawOf val c) (numberOf val c) := by
  rcases ht with ht | ht | ⟨ht, h2⟩ | ht
  · exact under_tower val c ht hc
  · exact under_pairTower val c 0 ht hc
  · obtain ⟨⟨S, h3, h4, h5⟩, h6⟩ := under_oddTower val c ht hc h2
    exact ⟨S, h3, h4, h5.trans h6.le⟩
  · cases c with
    | additive ε => exact under_additive val ε hc
    | dense dx dy off =>
      obtain ⟨h1, h2, h3, h4⟩ := hc
      exact under_normal ((equicorrelation_posDef_iff (by omega) _).2 ⟨by exact_mod_cast h3, h4⟩) hm h0
    | studentDense dx dy df off =>
      obtain ⟨h1, h2, h3, h4, h5⟩ := hc
      exact under_studentT h1 h2 ((equicorrelation_posDef_iff (by omega) _).2 ⟨by exact_mod_cast h3, h4⟩) (by exact_mod_cast ht) hm h0
    | studentSparse dx dy df n s =>
      obtain ⟨h1, h2, h3, h4, h5⟩ := hc
      exact under_studentT h1 h2 (pairs_posDef h3 (strength_lt _)) (by exact_mod_cast ht) hm h0
    | swissroll t =>
      obtain ⟨ρ, rfl⟩ : ∃ ρ, t = .normalCdf (.binormal ρ) := by
        cases t with
        | normalCdf t =>
          cases t with
          | binormal ρ => exact ⟨ρ, rfl⟩
          | _ => exact ht.elim
        | _ => exact ht.elim
      have hv : -1 < val ρ ∧ val ρ < 1 := hc.1
      exact under_swissroll val ρ (by nlinarith [hv.1, hv.2])
    | _ => exact ht.elim

/-- **C110** On the tasks treated here CCA finds a number between zero and the mutual information in the limit, whatever routine fits
the canonical variates. -/
theorem cca_tasks {F : Type} (hR : IdealRandom R κ) (hN : IdealStudent N μ) (val : F → ℝ) (other : Call F → Except Err (Built Key State))
    (c : Call F) (hc : Valid val c) (ht : Treated val c) :
    ∃ b, build R N val other c = .ok b ∧ b.dimX = .ok (lawOf val c).dx ∧ b.dimY = .ok (lawOf val c).dy ∧ b.mi = numberOf val c ∧
      ∃ v, 0 ≤ v ∧ v ≤ numberOf val c ∧ ∀ (fit : (n : ℕ) → Fit n (lawOf val c).dx (lawOf val c).dy) (scale : Bool), CanonicalFit fit scale →
        Finds κ μ (ccaGives fit scale) v b := by
  obtain ⟨b, h1, h2, h3⟩ := build_honest hR hN val other c hc
  obtain ⟨h4, h5⟩ := task_mi h3
  rw [h2] at h4 h5
  obtain ⟨S, s1, s2, s3⟩ := under_treated val c hc ht h4 h5
  exact ⟨b, h1, (honest_dims h3).1, (honest_dims h3).2, h2, gauss S, gauss_nonneg s2, s3, fun fit scale hfit => task_cca h3 s1 s2 hfit⟩

/-- **C110** Odd transforms of uncorrelated Student-t variables: CCA finds nothing, but there is something. -/
theorem cca_odd {F : Type} (hR : IdealRandom R κ) (hN : IdealStudent N μ) (val : F → ℝ) (other : Call F → Except Err (Built Key State))
    (c : Call F) (hc : Valid val c) (ht : OddTower c) (h2 : 2 < momentsBelow val c) :
    ∃ b, build R N val other c = .ok b ∧ b.mi = numberOf val c ∧ 0 < b.mi ∧
      ∀ (fit : (n : ℕ) → Fit n (lawOf val c).dx (lawOf val c).dy) (scale : Bool), CanonicalFit fit scale → Finds κ μ (ccaGives fit scale) 0 b := by
  obtain ⟨b, h1, h3, h4⟩ := build_honest hR hN val other c hc
  obtain ⟨⟨S, s1, s2, s3⟩, h5⟩ := under_oddTower val c ht hc h2
  have e : gauss S = 0 := le_antisymm s3 (gauss_nonneg s2)
  refine ⟨b, h1, h3, h3 ▸ h5, fun fit scale hfit => ?_⟩
  rw [← e]
  exact task_cca h4 s1 s2 hfit

/-- **C110** Uniform variables with additive noise: CCA finds too little. -/
theorem cca_additive {F : Type} (hR : IdealRandom R κ) (hN : IdealStudent N μ) (val : F → ℝ) (other : Call F → Except Err (Built Key State))
    (ε : F) (hε : 0 < val ε) {fit : (n : ℕ) → Fit n 1 1} {scale : Bool} (hfit : CanonicalFit fit scale) :
    ∃ b, build R N val other (.additive ε) = .ok b ∧
      b.mi = (if val ε > 1 / 2 then 1 / (4 * val ε) else val ε - Real.log (2 * val ε)) ∧
      Finds κ μ (ccaGives fit scale) (1 / 2 * Real.log (1 + 1 / (4 * val ε ^ 2))) b ∧
      1 / 2 * Real.log (1 + 1 / (4 * val ε ^ 2)) < b.mi := by
  obtain ⟨b, h1, h3, h4⟩ := build_honest hR hN val other (.additive ε) hε
  have h := task_cca (p := lawOf val (.additive ε)) h4 (additive_cov hε) (noise_posDef (by norm_num) (by positivity)) hfit
  refine ⟨b, h1, h3, ?_, ?_⟩
  · have e : gauss (p := 1) (q := 1) !![(1 / 12 : ℝ), 1 / 12; 1 / 12, 1 / 12 + val ε ^ 2 / 3] = 1 / 2 * Real.log (1 + 1 / (4 * val ε ^ 2)) := noise_gauss hε
    rw [← e]
    exact h
  · rw [h3]
    exact noise_lt hε

theorem entries_treated : ∀ e ∈ Registry.entries, e.call ∉ leftOut → Treated regVal e.call := by
  have h : ∀ c ∈ registry, c ∉ leftOut → Treated regVal c := by
    have h3 : (2 : ENNReal) < 3 := by norm_num
    simp only [registry, twoPair, List.cons_append, List.nil_append, List.forall_mem_cons, List.not_mem_nil, false_implies, implies_true, and_true]
    simp [Treated, Coordinatewise, PairTower, OddTower, momentsBelow, heavy, leftOut, twoPair, h3]
  intro e he
  refine h _ ?_
  rw [← entries_calls]
  exact List.mem_map_of_mem he

/-- **C110** The tasks of the benchmark: on all of them apart from those left out CCA finds at most the advertised number. -/
theorem cca_benchmark (hR : IdealRandom R κ) (hN : IdealStudent N μ) (other : Call RegF → Except Err (Built Key State)) :
    ∃ tasks : List (TaskObj Key State), benchmarkTasks R N other = .ok (tasks.map fun t => (t.id, t)) ∧ tasks.length = 40 ∧
      List.Forall₂ (fun e t => t.id = e.call.id regFormat ∧
        (e.call ∉ leftOut → ∃ dx dy v, t.sampler.dimX = .ok dx ∧ t.sampler.dimY = .ok dy ∧ 0 ≤ v ∧ v ≤ t.sampler.mi ∧
          ∀ (fit : (n : ℕ) → Fit n dx dy) (scale : Bool), CanonicalFit fit scale → Finds κ μ (ccaGives fit scale) v t.sampler))
        Registry.entries tasks := by
  obtain ⟨tasks, h1, h2, -, -, -, h3⟩ := benchmark_tasks_partial hR hN other
  refine ⟨tasks, h1, h2, ?_⟩
  have h4 : List.Forall₂ (fun e t => e ∈ Registry.entries ∧ t.id = e.call.id regFormat ∧ t.name = e.name ∧ (e.call ≠ .bimodal .f0_75 →
      HonestTask R κ N μ (lawOf regVal e.call) t.sampler)) Registry.entries tasks :=
    (List.forall₂_and_left Registry.entries tasks).2 ⟨fun e he => he, h3⟩
  refine h4.imp fun e t h => ⟨h.2.1, fun hl => ?_⟩
  obtain ⟨he, -, -, hh⟩ := h
  have hb : e.call ≠ .bimodal .f0_75 := fun hb => hl (by rw [hb]; simp [leftOut])
  have hv := (entries_valid e he).resolve_left hb
  have hd := honest_dims (hh hb)
  obtain ⟨m1, m2⟩ := task_mi (hh hb)
  obtain ⟨b, -, c2, c3⟩ := build_honest hR hN regVal other e.call hv
  obtain ⟨m3, m4⟩ := task_mi c3
  have e1 : t.sampler.mi = numberOf regVal e.call := by
    rw [m1, ENNReal.ofReal_eq_ofReal_iff m2 m4, c2] at m3
    exact m3
  rw [e1] at m1 m2
  obtain ⟨S, s1, s2, s3⟩ := under_treated regVal e.call hv (entries_treated e he hl) m1 m2
  exact ⟨_, _, gauss S, hd.1, hd.2, gauss_nonneg s2, by rw [e1]; exact s3, fun fit scale hfit => task_cca (hh hb) s1 s2 hfit⟩

/-! ## Too much -/

/-- A variable together with its square. -/
def withSquare (r : List ℝ) : List ℝ := r ++ r.map (· ^ 2)

/-- A variable or its square. -/
def power12 : Fin 2 → ℝ → ℝ := ![fun x => x, fun x => x ^ 2]

/-- Which variable a component belongs to. -/
def which : Fin (2 + 2) → Fin (1 + 1) := Fin.append (fun _ : Fin 2 => (0 : Fin (1 + 1))) fun _ : Fin 2 => 1

/-- Which power a component is. -/
def order : Fin (2 + 2) → Fin 2 := Fin.append (id : Fin 2 → Fin 2) id

/-- The standard deviation of a power. -/
noncomputable def dev : Fin 2 → ℝ := ![1, √Var[fun x : ℝ => x ^ 2; γ]]

/-- The correlations of the powers of two normal variables with correlation `ρ`. -/
noncomputable def corr12 (ρ : ℝ) : Matrix (Fin (2 + 2)) (Fin (2 + 2)) ℝ :=
  Matrix.of fun p q => if order p = order q then pairs 1 1 1 ρ (which p) (which q) ^ ((order p : ℕ) + 1) else 0

theorem measurable_power12 (a : Fin 2) : Measurable (power12 a) := by
  fin_cases a
  · exact measurable_id
  · exact measurable_id.pow_const 2

theorem memLp_power12 (a : Fin 2) : MemLp (power12 a) 2 γ := by
  fin_cases a
  · exact memLp_γ
  · exact memLp_sq

theorem dev_pos (a : Fin 2) : 0 < dev a := by
  fin_cases a
  · exact one_pos
  · exact Real.sqrt_pos.2 var_sq_pos

theorem cross12 {c : ℝ} (hc : c ^ 2 ≤ 1) (a b : Fin 2) : Cca.cross (power12 a) (power12 b) c = if a = b then dev a * c ^ ((a : ℕ) + 1) * dev b else 0 := by
  have v1 : cov[fun x : ℝ => x, fun x => x; γ] = 1 := by
    rw [covariance_self measurable_id'.aemeasurable]
    exact variance_id_gaussianReal.trans (by simp)
  have v2 : cov[fun x : ℝ => x ^ 2, fun x => x ^ 2; γ] = Var[fun x : ℝ => x ^ 2; γ] := covariance_self (by fun_prop)
  fin_cases a <;> fin_cases b
  · have := cross_id (a := c) measurable_id' memLp_γ
    rw [v1] at this
    simpa [power12, dev] using this
  · have := cross_sq hc measurable_id' memLp_γ
    rw [cov_id_sq, mul_zero] at this
    simpa [power12] using this
  · have := cross_id (a := c) (measurable_power12 1) memLp_sq
    rw [show power12 1 = fun x : ℝ => x ^ 2 from rfl, covariance_comm, cov_id_sq, mul_zero] at this
    simpa [power12] using this
  · have := cross_sq hc (measurable_power12 1) memLp_sq
    rw [show power12 1 = fun x : ℝ => x ^ 2 from rfl, v2] at this
    have hs := Real.mul_self_sqrt (variance_nonneg (fun x : ℝ => x ^ 2) γ)
    simp only [power12, dev]
    simp
    rw [this]
    linear_combination (-c ^ 2) * hs

theorem corr12_canonical {ρ : ℝ} : IsCanonical (dx := 2) (dy := 2) ![ρ, ρ ^ 2] (corr12 ρ) := by
  constructor <;> intro i j <;> fin_cases i <;> fin_cases j <;> simp [corr12, order, which, pairs, Fin.append, Fin.addCases]

theorem corr12_facts {ρ : ℝ} (hρ : ρ ^ 2 < 1) : (corr12 ρ).PosDef ∧
    gauss (corr12 ρ) = -(1 / 2 * Real.log (1 - ρ ^ 2)) - 1 / 2 * Real.log (1 - ρ ^ 4) := by
  have h := corr12_canonical (ρ := ρ)
  have h4 : ρ ^ 4 < 1 := by nlinarith [sq_nonneg ρ]
  have r0 : rest 2 ![ρ, ρ ^ 2] 0 = 1 - ρ ^ 2 := by simp [rest]
  have r1 : rest 2 ![ρ, ρ ^ 2] 1 = 1 - ρ ^ 4 := by
    simp [rest]
    ring
  have hr : ∀ j, 0 < rest 2 ![ρ, ρ ^ 2] j := fun j => by
    fin_cases j
    · show 0 < rest 2 ![ρ, ρ ^ 2] 0
      rw [r0]; linarith
    · show 0 < rest 2 ![ρ, ρ ^ 2] 1
      rw [r1]; linarith
  have hd : (corr12 ρ).det = (1 - ρ ^ 2) * (1 - ρ ^ 4) := by
    rw [h.det_eq, Fin.prod_univ_two, r0, r1]
  have ex : blockX (dx := 2) (dy := 2) (corr12 ρ) = 1 := by
    ext i j
    simp [blockX, h.xx, Matrix.one_apply]
  have ey : blockY (dx := 2) (dy := 2) (corr12 ρ) = 1 := by
    ext i j
    exact (h.yy i j).trans Matrix.one_apply.symm
  refine ⟨?_, ?_⟩
  · rw [(h.posSemidef_iff.2 fun j => (hr j).le).posDef_iff_det_ne_zero, hd]
    exact mul_ne_zero (by linarith) (by linarith)
  · unfold gauss
    rw [ex, ey, hd, Real.log_mul (by linarith) (by linarith)]
    simp
    ring

/-- The pair of a variable and its square. -/
def both (x : Fin 1 → ℝ) (a : Fin 2) : ℝ := power12 a (x 0)

theorem measurable_pairing : Measurable both := measurable_pi_lambda _ fun a => (measurable_power12 a).comp (measurable_pi_apply 0)

theorem both_cov {ρ : ℝ} (hρ : ρ ^ 2 < 1) :
    HasCov (dx := 2) (dy := 2) (((normalLaw 0 (pairs 1 1 1 ρ)).map (halves 1 1)).map (Prod.map both both))
      (Matrix.of fun p q => dev (order p) * corr12 ρ p q * dev (order q)) := by
  have hS := (pairs_posDef (dx := 1) (dy := 1) (k := 1) le_rfl hρ).posSemidef
  have mb : Measurable (Prod.map both both) := measurable_pairing.prodMap measurable_pairing
  have m : Measurable (Prod.map both both ∘ halves 1 1) := mb.comp measurable_halves
  rw [Measure.map_map mb measurable_halves]
  have e : ∀ p : Fin (2 + 2), ((fun z : (Fin 2 → ℝ) × (Fin 2 → ℝ) => Fin.append z.1 z.2 p) ∘ (Prod.map both both ∘ halves 1 1))
      = fun z : Fin (1 + 1) → ℝ => power12 (order p) (z (which p)) := fun p => by
    funext z
    fin_cases p <;> rfl
  refine ⟨fun i => ?_, fun i j => ?_⟩
  · rw [memLp_map_measure_iff (measurable_append i).aestronglyMeasurable m.aemeasurable, e]
    exact (memLp_coord hS (pairs_diag ρ _) (measurable_power12 _)).2 (memLp_power12 _)
  · rw [covariance_map (measurable_append i).aestronglyMeasurable (measurable_append j).aestronglyMeasurable m.aemeasurable, e, e,
      cov_coords hS (pairs_diag ρ _) (pairs_diag ρ _) (pairs_sq_le hρ.le _ _) (measurable_power12 _) (measurable_power12 _),
      cross12 (pairs_sq_le hρ.le _ _), Matrix.of_apply, corr12, Matrix.of_apply]
    split_ifs <;> ring

/-- **C110** CCA is no lower bound: on two normal variables with correlation `ρ ≠ 0`, each together with its square, it finds more than
the mutual information in the limit. -/
theorem cca_too_much (hR : IdealRandom R κ) {ρ : ℝ} (h0 : ρ ≠ 0) (h1 : ρ ^ 2 < 1) :
    ∃ base s, splitMultinormal R 1 1 [[1, ρ], [ρ, 1]] (some [0, 0]) = .ok base ∧
      transformed base (.row withSquare) (.row withSquare) 1 1 = .ok s ∧ (∃ P, Correct R κ s 2 2 P) ∧
      s.mi = -(1 / 2 * Real.log (1 - ρ ^ 2)) ∧
      ∀ (fit : (n : ℕ) → Fit n 2 2) (scale : Bool), CanonicalFit fit scale →
        ConvergesTo κ s (ccaGives fit scale) (s.mi - 1 / 2 * Real.log (1 - ρ ^ 4)) ∧ s.mi < s.mi - 1 / 2 * Real.log (1 - ρ ^ 4) := by
  haveI := hR.prob
  have hpos := pairs_posDef (dx := 1) (dy := 1) (k := 1) le_rfl h1
  obtain ⟨b, b1, b2⟩ := splitMultinormal_correct R κ hR 1 1 one_pos one_pos 0 _ hpos
  obtain ⟨b', b3, b4⟩ := splitMultinormal_number R 1 1 one_pos one_pos 0 _ hpos
  obtain rfl : b = b' := Except.ok.inj (b1.symm.trans b3)
  have er : rowsOf (pairs 1 1 1 ρ) = [[1, ρ], [ρ, 1]] := by
    simp [rowsOf, List.ofFn_succ, pairs]
  have ea : Acts (.row withSquare) both := fun n a => by
    refine rowsOf_map a withSquare both fun v => ?_
    simp [withSquare, both, power12, List.ofFn_succ]
  have hinj : Function.Injective both := fun x y h => by
    funext i
    have := congrFun h 0
    rw [Subsingleton.elim i 0]
    exact this
  obtain ⟨s, s1, s2, s3⟩ := transformed_correct R κ b _ b2 (.row withSquare) (.row withSquare) 1 1 (by norm_num) (by norm_num) (by norm_num)
    (by norm_num) both both measurable_pairing measurable_pairing ea ea Set.univ Set.univ MeasurableSet.univ MeasurableSet.univ (by simp) (by simp)
    hinj.injOn hinj.injOn
  have hmi : s.mi = -(1 / 2 * Real.log (1 - ρ ^ 2)) := by
    rw [s2, b4, pairs_number le_rfl le_rfl h1]
    norm_num
  obtain ⟨g1, g2⟩ := corr12_facts h1
  obtain ⟨g3, g4⟩ := gauss_scaled g1 (σ := fun p => dev (order p)) fun p => dev_pos _
  refine ⟨b, s, by rw [← er]; simpa using b1, s1, ⟨_, s3⟩, hmi, fun fit scale hfit => ⟨?_, ?_⟩⟩
  · haveI := s3.prob
    have := (cca_converges (fun n _ => s3.law n) (both_cov h1) g3 hfit 0).2
    rw [(splitNormal_mi 0 g3).1, ENNReal.toReal_ofReal (splitNormal_mi 0 g3).2] at this
    have e : gauss (p := 2) (q := 2) (Matrix.of fun p q => dev (order p) * corr12 ρ p q * dev (order q)) = s.mi - 1 / 2 * Real.log (1 - ρ ^ 4) := by
      rw [g4, g2, hmi]
    rw [← e]
    exact this
  · have h2 : 0 < ρ ^ 4 := by positivity
    have h4 : ρ ^ 4 < 1 := by nlinarith [sq_nonneg ρ]
    have := Real.log_neg (x := 1 - ρ ^ 4) (by linarith) (by linarith)
    linarith

/-! ## The assumptions can be met -/

/-- A tower of four transforms over two pairs of normal variables among three and four. -/
example : ∃ (fit : (n : ℕ) → Fit n 3 4) (b : _) (v : ℝ), build tree table (fun x : ℝ => x) (fun _ => .error .valueError)
      (.halfCube (.normalCdf (.power (.wiggly (.sparse 3 4 2 2)) 3))) = .ok b ∧ 0 ≤ v ∧
      v ≤ -((2 : ℕ) / 2 * Real.log (1 - ((2 : ℝ) ^ 2 / (1 + 2 ^ 2)) ^ 2)) ∧ Finds treeLaw tableLaw (ccaGives fit true) v b := by
  obtain ⟨fit, hfit⟩ := exists_canonicalFit 3 4 true
  obtain ⟨b, h1, -, -, -, v, h2, h3, h4⟩ := cca_tasks tree_ideal table_ideal (fun x : ℝ => x) (fun _ => .error .valueError)
    (.halfCube (.normalCdf (.power (.wiggly (.sparse 3 4 2 2)) 3))) (by norm_num [Valid]) (.inl trivial)
  exact ⟨fit, b, v, h1, h2, h3, h4 fit true hfit⟩

/-- The inverse hyperbolic sine of Student-t variables without moments. -/
example : ∃ (fit : (n : ℕ) → Fit n 2 3) (b : _), build tree table (fun x : ℝ => x) (fun _ => .error .valueError)
      (.asinh (.studentIdentity 2 3 1)) = .ok b ∧ 0 < b.mi ∧ Finds treeLaw tableLaw (ccaGives fit false) 0 b := by
  obtain ⟨fit, hfit⟩ := exists_canonicalFit 2 3 false
  obtain ⟨b, h1, -, h2, h3⟩ := cca_odd tree_ideal table_ideal (fun x : ℝ => x) (fun _ => .error .valueError)
    (.asinh (.studentIdentity 2 3 1)) (by norm_num [Valid]) trivial (by simp [momentsBelow])
  exact ⟨fit, b, h1, h2, h3 fit false hfit⟩

example : ∃ (fit : (n : ℕ) → Fit n 1 1) (b : _), build tree table (fun x : ℝ => x) (fun _ => .error .valueError) (.additive 0.75) = .ok b ∧
    Finds treeLaw tableLaw (ccaGives fit true) (1 / 2 * Real.log (1 + 1 / (4 * 0.75 ^ 2))) b := by
  obtain ⟨fit, hfit⟩ := exists_canonicalFit 1 1 true
  obtain ⟨b, h1, -, h2, -⟩ := cca_additive tree_ideal table_ideal (fun x : ℝ => x) (fun _ => .error .valueError) 0.75 (by norm_num) hfit
  exact ⟨fit, b, h1, h2⟩

/-- The Swiss roll. -/
example : ∃ (fit : (n : ℕ) → Fit n 2 1) (b : _) (v : ℝ), build tree table (fun x : ℝ => x) (fun _ => .error .valueError)
      (.swissroll (.normalCdf (.binormal 0.75))) = .ok b ∧ 0 ≤ v ∧ v ≤ -(1 / 2 * Real.log (1 - 0.75 ^ 2)) ∧ Finds treeLaw tableLaw (ccaGives fit true) v b := by
  obtain ⟨fit, hfit⟩ := exists_canonicalFit 2 1 true
  have hv := valid_swissroll (fun x : ℝ => x) (.binormal 0.75) (by norm_num [Valid]) rfl
  obtain ⟨b, h1, -, -, -, v, h2, h3, h4⟩ := cca_tasks tree_ideal table_ideal (fun x : ℝ => x) (fun _ => .error .valueError)
    (.swissroll (.normalCdf (.binormal 0.75))) hv (.inr (.inr (.inr trivial)))
  have e : numberOf (fun x : ℝ => x) (.swissroll (.normalCdf (.binormal 0.75))) = -(1 / 2 * Real.log (1 - 0.75 ^ 2)) := rfl
  exact ⟨fit, b, v, h1, h2, h3.trans e.le, h4 fit true hfit⟩

/-- A power of a spiral of a rotation of the inverse hyperbolic sine of three pairs among four and five variables. -/
example : ∃ (fit : (n : ℕ) → Fit n 4 5) (b : _) (v : ℝ), build tree table (fun x : ℝ => x) (fun _ => .error .valueError)
      (.power (.spiral (.rotate (.asinh (.sparse 4 5 3 2))) 1.5 true) 3) = .ok b ∧ 0 ≤ v ∧
      v ≤ -((3 : ℕ) / 2 * Real.log (1 - ((2 : ℝ) ^ 2 / (1 + 2 ^ 2)) ^ 2)) ∧ Finds treeLaw tableLaw (ccaGives fit true) v b := by
  obtain ⟨fit, hfit⟩ := exists_canonicalFit 4 5 true
  have hv : Valid (fun x : ℝ => x) (.power (.spiral (.rotate (.asinh (.sparse 4 5 3 2))) 1.5 true) 3) := by
    norm_num [Valid, lawOf, each, rotated]
  obtain ⟨b, h1, -, -, -, v, h2, h3, h4⟩ := cca_tasks tree_ideal table_ideal (fun x : ℝ => x) (fun _ => .error .valueError)
    (.power (.spiral (.rotate (.asinh (.sparse 4 5 3 2))) 1.5 true) 3) hv (.inr (.inl (by norm_num [PairTower])))
  exact ⟨fit, b, v, h1, h2, h3, h4 fit true hfit⟩

/-- Thirty-four of the forty tasks are treated. -/
example : (∃ tasks : List (TaskObj _ _), benchmarkTasks tree table (fun _ => .error .valueError) = .ok (tasks.map fun t => (t.id, t)) ∧ tasks.length = 40) ∧
    (Registry.entries.filter fun e => decide (e.call ∉ leftOut)).length = 34 := by
  obtain ⟨tasks, h1, h2, -⟩ := cca_benchmark tree_ideal table_ideal (fun _ => .error .valueError)
  exact ⟨⟨tasks, h1, h2⟩, by decide⟩

example : ∃ (fit : (n : ℕ) → Fit n 2 2) (s : Sampler _), s.mi = -(1 / 2 * Real.log (1 - (1 / 2) ^ 2)) ∧
    ∃ v, ConvergesTo treeLaw s (ccaGives fit true) v ∧ s.mi < v := by
  obtain ⟨fit, hfit⟩ := exists_canonicalFit 2 2 true
  obtain ⟨-, s, -, -, -, h1, h2⟩ := cca_too_much tree_ideal (ρ := 1 / 2) (by norm_num) (by norm_num)
  exact ⟨fit, s, h1, _, h2 fit true hfit⟩

end BMI.Cca
