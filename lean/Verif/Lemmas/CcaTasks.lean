import Verif.Lemmas.CcaPairs
import Verif.Props.KdeBenchmark
import Verif.Spec.CcaTasks

/-! The number CCA finds in the limit on the tasks of the benchmark. -/

namespace BMI.Cca

open MeasureTheory ProbabilityTheory Filter Topology BMI.Cca.Spec BMI.Kde BMI.Kde.Spec BMI.Gebelein BMI.Consistency BMI.Samplers BMI.Student
  BMI.Registry BMI.TaskIds Matrix

variable {d dx dy k : ℕ} {f g : ℝ → ℝ}

/-- The normal law with the covariance of `p` has at most the mutual information `m`. -/
def Under (p : Part) (m : ℝ) : Prop := ∃ S, HasCov p.law S ∧ S.PosDef ∧ gauss S ≤ m

/-! ## Pairs of normal variables -/

/-- Moments and variances of the functions. -/
theorem sides_coord {ν : Measure (Fin (dx + dy) → ℝ)} [IsProbabilityMeasure ν] (hf : Measurable f) (hg : Measurable g) {r : ENNReal} (hr : 2 < r)
    (h : Sides r ⟨dx, dy, ν.map fun z => (fun j => f (z (Fin.castAdd dy j)), fun j => g (z (Fin.natAdd dx j)))⟩) (i : Fin (dx + dy)) :
    MemLp (fun z => side dx dy f g i (z i)) 2 ν ∧ 0 < Var[fun z => side dx dy f g i (z i); ν] := by
  have hm := measurable_spread (dx := dx) (dy := dy) hf hg
  haveI : IsProbabilityMeasure (ν.map fun z => ((fun j => f (z (Fin.castAdd dy j)), fun j => g (z (Fin.natAdd dx j))) : (Fin dx → ℝ) × (Fin dy → ℝ))) :=
    Measure.isProbabilityMeasure_map hm.aemeasurable
  induction i using Fin.addCases with
  | left i =>
    haveI := h.1.prob
    have h1 := h.1.second hr i
    have h2 := regular_var h.1.regular i h1
    have m1 : Measurable fun z : Fin (dx + dy) → ℝ => ((fun j => f (z (Fin.castAdd dy j))) : Fin dx → ℝ) :=
      measurable_pi_lambda _ fun _ => hf.comp (measurable_pi_apply _)
    have e : (ν.map fun z => ((fun j => f (z (Fin.castAdd dy j)), fun j => g (z (Fin.natAdd dx j))) : (Fin dx → ℝ) × (Fin dy → ℝ))).fst
        = ν.map fun z => ((fun j => f (z (Fin.castAdd dy j))) : Fin dx → ℝ) := by
      rw [Measure.fst, Measure.map_map measurable_fst hm]
      rfl
    simp only at h1 h2
    rw [e] at h1 h2
    rw [memLp_map_measure_iff (measurable_pi_apply i).aestronglyMeasurable m1.aemeasurable] at h1
    rw [variance_map (measurable_pi_apply i).aemeasurable m1.aemeasurable] at h2
    have s : side dx dy f g (Fin.castAdd dy i) = f := by simp [side]
    rw [s]
    exact ⟨h1, h2⟩
  | right i =>
    haveI := h.2.prob
    have h1 := h.2.second hr i
    have h2 := regular_var h.2.regular i h1
    have m1 : Measurable fun z : Fin (dx + dy) → ℝ => ((fun j => g (z (Fin.natAdd dx j))) : Fin dy → ℝ) :=
      measurable_pi_lambda _ fun _ => hg.comp (measurable_pi_apply _)
    have e : (ν.map fun z => ((fun j => f (z (Fin.castAdd dy j)), fun j => g (z (Fin.natAdd dx j))) : (Fin dx → ℝ) × (Fin dy → ℝ))).snd
        = ν.map fun z => ((fun j => g (z (Fin.natAdd dx j))) : Fin dy → ℝ) := by
      rw [Measure.snd, Measure.map_map measurable_snd hm]
      rfl
    simp only at h1 h2
    rw [e] at h1 h2
    rw [memLp_map_measure_iff (measurable_pi_apply i).aestronglyMeasurable m1.aemeasurable] at h1
    rw [variance_map (measurable_pi_apply i).aemeasurable m1.aemeasurable] at h2
    have s : side dx dy f g (Fin.natAdd dx i) = g := by simp [side]
    rw [s]
    exact ⟨h1, h2⟩

theorem log_le {a b : ℝ} (h : a ^ 2 ≤ b ^ 2) (hb : b ^ 2 < 1) (k : ℕ) : -(k / 2 * Real.log (1 - a ^ 2)) ≤ -(k / 2 * Real.log (1 - b ^ 2)) := by
  have := Real.log_le_log (by linarith) (show 1 - b ^ 2 ≤ 1 - a ^ 2 by linarith)
  have hk : (0 : ℝ) ≤ k / 2 := by positivity
  nlinarith

theorem under_pairs (hx : 0 < dx) (hy : 0 < dy) (hkx : k ≤ dx) (hky : k ≤ dy) {ρ : ℝ} (hρ : ρ ^ 2 < 1) (hf : Measurable f) (hg : Measurable g)
    {r : ENNReal} (hr : 2 < r) (h : Sides r ⟨dx, dy, pairsLaw dx dy k ρ f g⟩) :
    Under ⟨dx, dy, pairsLaw dx dy k ρ f g⟩ (-(k / 2 * Real.log (1 - ρ ^ 2))) := by
  have hS := (pairs_posDef (dx := dx) (dy := dy) hkx hρ).posSemidef
  haveI := normalLaw_prob (0 : Fin (dx + dy) → ℝ) (pairs dx dy k ρ)
  have h' := h
  rw [pairsLaw_eq hf hg] at h'
  have a := sides_coord hf hg hr h' (Fin.castAdd dy ⟨0, hx⟩)
  have b := sides_coord hf hg hr h' (Fin.natAdd dx ⟨0, hy⟩)
  have s1 : side dx dy f g (Fin.castAdd dy ⟨0, hx⟩) = f := Fin.append_left _ _ _
  have s2 : side dx dy f g (Fin.natAdd dx ⟨0, hy⟩) = g := Fin.append_right _ _ _
  rw [s1, memLp_coord hS (pairs_diag ρ _) hf, var_coord hS (pairs_diag ρ _) hf] at a
  rw [s2, memLp_coord hS (pairs_diag ρ _) hg, var_coord hS (pairs_diag ρ _) hg] at b
  have hle := ratio_sq_le hρ.le hf a.1 hg b.1 a.2 b.2
  have hlt := lt_of_le_of_lt hle hρ
  have hσ : ∀ i, 0 < devs dx dy f g i := fun i => by
    refine Fin.addCases (fun j => ?_) (fun j => ?_) i
    · simpa [devs, side] using a.2
    · simpa [devs, side] using b.2
  obtain ⟨g1, g2⟩ := gauss_scaled (pairs_posDef (dx := dx) (dy := dy) hkx hlt) hσ
  refine ⟨_, pairs_hasCov hkx hρ hf a.1 hg b.1 a.2 b.2, g1, ?_⟩
  rw [g2]
  unfold gauss
  rw [pairs_number hkx hky hlt]
  exact log_le hle hρ k

theorem map_each {P : Measure ((Fin dx → ℝ) × (Fin dy → ℝ))} {f' g' : ℝ → ℝ} (hf : Measurable f) (hg : Measurable g) (hf' : Measurable f') (hg' : Measurable g') :
    (P.map (Prod.map (fun x i => f (x i)) fun y i => g (y i))).map (Prod.map (fun x i => f' (x i)) fun y i => g' (y i))
      = P.map (Prod.map (fun x i => f' (f (x i))) fun y i => g' (g (y i))) := by
  rw [Measure.map_map (measurable_both hf' hg') (measurable_both hf hg)]
  rfl

/-- The law at the bottom, all coordinates of X mapped by one function and all coordinates of Y by another. -/
theorem each_each (p : Part) {f' g' : ℝ → ℝ} (hf : Measurable f) (hg : Measurable g) (hf' : Measurable f') (hg' : Measurable g') :
    each f' g' (each f g p) = each (fun x => f' (f x)) (fun y => g' (g y)) p := by
  unfold each
  simp only
  rw [map_each hf hg hf' hg']

theorem each_id (p : Part) : each (fun x => x) (fun y => y) p = p := by
  unfold each
  have : (Prod.map (fun (x : Fin p.dx → ℝ) i => x i) fun (y : Fin p.dy → ℝ) i => y i) = id := rfl
  rw [this, Measure.map_id]

theorem measurable_wiggly : (Measurable fun x : ℝ => x + 2 / 5 * Real.sin x + 1 / 5 * Real.sin (17 / 10 * x + 1) + 3 / 100 * Real.sin (33 / 10 * x - 5 / 2)) ∧
    Measurable fun y : ℝ => y - 2 / 5 * Real.sin (2 / 5 * y) + 17 / 100 * Real.sin (13 / 10 * y + 7 / 2) + 1 / 50 * Real.sin (43 / 10 * y - 5 / 2) :=
  ⟨by fun_prop, by fun_prop⟩

theorem measurable_halfCube : Measurable fun v : ℝ => v * √|v| := by fun_prop

theorem measurable_cdf : Measurable (cdf (gaussianReal 0 1)) := by
  rw [show (cdf (gaussianReal 0 1) : ℝ → ℝ) = Samplers.normalCdf from (funext normalCdf_eq_cdf).symm]
  exact continuous_normalCdf.measurable

theorem measurable_power (α : ℝ) : Measurable fun v : ℝ => (SignType.sign v : ℝ) * |v| ^ α := measurable_signedPow α

theorem tower_law {F : Type} (val : F → ℝ) (c : Call F) (ht : Coordinatewise c) (hc : Valid val c) :
    ∃ (dx dy k : ℕ) (ρ : ℝ) (f g : ℝ → ℝ), 0 < dx ∧ 0 < dy ∧ k ≤ dx ∧ k ≤ dy ∧ ρ ^ 2 < 1 ∧ Measurable f ∧ Measurable g ∧
      lawOf val c = each f g ⟨dx, dy, (normalLaw 0 (pairs dx dy k ρ)).map (halves dx dy)⟩ ∧
      numberOf val c = -(k / 2 * Real.log (1 - ρ ^ 2)) ∧ Smooth val c ∧ momentsBelow val c = ⊤ := by
  have step : ∀ {t : Call F} {f' g' : ℝ → ℝ}, Measurable f' → Measurable g' → (∃ (dx dy k : ℕ) (ρ : ℝ) (f g : ℝ → ℝ), 0 < dx ∧ 0 < dy ∧
      k ≤ dx ∧ k ≤ dy ∧ ρ ^ 2 < 1 ∧ Measurable f ∧ Measurable g ∧ lawOf val t = each f g ⟨dx, dy, (normalLaw 0 (pairs dx dy k ρ)).map (halves dx dy)⟩ ∧
      numberOf val t = -(k / 2 * Real.log (1 - ρ ^ 2)) ∧ Smooth val t ∧ momentsBelow val t = ⊤) →
      ∃ (dx dy k : ℕ) (ρ : ℝ) (f g : ℝ → ℝ), 0 < dx ∧ 0 < dy ∧
      k ≤ dx ∧ k ≤ dy ∧ ρ ^ 2 < 1 ∧ Measurable f ∧ Measurable g ∧ each f' g' (lawOf val t) = each f g ⟨dx, dy, (normalLaw 0 (pairs dx dy k ρ)).map (halves dx dy)⟩ ∧
      numberOf val t = -(k / 2 * Real.log (1 - ρ ^ 2)) ∧ Smooth val t ∧ momentsBelow val t = ⊤ := by
    rintro t f' g' hf' hg' ⟨dx, dy, k, ρ, f, g, h1, h2, h3, h4, h5, h6, h7, h8, h9, h10, h11⟩
    exact ⟨dx, dy, k, ρ, _, _, h1, h2, h3, h4, h5, hf'.comp h6, hg'.comp h7, by rw [h8, each_each _ h6 h7 hf' hg']; rfl, h9, h10, h11⟩
  have top : ∀ x : ℝ, (⊤ : ENNReal) / ENNReal.ofReal x = ⊤ := fun x => ENNReal.top_div_of_ne_top ENNReal.ofReal_ne_top
  induction c with
  | binormal ρ =>
    refine ⟨1, 1, 1, val ρ, _, _, one_pos, one_pos, le_rfl, le_rfl, by nlinarith [hc.1, hc.2], measurable_id, measurable_id, ?_, ?_, trivial, rfl⟩
    · refine Eq.trans ?_ (each_id _).symm
      unfold lawOf
      have e : (!![1, val ρ; val ρ, 1] : Matrix (Fin 2) (Fin 2) ℝ) = pairs 1 1 1 (val ρ) := by
        ext i j
        fin_cases i <;> fin_cases j <;> simp [pairs]
      rw [e]
      congr 2
      funext z
      refine Prod.ext (funext fun i => ?_) (funext fun i => ?_) <;> (rw [Subsingleton.elim i 0]; rfl)
    · simp [numberOf]
  | sparse dx dy n s =>
    obtain ⟨h1, h2, h3, h4⟩ := hc
    exact ⟨dx, dy, n, _, _, _, h1, h2, h3, h4, strength_lt (val s), measurable_id, measurable_id, (each_id _).symm, rfl, trivial, rfl⟩
  | asinh t ih =>
    obtain ⟨a1, a2, a3, a4, a5, a6, a7, a8, a9, a10, a11, a12, a13, a14, a15, a16, a17⟩ :=
      step Real.continuous_arsinh.measurable Real.continuous_arsinh.measurable (ih ht hc)
    exact ⟨a1, a2, a3, a4, a5, a6, a7, a8, a9, a10, a11, a12, a13, a14, a15, a16, rfl⟩
  | halfCube t ih =>
    obtain ⟨a1, a2, a3, a4, a5, a6, a7, a8, a9, a10, a11, a12, a13, a14, a15, a16, a17⟩ :=
      step measurable_halfCube measurable_halfCube (ih ht hc)
    exact ⟨a1, a2, a3, a4, a5, a6, a7, a8, a9, a10, a11, a12, a13, a14, a15, a16, by rw [momentsBelow, a17, top]⟩
  | normalCdf t ih =>
    obtain ⟨a1, a2, a3, a4, a5, a6, a7, a8, a9, a10, a11, a12, a13, a14, a15, a16, a17⟩ :=
      step measurable_cdf measurable_cdf (ih ht hc)
    exact ⟨a1, a2, a3, a4, a5, a6, a7, a8, a9, a10, a11, a12, a13, a14, a15, ⟨a16, by rw [a17]; exact ENNReal.ofNat_lt_top⟩, rfl⟩
  | wiggly t ih => exact step measurable_wiggly.1 measurable_wiggly.2 (ih ht hc)
  | power t α ih =>
    obtain ⟨a1, a2, a3, a4, a5, a6, a7, a8, a9, a10, a11, a12, a13, a14, a15, a16, a17⟩ :=
      step (measurable_power (val α)) (measurable_power (val α)) (ih ht hc.1)
    exact ⟨a1, a2, a3, a4, a5, a6, a7, a8, a9, a10, a11, a12, a13, a14, a15, a16, by rw [momentsBelow, a17, top]⟩
  | _ => exact ht.elim

theorem under_tower {F : Type} (val : F → ℝ) (c : Call F) (ht : Coordinatewise c) (hc : Valid val c) : Under (lawOf val c) (numberOf val c) := by
  obtain ⟨dx, dy, k, ρ, f, g, h1, h2, h3, h4, h5, h6, h7, h8, h9, h10, h11⟩ := tower_law val c ht hc
  have hs := task_sides val c hc h10
  rw [h11, h8] at hs
  rw [h8, h9]
  exact under_pairs h1 h2 h3 h4 h5 h6 h7 ENNReal.ofNat_lt_top hs

/-! ## Uncorrelated Student-t variables -/

theorem student_flip {ν : ℝ} (hν : 0 < ν) (i : Fin d) :
    (studentLaw (0 : Fin d → ℝ) 1 ν).map (fun z j => if j = i then -z j else z j) = studentLaw 0 1 ν := by
  let s : Fin d → ℝ := fun j => if j = i then -1 else 1
  have h := studentLaw_map (0 : Fin d → ℝ) (S := 1) Matrix.PosSemidef.one hν (diagonal s)
  have e : diagonal s * 1 * (diagonal s)ᵀ = 1 := by
    rw [Matrix.mul_one, Matrix.diagonal_transpose, Matrix.diagonal_mul_diagonal, ← Matrix.diagonal_one]
    congr 1
    funext j
    simp only [s]
    split_ifs <;> norm_num
  rw [Matrix.mulVec_zero, e] at h
  rw [← h]
  congr 1
  funext z j
  rw [Matrix.mulVec_diagonal]
  simp only [s]
  split_ifs <;> ring

theorem student_uncorrelated {ν : ℝ} (hν : 0 < ν) {i j : Fin d} (hij : i ≠ j) (hf : Measurable f) (hg : Measurable g) (ho : ∀ x, f (-x) = -f x)
    : cov[fun z => f (z i), fun z => g (z j); studentLaw (0 : Fin d → ℝ) 1 ν] = 0 := by
  have m1 : Measurable fun z : Fin d → ℝ => f (z i) := hf.comp (measurable_pi_apply i)
  have m2 : Measurable fun z : Fin d → ℝ => g (z j) := hg.comp (measurable_pi_apply j)
  have m3 : Measurable fun (z : Fin d → ℝ) j => if j = i then -z j else z j := measurable_pi_lambda _ fun k => by
    by_cases h : k = i
    · simp only [h, if_true]; fun_prop
    · simp only [h, if_false]; fun_prop
  have h := covariance_map (μ := studentLaw (0 : Fin d → ℝ) 1 ν) m1.aestronglyMeasurable m2.aestronglyMeasurable m3.aemeasurable
  rw [student_flip hν i] at h
  have e1 : (fun z : Fin d → ℝ => f (z i)) ∘ (fun (z : Fin d → ℝ) j => if j = i then -z j else z j) = fun z => -f (z i) := by
    funext z
    simp [ho]
  have e2 : (fun z : Fin d → ℝ => g (z j)) ∘ (fun (z : Fin d → ℝ) j => if j = i then -z j else z j) = fun z => g (z j) := by
    funext z
    simp [hij.symm]
  rw [e1, e2, covariance_fun_neg_left] at h
  linarith

theorem gauss_one : gauss (1 : Matrix (Fin (dx + dy)) (Fin (dx + dy)) ℝ) = 0 := by
  have ex : blockX (1 : Matrix (Fin (dx + dy)) (Fin (dx + dy)) ℝ) = 1 := by
    ext i j
    simp [blockX, Matrix.one_apply]
  have ey : blockY (1 : Matrix (Fin (dx + dy)) (Fin (dx + dy)) ℝ) = 1 := by
    ext i j
    simp [blockY, Matrix.one_apply]
  simp [gauss, ex, ey]

theorem under_student {ν : ℝ} (hν : 0 < ν) (hf : Measurable f) (ho : ∀ x, f (-x) = -f x) {r : ENNReal} (hr : 2 < r)
    (h : Sides r (each f f ⟨dx, dy, (studentLaw 0 1 ν).map (halves dx dy)⟩)) {m : ℝ} (hm : 0 ≤ m) :
    Under (each f f ⟨dx, dy, (studentLaw 0 1 ν).map (halves dx dy)⟩) m := by
  have e : each f f ⟨dx, dy, (studentLaw 0 1 ν).map (halves dx dy)⟩
      = ⟨dx, dy, (studentLaw 0 1 ν).map fun z => (fun j => f (z (Fin.castAdd dy j)), fun j => f (z (Fin.natAdd dx j)))⟩ := by
    unfold each
    simp only
    rw [Measure.map_map (measurable_both hf hf) measurable_halves]
    rfl
  rw [e] at h ⊢
  haveI := studentLaw_prob (0 : Fin (dx + dy) → ℝ) 1 hν
  have hc := sides_coord hf hf hr h
  have hsd : ∀ i, side dx dy f f i = f := fun i => by
    refine Fin.addCases (fun j => ?_) (fun j => ?_) i <;> simp [side]
  have hσ : ∀ i : Fin (dx + dy), 0 < √Var[fun z => f (z i); studentLaw (0 : Fin (dx + dy) → ℝ) 1 ν] := fun i => by
    have := (hc i).2
    rw [hsd] at this
    exact Real.sqrt_pos.2 this
  obtain ⟨g1, g2⟩ := gauss_scaled (dx := dx) (dy := dy) Matrix.PosDef.one hσ
  refine ⟨_, ⟨fun i => ?_, fun i j => ?_⟩, g1, by rw [g2, gauss_one]; exact hm⟩
  · rw [memLp_map_measure_iff (measurable_append i).aestronglyMeasurable (measurable_spread hf hf).aemeasurable]
    refine (hc i).1.congr_norm ?_ ?_
    · exact ((measurable_append i).comp (measurable_spread hf hf)).aestronglyMeasurable
    · exact .of_forall fun z => by simp only [Function.comp_apply, append_side]
  · simp only
    rw [covariance_map (measurable_append i).aestronglyMeasurable (measurable_append j).aestronglyMeasurable (measurable_spread hf hf).aemeasurable]
    have e : ∀ i : Fin (dx + dy), ((fun z : (Fin dx → ℝ) × (Fin dy → ℝ) => Fin.append z.1 z.2 i) ∘ fun z : Fin (dx + dy) → ℝ =>
        ((fun j => f (z (Fin.castAdd dy j)), fun j => f (z (Fin.natAdd dx j))) : (Fin dx → ℝ) × (Fin dy → ℝ)))
        = fun z => f (z i) := fun i => by
      funext z
      have := append_side (f := f) (g := f) z i
      rw [hsd] at this
      exact this
    rw [e, e, Matrix.of_apply]
    by_cases hij : i = j
    · subst hij
      have hmi : Measurable fun z : Fin (dx + dy) → ℝ => f (z i) := hf.comp (measurable_pi_apply i)
      rw [covariance_self hmi.aemeasurable, Matrix.one_apply_eq, mul_one, Real.mul_self_sqrt (variance_nonneg _ _)]
    · rw [student_uncorrelated hν hij hf hf ho, Matrix.one_apply_ne hij, mul_zero, zero_mul]

theorem oddTower_law {F : Type} (val : F → ℝ) (c : Call F) (ht : OddTower c) (hc : Valid val c) :
    ∃ (dx dy : ℕ) (ν : ℝ) (f : ℝ → ℝ), 0 < dx ∧ 0 < dy ∧ 0 < ν ∧ Measurable f ∧ (∀ x, f (-x) = -f x) ∧
      lawOf val c = each f f ⟨dx, dy, (studentLaw 0 1 ν).map (halves dx dy)⟩ ∧
      numberOf val c = studentEntropy dx ν + studentEntropy dy ν - studentEntropy (dx + dy) ν ∧ Smooth val c := by
  have step : ∀ {t : Call F} {f' : ℝ → ℝ}, Measurable f' → (∀ x, f' (-x) = -f' x) → (∃ (dx dy : ℕ) (ν : ℝ) (f : ℝ → ℝ), 0 < dx ∧ 0 < dy ∧ 0 < ν ∧
      Measurable f ∧ (∀ x, f (-x) = -f x) ∧ lawOf val t = each f f ⟨dx, dy, (studentLaw 0 1 ν).map (halves dx dy)⟩ ∧
      numberOf val t = studentEntropy dx ν + studentEntropy dy ν - studentEntropy (dx + dy) ν ∧ Smooth val t) →
      ∃ (dx dy : ℕ) (ν : ℝ) (f : ℝ → ℝ), 0 < dx ∧ 0 < dy ∧ 0 < ν ∧
      Measurable f ∧ (∀ x, f (-x) = -f x) ∧ each f' f' (lawOf val t) = each f f ⟨dx, dy, (studentLaw 0 1 ν).map (halves dx dy)⟩ ∧
      numberOf val t = studentEntropy dx ν + studentEntropy dy ν - studentEntropy (dx + dy) ν ∧ Smooth val t := by
    rintro t f' hf' ho' ⟨dx, dy, ν, f, h1, h2, h3, h4, h5, h6, h7, h8⟩
    exact ⟨dx, dy, ν, fun x => f' (f x), h1, h2, h3, hf'.comp h4, fun x => by simp only [h5, ho'], by rw [h6, each_each _ h4 h4 hf' hf'], h7, h8⟩
  induction c with
  | studentIdentity dx dy df =>
    exact ⟨dx, dy, df, _, hc.1, hc.2.1, by exact_mod_cast hc.2.2, measurable_id, fun x => rfl, (each_id _).symm, rfl, trivial⟩
  | asinh t ih => exact step Real.continuous_arsinh.measurable (fun x => Real.arsinh_neg x) (ih ht hc)
  | halfCube t ih => exact step measurable_halfCube (fun x => by rw [abs_neg, neg_mul]) (ih ht hc)
  | power t α ih =>
    exact step (measurable_power (val α)) (fun x => by rw [abs_neg, Left.sign_neg, SignType.coe_neg, neg_mul]) (ih ht hc.1)
  | _ => exact ht.elim

theorem under_oddTower {F : Type} (val : F → ℝ) (c : Call F) (ht : OddTower c) (hc : Valid val c) (h2 : 2 < momentsBelow val c) :
    Under (lawOf val c) 0 ∧ 0 < numberOf val c := by
  obtain ⟨dx, dy, ν, f, h1, h2', h3, h4, h5, h6, h7, h8⟩ := oddTower_law val c ht hc
  have hs := task_sides val c hc h8
  rw [h6] at hs
  rw [h6, h7]
  exact ⟨under_student h3 h4 h5 h2 hs le_rfl, by linarith [studentEntropy_lt h1 h2' h3]⟩

end BMI.Cca
