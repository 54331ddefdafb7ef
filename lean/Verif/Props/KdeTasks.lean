import Verif.Props.KdeRule
import Verif.Props.KdeNormal
import Verif.Props.Student
import Verif.Lemmas.StudentCov

/-! C106: the kernel density estimator on normal and Student-t variables. -/

namespace BMI.Kde

open MeasureTheory ProbabilityTheory Filter Topology BMI.Batch BMI.Kde.Spec BMI.Consistency BMI.Samplers BMI.Student

variable {Key : Type} [MeasurableSpace Key] {d dx dy : ℕ}

/-- Normal laws have bounded densities. -/
theorem normal_bounded (m : Fin d → ℝ) {S : Matrix (Fin d) (Fin d) ℝ} (hS : S.PosDef) :
    ∃ M : NNReal, ∀ A, MeasurableSet A → normalLaw m S A ≤ M * volume A := by
  refine le_of_density (C := -(Real.log S.det + d * Real.log (2 * Real.pi)) / 2) (fun z => ?_) (normalLaw_density m hS)
  unfold logDensity
  linarith [quad_nonneg m hS z]

theorem normal_regular (m : Fin d → ℝ) {S : Matrix (Fin d) (Fin d) ℝ} (hS : S.PosDef) : Regular (normalLaw m S) :=
  regular_of_le (normal_bounded m hS) fun c => log_tail_of_memLp (measurable_pi_apply c) (normal_memLp m hS c)

/-- Normal variables. -/
theorem splitNormal_spread (m : Fin (dx + dy) → ℝ) {S : Matrix (Fin (dx + dy)) (Fin (dx + dy)) ℝ} (hS : S.PosDef) : Spread (splitNormal dx dy m S) := by
  refine ⟨?_, ?_, by rw [(splitNormal_mi m hS).1]; exact ENNReal.ofReal_ne_top⟩
  · rw [splitNormal_fst m hS.posSemidef]
    exact normal_regular _ (blockX_posDef hS)
  · rw [splitNormal_snd m hS.posSemidef]
    exact normal_regular _ (blockY_posDef hS)

/-- Student-t laws have bounded densities. -/
theorem student_bounded (loc : Fin d → ℝ) {S : Matrix (Fin d) (Fin d) ℝ} (hS : S.PosDef) {ν : ℝ} (hν : 0 < ν) :
    ∃ M : NNReal, ∀ A, MeasurableSet A → studentLaw loc S ν A ≤ M * volume A := by
  refine le_of_density (C := Real.log (Real.Gamma ((ν + d) / 2)) - Real.log (Real.Gamma (ν / 2)) - d / 2 * Real.log (ν * Real.pi)
    - Real.log S.det / 2) (fun z => ?_) (studentLaw_density loc hS hν)
  unfold studentLog
  have h1 : 0 ≤ Real.log (1 + quad loc S z / ν) := Real.log_nonneg (by linarith [div_nonneg (quad_nonneg loc hS z) hν.le])
  have h2 : 0 ≤ (ν + d) / 2 * Real.log (1 + quad loc S z / ν) := by positivity
  linarith

/-- The distance from the location is bounded by the quadratic form. -/
theorem abs_le_quad (loc : Fin d → ℝ) {S : Matrix (Fin d) (Fin d) ℝ} (hS : S.PosDef) (c : Fin d) :
    ∃ C : ℝ, 0 ≤ C ∧ ∀ z, |z c - loc c| ≤ C * √(quad loc S z) := by
  obtain ⟨A, hA, -, -, h3, -⟩ := sqrt_facts hS
  refine ⟨∑ j, |A c j|, Finset.sum_nonneg fun j _ => abs_nonneg _, fun z => ?_⟩
  set w := (affine loc A h3).symm z with hw
  have hz : z = loc + A.mulVec w := ((affine loc A h3).apply_symm_apply z).symm
  have hq : quad loc S z = w ⬝ᵥ w := by
    rw [hz, hA]
    exact quad_sqrt loc hS w
  have e : z c - loc c = ∑ j, A c j * w j := by
    rw [hz, Pi.add_apply, add_sub_cancel_left]
    rfl
  rw [e, Finset.sum_mul]
  refine (Finset.abs_sum_le_sum_abs _ _).trans (Finset.sum_le_sum fun j _ => ?_)
  rw [abs_mul]
  refine mul_le_mul_of_nonneg_left ?_ (abs_nonneg _)
  refine Real.abs_le_sqrt ?_
  rw [hq, sq]
  exact Finset.single_le_sum (f := fun j => w j * w j) (fun j _ => mul_self_nonneg _) (Finset.mem_univ j)

/-- The logarithms of the components of a Student-t vector have means, even if the components have none. -/
theorem student_log (loc : Fin d → ℝ) {S : Matrix (Fin d) (Fin d) ℝ} (hS : S.PosDef) {ν : ℝ} (hν : 0 < ν) (c : Fin d) :
    Integrable (fun z => Real.log (1 + |z c|)) (studentLaw loc S ν) := by
  haveI := studentLaw_prob loc S hν
  obtain ⟨C, hC, hz⟩ := abs_le_quad loc hS c
  set B := 2 * (1 + |loc c| + C * √ν) with hB
  have hB0 : 0 < B := by positivity
  refine Integrable.mono' ((integral_studentX loc hS hν).1.add (integrable_const (Real.log B))) (log_tail_measurable c).aestronglyMeasurable
    (.of_forall fun z => ?_)
  have hq := div_nonneg (quad_nonneg loc hS z) hν.le
  rw [Real.norm_eq_abs, abs_of_nonneg (Real.log_nonneg (by linarith [abs_nonneg (z c)])), Pi.add_apply]
  unfold studentX
  rw [← Real.log_mul (by positivity) hB0.ne']
  refine Real.log_le_log (by positivity) ?_
  have h1 : |z c| ≤ |loc c| + C * √(quad loc S z) := by
    have := hz z
    have h2 := abs_add_le (z c - loc c) (loc c)
    rw [sub_add_cancel] at h2
    linarith
  have h3 : √(quad loc S z) = √ν * √(quad loc S z / ν) := by
    rw [← Real.sqrt_mul hν.le, mul_div_cancel₀ _ hν.ne']
  set t := quad loc S z / ν with ht
  have h4 : √t ≤ 1 + t := Real.sqrt_le_iff.2 ⟨by positivity, by nlinarith⟩
  have h5 : 0 ≤ C * √ν := by positivity
  have h6 : C * √(quad loc S z) ≤ C * √ν * (1 + t) := by
    rw [h3, ← mul_assoc]
    exact mul_le_mul_of_nonneg_left h4 h5
  rw [hB]
  have h7 := abs_nonneg (loc c)
  nlinarith

theorem student_regular (loc : Fin d → ℝ) {S : Matrix (Fin d) (Fin d) ℝ} (hS : S.PosDef) {ν : ℝ} (hν : 0 < ν) : Regular (studentLaw loc S ν) := by
  haveI := studentLaw_prob loc S hν
  exact regular_of_le (student_bounded loc hS hν) fun c => student_log loc hS hν c

/-- Student-t variables. -/
theorem splitStudent_spread (loc : Fin (dx + dy) → ℝ) {S : Matrix (Fin (dx + dy)) (Fin (dx + dy)) ℝ} (hS : S.PosDef) {ν : ℝ} (hν : 0 < ν) :
    Spread (splitStudent dx dy loc S ν) := by
  refine ⟨?_, ?_, by rw [(splitStudent_mi loc hS hν).1]; exact ENNReal.ofReal_ne_top⟩
  · rw [splitStudent_fst loc hS.posSemidef hν]
    exact student_regular _ (blockX_posDef hS) hν
  · rw [splitStudent_snd loc hS.posSemidef hν]
    exact student_regular _ (blockY_posDef hS) hν

/-- **C106** On every task with normal variables, of any dimensions, the estimates converge to the number the task reports: the default
estimator, and every other one with bandwidths by the two rules. -/
theorem kde_multinormal (R : JaxRandom Key) (κ : Measure Key) (hR : IdealRandom R κ) (hdx : 0 < dx) (hdy : 0 < dy) (mean : Fin (dx + dy) → ℝ)
    {S : Matrix (Fin (dx + dy)) (Fin (dx + dy)) ℝ} (hS : S.PosDef) {Z : Kernel → ℕ → ℝ} (hZ : ∀ k d, Z k d = mass k d) :
    ∃ s, splitMultinormal R dx dy (rowsOf S) (some (List.ofFn mean)) = .ok s ∧
      (∃ E, create "tophat" none none (.text "scott") none none true = .ok E ∧ ConvergesTo κ s (Gives (dx := dx) (dy := dy) Z 0 E) s.mi) ∧
      ∀ E : Estimator, ByRule E.kdeX.bandwidth → ByRule E.kdeY.bandwidth → ByRule E.kdeXY.bandwidth →
        ConvergesTo κ s (Gives (dx := dx) (dy := dy) Z 0 E) s.mi := by
  obtain ⟨s, hs, hc⟩ := splitMultinormal_correct R κ hR dx dy hdx hdy mean S hS
  obtain ⟨s', hs', hmi⟩ := splitMultinormal_number R dx dy hdx hdy mean S hS
  obtain rfl : s = s' := Except.ok.inj (hs.symm.trans hs')
  haveI := hc.prob
  have hm := splitNormal_memLp (dx := dx) (dy := dy) mean hS
  have key : ∀ E : Estimator, ByRule E.kdeX.bandwidth → ByRule E.kdeY.bandwidth → ByRule E.kdeXY.bandwidth →
      ConvergesTo κ s (Gives (dx := dx) (dy := dy) Z 0 E) s.mi := by
    intro E b1 b2 b3
    have h := (kde_consistent (P := splitNormal dx dy mean S) (fun n _ => hc.law n) hdx hdy (splitNormal_spread mean hS) hZ E (fun _ => rfl)
      (fun _ c => by simpa using hm (Fin.castAdd dy c)) (fun _ c => by simpa using hm (Fin.natAdd dx c)) b1 b2 b3)
    rwa [(splitNormal_mi mean hS).1, ENNReal.toReal_ofReal (splitNormal_mi mean hS).2, ← hmi] at h
  exact ⟨s, hs, ⟨_, rfl, key _ (.inl rfl) (.inl rfl) (.inl rfl)⟩, key⟩

/-- **C106** On every task with Student-t variables the estimates converge to the number the task reports: without standardisation for all
degrees of freedom (the Cauchy law included), with standardisation if there are more than two. -/
theorem kde_student {State : Type} [MeasurableSpace State] (R : JaxRandom Key) (N : NpRandom State) (κ : Measure State) (hN : IdealStudent N κ)
    (hdx : 0 < dx) (hdy : 0 < dy) (loc : Fin (dx + dy) → ℝ) {S : Matrix (Fin (dx + dy)) (Fin (dx + dy)) ℝ} (hS : S.PosDef) {df : ℝ} (hdf : 0 < df)
    {Z : Kernel → ℕ → ℝ} (hZ : ∀ k d, Z k d = mass k d) :
    ∃ t, splitStudentT R N dx dy df (rowsOf S) (some (List.ofFn loc)) = .ok t ∧
      ∀ E : Estimator, (E.standardize = true → 2 < df) → ByRule E.kdeX.bandwidth → ByRule E.kdeY.bandwidth → ByRule E.kdeXY.bandwidth →
        ConvergesTo κ t.sampler (Gives (dx := dx) (dy := dy) Z 0 E) t.sampler.mi := by
  obtain ⟨t, ht, -, -, -, hpos, hmi, hs⟩ := splitStudentT_correct R N κ hN dx dy hdx hdy loc S hS df hdf
  haveI := splitStudent_prob (dx := dx) (dy := dy) loc S hdf
  refine ⟨t, ht, fun E h2 b1 b2 b3 => ?_⟩
  have mp := measurable_parts dx dy
  have h := (kde_consistent (P := splitStudent dx dy loc S df) hs hdx hdy (splitStudent_spread loc hS hdf) hZ E (fun _ => rfl)
    (fun hE c => (memLp_map_measure_iff ((measurable_pi_apply c).comp measurable_fst).aestronglyMeasurable mp.aemeasurable).2
      (studentLaw_memLp loc (h2 hE) (Fin.castAdd dy c)))
    (fun hE c => (memLp_map_measure_iff ((measurable_pi_apply c).comp measurable_snd).aestronglyMeasurable mp.aemeasurable).2
      (studentLaw_memLp loc (h2 hE) (Fin.natAdd dx c))) b1 b2 b3)
  have e : mutualInfo (splitStudent dx dy loc S df) = ENNReal.ofReal t.sampler.mi := hmi
  rwa [e, ENNReal.toReal_ofReal hpos.le] at h

/-- Two and three components with means 7. -/
example : ∃ s, splitMultinormal tree 2 3 (rowsOf (1 : Matrix (Fin (2 + 3)) (Fin (2 + 3)) ℝ)) (some (List.ofFn fun _ : Fin (2 + 3) => 7)) = .ok s ∧
    ∃ E, create "tophat" none none (.text "scott") none none true = .ok E ∧ ConvergesTo treeLaw s (Gives (dx := 2) (dy := 3) mass 0 E) s.mi := by
  obtain ⟨s, h1, h2, -⟩ := kde_multinormal tree treeLaw tree_ideal (dx := 2) (dy := 3) (by norm_num) (by norm_num) (fun _ => 7) Matrix.PosDef.one fun _ _ => rfl
  exact ⟨s, h1, h2⟩

/-- Cauchy variables, not standardised. -/
example : ∃ t E, splitStudentT tree table 1 1 1 (rowsOf (1 : Matrix (Fin (1 + 1)) (Fin (1 + 1)) ℝ)) (some (List.ofFn fun _ : Fin (1 + 1) => 0)) = .ok t ∧
    create "gaussian" none none (.text "silverman") none none false = .ok E ∧
    ConvergesTo tableLaw t.sampler (Gives (dx := 1) (dy := 1) mass 0 E) t.sampler.mi := by
  obtain ⟨t, h1, h2⟩ := kde_student tree table tableLaw table_ideal (dx := 1) (dy := 1) one_pos one_pos (fun _ => 0) Matrix.PosDef.one (df := 1) one_pos
    (Z := mass) fun _ _ => rfl
  exact ⟨t, _, h1, rfl, h2 _ (by simp) (.inr rfl) (.inr rfl) (.inr rfl)⟩

end BMI.Kde
