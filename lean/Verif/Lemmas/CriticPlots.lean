import Verif.Spec.CriticPlots
import Verif.Props.Integration
import Verif.Props.ProfilesPlot
import Verif.Props.OptimalCritic
import Verif.Props.NeuralEstimator

/-! Grids, images and the pointwise mutual information of four balls. -/

namespace BMI.CriticPlots

open MeasureTheory ProbabilityTheory BMI.Samplers BMI.Bmm BMI.MatrixUtils BMI.Integration BMI.MixtureTasks

/-! ## Arrays -/

section
variable {n : ℕ} (a : Fin n → ℝ)

theorem mapM_ok_ofFn {A B : Type} (u : Fin n → A) (F : A → Except Err B) (v : Fin n → B) (h : ∀ i, F (u i) = .ok (v i)) :
    (List.ofFn u).mapM F = .ok (List.ofFn v) := by
  induction n with
  | zero => rfl
  | succ n ih =>
    rw [List.ofFn_succ, List.ofFn_succ, List.mapM_cons, h 0, ih _ _ fun i => h i.succ]
    rfl

theorem zipWith_ofFn' {A B C : Type} (F : A → B → C) (u : Fin n → A) (v : Fin n → B) :
    List.zipWith F (List.ofFn u) (List.ofFn v) = List.ofFn fun i => F (u i) (v i) := by
  refine List.ext_getElem (by simp) fun i h1 h2 => ?_
  simp

theorem getD_ofFn {A : Type} (u : Fin n → A) (d : A) (i : Fin n) : (List.ofFn u).getD i d = u i := by
  rw [List.getD_eq_getElem?_getD, List.getElem?_eq_getElem (by simp)]
  simp

theorem transposed_ofFn (hn : 0 < n) (g : Fin n → Fin n → ℝ) :
    transposed (List.ofFn fun i => List.ofFn fun j => g i j) = List.ofFn fun j => List.ofFn fun i => g i j := by
  obtain ⟨m, rfl⟩ : ∃ m, n = m + 1 := ⟨n - 1, by omega⟩
  unfold transposed
  rw [show ((List.ofFn fun i => List.ofFn fun j => g i j).headD []).length = m + 1 by
    rw [List.ofFn_succ, List.headD_cons, List.length_ofFn]]
  refine List.ext_getElem (by rw [List.length_map, List.length_range, List.length_ofFn]) fun j h1 h2 => ?_
  rw [List.length_ofFn] at h2
  rw [List.getElem_map, List.getElem_range, List.getElem_ofFn, List.map_ofFn]
  congr 1
  funext i
  exact getD_ofFn (g i) 0 ⟨j, h2⟩

theorem average_ofFn (u : Fin n → ℝ) : average (List.ofFn u) = (∑ i, u i) / n := by
  rw [average, List.sum_ofFn, List.length_ofFn]

theorem average_flatten (g : Fin n → Fin n → ℝ) :
    average (List.ofFn fun i => List.ofFn fun j => g i j).flatten = (∑ i, ∑ j, g i j) / (n * n : ℕ) := by
  rw [average, List.sum_flatten, List.length_flatten, List.map_ofFn, List.map_ofFn, List.sum_ofFn]
  simp [Function.comp_def, List.sum_ofFn]

theorem removeDv_ofFn (g : Fin n → Fin n → ℝ) : removeDvDofs (List.ofFn fun i => List.ofFn fun j => g i j)
    = List.ofFn fun i => List.ofFn fun j => g i j - (∑ i, ∑ j, g i j) / (n * n : ℕ) := by
  unfold removeDvDofs
  rw [average_flatten]
  simp only [List.map_ofFn, Function.comp_def]

theorem removeNce_ofFn (g : Fin n → Fin n → ℝ) : removeNceDofs (List.ofFn fun i => List.ofFn fun j => g i j)
    = List.ofFn fun i => List.ofFn fun j => g i j - (∑ k, g i k) / n := by
  unfold removeNceDofs
  rw [List.map_ofFn]
  congr 1
  funext i
  simp only [Function.comp_def, average_ofFn, List.map_ofFn]

theorem minus_one_ofFn (g : Fin n → Fin n → ℝ) : ((List.ofFn fun i => List.ofFn fun j => g i j).map fun row => row.map (· - 1))
    = List.ofFn fun i => List.ofFn fun j => g i j - 1 := by
  simp only [List.map_ofFn, Function.comp_def]

end

theorem linspace_eq : linspace (-5) 5 101 = List.ofFn node := by
  unfold linspace
  refine List.ext_getElem (by rw [List.length_map, List.length_range, List.length_ofFn]) fun i h1 h2 => ?_
  rw [List.getElem_ofFn, List.getElem_map, List.getElem_range]
  unfold node
  norm_num
  ring

theorem makeGrid_eq (fn : Arr → Arr → Except Err (List ℝ)) (g : ℝ → ℝ → ℝ)
    (h : ∀ x, fn (List.ofFn fun _ : Fin 101 => [x]) (List.ofFn fun j => [node j]) = .ok (List.ofFn fun j => g x (node j))) :
    makeGrid fn (-5, 5) none 101 = .ok (List.ofFn fun i => List.ofFn fun j => g (node i) (node j)) := by
  unfold makeGrid
  simp only [Option.getD_none]
  rw [linspace_eq]
  refine mapM_ok_ofFn node _ _ fun i => ?_
  rw [List.map_ofFn, List.map_ofFn]
  exact h (node i)

theorem plotGrid_shows (g : ℝ → ℝ → ℝ) (grid : List (List ℝ)) (h : grid = List.ofFn fun i => List.ofFn fun j => g (node i) (node j)) :
    Shows (plotGrid grid (some (-5, 5)) none) g := by
  refine ⟨rfl, ?_⟩
  rw [h]
  exact transposed_ofFn (by norm_num) fun i j => g (node i) (node j)

/-! ## Four balls -/

variable {Key : Type} [MeasurableSpace Key] {T : Tfp Key} {κ : Measure Key}

theorem bell_pos (a : ℝ) {s : ℝ} (hs : 0 < s) (x : ℝ) : 0 < bell a s x :=
  div_pos (Real.exp_pos _) (Real.sqrt_pos.2 (by positivity))

theorem bell_exp (a : ℝ) {s : ℝ} (hs : 0 < s) (x : ℝ) :
    Real.exp (-(Real.log s + Real.log (2 * Real.pi)) / 2 - (x - a) ^ 2 / s / 2) = bell a s x := by
  have h2 : 0 < 2 * Real.pi * s := by positivity
  rw [Real.exp_sub, bell]
  have e1 : Real.exp (-(Real.log s + Real.log (2 * Real.pi)) / 2) = (√(2 * Real.pi * s))⁻¹ := by
    rw [← Real.log_mul hs.ne' (by positivity), neg_div, Real.exp_neg, ← Real.log_sqrt (by positivity),
      Real.exp_log (Real.sqrt_pos.2 (by positivity)), mul_comm]
  rw [e1, show -(x - a) ^ 2 / (2 * s) = -((x - a) ^ 2 / s / 2) by field_simp, Real.exp_neg]
  field_simp

theorem ball_var (j : Fin 4) : 0 < (balls j).2 := by fin_cases j <;> norm_num [balls]

theorem weight_pos (j : Fin 4) : 0 < weight j := by fin_cases j <;> norm_num [weight]

theorem ballsPdf_pos (x y : ℝ) : 0 < ballsPdf x y :=
  Finset.sum_pos (fun j _ => mul_pos (weight_pos j) (mul_pos (bell_pos _ (ball_var j) _) (bell_pos _ (ball_var j) _))) Finset.univ_nonempty

theorem ballsX_pos (x : ℝ) : 0 < ballsX x :=
  Finset.sum_pos (fun j _ => mul_pos (weight_pos j) (bell_pos _ (ball_var j) _)) Finset.univ_nonempty

theorem ballsY_pos (y : ℝ) : 0 < ballsY y :=
  Finset.sum_pos (fun j _ => mul_pos (weight_pos j) (bell_pos _ (ball_var j) _)) Finset.univ_nonempty

theorem continuous_bell (a s : ℝ) : Continuous (bell a s) := by
  unfold bell
  fun_prop

theorem continuous_ballsPmi : Continuous fun p : ℝ × ℝ => ballsPmi p.1 p.2 := by
  unfold ballsPmi
  have hb := continuous_bell
  have h1 : Continuous fun p : ℝ × ℝ => ballsPdf p.1 p.2 := by
    unfold ballsPdf
    exact continuous_finset_sum _ fun j _ => continuous_const.mul (((hb _ _).comp continuous_fst).mul ((hb _ _).comp continuous_snd))
  have h2 : Continuous ballsX := continuous_finset_sum _ fun j _ => continuous_const.mul (hb _ _)
  have h3 : Continuous ballsY := continuous_finset_sum _ fun j _ => continuous_const.mul (hb _ _)
  exact (h1.div ((h2.comp continuous_fst).mul (h3.comp continuous_snd)) fun p => (mul_pos (ballsX_pos _) (ballsY_pos _)).ne').log
    fun p => (div_pos (ballsPdf_pos _ _) (mul_pos (ballsX_pos _) (ballsY_pos _))).ne'

/-- The sampler of the notebook. -/
theorem sampler_ok (hT : IdealTfp T κ) (R₀ : JaxRandom Key) : ∃ J : JointDistribution Key,
    (∀ R : JaxRandom Key, samplerFourBalls R T = .ok ⟨J, none, none, .seed 0, 200000, 0⟩) ∧
    Consistent κ J Set.univ Set.univ lawOfBalls ∧ Tame J lawOfBalls ∧
    (∀ x y, J.distJoint.logProb [x, y] = (Real.log (ballsPdf x y) : ℝ)) ∧ (∀ x, J.distX.logProb [x] = (Real.log (ballsX x) : ℝ)) ∧
    ∀ y, J.distY.logProb [y] = (Real.log (ballsY y) : ℝ) := by
  choose J h1 h2 h3 using fun j : Fin 4 => normal_component hT R₀ 1 1 one_pos one_pos
    ![(balls j).1.1, (balls j).1.2] ((balls j).2 • 1) (Matrix.PosDef.one.smul (ball_var j))
  have hp0 : ∀ j : Fin 4, 0 ≤ weight j := fun j => (weight_pos j).le
  have hp1 : ∑ j, weight j = 1 := by
    simp [Fin.sum_univ_succ, weight]
    norm_num
  obtain ⟨M, m1, -, m2⟩ := mixture_consistent hT _ hp0 hp1 J _ h2
  obtain ⟨m, a1, a2⟩ := canonical_pair 0.0
  have r1 : rowsOf m = [[1, 0], [0, 1]] := by
    rw [a2]
    norm_num [rowsOf, List.ofFn_succ]
  have r2 : rowsOf ((0.2 : ℝ) • m) = [[1 / 5, 0], [0, 1 / 5]] := by
    rw [rowsOf_smul, r1]
    norm_num
  have hlog : ∀ (j : Fin 4) (x y : ℝ), _ := fun j x y => Profiles.round_logs hT R₀ (ball_var j) (balls j).1.1 (balls j).1.2
    (J := J j) (by
      have := h1 j
      rwa [show List.ofFn ![(balls j).1.1, (balls j).1.2] = [(balls j).1.1, (balls j).1.2] by simp] at this) x y
  have hshape : M.distJoint = tfdMixture T (List.ofFn weight) (List.ofFn fun j => (J j).distJoint) ∧
      M.distX = tfdMixture T (List.ofFn weight) (List.ofFn fun j => (J j).distX) ∧
      M.distY = tfdMixture T (List.ofFn weight) (List.ofFn fun j => (J j).distY) := by
    have := m1
    rw [List.ofFn_succ (f := J)] at this
    simp only [mixture] at this
    split_ifs at this
    rw [← Except.ok.inj this]
    simp [List.ofFn_succ]
  have c0 := h1 0
  rw [show balls 0 = ((-5 / 4, -5 / 4), 1) from rfl] at c0
  have c1 := h1 1
  rw [show balls 1 = ((5 / 4, 5 / 4), 1) from rfl] at c1
  have c2 := h1 2
  rw [show balls 2 = ((-5 / 2, 5 / 2), 1 / 5) from rfl] at c2
  have c3 := h1 3
  rw [show balls 3 = ((5 / 2, -5 / 2), 1 / 5) from rfl] at c3
  have nn : ∀ (R : JaxRandom Key) (cov : Arr) (m : Option (List ℝ)), multivariateNormalDistribution R T 1 1 cov m
      = multivariateNormalDistribution R₀ T 1 1 cov m := fun R cov m => normal_indep R R₀ T 1 1 cov m
  have e0 : multivariateNormalDistribution R₀ T 1 1 (rowsOf m) (some [-1.25, -1.25]) = .ok (J 0) := by
    rw [r1, ← c0]
    norm_num [rowsOf, List.ofFn_succ]
  have e1 : multivariateNormalDistribution R₀ T 1 1 (rowsOf m) (some [1.25, 1.25]) = .ok (J 1) := by
    rw [r1, ← c1]
    norm_num [rowsOf, List.ofFn_succ]
  have e2 : multivariateNormalDistribution R₀ T 1 1 (rowsOf ((0.2 : ℝ) • m)) (some [-2.5, 2.5]) = .ok (J 2) := by
    rw [r2, ← c2]
    norm_num [rowsOf, List.ofFn_succ, Matrix.one_apply]
  have e3 : multivariateNormalDistribution R₀ T 1 1 (rowsOf ((0.2 : ℝ) • m)) (some [2.5, -2.5]) = .ok (J 3) := by
    rw [r2, ← c3]
    norm_num [rowsOf, List.ofFn_succ, Matrix.one_apply]
  have em : mixture T [0.3, 0.3, 0.2, 0.2] [J 0, J 1, J 2, J 3] = .ok M := by
    rw [← m1]
    norm_num [List.ofFn_succ, weight]
    rfl
  have sp : ∀ l : Fin 4 → ℝ, 0 < ∑ j, weight j * Real.exp (l j) := fun l =>
    Finset.sum_pos (fun j _ => mul_pos (weight_pos j) (Real.exp_pos _)) Finset.univ_nonempty
  refine ⟨M, fun R => ?_, m2, tame_mixture T hp0 hp1 h3 m1, fun x y => ?_, fun x => ?_, fun y => ?_⟩
  · unfold samplerFourBalls
    simp only [nn R, a1, bind, Except.bind, e0, e1, e2, e3, em]
    obtain ⟨s, hs⟩ := (bmmSampler_accepts_iff M none (.seed 0) 200000).1.2
      ⟨by rw [m2.dimX], by rw [m2.dimY], by norm_num⟩
    rw [hs, (bmmSampler_ok hs).1]
    rfl
  · rw [hshape.1, Profiles.mixture_log T hp0 (fun j => (J j).distJoint) [x, y] (fun j => (hlog j x y).1) (sp _)]
    congr 2
    refine Finset.sum_congr rfl fun j _ => ?_
    rw [Real.exp_add, bell_exp _ (ball_var j), bell_exp _ (ball_var j)]
  · rw [hshape.2.1, Profiles.mixture_log T hp0 (fun j => (J j).distX) [x] (fun j => (hlog j x 0).2.1) (sp _)]
    congr 2
    refine Finset.sum_congr rfl fun j _ => ?_
    rw [bell_exp _ (ball_var j)]
  · rw [hshape.2.2, Profiles.mixture_log T hp0 (fun j => (J j).distY) [y] (fun j => (hlog j 0 y).2.2) (sp _)]
    congr 2
    refine Finset.sum_congr rfl fun j _ => ?_
    rw [bell_exp _ (ball_var j)]

end BMI.CriticPlots
