import Verif.Lemmas.CriticPlots
import Verif.Props.Gallery

/-! C78: the figures which compare trained critics with the pointwise mutual information. -/

namespace BMI.CriticPlots

open MeasureTheory ProbabilityTheory BMI.Samplers BMI.Bmm BMI.MatrixUtils BMI.Integration BMI.MixtureTasks
open BMI.NeuralEstimator (Lib Point)
open BMI.NeuralData (IdealRng)
open BMI.Mine (Formula)

variable {Key : Type} [MeasurableSpace Key] {T : Tfp Key} {κ : Measure Key}

/-- The critic `f` comes from at most 10000 steps of gradient descent of rate 1/10, each on a batch of 512 different pairs out of 2500
which have been chosen from the 5000 pairs `w` as they are. -/
def Trained {Key Θ O : Type} [NormedAddCommGroup Θ] [NormedSpace ℝ Θ] (lib : NeuralEstimator.Lib Key Θ O)
    (objective : Mine.Formula (List ℝ) (List ℝ)) (w : Fin 5000 → (Fin 1 → ℝ) × (Fin 1 → ℝ)) (f : Critic) : Prop :=
  ∃ (k : Key) (θ : Θ) (training : List (List ℝ × List ℝ)) (batches : List (List (List ℝ) × List (List ℝ))),
    lib.factory k 1 1 = .ok θ ∧ training.length = 2500 ∧
    training.Subperm (List.ofFn fun i => ([(w i).1 0], [(w i).2 0])) ∧
    batches.length ≤ 10000 ∧
    (∀ b ∈ batches, b.1.length = 512 ∧ b.2.length = 512 ∧ (b.1.zip b.2).Subperm training) ∧
    f = lib.call (NeuralEstimator.basicRun (lib.adam 0.1) lib.call objective (θ, (lib.adam 0.1).init θ) batches).1

/-- **C78**: the nodes begin at -5, end at 5, and each lies in the pixel which shows it. -/
theorem node_pixel : node 0 = -5 ∧ node 100 = 5 ∧ ∀ i : Fin 101, node i ∈ pixel (-5) 5 101 i := by
  refine ⟨by norm_num [node], by norm_num [node], fun i => ?_⟩
  have h0 : (0 : ℝ) ≤ (i : ℕ) := Nat.cast_nonneg _
  have h1 : ((i : ℕ) : ℝ) ≤ 100 := by exact_mod_cast Nat.lt_succ_iff.1 i.2
  unfold pixel node
  constructor <;> push_cast <;> linarith

theorem pmiAt_balls {J : JointDistribution Key} (h1 : ∀ x y, J.distJoint.logProb [x, y] = (Real.log (ballsPdf x y) : ℝ))
    (h2 : ∀ x, J.distX.logProb [x] = (Real.log (ballsX x) : ℝ)) (h3 : ∀ y, J.distY.logProb [y] = (Real.log (ballsY y) : ℝ)) (x y : ℝ) :
    J.pmiAt [x] [y] = (ballsPmi x y : EReal) := by
  unfold JointDistribution.pmiAt
  simp only [List.singleton_append, h1, h2, h3]
  rw [← EReal.coe_add, ← EReal.coe_sub, ballsPmi, Real.log_div (ballsPdf_pos _ _).ne'
    (mul_pos (ballsX_pos _) (ballsY_pos _)).ne', Real.log_mul (ballsX_pos _).ne' (ballsY_pos _).ne']

theorem ofFn_one (x : Fin 1 → ℝ) : List.ofFn x = [x 0] := by simp

/-- **C78**: `ballsPmi` is the pointwise mutual information of the four balls, and both variables meet every open set. -/
theorem balls_pmi : IsPmi lawOfBalls (fun x y => ballsPmi (x 0) (y 0)) ∧ lawOfBalls.fst.IsOpenPosMeasure ∧ lawOfBalls.snd.IsOpenPosMeasure := by
  obtain ⟨J, -, h2, h3, h4, h5, h6⟩ := sampler_ok path_ideal pathRandom
  haveI := h2.prob
  refine ⟨?_, ?_, ?_⟩
  · obtain ⟨a, b⟩ := pmi_of_tame h2 h3
    have : (fun (x : Fin 1 → ℝ) (y : Fin 1 → ℝ) => pmiOf J (List.ofFn x) (List.ofFn y)) = fun x y => ballsPmi (x 0) (y 0) := by
      funext x y
      have := b x y
      rw [ofFn_one, ofFn_one, pmiAt_balls h4 h5 h6] at this
      rw [ofFn_one, ofFn_one]
      exact (EReal.coe_injective this).symm
    rwa [this] at a
  · have hd := h2.x.density
    have hm := h2.x.measurable
    rw [Measure.restrict_univ] at hd hm
    have : (volume : Measure (Fin 1 → ℝ)) ≪ lawOfBalls.fst := by
      rw [hd]
      refine withDensity_absolutelyContinuous' (EReal.measurable_exp.comp_aemeasurable hm) (Filter.Eventually.of_forall fun z => ?_)
      rw [ofFn_one, h5, EReal.exp_coe]
      exact (ENNReal.ofReal_pos.2 (Real.exp_pos _)).ne'
    exact this.isOpenPosMeasure
  · have hd := h2.y.density
    have hm := h2.y.measurable
    rw [Measure.restrict_univ] at hd hm
    have : (volume : Measure (Fin 1 → ℝ)) ≪ lawOfBalls.snd := by
      rw [hd]
      refine withDensity_absolutelyContinuous' (EReal.measurable_exp.comp_aemeasurable hm) (Filter.Eventually.of_forall fun z => ?_)
      rw [ofFn_one, h6, EReal.exp_coe]
      exact (ENNReal.ofReal_pos.2 (Real.exp_pos _)).ne'
    exact this.isOpenPosMeasure

theorem pmi_list {n : ℕ} {J : JointDistribution Key} (h : ∀ x y, J.pmiAt [x] [y] = (ballsPmi x y : EReal)) (u v : Fin n → ℝ) :
    (J.pmi (List.ofFn fun i => [u i]) (List.ofFn fun i => [v i])).map (List.map EReal.toReal)
      = .ok (List.ofFn fun i => ballsPmi (u i) (v i)) := by
  unfold JointDistribution.pmi
  rw [if_pos (by rw [List.length_ofFn, List.length_ofFn]), zipWith_ofFn']
  simp only [Except.map, List.map_ofFn, Function.comp_def, h, EReal.toReal_coe]

theorem rowsOf_one {n : ℕ} (w : Fin n → Fin 1 → ℝ) : rowsOf w = List.ofFn fun i => [w i 0] := by
  unfold rowsOf
  simp only [ofFn_one]

theorem critic_list {n : ℕ} (f : Critic) (u v : Fin n → ℝ) :
    List.zipWith f (List.ofFn fun i => [u i]) (List.ofFn fun i => [v i]) = List.ofFn fun i => f [u i] [v i] := zipWith_ofFn' _ _ _

theorem gridCritic_eq (f : Critic) : gridCritic f (-5, 5) none 101
    = .ok (List.ofFn fun i => List.ofFn fun j => f [node i] [node j]) := by
  unfold gridCritic
  refine makeGrid_eq _ (fun x y => f [x] [y]) fun x => ?_
  rw [critic_list f (fun _ => x) node]

theorem removeDv_of {n : ℕ} {M : ℝ} (hM : ((n * n : ℕ) : ℝ) = M) (g : Fin n → Fin n → ℝ) :
    removeDvDofs (List.ofFn fun i => List.ofFn fun j => g i j)
      = List.ofFn fun i => List.ofFn fun j => g i j - (∑ i, ∑ j, g i j) / M := by
  rw [removeDv_ofFn, hM]

theorem removeNce_of {n : ℕ} {M : ℝ} (hM : (n : ℝ) = M) (g : Fin n → Fin n → ℝ) :
    removeNceDofs (List.ofFn fun i => List.ofFn fun j => g i j)
      = List.ofFn fun i => List.ofFn fun j => g i j - (∑ k, g i k) / M := by
  rw [removeNce_ofFn, hM]

theorem minus_list {n : ℕ} (u : Fin n → ℝ) : (List.ofFn u).map (· - 1) = List.ofFn fun i => u i - 1 := by
  rw [List.map_ofFn]
  rfl

theorem centred_list {n : ℕ} {M : ℝ} (hM : (n : ℝ) = M) (u : Fin n → ℝ) :
    (List.ofFn u).map (· - average (List.ofFn u)) = List.ofFn fun i => u i - (∑ k, u k) / M := by
  rw [average_ofFn, List.map_ofFn, hM]
  rfl

/-- The figure of a sampler of four balls. -/
theorem figure_of {J : JointDistribution Key} (h : ∀ x y, J.pmiAt [x] [y] = (ballsPmi x y : EReal)) (R : JaxRandom Key)
    {s : BmmSampler Key} (hs : s.dist = J) {w : Fin 25000 → (Fin 1 → ℝ) × (Fin 1 → ℝ)}
    (hw : J.sample 25000 (R.prngKey 43) = .ok (rowsOf fun i => (w i).1, rowsOf fun i => (w i).2)) (c : Critics) :
    ∃ fig, criticsFigure R s c = .ok fig ∧ Compares fig c w := by
  have hp : gridSamplerPmi s (-5, 5) none 101 = .ok (List.ofFn fun i => List.ofFn fun j => ballsPmi (node i) (node j)) := by
    unfold gridSamplerPmi
    refine makeGrid_eq _ ballsPmi fun x => ?_
    rw [hs]
    exact pmi_list h (fun _ => x) node
  have hsam : s.sample R 25000 (.key (R.prngKey 43)) = .ok (List.ofFn fun i => [(w i).1 0], List.ofFn fun i => [(w i).2 0]) := by
    unfold BmmSampler.sample
    rw [hs, ← rowsOf_one, ← rowsOf_one]
    exact hw
  unfold criticsFigure
  rw [hp, gridCritic_eq, gridCritic_eq, gridCritic_eq, hsam]
  simp only [bind, Except.bind]
  rw [hs, pmi_list h (fun i => (w i).1 0) fun i => (w i).2 0]
  dsimp only
  rw [critic_list c.nwj (fun i => (w i).1 0) fun i => (w i).2 0, critic_list c.dv (fun i => (w i).1 0) fun i => (w i).2 0,
    centred_list (M := 25000) (by norm_num) fun i => ballsPmi ((w i).1 0) ((w i).2 0),
    centred_list (M := 25000) (by norm_num) fun i => c.dv [(w i).1 0] [(w i).2 0], minus_list,
    removeDv_of (M := 10201) (by norm_num) fun i j => c.dv [node i] [node j],
    removeDv_of (M := 10201) (by norm_num) fun i j => ballsPmi (node i) (node j),
    removeNce_of (M := 101) (by norm_num) fun i j => c.nce [node i] [node j],
    removeNce_of (M := 101) (by norm_num) fun i j => ballsPmi (node i) (node j)]
  refine ⟨_, rfl, ?_, ?_, ?_, ?_, ?_, ?_, ?_, ?_, ?_, ?_⟩
  · exact plotGrid_shows (fun x y => c.nwj [x] [y] - 1) _ (minus_one_ofFn fun i j => c.nwj [node i] [node j])
  · exact plotGrid_shows ballsPmi _ rfl
  · exact plotGrid_shows (fun x y => c.dv [x] [y] - (∑ i, ∑ j, c.dv [node i] [node j]) / 10201) _ rfl
  · exact plotGrid_shows (fun x y => ballsPmi x y - (∑ i, ∑ j, ballsPmi (node i) (node j)) / 10201) _ rfl
  · exact plotGrid_shows (fun x y => c.nce [x] [y] - (∑ j, c.nce [x] [node j]) / 101) _ rfl
  · exact plotGrid_shows (fun x y => ballsPmi x y - (∑ j, ballsPmi x (node j)) / 101) _ rfl
  all_goals dsimp only

/-- **C78**, figure of given critics: whatever the critics, the figure compares them with the pointwise mutual information on the grid and
on 25000 independent points of the four balls. -/
theorem figure_compares (hT : IdealTfp T κ) (R₀ : JaxRandom Key) : ∃ w : Key → Fin 25000 → (Fin 1 → ℝ) × (Fin 1 → ℝ),
    MeasurePreserving w κ (Measure.pi fun _ => lawOfBalls) ∧
    ∀ R : JaxRandom Key, ∃ s, samplerFourBalls R T = .ok s ∧
      ∀ c : Critics, ∃ fig, criticsFigure R s c = .ok fig ∧ Compares fig c (w (R.prngKey 43)) := by
  obtain ⟨J, h1, h2, -, h4, h5, h6⟩ := sampler_ok hT R₀
  obtain ⟨w, hw, hs⟩ := sample_draws h2 25000 (by norm_num)
  exact ⟨w, hw, fun R => ⟨_, h1 R, fun c => figure_of (pmiAt_balls h4 h5 h6) R rfl (hs _) c⟩⟩

theorem rows_matOf {n : ℕ} (w : Fin n → Fin 1 → ℝ) (ε : ℝ) :
    NeuralEstimator.xRows ε params (matOf 1 (List.ofFn fun i => [w i 0])) = List.ofFn fun i => [w i 0] := by
  unfold NeuralEstimator.xRows NeuralEstimator.rows
  rw [show PSpace.stored ε params.standardize (matOf 1 (List.ofFn fun i => [w i 0])) = matOf 1 (List.ofFn fun i => [w i 0]) from rfl]
  refine List.ext_getElem (by simp [matOf]) fun i h1 h2 => ?_
  rw [List.getElem_ofFn, List.getElem_ofFn]
  have hi : i < n := by simpa using h2
  have := getD_ofFn (fun i => [w i 0]) [] ⟨i, hi⟩
  simp only [matOf, ofFn_one]
  simp only at this
  simp [hi]

theorem matOf_n {n : ℕ} (u : Fin n → Fin 1 → ℝ) : (matOf 1 (List.ofFn fun i => [u i 0])).n = n := List.length_ofFn

/-- **C78**, training: the critics are trained on half of the points, which have not been standardised. -/
theorem trained {Θ O : Type} [NormedAddCommGroup Θ] [NormedSpace ℝ Θ] {lib : Lib Key Θ O} (hr : IdealRng lib.rng)
    (hfac : ∀ k, ∃ θ, lib.factory k 1 1 = .ok θ) (ε : ℝ) (F FT : Formula Point Point) (w : Fin 5000 → (Fin 1 → ℝ) × (Fin 1 → ℝ)) :
    ∃ f, trainedCritic lib ε F FT (rowsOf fun i => (w i).1) (rowsOf fun i => (w i).2) = .ok f ∧ Trained lib F w f := by
  have hmk : NeuralEstimator.mk (Θ := Θ) params = .ok ⟨params, none⟩ := by
    obtain ⟨est, he⟩ := (NeuralEstimator.mk_accepts_iff (Θ := Θ) params).1.2 (by norm_num [params])
    rw [he]
    unfold NeuralEstimator.mk at he
    cases hv : NeuralEstimator.validate params with
    | error e => rw [hv] at he; cases he
    | ok u => rw [hv] at he; exact he.symm
  have hl : ∀ u : Fin 5000 → Fin 1 → ℝ, (matOf 1 (List.ofFn fun i => [u i 0])).n = 5000 := fun u => matOf_n u
  have hfl : ⌊(0.5 : ℝ) * (5000 : ℕ)⌋₊ = 2500 := by rw [Nat.floor_eq_iff] <;> norm_num
  rw [rowsOf_one, rowsOf_one]
  obtain ⟨xTr, xTe, yTr, yTe, θ, log, bs, h1, ⟨k, h2⟩, h3, -, h5, h6, -⟩ := NeuralEstimator.estimate_spec hr ε F FT ⟨params, none⟩
    (matOf 1 (List.ofFn fun i => [(w i).1 0])) (matOf 1 (List.ofFn fun i => [(w i).2 0]))
    (by rw [hl fun i => (w i).1, hl fun i => (w i).2])
    (by rw [hl fun i => (w i).1]; exact ⟨by norm_num, one_pos, one_pos⟩)
    (fun g hg => by
      rw [hl fun i => (w i).1]
      cases hg
      norm_num)
    ⟨by norm_num [params], by
      rw [hl fun i => (w i).1]
      simp only [params, NeuralEstimator.trainSize]
      rw [hfl]
      norm_num⟩ (by norm_num [params]) hfac
  rw [rows_matOf fun i => (w i).1, rows_matOf fun i => (w i).2] at h1
  obtain ⟨s1, s2, s3, s4⟩ := h1
  rw [List.length_ofFn, hfl] at s4
  refine ⟨_, ?_, k, θ, xTr.zip yTr, bs, h2, by rw [List.length_zip, ← s1, s4, min_self], ?_, by simpa [params] using h5, fun b hb => ?_, rfl⟩
  · unfold trainedCritic
    rw [hmk]
    simp only [bind, Except.bind]
    rw [h3]
    rfl
  · have : (List.zip (List.ofFn fun i => [(w i).1 0]) (List.ofFn fun i => [(w i).2 0]))
        = List.ofFn fun i => ([(w i).1 0], [(w i).2 0]) := zipWith_ofFn' Prod.mk _ _
    rw [this] at s3
    exact (List.sublist_append_left _ _).subperm.trans s3.subperm
  · obtain ⟨b1, b2, b3⟩ := h6 b hb
    simp only [params] at b1 b2
    exact ⟨by exact_mod_cast b1, by exact_mod_cast b2, b3⟩

/-- **C78**, the notebook: it ends without an exception.  The printed number is an unbiased estimate of the mutual information of the
four balls, `dist_four_balls.pdf` shows their density, the critics have been trained on 5000 independent points of them, and
`critics_four_balls.pdf` compares the critics with the pointwise mutual information. -/
theorem notebook_spec (hT : IdealTfp T κ) (R₀ : JaxRandom Key) :
    ∃ (v : Key → ℝ) (z : Key → Fin 5000 → (Fin 1 → ℝ) × (Fin 1 → ℝ)) (w : Key → Fin 25000 → (Fin 1 → ℝ) × (Fin 1 → ℝ)),
      Integrable v κ ∧ ∫ k, v k ∂κ = (mutualInfo lawOfBalls).toReal ∧
      MeasurePreserving z κ (Measure.pi fun _ => lawOfBalls) ∧ MeasurePreserving w κ (Measure.pi fun _ => lawOfBalls) ∧
      ∀ (R : JaxRandom Key) (Θ O : Type) [NormedAddCommGroup Θ] [NormedSpace ℝ Θ] (lib : Lib Key Θ O) (ε : ℝ)
        (nwj dv nce : Formula Point Point × Formula Point Point), IdealRng lib.rng → (∀ k, ∃ θ, lib.factory k 1 1 = .ok θ) →
        ∃ im c fig, notebook R T lib ε nwj dv nce = .ok ((v (R.prngKey 0) : EReal), im, c, fig) ∧ Shows im ballsPdf ∧
          Trained lib nwj.1 (z (R.prngKey 42)) c.nwj ∧ Trained lib dv.1 (z (R.prngKey 42)) c.dv ∧
          Trained lib nce.1 (z (R.prngKey 42)) c.nce ∧ Compares fig c (w (R.prngKey 43)) := by
  obtain ⟨J, h1, h2, -, h4, h5, h6⟩ := sampler_ok hT R₀
  have hp := pmiAt_balls h4 h5 h6
  obtain ⟨w, hw, hsw⟩ := sample_draws h2 25000 (by norm_num)
  obtain ⟨z, hz, hsz⟩ := sample_draws h2 5000 (by norm_num)
  haveI := balls_consistent.1
  obtain ⟨f, f1, -, v, f2, f3, f4⟩ := Gallery.profile_of h2 (r := fun p => ballsPmi (p.1 0) (p.2 0))
    (fun x y => by rw [ofFn_one, ofFn_one]; exact hp _ _) balls_pmi.1.info.1 (n := 200000) (by norm_num)
  refine ⟨v, z, w, f3, f4, hz, hw, fun R Θ O _ _ lib ε nwj dv nce hr hfac => ?_⟩
  obtain ⟨c1, a1, b1⟩ := trained hr hfac ε nwj.1 nwj.2 (z (R.prngKey 42))
  obtain ⟨c2, a2, b2⟩ := trained hr hfac ε dv.1 dv.2 (z (R.prngKey 42))
  obtain ⟨c3, a3, b3⟩ := trained hr hfac ε nce.1 nce.2 (z (R.prngKey 42))
  have hmi : ∃ s' : BmmSampler Key, BmmSampler.mutualInformation R ⟨J, none, none, .seed 0, 200000, 0⟩ = (.ok (v (R.prngKey 0) : EReal), s') ∧
      s'.dist = J := by
    have : monteCarloMiEstimate (castToRng R (.seed 0)) J 200000
        = .ok ((v (R.prngKey 0) : EReal), std ((f (R.prngKey 0)).map EReal.toReal) / √(200000 : ℤ)) := by
      unfold monteCarloMiEstimate
      rw [show castToRng R (.seed 0) = R.prngKey 0 from rfl, show (200000 : ℤ) = ((200000 : ℕ) : ℤ) from rfl, f1]
      simp only [bind, Except.bind]
      rw [f2]
    unfold BmmSampler.mutualInformation
    simp only
    rw [this]
    exact ⟨_, rfl, rfl⟩
  obtain ⟨s', hm, hd⟩ := hmi
  obtain ⟨fig, hf, hc⟩ := figure_of hp R hd (hsw (R.prngKey 43)) ⟨c1, c2, c3⟩
  have hg : gridSamplerPdf s' (-5, 5) none 101 = .ok (List.ofFn fun i => List.ofFn fun j => ballsPdf (node i) (node j)) := by
    unfold gridSamplerPdf
    refine makeGrid_eq _ ballsPdf fun x => ?_
    rw [zipWith_ofFn' _ (fun _ => [x]) fun j => [node j], hd]
    simp only [List.singleton_append, h4, EReal.exp_coe, Real.exp_log (ballsPdf_pos _ _), ENNReal.toReal_ofReal (ballsPdf_pos _ _).le]
  have hs : s'.sample R 5000 (.key (R.prngKey 42)) = .ok (rowsOf fun i => (z (R.prngKey 42) i).1, rowsOf fun i => (z (R.prngKey 42) i).2) := by
    unfold BmmSampler.sample
    rw [hd]
    exact hsz _
  refine ⟨plotGrid (List.ofFn fun i => List.ofFn fun j => ballsPdf (node i) (node j)) (some (-5, 5)) none, ⟨c1, c2, c3⟩, fig, ?_,
    plotGrid_shows ballsPdf _ rfl, b1, b2, b3, hc⟩
  unfold notebook
  rw [h1 R]
  simp only [bind, Except.bind]
  rw [hm]
  simp only
  rw [hg, hs]
  simp only
  rw [a1, a2, a3]
  simp only
  rw [hf]

theorem shows_inj {im im' : Image} {f g : ℝ → ℝ → ℝ} (h : Shows im f) (h' : Shows im' g) :
    im = im' ↔ ∀ i j, f (node i) (node j) = g (node i) (node j) := by
  obtain ⟨r, e⟩ := im
  obtain ⟨r', e'⟩ := im'
  obtain ⟨h1, h2⟩ := h
  obtain ⟨h3, h4⟩ := h'
  simp only at h1 h2 h3 h4
  rw [Image.mk.injEq, h1, h2, h3, h4]
  simp only [and_true]
  rw [List.ofFn_inj]
  constructor
  · intro H i j
    exact congrFun (List.ofFn_inj.1 (congrFun H j)) i
  · intro H
    funext j
    rw [List.ofFn_inj]
    funext i
    exact H i j

/-- Numbers which agree after the subtraction of their means. -/
theorem centred_iff {ι : Type} [Fintype ι] {M : ℝ} (hM : (Fintype.card ι : ℝ) = M) (h0 : M ≠ 0) (a b : ι → ℝ) :
    (∀ i, a i - (∑ k, a k) / M = b i - (∑ k, b k) / M) ↔ ∃ c, ∀ i, a i = b i + c := by
  constructor
  · exact fun h => ⟨(∑ k, a k) / M - (∑ k, b k) / M, fun i => by linarith [h i]⟩
  · rintro ⟨c, h⟩ i
    have : ∑ k, a k = ∑ k, b k + M * c := by
      rw [Finset.sum_congr rfl fun k _ => h k, Finset.sum_add_distrib, Finset.sum_const, Finset.card_univ, nsmul_eq_mul, hM]
    rw [this, h i]
    field_simp
    ring

/-- **C78**, what equal panels mean: the panels of NWJ agree exactly if on the grid the critic is the pointwise mutual information plus
one; those of Donsker-Varadhan if the two differ by a constant; those of InfoNCE if they differ by a function of the first variable. -/
theorem panels_iff {fig : Figure} {c : Critics} {w : Fin 25000 → (Fin 1 → ℝ) × (Fin 1 → ℝ)} (h : Compares fig c w) :
    (fig.nwj.1 = fig.nwj.2 ↔ ∀ i j, c.nwj [node i] [node j] = 1 + ballsPmi (node i) (node j)) ∧
    (fig.dv.1 = fig.dv.2 ↔ ∃ a, ∀ i j, c.dv [node i] [node j] = ballsPmi (node i) (node j) + a) ∧
    (fig.nce.1 = fig.nce.2 ↔ ∃ a : Fin 101 → ℝ, ∀ i j, c.nce [node i] [node j] = ballsPmi (node i) (node j) + a i) ∧
    (fig.upper.2 = fig.upper.1 ↔ ∀ i, c.nwj [(w i).1 0] [(w i).2 0] = 1 + ballsPmi ((w i).1 0) ((w i).2 0)) ∧
    (fig.lower.2 = fig.lower.1 ↔ ∃ a, ∀ i, c.dv [(w i).1 0] [(w i).2 0] = ballsPmi ((w i).1 0) ((w i).2 0) + a) := by
  refine ⟨?_, ?_, ?_, ?_, ?_⟩
  · rw [shows_inj h.nwj h.pmi]
    exact forall₂_congr fun i j => ⟨fun e => by linarith, fun e => by linarith⟩
  · rw [shows_inj h.dv h.pmiDv]
    have := centred_iff (ι := Fin 101 × Fin 101) (M := 10201) (by rw [Fintype.card_prod, Fintype.card_fin]; norm_num) (by norm_num)
      (fun p => c.dv [node p.1] [node p.2]) fun p => ballsPmi (node p.1) (node p.2)
    rw [Fintype.sum_prod_type, Fintype.sum_prod_type, Prod.forall] at this
    simp only [Prod.forall] at this
    exact this
  · rw [shows_inj h.nce h.pmiNce]
    have := fun i => centred_iff (ι := Fin 101) (M := 101) (by rw [Fintype.card_fin]; norm_num) (by norm_num)
      (fun j => c.nce [node i] [node j]) fun j => ballsPmi (node i) (node j)
    rw [forall_congr' this]
    exact Classical.skolem
  · rw [h.upper, h.upperPmi, List.ofFn_inj, funext_iff]
    exact forall_congr' fun i => ⟨fun e => by linarith, fun e => by linarith⟩
  · rw [h.lower, h.lowerPmi, List.ofFn_inj, funext_iff]
    exact centred_iff (ι := Fin 25000) (M := 25000) (by rw [Fintype.card_fin]; norm_num) (by norm_num) _ _

/-- **C78**, best critics: if the critics are continuous and reach the largest mean values of the objectives of NWJ, Donsker-Varadhan and
InfoNCE (with batches of any size), the upper and lower panels agree, and so do the histograms, whatever the points. -/
theorem best_critics {fig : Figure} {c : Critics} {w : Fin 25000 → (Fin 1 → ℝ) × (Fin 1 → ℝ)} (h : Compares fig c w) (n : ℕ) (hn : 2 ≤ n)
    (hc : ∀ f ∈ [c.nwj, c.dv, c.nce], Continuous (fun p : ℝ × ℝ => f [p.1] [p.2]) ∧
      Integrable (fun p : (Fin 1 → ℝ) × (Fin 1 → ℝ) => f [p.1 0] [p.2 0]) lawOfBalls ∧
      Integrable (fun p : (Fin 1 → ℝ) × (Fin 1 → ℝ) => f [p.1 0] [p.2 0]) (lawOfBalls.fst.prod lawOfBalls.snd))
    (he : ∀ f ∈ [c.nwj, c.dv], Integrable (fun p : (Fin 1 → ℝ) × (Fin 1 → ℝ) => Real.exp (f [p.1 0] [p.2 0]))
      (lawOfBalls.fst.prod lawOfBalls.snd)) :
    (∫ b, (Neural.Linear.nwj c.nwj (List.ofFn fun i => [(b i).1 0]) (List.ofFn fun i => [(b i).2 0])).toReal
        ∂(Measure.pi fun _ : Fin n => lawOfBalls) = (mutualInfo lawOfBalls).toReal →
      fig.nwj.1 = fig.nwj.2 ∧ fig.upper.2 = fig.upper.1) ∧
    (∫ p, c.dv [p.1 0] [p.2 0] ∂lawOfBalls - Real.log (∫ p, Real.exp (c.dv [p.1 0] [p.2 0]) ∂(lawOfBalls.fst.prod lawOfBalls.snd))
        = (mutualInfo lawOfBalls).toReal →
      fig.dv.1 = fig.dv.2 ∧ fig.lower.2 = fig.lower.1) ∧
    (∫ b, (Neural.Linear.infonce c.nce (List.ofFn fun i => [(b i).1 0]) (List.ofFn fun i => [(b i).2 0])).toReal
        ∂(Measure.pi fun _ : Fin n => lawOfBalls)
        = ∫ b, (Neural.Linear.infonce ballsPmi (List.ofFn fun i => (b i).1 0) (List.ofFn fun i => (b i).2 0)).toReal
          ∂(Measure.pi fun _ : Fin n => lawOfBalls) →
      fig.nce.1 = fig.nce.2) := by
  haveI := balls_consistent.1
  obtain ⟨hP, o1, o2⟩ := balls_pmi
  haveI := o1
  haveI := o2
  obtain ⟨p1, p2, p3, p4, p5⟩ := panels_iff h
  have ct : Continuous fun p : (Fin 1 → ℝ) × (Fin 1 → ℝ) => ballsPmi (p.1 0) (p.2 0) :=
    continuous_ballsPmi.comp (f := fun p : (Fin 1 → ℝ) × (Fin 1 → ℝ) => (p.1 0, p.2 0)) (by fun_prop)
  have cf : ∀ f ∈ [c.nwj, c.dv, c.nce], Continuous fun p : (Fin 1 → ℝ) × (Fin 1 → ℝ) => f [p.1 0] [p.2 0] := fun f hf =>
    (hc f hf).1.comp (f := fun p : (Fin 1 → ℝ) × (Fin 1 → ℝ) => (p.1 0, p.2 0)) (by fun_prop)
  have key := fun f hf => Neural.continuous_optimal hP ct (f := fun x y => f [x 0] [y 0]) (cf f hf) (hc f hf).2.1 (hc f hf).2.2 n hn
  refine ⟨fun H => ?_, fun H => ?_, fun H => ?_⟩
  · have := ((key c.nwj (by simp)).2 (he _ (by simp))).1.1 (by
      rw [← H]
      refine integral_congr_ae (Filter.Eventually.of_forall fun b => ?_)
      simp only
      rw [Neural.Linear.nwj_eq hn, Neural.Linear.nwj_eq hn]
      rfl)
    exact ⟨p1.2 fun i j => this (fun _ => node i) fun _ => node j, p4.2 fun i => this (w i).1 (w i).2⟩
  · obtain ⟨a, ha⟩ := ((key c.dv (by simp)).2 (he _ (by simp))).2.1 H
    exact ⟨p2.2 ⟨a, fun i j => ha (fun _ => node i) fun _ => node j⟩, p5.2 ⟨a, fun i => ha (w i).1 (w i).2⟩⟩
  · obtain ⟨a, ha⟩ := (key c.nce (by simp)).1.1 (by
      refine (integral_congr_ae (Filter.Eventually.of_forall fun b => ?_)).trans
        (H.trans (integral_congr_ae (Filter.Eventually.of_forall fun b => ?_)))
      all_goals
        try simp only
        rw [Neural.Linear.infonce_eq (by omega), Neural.Linear.infonce_eq (by omega)]
        rfl)
    exact p3.2 ⟨fun i => a fun _ => node i, fun i j => ha (fun _ => node i) fun _ => node j⟩

/-! ## Examples -/

/-- The best critics. -/
noncomputable def bestCritics : Critics where
  nwj x y := 1 + ballsPmi (x.getD 0 0) (y.getD 0 0)
  dv x y := ballsPmi (x.getD 0 0) (y.getD 0 0) + 3
  nce x y := ballsPmi (x.getD 0 0) (y.getD 0 0) + Real.sin (x.getD 0 0)

/-- There are critics which meet the hypotheses of `best_critics`; their panels agree, while the panel of Donsker-Varadhan would not
agree for the critic of InfoNCE. -/
example : ∃ s, samplerFourBalls pathRandom path = .ok s ∧ ∃ fig, criticsFigure pathRandom s bestCritics = .ok fig ∧
    fig.nwj.1 = fig.nwj.2 ∧ fig.dv.1 = fig.dv.2 ∧ fig.nce.1 = fig.nce.2 ∧ fig.upper.2 = fig.upper.1 ∧ fig.lower.2 = fig.lower.1 := by
  obtain ⟨w, -, h⟩ := figure_compares path_ideal pathRandom
  obtain ⟨s, h1, h2⟩ := h pathRandom
  obtain ⟨fig, h3, h4⟩ := h2 bestCritics
  obtain ⟨p1, p2, p3, p4, p5⟩ := panels_iff h4
  exact ⟨s, h1, fig, h3, p1.2 fun i j => rfl, p2.2 ⟨3, fun i j => rfl⟩, p3.2 ⟨fun i => Real.sin (node i), fun i j => rfl⟩,
    p4.2 fun i => rfl, p5.2 ⟨3, fun i => rfl⟩⟩

example : ∃ s, samplerFourBalls pathRandom path = .ok s ∧
    ∃ fig, criticsFigure pathRandom s { bestCritics with dv := bestCritics.nce } = .ok fig ∧ fig.dv.1 ≠ fig.dv.2 := by
  obtain ⟨w, -, h⟩ := figure_compares path_ideal pathRandom
  obtain ⟨s, h1, h2⟩ := h pathRandom
  obtain ⟨fig, h3, h4⟩ := h2 { bestCritics with dv := bestCritics.nce }
  refine ⟨s, h1, fig, h3, fun e => ?_⟩
  obtain ⟨a, ha⟩ := (panels_iff h4).2.1.1 e
  have h5 : Real.sin (node 50) = a := add_left_cancel (ha 50 0)
  have h6 : Real.sin (node 60) = a := add_left_cancel (ha 60 0)
  have e5 : node 50 = 0 := by norm_num [node]
  have e6 : node 60 = 1 := by norm_num [node]
  rw [e5, Real.sin_zero] at h5
  rw [e6, ← h5] at h6
  exact (Real.sin_pos_of_pos_of_le_one one_pos le_rfl).ne' h6

example : Integrable (fun p : (Fin 1 → ℝ) × (Fin 1 → ℝ) => bestCritics.nwj [p.1 0] [p.2 0]) lawOfBalls ∧
    Continuous fun p : ℝ × ℝ => bestCritics.nwj [p.1] [p.2] :=
  haveI := balls_consistent.1
  ⟨(integrable_const 1).add balls_pmi.1.joint, continuous_const.add continuous_ballsPmi⟩

/-- The hypotheses on critics hold for every bounded continuous critic. -/
example (f : ℝ → ℝ → ℝ) (hf : Continuous fun p : ℝ × ℝ => f p.1 p.2) (h : ∀ x y, |f x y| ≤ 1) :
    Integrable (fun p : (Fin 1 → ℝ) × (Fin 1 → ℝ) => f (p.1 0) (p.2 0)) lawOfBalls :=
  haveI := balls_consistent.1
  Integrable.of_bound (hf.comp (f := fun p : (Fin 1 → ℝ) × (Fin 1 → ℝ) => (p.1 0, p.2 0)) (by fun_prop)).aestronglyMeasurable 1
    (Filter.Eventually.of_forall fun p => h _ _)

/-- A library meeting the hypotheses of `notebook_spec`. -/
noncomputable def pathLib : Lib PathKey ℝ Unit where
  rng :=
    { split := fun k n => List.replicate n k
      indices := fun _ _ b => List.range b
      permutation := fun _ n => (List.range n).reverse
      randint := fun _ => 7
      shuffle := fun _ n => (List.range n).reverse }
  prngKey _ := fun _ => 0
  adam _ := Mine.descent
  factory _ _ _ := .ok 0
  call θ x y := θ * (x.headD 0 * y.headD 0)

example : ∃ r, notebook pathRandom path pathLib 0 (fun _ _ _ => .num 0, fun _ _ _ => .num 0) (fun _ _ _ => .num 0, fun _ _ _ => .num 0)
    (fun _ _ _ => .num 0, fun _ _ _ => .num 0) = .ok r := by
  obtain ⟨v, z, w, -, -, -, -, h⟩ := notebook_spec path_ideal pathRandom
  obtain ⟨im, c, fig, e, -⟩ := h pathRandom ℝ Unit pathLib 0 (fun _ _ _ => .num 0, fun _ _ _ => .num 0)
    (fun _ _ _ => .num 0, fun _ _ _ => .num 0) (fun _ _ _ => .num 0, fun _ _ _ => .num 0)
    { split_length := fun _ n => List.length_replicate
      indices_length := fun _ _ b _ => List.length_range
      indices_lt := fun _ _ b h i hi => (List.mem_range.1 hi).trans_le h
      indices_nodup := fun _ _ _ _ => List.nodup_range
      permutation := fun _ _ => List.reverse_perm _
      shuffle := fun _ _ => List.reverse_perm _ } (fun _ => ⟨0, rfl⟩)
  exact ⟨_, e⟩

/-- Equally spaced numbers, as many as pixels. -/
theorem spaced_pixel {a b : ℝ} (h : a ≤ b) {n i : ℕ} (hn : 2 ≤ n) (hi : i < n) : a + (i : ℝ) * ((b - a) / ((n : ℝ) - 1)) ∈ pixel a b n i := by
  have h1 : (0 : ℝ) < (n : ℝ) - 1 := by
    have : (2 : ℝ) ≤ n := by exact_mod_cast hn
    linarith
  have h2 : (0 : ℝ) < n := by linarith
  have h3 : (i : ℝ) + 1 ≤ n := by exact_mod_cast hi
  have h4 : (0 : ℝ) ≤ i := Nat.cast_nonneg i
  have e : a + (i : ℝ) * ((b - a) / ((n : ℝ) - 1)) = a + (b - a) * (i / ((n : ℝ) - 1)) := by ring
  rw [e]
  constructor
  · have : (i : ℝ) / n ≤ i / ((n : ℝ) - 1) := div_le_div_of_nonneg_left h4 h1 (by linarith)
    have := mul_le_mul_of_nonneg_left this (sub_nonneg.2 h)
    linarith
  · have : (i : ℝ) / ((n : ℝ) - 1) ≤ (i + 1) / n := by
      rw [div_le_div_iff₀ h1 h2]
      nlinarith
    have := mul_le_mul_of_nonneg_left this (sub_nonneg.2 h)
    linarith

/-- **C78**, for any two ranges: the image of a critic on a grid fills the rectangle, the first variable to the right and the second one
upwards, and each pixel shows the value at a point in it. -/
theorem critic_image (critic : Critic) {a b : ℝ × ℝ} (ha : a.1 ≤ a.2) (hb : b.1 ≤ b.2) {n : ℕ} (hn : 2 ≤ n) :
    ∃ grid, gridCritic critic a (some b) n = .ok grid ∧ (plotGrid grid (some a) (some b)).extent = some (a, b) ∧
      ∃ x y : Fin n → ℝ, (∀ i : Fin n, x i ∈ pixel a.1 a.2 n i) ∧ (∀ j : Fin n, y j ∈ pixel b.1 b.2 n j) ∧
        (plotGrid grid (some a) (some b)).rows = List.ofFn fun j => List.ofFn fun i => critic [x i] [y j] := by
  have hl : ∀ r : ℝ × ℝ, linspace r.1 r.2 n = List.ofFn fun i : Fin n => r.1 + ((i : ℕ) : ℝ) * ((r.2 - r.1) / ((n : ℝ) - 1)) := fun r => by
    unfold linspace
    refine List.ext_getElem (by simp) fun i h1 h2 => ?_
    rw [List.getElem_ofFn, List.getElem_map, List.getElem_range]
  refine ⟨List.ofFn fun i : Fin n => List.ofFn fun j : Fin n => critic [a.1 + ((i : ℕ) : ℝ) * ((a.2 - a.1) / ((n : ℝ) - 1))]
      [b.1 + ((j : ℕ) : ℝ) * ((b.2 - b.1) / ((n : ℝ) - 1))], ?_, rfl, _, _, fun i => spaced_pixel ha hn i.2, fun j => spaced_pixel hb hn j.2, ?_⟩
  · unfold gridCritic makeGrid
    simp only [Option.getD_some]
    rw [hl a, hl b]
    refine mapM_ok_ofFn _ _ _ fun i => ?_
    rw [List.map_ofFn, List.map_ofFn, zipWith_ofFn']
    rfl
  · exact transposed_ofFn (by omega) _

example : ∃ grid, gridCritic (fun x y => x.headD 0 - 2 * y.headD 0) (-5, 5) (some (0, 1)) 20 = .ok grid ∧
    (plotGrid grid (some (-5, 5)) (some (0, 1))).extent = some ((-5, 5), (0, 1)) := by
  obtain ⟨grid, h1, h2, -⟩ := critic_image (fun x y => x.headD 0 - 2 * y.headD 0) (a := (-5, 5)) (b := (0, 1)) (by norm_num) (by norm_num)
    (n := 20) (by norm_num)
  exact ⟨grid, h1, h2⟩

end BMI.CriticPlots
