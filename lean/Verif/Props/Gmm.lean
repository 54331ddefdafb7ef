import Verif.Model.Gmm
import Verif.Props.BmmPmi
import Verif.Props.BmmSampler
import Verif.Lemmas.Kde
import Mathlib.Tactic.FinCases

/-! C48: the Bayesian estimator with Gaussian mixtures. -/

namespace BMI.Gmm

open MeasureTheory ProbabilityTheory BMI.Samplers BMI.Student BMI.Bmm

/-! ### Samples from the posterior as distributions -/

/-- The support of the prior: proportions on the simplex, positive scales, Cholesky factors of correlation matrices. -/
structure Latent.Supported {K d : ℕ} (l : Latent K d) : Prop where
  pi_nonneg : ∀ k, 0 ≤ l.pi k
  pi_sum : ∑ k, l.pi k = 1
  tau_pos : ∀ k i, 0 < l.tau k i
  lower : ∀ k i j, i < j → l.omega k i j = 0
  diag_pos : ∀ k i, 0 < l.omega k i i

/-- The law of the mixture with the parameters of a sample, as the likelihood describes it: component `k` with probability
`pi k`, and in it the point `mu k + L_scaled u` for standard normal `u`. -/
noncomputable def Latent.law {K : ℕ} (jitter : ℝ) (dx dy : ℕ) (l : Latent K (dx + dy)) : Measure ((Fin dx → ℝ) × (Fin dy → ℝ)) :=
  mixtureLaw l.pi fun k => (stdNormal (dx + dy)).map fun u =>
    let z := component (l.mu k) (scaled jitter (l.tau k) (l.omega k)) u
    (fun i => z (Fin.castAdd dy i), fun i => z (Fin.natAdd dx i))

/-- C48: the covariance matrices of the samples are positive definite, with any jitter that is not negative. -/
theorem covMatrix_posDef {K d : ℕ} {l : Latent K d} (hl : l.Supported) {jitter : ℝ} (hj : 0 ≤ jitter) (k : Fin K) :
    (covMatrix jitter (l.tau k) (l.omega k)).PosDef := by
  have hlow : (scaled jitter (l.tau k) (l.omega k)).IsLowerTriangular := by
    intro i j hij
    have hij : i < j := hij
    simp [scaled, hl.lower k i j hij, hij.ne]
  have hdet : (scaled jitter (l.tau k) (l.omega k)).det ≠ 0 := by
    rw [Matrix.det_of_isLowerTriangular _ hlow]
    refine Finset.prod_ne_zero_iff.2 fun i _ => ?_
    have := mul_pos (hl.tau_pos k i) (hl.diag_pos k i)
    simp only [scaled, Matrix.of_apply, if_true, mul_one]
    linarith
  have := Matrix.PosDef.mul_conjTranspose_self (scaled jitter (l.tau k) (l.omega k))
    (Matrix.vecMul_injective_iff_isUnit.2 ((Matrix.isUnit_iff_isUnit_det _).2 (isUnit_iff_ne_zero.2 hdet)))
  rwa [Matrix.conjTranspose_eq_transpose_of_trivial] at this

/-- C48: a component of the likelihood is the normal law with the reported mean and covariance. -/
theorem component_law {d : ℕ} (mu : Fin d → ℝ) (jitter : ℝ) (tau : Fin d → ℝ) (omega : Matrix (Fin d) (Fin d) ℝ) :
    (stdNormal d).map (component mu (scaled jitter tau omega)) = normalLaw mu (covMatrix jitter tau omega) :=
  normalLaw_cholesky rfl mu

/-- C48: the covariance of coordinates `i` and `j`.  Without jitter it is the correlation matrix `ΩΩᵀ` that the LKJ prior is
about, with coordinate `i` on the scale `tau i`; the jitter adds terms of its own order. -/
theorem covMatrix_apply {d : ℕ} (jitter : ℝ) (tau : Fin d → ℝ) (omega : Matrix (Fin d) (Fin d) ℝ) (i j : Fin d) :
    covMatrix jitter tau omega i j = tau i * tau j * (∑ l, omega i l * omega j l) +
      jitter * (tau i * omega i j + tau j * omega j i) + if i = j then jitter ^ 2 else 0 := by
  simp only [covMatrix, scaled, Matrix.mul_apply, Matrix.transpose_apply, Matrix.of_apply]
  have h : ∀ l, (tau i * omega i l + jitter * if i = l then 1 else 0) * (tau j * omega j l + jitter * if j = l then 1 else 0) =
      tau i * tau j * (omega i l * omega j l) + (if j = l then jitter * (tau i * omega i l) else 0) +
        (if i = l then jitter * (tau j * omega j l) else 0) + (if i = l then (if j = l then jitter ^ 2 else 0) else 0) := by
    intro l
    split_ifs <;> ring
  simp only [h, Finset.sum_add_distrib, ← Finset.mul_sum, Finset.sum_ite_eq, Finset.mem_univ, if_true]
  rcases eq_or_ne i j with rfl | hij
  · simp only [if_true]; ring
  · simp only [if_neg hij, if_neg hij.symm]; ring

/-- C48: for a Cholesky factor of a correlation matrix and no jitter, `tau` are the standard deviations of the coordinates and
`ΩΩᵀ` their correlations. -/
theorem covMatrix_scales {d : ℕ} (tau : Fin d → ℝ) (omega : Matrix (Fin d) (Fin d) ℝ) (h : ∀ i, ∑ l, omega i l ^ 2 = 1)
    (i j : Fin d) : covMatrix 0 tau omega i i = tau i ^ 2 ∧
      covMatrix 0 tau omega i j = tau i * (omega * omega.transpose) i j * tau j := by
  rw [covMatrix_apply, covMatrix_apply]
  have h' : ∑ l, omega i l * omega i l = 1 := by simpa only [pow_two] using h i
  refine ⟨by rw [h']; simp; ring, ?_⟩
  simp only [Matrix.mul_apply, Matrix.transpose_apply]
  split_ifs <;> ring

example : ∀ i : Fin 2, ∑ l, (!![1, 0; 3 / 5, 4 / 5] : Matrix (Fin 2) (Fin 2) ℝ) i l ^ 2 = 1 := by
  intro i
  fin_cases i <;> norm_num [Fin.sum_univ_two]

theorem mapM_ofFn {α β : Type} {n : ℕ} {a : Fin n → α} {f : α → Except Err β} {g : Fin n → β} (h : ∀ i, f (a i) = .ok (g i)) :
    (List.ofFn a).mapM f = .ok (List.ofFn g) := by
  induction n with
  | zero => simp [List.ofFn_zero]; rfl
  | succ n ih =>
    rw [List.ofFn_succ, List.mapM_cons, h 0, ih fun i => h i.succ, List.ofFn_succ]
    rfl

variable {Key : Type} [MeasurableSpace Key] {T : Tfp Key} {κ : Measure Key}

/-- C48: a sample from the posterior is turned into a joint distribution that stands for the law which the likelihood
describes, and whose mutual information is estimated without bias. -/
theorem sampleIntoBmm_spec (hT : IdealTfp T κ) (R : JaxRandom Key) {K dx dy : ℕ} (hx : 0 < dx) (hy : 0 < dy)
    {l : Latent K (dx + dy)} (hl : l.Supported) {jitter : ℝ} (hj : 0 ≤ jitter) :
    ∃ M, sampleIntoBmm R T (l.draw jitter).mu (l.draw jitter).cov (l.draw jitter).pi dx dy = .ok M ∧
      Consistent κ M Set.univ Set.univ (l.law jitter dx dy) ∧ mutualInfo (l.law jitter dx dy) ≠ ⊤ ∧
      ∀ n : ℕ, 0 < n → ∃ v e : Key → ℝ, (∀ᵐ k ∂κ, monteCarloMiEstimate k M n = .ok ((v k : EReal), e k)) ∧
        ∫ k, v k ∂κ = (mutualInfo (l.law jitter dx dy)).toReal := by
  obtain ⟨J, M, P, hP, h1, h2, h3, h4, h5⟩ := gaussianMixture_estimate hT R l.pi hl.pi_nonneg hl.pi_sum dx dy hx hy l.mu
    (fun k => covMatrix jitter (l.tau k) (l.omega k)) (covMatrix_posDef hl hj)
  have hlaw : l.law jitter dx dy = P := by
    rw [hP, Latent.law]
    congr 1
    funext k
    rw [← component_law, Measure.map_map]
    · rfl
    · fun_prop
    · unfold component; fun_prop
  refine ⟨M, ?_, hlaw ▸ h3, hlaw ▸ h4, fun n hn => ?_⟩
  · unfold sampleIntoBmm Latent.draw rowsOf
    rw [if_neg (by simp), if_neg (by simp), zip_ofFn, mapM_ofFn h1]
    exact h2
  · obtain ⟨v, e, g1, g2, -⟩ := h5 n hn
    exact ⟨v, e, g1, by rw [hlaw, g2]⟩

/-- C48: arrays of other shapes are refused. -/
theorem sampleIntoBmm_refuses (R : JaxRandom Key) (T : Tfp Key) (means : Arr) (covs : List Arr) (pis : List ℝ) (dimX dimY : ℤ)
    (h : ¬ (means.length = pis.length ∧ covs.length = pis.length ∧ (∀ m ∈ means, (m.length : ℤ) = dimX + dimY) ∧
      ∀ c ∈ covs, (c.length : ℤ) = dimX + dimY ∧ ∀ r ∈ c, (r.length : ℤ) = dimX + dimY)) :
    sampleIntoBmm R T means covs pis dimX dimY = .error .assertionError := by
  unfold sampleIntoBmm
  by_cases h1 : means.length = pis.length ∧ ∀ m ∈ means, (m.length : ℤ) = dimX + dimY
  · rw [if_neg (not_not.2 h1), if_pos fun h2 => h ⟨h1.1, h2.1, h1.2, h2.2⟩]
  · rw [if_pos h1]

/-! ### Keys -/

/-- The key after a split. -/
def next (lib : Lib Key) (k : Key) : Key := (lib.split k).1

/-- The key handed to a library at the `i`-th split. -/
def subkey (lib : Lib Key) (k : Key) (i : ℕ) : Key := (lib.split ((next lib)^[i] k)).2

/-- Keys are never used twice: an estimator that was created with key `k` and has made `n` splits. -/
def Fresh (lib : Lib Key) (k : Key) (n : ℕ) (e : Estimator Key) : Prop :=
  e.key = (next lib)^[n] k ∧ e.used = (List.range n).map (subkey lib k)

theorem Fresh.advance {lib : Lib Key} {k : Key} {n : ℕ} {e : Estimator Key} (h : Fresh lib k n e) :
    (e.advance lib).1 = subkey lib k n ∧ Fresh lib k (n + 1) (e.advance lib).2 := by
  obtain ⟨h1, h2⟩ := h
  refine ⟨by simp [Estimator.advance, subkey, h1], ?_, ?_⟩
  · rw [Function.iterate_succ_apply', ← h1]; rfl
  · rw [List.range_succ, List.map_append, ← h2, List.map_singleton]
    simp [Estimator.advance, subkey, h1]

theorem Fresh.of_eq {lib : Lib Key} {k : Key} {n : ℕ} {e e' : Estimator Key} (h : Fresh lib k n e) (h1 : e'.key = e.key)
    (h2 : e'.used = e.used) : Fresh lib k n e' := ⟨h1.trans h.1, h2.trans h.2⟩

/-- Splitting keys gives new keys (ideally, keys form a free binary tree). -/
structure IdealSplit (lib : Lib Key) (k : Key) : Prop where
  left : Function.Injective fun k => (lib.split k).1
  right : Function.Injective fun k => (lib.split k).2
  root : ∀ k', (lib.split k').1 ≠ k

theorem subkey_injective {lib : Lib Key} {k : Key} (h : IdealSplit lib k) : Function.Injective (subkey lib k) := by
  have key : ∀ i j, (next lib)^[i] k = (next lib)^[i + j] k → j = 0 := by
    intro i j hij
    rw [Function.iterate_add_apply] at hij
    have h1 : Function.Injective (next lib) := h.left
    have h2 := h1.iterate i hij
    cases j with
    | zero => rfl
    | succ j =>
      rw [Function.iterate_succ_apply'] at h2
      exact absurd h2.symm (h.root _)
  intro i j hij
  have h1 := h.right hij
  rcases Nat.le_total i j with hle | hle
  · obtain ⟨m, rfl⟩ := Nat.exists_eq_add_of_le hle
    have := key i m h1
    omega
  · obtain ⟨m, rfl⟩ := Nat.exists_eq_add_of_le hle
    have := key j m h1.symm
    omega

variable (lib : Lib Key) (R : JaxRandom Key) (T : Tfp Key) (ε : ℝ)

theorem runMcmc_fresh {k : Key} {n : ℕ} {e : Estimator Key} (h : Fresh lib k n e) (x y : PSpace.Mat) :
    ∃ m, n ≤ m ∧ Fresh lib k m (e.runMcmc lib ε x y).2 := by
  unfold Estimator.runMcmc
  split
  · exact ⟨n, le_rfl, h⟩
  · refine ⟨n + 1, by omega, ?_⟩
    have ha := h.advance.2
    dsimp only
    split
    · exact ha
    · split
      · exact ha
      · split
        · exact ha
        · exact ha.of_eq rfl rfl

theorem getSampleMi_fresh {k : Key} {n : ℕ} {e : Estimator Key} (h : Fresh lib k n e) (idx : ℤ) (m : Option ℤ)
    (key : Option Key) : ∃ m', n ≤ m' ∧ Fresh lib k m' (e.getSampleMi lib R T idx m key).2 := by
  unfold Estimator.getSampleMi
  cases key with
  | none => exact ⟨n + 1, by omega, h.advance.2⟩
  | some k' => exact ⟨n, le_rfl, h⟩

theorem sampleMis_fresh {k : Key} {n : ℕ} {e : Estimator Key} (h : Fresh lib k n e) (is : List ℕ) :
    ∃ m, n ≤ m ∧ Fresh lib k m (e.sampleMis lib R T is).2 := by
  induction is generalizing n e with
  | nil => exact ⟨n, le_rfl, h⟩
  | cons i is ih =>
    obtain ⟨m, hm, h1⟩ := getSampleMi_fresh lib R T h i none none
    unfold Estimator.sampleMis
    split
    · rename_i er e' heq
      rw [heq] at h1
      exact ⟨m, hm, h1⟩
    · rename_i v e' heq
      rw [heq] at h1
      obtain ⟨m', hm', h2⟩ := ih h1
      split
      · rename_i heq'
        rw [heq'] at h2
        exact ⟨m', hm.trans hm', h2⟩
      · rename_i heq'
        rw [heq'] at h2
        exact ⟨m', hm.trans hm', h2⟩

theorem getPosteriorMi_fresh {k : Key} {n : ℕ} {e : Estimator Key} (h : Fresh lib k n e) (x y : PSpace.Mat)
    (m : Option ℕ) : ∃ m', n ≤ m' ∧ Fresh lib k m' (e.getPosteriorMi lib R T ε x y m).2 := by
  obtain ⟨m1, hm1, h1⟩ := runMcmc_fresh lib ε h x y
  unfold Estimator.getPosteriorMi
  split
  · rename_i heq
    rw [heq] at h1
    exact ⟨m1, hm1, h1⟩
  · rename_i heq
    rw [heq] at h1
    have ha := h1.advance.2
    dsimp only
    split_ifs
    · exact ⟨_, by omega, ha⟩
    · exact ⟨_, by omega, ha⟩
    · obtain ⟨m2, hm2, h2⟩ := sampleMis_fresh lib R T ha _
      exact ⟨m2, by omega, h2⟩

theorem call_fresh {k : Key} {n : ℕ} {e : Estimator Key} (h : Fresh lib k n e) (c : Call Key) :
    ∃ m, n ≤ m ∧ Fresh lib k m (e.call lib R T ε c).2 := by
  cases c with
  | parameters => exact ⟨n, le_rfl, h⟩
  | runMcmc x y => exact runMcmc_fresh lib ε h x y
  | getBmmDistribution i => exact ⟨n, le_rfl, h⟩
  | getSampleMi i m key => exact getSampleMi_fresh lib R T h i m key
  | getPosteriorMi x y m => exact getPosteriorMi_fresh lib R T ε h x y m
  | estimate x y m =>
    obtain ⟨m1, hm1, h1⟩ := getPosteriorMi_fresh lib R T ε h x y m
    refine ⟨m1, hm1, ?_⟩
    simp only [Estimator.call, Estimator.estimate]
    split
    · rename_i heq; rw [heq] at h1; exact h1
    · rename_i heq; rw [heq] at h1; exact h1

/-- C48: through any sequence of calls, on any data and whether they succeed or not, no key is handed to a library
function twice. -/
theorem calls_fresh (key : ℤ) (K : ℕ) (alpha : Option ℝ) (std : Bool) (warmup samples : ℕ) (mc : ℤ) (thin : Option ℕ)
    (cs : List (Call Key)) :
    ∃ n, Fresh lib (lib.prngKey key) n ((create lib key K alpha std warmup samples mc thin).calls lib R T ε cs).2 ∧
      (IdealSplit lib (lib.prngKey key) →
        ((create lib key K alpha std warmup samples mc thin).calls lib R T ε cs).2.used.Nodup) := by
  have main : ∀ (cs : List (Call Key)) (n : ℕ) (e : Estimator Key), Fresh lib (lib.prngKey key) n e →
      ∃ m, Fresh lib (lib.prngKey key) m (e.calls lib R T ε cs).2 := by
    intro cs
    induction cs with
    | nil => exact fun n e h => ⟨n, h⟩
    | cons c cs ih =>
      intro n e h
      obtain ⟨m, -, h1⟩ := call_fresh lib R T ε h c
      exact ih m _ h1
  obtain ⟨n, hn⟩ := main cs 0 (create lib key K alpha std warmup samples mc thin) ⟨rfl, rfl⟩
  refine ⟨n, hn, fun hi => ?_⟩
  rw [hn.2]
  exact List.Nodup.map (subkey_injective hi) List.nodup_range

example : ∃ lib : Lib (List Bool), IdealSplit lib (lib.prngKey 0) :=
  ⟨{ prngKey := fun _ => [], split := fun k => (false :: k, true :: k), choice := fun _ _ m => List.range m, nuts := none },
    fun a b h => by simpa using h, fun a b h => by simpa using h, fun k' => by simp⟩

/-! ### One run -/

/-- C48: data with different numbers of points are refused, and the estimator stays as it was. -/
theorem runMcmc_refuses (e : Estimator Key) (x y : PSpace.Mat) (h : x.n ≠ y.n) :
    e.runMcmc lib ε x y = (.error .valueError, e) := by
  simp [Estimator.runMcmc, KSG.space, h]

/-- The prior that is documented in `model` for `K` components with the default hyperparameters, for points with `d`
coordinates. -/
noncomputable def defaultPrior (K d : ℕ) : Prior :=
  { concentration := List.replicate K (1 / (K : ℝ)), dim := d, meanScale := 3, tauScale := 1, lkjConc := 1, jitter := 1 / 1000 }

theorem model_default {K : ℕ} (hK : 0 < K) (d : ℕ) : model d (K := K) = .ok (defaultPrior K d) := by
  simp only [model, defaultPrior, Option.getD_none, ne_eq, not_true_eq_false, if_false, hK.ne', bind, Except.bind, mul_one]
  norm_num

/-- C48: a run splits the key once; without NumPyro it then fails, and with it the sampler gets the new key, the standardised
points with all their coordinates (`x` first), the documented prior with as many components as configured, and the configured
numbers of samples.  If the sampler succeeds its samples replace those of former runs; else everything but the key
stays.

Full statement: the same with the prior `model (d + d') K alpha` for the configured `alpha`, in place of the default one.  This is
false (`alpha_ignored`). -/
theorem runMcmc_partial (e : Estimator Key) {n d d' : ℕ} (hn : 0 < n) (hd : 0 < d) (hd' : 0 < d') (v : Fin n → Fin d → ℝ)
    (w : Fin n → Fin d' → ℝ) (hK : 0 < e.params.nComponents) :
    e.runMcmc lib ε ⟨n, d, v⟩ ⟨n, d', w⟩ =
      let e' : Estimator Key := { e with key := (lib.split e.key).1, used := e.used ++ [(lib.split e.key).2] }
      match lib.nuts with
      | none => (.error .importError, e')
      | some nuts =>
        match nuts (lib.split e.key).2 (defaultPrior e.params.nComponents (d + d'))
          (List.ofFn fun i => List.ofFn (KSG.stdv ε e.params.standardize v i) ++ List.ofFn (KSG.stdv ε e.params.standardize w i))
          e.params.mcmcNumSamples e.params.mcmcNumWarmup with
        | .error er => (.error er, e')
        | .ok ls => (.ok (), { e' with mcmc := some (ls.map (Latent.draw (1 / 1000))), dimX := d, dimY := d' }) := by
  unfold Estimator.runMcmc
  rw [Kde.space_eq ε _ v w hn hd hd']
  dsimp only
  rw [model_default hK]
  dsimp only
  rw [xyRows, rowsOf, rowsOf, zipWith_ofFn]
  cases lib.nuts with
  | none => rfl
  | some nuts =>
    have h : (e.advance lib).1 = (lib.split e.key).2 := rfl
    dsimp only
    rw [h]
    generalize nuts (lib.split e.key).2 _ _ _ _ = r
    cases r <;> rfl

/-- C48: with no components the run fails, after the key was split. -/
theorem runMcmc_zero (e : Estimator Key) {n d d' : ℕ} (hn : 0 < n) (hd : 0 < d) (hd' : 0 < d') (v : Fin n → Fin d → ℝ)
    (w : Fin n → Fin d' → ℝ) (hK : e.params.nComponents = 0) (hl : lib.nuts ≠ none) :
    (e.runMcmc lib ε ⟨n, d, v⟩ ⟨n, d', w⟩).1 = .error .zeroDivision := by
  unfold Estimator.runMcmc
  rw [Kde.space_eq ε _ v w hn hd hd']
  dsimp only
  cases h : lib.nuts with
  | none => exact absurd h hl
  | some nuts => simp [model, hK, bind, Except.bind]

/-- C48: a run that fails leaves the posterior of the last successful run in place. -/
theorem runMcmc_stale (e : Estimator Key) (x y : PSpace.Mat) (er : Err) (h : (e.runMcmc lib ε x y).1 = .error er) :
    (e.runMcmc lib ε x y).2.mcmc = e.mcmc ∧ (e.runMcmc lib ε x y).2.dimX = e.dimX ∧
      (e.runMcmc lib ε x y).2.dimY = e.dimY := by
  revert h
  unfold Estimator.runMcmc
  split
  · exact fun _ => ⟨rfl, rfl, rfl⟩
  · dsimp only
    split
    · exact fun _ => ⟨rfl, rfl, rfl⟩
    · split
      · exact fun _ => ⟨rfl, rfl, rfl⟩
      · split
        · exact fun _ => ⟨rfl, rfl, rfl⟩
        · exact fun h => nomatch h

/-! ### Before the first run -/

/-- Calls that run MCMC. -/
def Call.Runs : Call Key → Prop
  | .runMcmc _ _ => True
  | .getPosteriorMi _ _ _ => True
  | .estimate _ _ _ => True
  | _ => False

/-- Replies that do not give anything about a posterior. -/
def Reply.Nothing : Reply Key → Prop
  | .parameters _ => True
  | .done r => ∃ er, r = .error er
  | .distribution r => r = .error .valueError
  | .number r => r = .error .valueError
  | .numbers r => ∃ er, r = .error er
  | .estimate r => ∃ er, r = .error er

theorem runMcmc_noNuts (hl : lib.nuts = none) (e : Estimator Key) (x y : PSpace.Mat) :
    ∃ er, (e.runMcmc lib ε x y).1 = .error er := by
  unfold Estimator.runMcmc
  split
  · exact ⟨_, rfl⟩
  · simp [hl]

theorem getSampleMi_none (e : Estimator Key) (he : e.mcmc = none) (idx : ℤ) (m : Option ℤ) (key : Option Key) :
    (e.getSampleMi lib R T idx m key).1 = .error .valueError ∧ (e.getSampleMi lib R T idx m key).2.mcmc = none := by
  cases key <;> simp [Estimator.getSampleMi, Estimator.getBmmDistribution, Estimator.advance, he, bind, Except.bind]

theorem call_nothing (e : Estimator Key) (he : e.mcmc = none) (c : Call Key) (hc : lib.nuts = none ∨ ¬ c.Runs) :
    (e.call lib R T ε c).1.Nothing ∧ (e.call lib R T ε c).2.mcmc = none := by
  have post : ∀ x y m, lib.nuts = none → (∃ er, (e.getPosteriorMi lib R T ε x y m).1 = .error er) ∧
      (e.getPosteriorMi lib R T ε x y m).2.mcmc = none := by
    intro x y m hl
    obtain ⟨er, h⟩ := runMcmc_noNuts lib ε hl e x y
    have h2 := (runMcmc_stale lib ε e x y er h).1
    unfold Estimator.getPosteriorMi
    split
    · rename_i heq
      rw [heq] at h2
      exact ⟨⟨_, rfl⟩, h2.trans he⟩
    · rename_i heq
      rw [heq] at h
      exact nomatch h
  cases c with
  | parameters => exact ⟨trivial, he⟩
  | getBmmDistribution i =>
    refine ⟨?_, he⟩
    simp [Estimator.call, Reply.Nothing, Estimator.getBmmDistribution, he]
  | getSampleMi i m key => exact getSampleMi_none lib R T e he i m key
  | runMcmc x y =>
    rcases hc with hl | hc
    · obtain ⟨er, h⟩ := runMcmc_noNuts lib ε hl e x y
      exact ⟨⟨er, h⟩, (runMcmc_stale lib ε e x y er h).1.trans he⟩
    · exact absurd trivial hc
  | getPosteriorMi x y m =>
    rcases hc with hl | hc
    · exact post x y m hl
    · exact absurd trivial hc
  | estimate x y m =>
    rcases hc with hl | hc
    · obtain ⟨⟨er, h1⟩, h2⟩ := post x y m hl
      simp only [Estimator.call, Estimator.estimate]
      split
      · rename_i heq
        rw [heq] at h2
        exact ⟨⟨_, rfl⟩, h2⟩
      · rename_i heq
        rw [heq] at h1
        exact nomatch h1
    · exact absurd trivial hc

/-- C48: an estimator that has not run MCMC, or cannot, refuses to give distributions and mutual informations of samples, after
any sequence of calls. -/
theorem calls_before_run (key : ℤ) (K : ℕ) (alpha : Option ℝ) (std : Bool) (warmup samples : ℕ) (mc : ℤ) (thin : Option ℕ)
    (cs : List (Call Key)) (hc : lib.nuts = none ∨ ∀ c ∈ cs, ¬ c.Runs) :
    ∀ r ∈ ((create lib key K alpha std warmup samples mc thin).calls lib R T ε cs).1, r.Nothing := by
  have main : ∀ (cs : List (Call Key)) (e : Estimator Key), e.mcmc = none → (lib.nuts = none ∨ ∀ c ∈ cs, ¬ c.Runs) →
      ∀ r ∈ (e.calls lib R T ε cs).1, r.Nothing := by
    intro cs
    induction cs with
    | nil => intro e _ _ r hr; simp [Estimator.calls] at hr
    | cons c cs ih =>
      intro e he hc r hr
      obtain ⟨h1, h2⟩ := call_nothing lib R T ε e he c (hc.imp_right fun h => h c (by simp))
      simp only [Estimator.calls, List.mem_cons] at hr
      rcases hr with rfl | hr
      · exact h1
      · exact ih _ h2 (hc.imp_right fun h c' hc' => h c' (by simp [hc'])) r hr
  exact main cs _ rfl hc

/-! ### The concentration `alpha` -/

/-- The same estimator, configured with another concentration. -/
def withAlpha (a : Option ℝ) (e : Estimator Key) : Estimator Key := { e with params := { e.params with alpha := a } }

theorem runMcmc_alpha (a : Option ℝ) (e : Estimator Key) (x y : PSpace.Mat) :
    (withAlpha a e).runMcmc lib ε x y = ((e.runMcmc lib ε x y).1, withAlpha a (e.runMcmc lib ε x y).2) := by
  unfold Estimator.runMcmc
  have h1 : (withAlpha a e).params.standardize = e.params.standardize := rfl
  rw [h1]
  split
  · rfl
  · dsimp only
    cases lib.nuts with
    | none => rfl
    | some nuts =>
      have h2 : (withAlpha a e).params.nComponents = e.params.nComponents := rfl
      rw [h2]
      dsimp only
      rename_i mx my _
      cases model (mx.d + my.d) (K := e.params.nComponents) with
      | error er => rfl
      | ok prior =>
        dsimp only
        have h3 : ((withAlpha a e).advance lib).1 = (e.advance lib).1 := rfl
        have h4 : (withAlpha a e).params.mcmcNumSamples = e.params.mcmcNumSamples := rfl
        have h5 : (withAlpha a e).params.mcmcNumWarmup = e.params.mcmcNumWarmup := rfl
        rw [h3, h4, h5]
        cases nuts (e.advance lib).1 prior (xyRows mx my) e.params.mcmcNumSamples e.params.mcmcNumWarmup <;> rfl

theorem getSampleMi_alpha (a : Option ℝ) (e : Estimator Key) (idx : ℤ) (m : Option ℤ) (key : Option Key) :
    (withAlpha a e).getSampleMi lib R T idx m key =
      ((e.getSampleMi lib R T idx m key).1, withAlpha a (e.getSampleMi lib R T idx m key).2) := by
  cases key <;> rfl

theorem sampleMis_alpha (a : Option ℝ) (e : Estimator Key) (is : List ℕ) :
    (withAlpha a e).sampleMis lib R T is = ((e.sampleMis lib R T is).1, withAlpha a (e.sampleMis lib R T is).2) := by
  induction is generalizing e with
  | nil => rfl
  | cons i is ih =>
    simp only [Estimator.sampleMis]
    rw [getSampleMi_alpha]
    rcases e.getSampleMi lib R T i none none with ⟨_ | v, e'⟩
    · rfl
    · dsimp only
      rw [ih]
      rcases e'.sampleMis lib R T is with ⟨_ | vs, e''⟩ <;> rfl

theorem getPosteriorMi_alpha (a : Option ℝ) (e : Estimator Key) (x y : PSpace.Mat) (m : Option ℕ) :
    (withAlpha a e).getPosteriorMi lib R T ε x y m =
      ((e.getPosteriorMi lib R T ε x y m).1, withAlpha a (e.getPosteriorMi lib R T ε x y m).2) := by
  unfold Estimator.getPosteriorMi
  rw [runMcmc_alpha]
  rcases e.runMcmc lib ε x y with ⟨_ | u, e'⟩
  · rfl
  · dsimp only
    have h1 : (withAlpha a e').params.nThinnedSamples = e'.params.nThinnedSamples := rfl
    have h2 : (withAlpha a e').params.mcmcNumSamples = e'.params.mcmcNumSamples := rfl
    have h3 : (withAlpha a e').advance lib = ((e'.advance lib).1, withAlpha a (e'.advance lib).2) := rfl
    rw [h1, h2, h3]
    dsimp only
    split_ifs
    · rfl
    · rfl
    · exact sampleMis_alpha lib R T a _ _

theorem call_alpha (a : Option ℝ) (e : Estimator Key) (c : Call Key) :
    ((withAlpha a e).call lib R T ε c).2 = withAlpha a (e.call lib R T ε c).2 ∧
      (c ≠ .parameters → ((withAlpha a e).call lib R T ε c).1 = (e.call lib R T ε c).1) := by
  cases c with
  | parameters => exact ⟨rfl, fun h => absurd rfl h⟩
  | getBmmDistribution i => exact ⟨rfl, fun _ => rfl⟩
  | getSampleMi i m key => simp [Estimator.call, getSampleMi_alpha]
  | runMcmc x y => simp [Estimator.call, runMcmc_alpha]
  | getPosteriorMi x y m => simp [Estimator.call, getPosteriorMi_alpha]
  | estimate x y m =>
    simp only [Estimator.call, Estimator.estimate, getPosteriorMi_alpha]
    rcases e.getPosteriorMi lib R T ε x y m with ⟨_ | vs, e'⟩ <;> simp

/-- C48, where the statement fails: the configured concentration `alpha` is never used.  Two estimators which differ only
in it reply alike to every sequence of calls (other than `parameters()`). -/
theorem alpha_ignored (a a' : Option ℝ) (key : ℤ) (K : ℕ) (std : Bool) (warmup samples : ℕ) (mc : ℤ) (thin : Option ℕ)
    (cs : List (Call Key)) (hc : ∀ c ∈ cs, c ≠ .parameters) :
    ((create lib key K a std warmup samples mc thin).calls lib R T ε cs).1 =
      ((create lib key K a' std warmup samples mc thin).calls lib R T ε cs).1 := by
  have main : ∀ (cs : List (Call Key)) (e : Estimator Key), (∀ c ∈ cs, c ≠ .parameters) →
      ((withAlpha a e).calls lib R T ε cs).1 = (e.calls lib R T ε cs).1 := by
    intro cs
    induction cs with
    | nil => exact fun _ _ => rfl
    | cons c cs ih =>
      intro e hc
      obtain ⟨h1, h2⟩ := call_alpha lib R T ε a e c
      simp only [Estimator.calls]
      rw [h2 (hc c (by simp)), h1, ih _ fun c' hc' => hc c' (by simp [hc'])]
  exact main cs (create lib key K a' std warmup samples mc thin) hc

/-- C48: `model` itself does depend on the concentration, so passing it on would make a difference. -/
theorem model_alpha {d K : ℕ} (hK : 0 < K) {a b : ℝ} (ha : a ≠ 0) (hb : b ≠ 0) (hab : a ≠ b) :
    model d K (some a) ≠ model d K (some b) := by
  intro h
  simp only [model, Option.getD_some, ne_eq, ha, hb, not_false_eq_true, if_true, bind, Except.bind, mul_one, Except.ok.injEq,
    Prior.mk.injEq, and_true] at h
  exact hab (List.replicate_right_inj hK.ne' |>.1 h)

/-- C48: a concentration of zero is taken as not given. -/
theorem model_alpha_zero (d K : ℕ) : model d K (some 0) = model d K none := by simp [model]

/-! ### Samples from the posterior -/

theorem jaxIndex_lt {n i : ℕ} (h : i < n) : jaxIndex n i = i := by
  unfold jaxIndex
  simp only
  split_ifs <;> omega

/-- C48: negative indices count from the end.  Indices out of range are not refused: they give the last or the first
sample. -/
theorem getBmmDistribution_clamps (e : Estimator Key) (l : List Draw) (he : e.mcmc = some l) (i : ℕ) :
    (l.length ≤ i → e.getBmmDistribution R T i = e.getBmmDistribution R T ((l.length : ℤ) - 1)) ∧
    (i < l.length → e.getBmmDistribution R T (-(i : ℤ) - 1) = e.getBmmDistribution R T ((l.length : ℤ) - 1 - i)) ∧
    (l.length ≤ i → e.getBmmDistribution R T (-(i : ℤ) - 1) = e.getBmmDistribution R T 0) := by
  have key : ∀ j j' : ℤ, jaxIndex l.length j = jaxIndex l.length j' → e.getBmmDistribution R T j = e.getBmmDistribution R T j' := by
    intro j j' h
    simp [Estimator.getBmmDistribution, he, h]
  refine ⟨fun h => key _ _ ?_, fun h => key _ _ ?_, fun h => key _ _ ?_⟩ <;> unfold jaxIndex <;> simp only <;>
    split_ifs <;> omega

/-- `jax.random.choice` without replacement. -/
def IdealChoice (lib : Lib Key) : Prop :=
  ∀ (k : Key) (n m : ℕ), m ≤ n → (lib.choice k n m).length = m ∧ (lib.choice k n m).Nodup ∧ ∀ i ∈ lib.choice k n m, i < n

theorem subkey_zero (k : Key) : subkey lib k 0 = (lib.split k).2 := rfl

theorem subkey_add (k : Key) (i j : ℕ) : subkey lib ((next lib)^[i] k) j = subkey lib k (j + i) := by
  rw [subkey, subkey, Function.iterate_add_apply]

theorem subkey_next (k : Key) (j : ℕ) : subkey lib (lib.split k).1 j = subkey lib k (j + 1) := subkey_add lib k 1 j

theorem sampleMis_spec (M : ℕ → JointDistribution Key) (is : List ℕ) (e : Estimator Key)
    (hm : 1 ≤ e.params.miEstimateNumSamples) (hM : ∀ i ∈ is, e.getBmmDistribution R T i = .ok (M i)) :
    ∃ vs, (e.sampleMis lib R T is).1 = .ok vs ∧ vs.length = is.length ∧
      ∀ (j : ℕ) (h : j < is.length) (h' : j < vs.length),
        ∃ er, monteCarloMiEstimate (subkey lib e.key j) (M is[j]) e.params.miEstimateNumSamples = .ok (vs[j], er) := by
  induction is generalizing e with
  | nil => exact ⟨[], rfl, rfl, fun j h => absurd h (by simp)⟩
  | cons i is ih =>
    obtain ⟨⟨v, er⟩, hv⟩ := monteCarlo_ok (subkey lib e.key 0) (M i) e.params.miEstimateNumSamples hm
    have h0 : e.getSampleMi lib R T i = (.ok v, (e.advance lib).2) := by
      have h1 : (e.advance lib).2.getBmmDistribution R T i = .ok (M i) := hM i (by simp)
      have h2 : (e.advance lib).1 = subkey lib e.key 0 := rfl
      simp only [Estimator.getSampleMi, h1, h2, bind, Except.bind, Option.getD_none, hv]
    obtain ⟨vs, h1, h2, h3⟩ := ih (e.advance lib).2 hm fun i' hi' => hM i' (by simp [hi'])
    refine ⟨v :: vs, ?_, by simp [h2], ?_⟩
    · simp only [Estimator.sampleMis]
      rw [h0]
      dsimp only
      rcases hs : (e.advance lib).2.sampleMis lib R T is with ⟨r, e'⟩
      rw [hs] at h1
      subst h1
      rfl
    · intro j h h'
      cases j with
      | zero => exact ⟨er, hv⟩
      | succ j =>
        obtain ⟨er', h4⟩ := h3 j (by simpa using h) (by simpa using h')
        refine ⟨er', ?_⟩
        rw [← subkey_next]
        exact h4

/-- C48: the mutual information of one sample is estimated with as many points as asked for, or as configured if the
argument is left out; and with the key that is given, in which case the estimator does not change, or else with a new one. -/
theorem getSampleMi_spec (e : Estimator Key) (idx : ℤ) (M : JointDistribution Key) (hM : e.getBmmDistribution R T idx = .ok M)
    (m : Option ℤ) (n : ℤ) (hn : n = m.getD e.params.miEstimateNumSamples) (h1 : 1 ≤ n) :
    (∀ k : Key, ∃ v er, monteCarloMiEstimate k M n = .ok (v, er) ∧ e.getSampleMi lib R T idx m (some k) = (.ok v, e)) ∧
    ∃ v er, monteCarloMiEstimate (subkey lib e.key 0) M n = .ok (v, er) ∧ (e.getSampleMi lib R T idx m none).1 = .ok v ∧
      (e.getSampleMi lib R T idx m none).2.key = next lib e.key ∧ (e.getSampleMi lib R T idx m none).2.mcmc = e.mcmc ∧
      (e.getSampleMi lib R T idx m none).2.params = e.params := by
  refine ⟨fun k => ?_, ?_⟩
  · obtain ⟨⟨v, er⟩, hv⟩ := monteCarlo_ok k M n h1
    refine ⟨v, er, hv, ?_⟩
    simp only [Estimator.getSampleMi, hM, bind, Except.bind, ← hn, hv]
  · obtain ⟨⟨v, er⟩, hv⟩ := monteCarlo_ok (subkey lib e.key 0) M n h1
    refine ⟨v, er, hv, ?_, rfl, rfl, rfl⟩
    have h2 : (e.advance lib).2.getBmmDistribution R T idx = .ok M := hM
    have h3 : (e.advance lib).1 = subkey lib e.key 0 := rfl
    simp only [Estimator.getSampleMi, h2, h3, bind, Except.bind, ← hn, hv]

/-- C48: an estimate runs MCMC once, then takes as many of the samples as asked for (or as configured), without repetition,
and for each of them estimates the mutual information of the law which the likelihood describes, with the configured number
of points and with a key of its own.  The estimate is the mean. -/
theorem getPosteriorMi_spec {κ : Measure Key} (hT : IdealTfp T κ) (hc : IdealChoice lib) (e : Estimator Key)
    {n d d' : ℕ} (hn : 0 < n) (hd : 0 < d) (hd' : 0 < d') (v : Fin n → Fin d → ℝ) (w : Fin n → Fin d' → ℝ)
    (hK : 0 < e.params.nComponents) {nuts} (hl : lib.nuts = some nuts)
    {ls : List (Latent (defaultPrior e.params.nComponents (d + d')).concentration.length (d + d'))}
    (hls : nuts (subkey lib e.key 0) (defaultPrior e.params.nComponents (d + d'))
      (List.ofFn fun i => List.ofFn (KSG.stdv ε e.params.standardize v i) ++ List.ofFn (KSG.stdv ε e.params.standardize w i))
      e.params.mcmcNumSamples e.params.mcmcNumWarmup = .ok ls)
    (hN : ls.length = e.params.mcmcNumSamples) (hS : ∀ l ∈ ls, l.Supported) (hmc : 1 ≤ e.params.miEstimateNumSamples)
    (thin : Option ℕ) (m : ℕ) (hm : m = thin.getD e.params.nThinnedSamples) (h0 : 0 < m) (h1 : m ≤ ls.length) :
    ∃ (is : List ℕ) (vs : List EReal), is = lib.choice (subkey lib e.key 1) ls.length m ∧ is.length = m ∧ is.Nodup ∧ vs.length = m ∧
      (e.getPosteriorMi lib R T ε ⟨n, d, v⟩ ⟨n, d', w⟩ thin).1 = .ok vs ∧
      (e.estimate lib R T ε ⟨n, d, v⟩ ⟨n, d', w⟩ thin).1 = .ok (some (vs.sum / m)) ∧
      ∀ (j : ℕ) (_ : j < is.length) (_ : j < vs.length), ∃ (hi : is[j] < ls.length) (M : JointDistribution Key) (er : ℝ),
        Consistent κ M Set.univ Set.univ (ls[is[j]].law (1 / 1000) d d') ∧
        monteCarloMiEstimate (subkey lib e.key (j + 2)) M e.params.miEstimateNumSamples = .ok (vs[j], er) := by
  have hrun := runMcmc_partial lib ε e hn hd hd' v w hK
  rw [hl] at hrun
  dsimp only at hrun
  rw [← subkey_zero, hls] at hrun
  dsimp only at hrun
  set e1 : Estimator Key := ⟨e.params, (lib.split e.key).1, d, d', some (ls.map (Latent.draw (1 / 1000))),
    e.used ++ [subkey lib e.key 0]⟩ with he1
  obtain ⟨c1, c2, c3⟩ := hc (e1.advance lib).1 e.params.mcmcNumSamples m (hN ▸ h1)
  set is := lib.choice (e1.advance lib).1 e.params.mcmcNumSamples m with his
  obtain ⟨M0, -⟩ := sampleIntoBmm_spec hT R hd hd' (hS _ (List.getElem_mem (h0.trans_le h1))) (jitter := 1 / 1000) (by norm_num)
  have hex : ∀ i, ∃ M, ∀ hi : i < ls.length, e1.getBmmDistribution R T i = .ok M ∧
      Consistent κ M Set.univ Set.univ (ls[i].law (1 / 1000) d d') := by
    intro i
    by_cases hi : i < ls.length
    · obtain ⟨M, g1, g2, -⟩ := sampleIntoBmm_spec hT R hd hd' (hS _ (List.getElem_mem hi)) (jitter := 1 / 1000) (by norm_num)
      refine ⟨M, fun _ => ⟨?_, g2⟩⟩
      simp only [Estimator.getBmmDistribution, he1, List.length_map, jaxIndex_lt hi, List.getElem?_map,
        List.getElem?_eq_getElem hi, Option.map_some]
      exact g1
    · exact ⟨M0, fun h => absurd h hi⟩
  choose M hM using hex
  obtain ⟨vs, s1, s2, s3⟩ := sampleMis_spec lib R T M is (e1.advance lib).2 hmc fun i hi => (hM i (hN ▸ c3 i hi)).1
  have hpost : (e.getPosteriorMi lib R T ε ⟨n, d, v⟩ ⟨n, d', w⟩ thin).1 = .ok vs := by
    unfold Estimator.getPosteriorMi
    rw [hrun]
    dsimp only
    have g1 : e1.params.nThinnedSamples = e.params.nThinnedSamples := rfl
    have g2 : e1.params.mcmcNumSamples = e.params.mcmcNumSamples := rfl
    rw [g1, g2, ← hm, if_neg h0.ne', if_neg (by omega)]
    exact s1
  have hvs : vs.length = m := s2.trans c1
  refine ⟨is, vs, by rw [hN]; rfl, c1, c2, hvs, hpost, ?_, fun j hj hj' => ?_⟩
  · unfold Estimator.estimate
    rcases hp : e.getPosteriorMi lib R T ε ⟨n, d, v⟩ ⟨n, d', w⟩ thin with ⟨r, e'⟩
    rw [hp] at hpost
    subst hpost
    have : vs ≠ [] := by rintro rfl; simp at hvs; omega
    simp [this, mean, hvs]
  · have hi : is[j] < ls.length := hN ▸ c3 _ (List.getElem_mem hj)
    obtain ⟨er, g⟩ := s3 j hj hj'
    exact ⟨hi, M is[j], er, (hM _ hi).2, g⟩

/-- C48: more samples than there are cannot be asked for; none can, and then the estimate is NaN. -/
theorem getPosteriorMi_edges (e : Estimator Key) (x y : PSpace.Mat) (e' : Estimator Key)
    (h : e.runMcmc lib ε x y = (.ok (), e')) (thin : Option ℕ) :
    (e.params.mcmcNumSamples < thin.getD e.params.nThinnedSamples →
      (e.getPosteriorMi lib R T ε x y thin).1 = .error .valueError ∧ (e.estimate lib R T ε x y thin).1 = .error .valueError) ∧
    (thin.getD e.params.nThinnedSamples = 0 → (e.getPosteriorMi lib R T ε x y thin).1 = .ok [] ∧
      (e.estimate lib R T ε x y thin).1 = .ok none) := by
  have hp : e'.params = e.params := by
    have : (e.runMcmc lib ε x y).2.params = e.params := by
      unfold Estimator.runMcmc
      split
      · rfl
      · dsimp only
        split
        · rfl
        · split
          · rfl
          · split <;> rfl
    rw [h] at this
    exact this
  refine ⟨fun hm => ?_, fun hm => ?_⟩
  · have h0 : thin.getD e.params.nThinnedSamples ≠ 0 := by omega
    simp [Estimator.estimate, Estimator.getPosteriorMi, h, hp, hm, h0]
  · simp [Estimator.estimate, Estimator.getPosteriorMi, h, hp, hm]

/-- C48: by default all samples are used. -/
theorem create_thinned (key : ℤ) (K : ℕ) (alpha : Option ℝ) (std : Bool) (warmup samples : ℕ) (mc : ℤ) :
    (create lib key K alpha std warmup samples mc).params.nThinnedSamples = samples := rfl

/-- A sample in the support: equal proportions, means at the origin, unit covariances (up to the jitter). -/
noncomputable def plainLatent (K d : ℕ) : Latent K d where
  pi _ := 1 / K
  mu _ _ := 0
  tau _ _ := 1
  omega _ := 1

theorem plainLatent_supported {K : ℕ} (hK : 0 < K) (d : ℕ) : (plainLatent K d).Supported where
  pi_nonneg k := by simp [plainLatent]
  pi_sum := by
    have : (K : ℝ) ≠ 0 := by positivity
    simp [plainLatent, this]
  tau_pos k i := by simp [plainLatent]
  lower k i j h := by simp [plainLatent, h.ne]
  diag_pos k i := by simp [plainLatent]

/-- Libraries with a sampler that always gives this sample. -/
noncomputable def plainLib : Lib PathKey where
  prngKey _ := fun _ => ⟨fun _ _ => 0, fun _ _ => 0, fun _ _ => 0⟩
  split k := (fun p => k (0 :: p), fun p => k (1 :: p))
  choice _ _ m := List.range m
  nuts := some fun _ p _ N _ => .ok (List.replicate N (plainLatent p.concentration.length p.dim))

/-- Two of three samples for two components, on two points in the plane. -/
example (R : JaxRandom PathKey) : ∃ vs : List EReal, vs.length = 2 ∧
    ((create plainLib 0 2 (some 5) true 10 3 100 (some 2)).estimate plainLib R path 1 ⟨2, 1, fun i _ => i.val⟩ ⟨2, 1, fun i _ => i.val⟩).1 =
      .ok (some (vs.sum / (2 : ℕ))) := by
  obtain ⟨is, vs, -, -, -, h1, -, h2, -⟩ := getPosteriorMi_spec plainLib R path 1 path_ideal
    (fun k n m h => ⟨by simp [plainLib], List.nodup_range, fun i hi => (List.mem_range.1 hi).trans_le h⟩)
    (create plainLib 0 2 (some 5) true 10 3 100 (some 2)) (n := 2) (d := 1) (d' := 1) (by norm_num) (by norm_num) (by norm_num)
    (fun i _ => i.val) (fun i _ => i.val) (by simp [create]) (nuts := _) rfl (ls := List.replicate 3 (plainLatent _ _)) rfl
    (by simp [create]) (by
      intro l hl
      rw [List.eq_of_mem_replicate hl]
      exact plainLatent_supported (by simp [defaultPrior, create]) _) (by simp [create]) none 2 (by simp [create]) (by norm_num)
    (by simp)
  exact ⟨vs, h1, h2⟩

end BMI.Gmm
