import Verif.Props.BmmPmi
import Verif.Lemmas.SamplerInv

/-! Property C23, and C17 and C18 for the wrapper, over /repo/src/bmi/samplers/_tfp/_wrapper.py. -/

namespace BMI.Bmm

open MeasureTheory ProbabilityTheory BMI.Samplers BMI.Student

variable {Key : Type}

theorem bmmSampler_eq (J : JointDistribution Key) (mi : Option ℝ) (seed : Rng Key) (size : ℤ) :
    bmmSampler J mi seed size = if 1 ≤ J.dimX ∧ 1 ≤ J.dimY ∧ 1 ≤ size then
      .ok { dist := J, mi := mi.map Real.toEReal, miStderr := none, seed := seed, size := size, estimates := 0 }
      else .error .valueError := by
  unfold bmmSampler
  by_cases h : 1 ≤ J.dimX ∧ 1 ≤ J.dimY
  · rw [validateDimensions_of (by omega) (by omega)]
    by_cases h3 : size < 1
    · simp only [if_pos h3]
      rw [if_neg (show ¬ (1 ≤ J.dimX ∧ 1 ≤ J.dimY ∧ 1 ≤ size) by omega)]
      rfl
    · simp only [if_neg h3]
      rw [if_pos (show 1 ≤ J.dimX ∧ 1 ≤ J.dimY ∧ 1 ≤ size by omega)]
      rfl
  · rw [if_neg (show ¬ (1 ≤ J.dimX ∧ 1 ≤ J.dimY ∧ 1 ≤ size) by omega)]
    rcases validateDimensions_cases J.dimX J.dimY with h2 | h2
    · have := validateDimensions_ok h2
      omega
    · rw [h2]
      rfl

/-- The constructor accepts exactly positive dimensions and a positive number of Monte Carlo points. -/
theorem bmmSampler_accepts_iff (J : JointDistribution Key) (mi : Option ℝ) (seed : Rng Key) (size : ℤ) :
    ((∃ s, bmmSampler J mi seed size = .ok s) ↔ 1 ≤ J.dimX ∧ 1 ≤ J.dimY ∧ 1 ≤ size) ∧
    ((¬ ∃ s, bmmSampler J mi seed size = .ok s) → bmmSampler J mi seed size = .error .valueError) := by
  have h := bmmSampler_eq J mi seed size
  split_ifs at h with hc
  · rw [h]
    exact ⟨⟨fun _ => hc, fun _ => ⟨_, rfl⟩⟩, fun h => absurd ⟨_, rfl⟩ h⟩
  · rw [h]
    exact ⟨⟨(fun ⟨_, h⟩ => by cases h), fun h => absurd h hc⟩, fun _ => rfl⟩

theorem bmmSampler_ok {J : JointDistribution Key} {mi : Option ℝ} {seed : Rng Key} {size : ℤ} {s : BmmSampler Key}
    (h : bmmSampler J mi seed size = .ok s) :
    s = { dist := J, mi := mi.map Real.toEReal, miStderr := none, seed := seed, size := size, estimates := 0 } ∧
      1 ≤ J.dimX ∧ 1 ≤ J.dimY ∧ 1 ≤ size := by
  refine ⟨?_, (bmmSampler_accepts_iff J mi seed size).1.1 ⟨s, h⟩⟩
  rw [bmmSampler_eq] at h
  split_ifs at h
  exact (Except.ok.inj h).symm

/-- A Monte Carlo estimate with a positive number of points never raises. -/
theorem monteCarlo_ok (key : Key) (J : JointDistribution Key) (n : ℤ) (hn : 1 ≤ n) :
    ∃ r, monteCarloMiEstimate key J n = .ok r := by
  unfold monteCarloMiEstimate pmiProfile JointDistribution.sample
  rw [if_neg (by omega)]
  unfold JointDistribution.pmi
  simp only [bind, Except.bind, List.length_map, if_true]
  exact ⟨_, rfl⟩

/-- The replies to a sequence of calls, if `mutual_information()` always returns `v`. -/
def replies (R : JaxRandom Key) (J : JointDistribution Key) (v : EReal) : Call Key → Reply
  | .sample n rng => .arrays (J.sample n (castToRng R rng))
  | .mutualInformation => .number (.ok v)

/-- The number of calls of `mutual_information()`. -/
def asks : List (Call Key) → ℕ
  | [] => 0
  | .sample _ _ :: cs => asks cs
  | .mutualInformation :: cs => asks cs + 1

theorem calls_known (R : JaxRandom Key) (s : BmmSampler Key) (v : EReal) (hv : s.mi = some v) (cs : List (Call Key)) :
    s.calls R cs = (cs.map (replies R s.dist v), s) := by
  induction cs with
  | nil => rfl
  | cons c cs ih =>
    have hc : s.call R c = (replies R s.dist v c, s) := by
      cases c with
      | sample n rng => rfl
      | mutualInformation =>
        unfold BmmSampler.call BmmSampler.mutualInformation
        rw [hv]
        rfl
    show ((s.call R c).1 :: ((s.call R c).2.calls R cs).1, ((s.call R c).2.calls R cs).2) = _
    rw [hc]
    simp only [ih, List.map_cons]

/-- **C23**, number supplied by the user: whatever the sequence of calls, `mutual_information()` returns the supplied
number each time (zero as well), no estimate is ever made, and sampling is that of the distribution. -/
theorem bmmSampler_supplied (R : JaxRandom Key) (J : JointDistribution Key) (v : ℝ) (seed : Rng Key) (size : ℤ)
    {s : BmmSampler Key} (hs : bmmSampler J (some v) seed size = .ok s) (cs : List (Call Key)) :
    (s.calls R cs).1 = cs.map (replies R J v) ∧ (s.calls R cs).2.estimates = 0 := by
  obtain ⟨rfl, -⟩ := bmmSampler_ok hs
  rw [calls_known R _ v rfl]
  exact ⟨rfl, rfl⟩

/-- **C23**, no number supplied: whatever the sequence of calls, `mutual_information()` returns each time the one Monte
Carlo estimate made with the configured seed and number of points; this estimate is computed once if it is ever asked for,
and not at all otherwise; and sampling is that of the distribution. -/
theorem bmmSampler_estimated (R : JaxRandom Key) (J : JointDistribution Key) (seed : Rng Key) (size : ℤ)
    {s : BmmSampler Key} (hs : bmmSampler J none seed size = .ok s) :
    ∃ v err, monteCarloMiEstimate (castToRng R seed) J size = .ok (v, err) ∧
      ∀ cs : List (Call Key), (s.calls R cs).1 = cs.map (replies R J v) ∧
        (s.calls R cs).2.estimates = if asks cs = 0 then 0 else 1 := by
  obtain ⟨rfl, -, -, hsize⟩ := bmmSampler_ok hs
  obtain ⟨⟨v, err⟩, hr⟩ := monteCarlo_ok (castToRng R seed) J size hsize
  refine ⟨v, err, hr, fun cs => ?_⟩
  induction cs with
  | nil => exact ⟨rfl, rfl⟩
  | cons c cs ih =>
    cases c with
    | sample n rng =>
      refine ⟨?_, ih.2⟩
      exact congrArg (List.cons _) ih.1
    | mutualInformation =>
      set s : BmmSampler Key := { dist := J, mi := none, miStderr := none, seed := seed, size := size, estimates := 0 }
        with hs
      have hc : s.call R .mutualInformation
          = (.number (.ok v), { dist := J, mi := some v, miStderr := some err, seed := seed, size := size, estimates := 1 }) := by
        have : s.mutualInformation R = match monteCarloMiEstimate (castToRng R seed) J size with
          | .error e => (.error e, { s with estimates := s.estimates + 1 })
          | .ok (v, err) => (.ok v, { s with mi := some v, miStderr := some err, estimates := s.estimates + 1 }) := rfl
        rw [hr] at this
        unfold BmmSampler.call
        simp only [this]
        rfl
      have h2 : s.calls R (.mutualInformation :: cs)
          = ((s.call R .mutualInformation).1 :: ((s.call R .mutualInformation).2.calls R cs).1,
            ((s.call R .mutualInformation).2.calls R cs).2) := rfl
      show (s.calls R (.mutualInformation :: cs)).1 = _ ∧ (s.calls R (.mutualInformation :: cs)).2.estimates = _
      rw [h2, hc, calls_known R _ v rfl]
      exact ⟨rfl, rfl⟩

theorem mutualInformation_none (R : JaxRandom Key) {J : JointDistribution Key} {seed : Rng Key} {size : ℤ}
    {s : BmmSampler Key} (hs : bmmSampler J none seed size = .ok s) {v : EReal} {e : ℝ}
    (hr : monteCarloMiEstimate (castToRng R seed) J size = .ok (v, e)) : (s.mutualInformation R).1 = .ok v := by
  obtain ⟨rfl, -⟩ := bmmSampler_ok hs
  unfold BmmSampler.mutualInformation
  simp only [Option.map_none, hr]

/-- **C18** for the wrapper: an integer seed and the key made from it give the same samples and the same number. -/
theorem bmmSampler_seedsAreKeys (R : JaxRandom Key) (J : JointDistribution Key) (mi : Option ℝ) (seed : ℤ) (size : ℤ)
    {s t : BmmSampler Key} (hs : bmmSampler J mi (.seed seed) size = .ok s)
    (ht : bmmSampler J mi (.key (R.prngKey seed)) size = .ok t) :
    (∀ n i, s.sample R n (.seed i) = t.sample R n (.key (R.prngKey i))) ∧
    (s.mutualInformation R).1 = (t.mutualInformation R).1 := by
  obtain ⟨rfl, -⟩ := bmmSampler_ok hs
  obtain ⟨rfl, -⟩ := bmmSampler_ok ht
  refine ⟨fun n i => rfl, ?_⟩
  unfold BmmSampler.mutualInformation
  cases mi with
  | some v => rfl
  | none =>
    show Prod.fst (match monteCarloMiEstimate (R.prngKey seed) J size with
      | .error e => _
      | .ok (v, err) => _) = Prod.fst (match monteCarloMiEstimate (R.prngKey seed) J size with
      | .error e => _
      | .ok (v, err) => _)
    cases monteCarloMiEstimate (R.prngKey seed) J size <;> rfl

variable [MeasurableSpace Key] {κ : Measure Key} {dx dy : ℕ}
  {Sx : Set (Fin dx → ℝ)} {Sy : Set (Fin dy → ℝ)} {P : Measure ((Fin dx → ℝ) × (Fin dy → ℝ))}

/-- **C17** for the wrapper: the arrays have `n` rows of `dim_x` and `dim_y` numbers, and are independent draws from the
joint law, split at `dim_x`; fewer than one point raise `ValueError`. -/
theorem bmmSampler_sample (R : JaxRandom Key) {J : JointDistribution Key} (hJ : Consistent κ J Sx Sy P) (mi : Option ℝ)
    (seed : Rng Key) (size : ℤ) {s : BmmSampler Key} (hs : bmmSampler J mi seed size = .ok s) :
    (∀ n : ℤ, n < 1 → ∀ rng, s.sample R n rng = .error .valueError) ∧
    ∀ n : ℕ, 0 < n → ∃ draw : Key → Fin n → (Fin dx → ℝ) × (Fin dy → ℝ), Measurable draw ∧
      κ.map draw = Measure.pi (fun _ => P) ∧ ∀ rng, s.sample R n rng
        = .ok (rowsOf fun i => (draw (castToRng R rng) i).1, rowsOf fun i => (draw (castToRng R rng) i).2) := by
  obtain ⟨rfl, -⟩ := bmmSampler_ok hs
  constructor
  · intro n hn rng
    unfold BmmSampler.sample JointDistribution.sample
    rw [if_pos hn]
  · intro n hn
    obtain ⟨draw, hm, hd, hl⟩ := hJ.joint.law n
    refine ⟨draw, hm, hl, fun rng => ?_⟩
    unfold BmmSampler.sample JointDistribution.sample
    rw [if_neg (by omega), Int.toNat_natCast]
    simp only [hd, hJ.dimX, List.map_ofFn]
    congr 2
    · exact congrArg _ (funext fun i => take_pairList _)
    · exact congrArg _ (funext fun i => drop_pairList _)

/-- A sampler with a supplied number and one without, around a normal distribution. -/
example (R : JaxRandom PathKey) : ∃ J, multivariateNormalDistribution R path 1 1 (rowsOf (bivariateCov 0.5 1 1))
    (some (List.ofFn ![1, 2])) = .ok J ∧ ∃ s t, bmmSampler J (some 0) (.seed 0) 200000 = .ok s ∧
      bmmSampler J none (.seed 0) 200000 = .ok t ∧ bmmSampler J none (.seed 0) 0 = .error .valueError ∧
      (s.calls R [.mutualInformation, .mutualInformation]).1 = [.number (.ok 0), .number (.ok 0)] ∧
      (t.calls R [.mutualInformation, .sample 3 (.seed 1), .mutualInformation]).2.estimates = 1 ∧
      ∃ x y, t.sample R 3 (.seed 1) = .ok (x, y) ∧ x.length = 3 := by
  obtain ⟨J, P, h1, h2, -⟩ := example_normal R
  have hd : 1 ≤ J.dimX ∧ 1 ≤ J.dimY := by rw [h2.dimX, h2.dimY]; exact ⟨le_rfl, le_rfl⟩
  obtain ⟨s, hs⟩ := (bmmSampler_accepts_iff J (some 0) (.seed 0) 200000).1.2 ⟨hd.1, hd.2, by norm_num⟩
  obtain ⟨t, ht⟩ := (bmmSampler_accepts_iff J none (.seed 0) 200000).1.2 ⟨hd.1, hd.2, by norm_num⟩
  obtain ⟨v, err, -, hc⟩ := bmmSampler_estimated R J (.seed 0) 200000 ht
  obtain ⟨draw, -, -, hsam⟩ := (bmmSampler_sample R h2 none (.seed 0) 200000 ht).2 3 (by norm_num)
  refine ⟨J, h1, s, t, hs, ht, (bmmSampler_accepts_iff J none (.seed 0) 0).2 fun h => ?_, ?_, ?_, _, _, hsam (.seed 1), ?_⟩
  · have := ((bmmSampler_accepts_iff J none (.seed 0) 0).1.1 h).2.2
    norm_num at this
  · rw [(bmmSampler_supplied R J 0 (.seed 0) 200000 hs _).1]
    rfl
  · rw [(hc _).2]
    rfl
  · exact List.length_ofFn

end BMI.Bmm
