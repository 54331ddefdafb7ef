import Verif.Model.Search
import Verif.Lemmas.Transforms
import Mathlib.Data.Set.Card
import Mathlib.Analysis.SpecificLimits.Basic

/-! Property C19: numerical inversion of distribution functions, over /repo/src/bmi/transforms/_invert_cdf.py. -/

namespace BMI.Search

open BMI.Samplers

variable {F S : Type}

/-! ## Helpers on loops -/

theorem whileLoop_eq_some {cond : S → Bool} {step : S → S} {s t : S} (h : whileLoop cond step s = some t) :
    ∃ n, t = step^[n] s ∧ cond t = false ∧ ∀ k < n, cond (step^[k] s) = true := by
  classical
  unfold whileLoop at h
  split_ifs at h with hn
  obtain rfl := Option.some.inj h
  refine ⟨Nat.find hn, rfl, Nat.find_spec hn, fun k hk => ?_⟩
  simpa using Nat.find_min hn hk

theorem whileLoop_of_exit {cond : S → Bool} {step : S → S} {s : S} {n : ℕ} (h : cond (step^[n] s) = false) :
    ∃ t k, k ≤ n ∧ whileLoop cond step s = some t ∧ t = step^[k] s := by
  classical
  have hn : ∃ n, cond (step^[n] s) = false := ⟨n, h⟩
  exact ⟨_, Nat.find hn, Nat.find_min' hn h, dif_pos hn, rfl⟩

theorem whileLoop_of_measure {cond : S → Bool} {step : S → S} (μ : S → ℕ)
    (hμ : ∀ s, cond s = true → μ (step s) < μ s) (s : S) : ∃ n, cond (step^[n] s) = false := by
  induction hk : μ s using Nat.strong_induction_on generalizing s with
  | _ k ih =>
    cases hc : cond s with
    | false => exact ⟨0, hc⟩
    | true =>
      obtain ⟨n, hn⟩ := ih (μ (step s)) (hk ▸ hμ s hc) (step s) rfl
      exact ⟨n + 1, by rwa [Function.iterate_succ_apply]⟩

theorem whileLoop_invariant {cond : S → Bool} {step : S → S} {s t : S} (h : whileLoop cond step s = some t)
    (I : S → Prop) (h0 : I s) (hstep : ∀ s, cond s = true → I s → I (step s)) : I t := by
  obtain ⟨n, rfl, -, hk⟩ := whileLoop_eq_some h
  clear h
  induction n with
  | zero => exact h0
  | succ n ih =>
    rw [Function.iterate_succ_apply']
    exact hstep _ (hk n (Nat.lt_succ_self n)) (ih fun k hkn => hk k (Nat.lt_succ_of_lt hkn))

/-! ## Any kind of numbers -/

/-- **C19**: with finitely many floating-point numbers the loop always ends, for every function, bracket, tolerance and
target, however the operations round and even if they produce NaN: it is enough that `<` is irreflexive and transitive. -/
theorem invertMono_terminates [Finite F] (o : FloatOps F) (hirr : ∀ x, o.lt x x = false)
    (htrans : ∀ x y z, o.lt x y = true → o.lt y z = true → o.lt x z = true) (f : F → F) (xMin xMax delta y : F) :
    ∃ x, invertMono o f xMin xMax delta y = some x := by
  have hμ : ∀ s : F × F, gCond o delta s = true →
      {z | o.lt (gStep o f y s).1 z = true ∧ o.lt z (gStep o f y s).2 = true}.ncard
        < {z | o.lt s.1 z = true ∧ o.lt z s.2 = true}.ncard := by
    intro s hs
    simp only [gCond, Bool.and_eq_true] at hs
    obtain ⟨⟨-, h1⟩, h2⟩ := hs
    refine Set.ncard_lt_ncard ?_ (Set.toFinite _)
    rw [Set.ssubset_iff_of_subset]
    · refine ⟨middle o s.1 s.2, ⟨h2, h1⟩, ?_⟩
      unfold gStep
      dsimp only
      split_ifs
      · rintro ⟨h3, -⟩
        rw [hirr] at h3
        exact absurd h3 (by simp)
      · rintro ⟨-, h3⟩
        rw [hirr] at h3
        exact absurd h3 (by simp)
    · unfold gStep
      dsimp only
      split_ifs
      · rintro z ⟨h3, h4⟩
        exact ⟨htrans _ _ _ h2 h3, h4⟩
      · rintro z ⟨h3, h4⟩
        exact ⟨h3, htrans _ _ _ h4 h1⟩
  obtain ⟨n, hn⟩ := whileLoop_of_measure (step := gStep o f y)
    (fun s => {z | o.lt s.1 z = true ∧ o.lt z s.2 = true}.ncard) hμ (xMin, xMax)
  obtain ⟨t, -, -, ht, -⟩ := whileLoop_of_exit hn
  refine ⟨middle o t.1 t.2, ?_⟩
  unfold invertMono invertLoop
  rw [ht]
  rfl

/-- **C19**: whatever the numbers, the result is the middle of a bracket whose lower end is `x_min` or has a value below
the target, whose upper end is `x_max` or has not, and which is either narrow or cannot be divided. -/
theorem invertMono_bracket (o : FloatOps F) (f : F → F) (xMin xMax delta y x : F)
    (h : invertMono o f xMin xMax delta y = some x) :
    ∃ x0 x1, x = middle o x0 x1 ∧ (x0 = xMin ∨ o.lt (f x0) y = true) ∧ (x1 = xMax ∨ o.lt (f x1) y = false) ∧
      (o.lt delta (o.abs (o.sub x1 x0)) = false ∨ o.lt x x1 = false ∨ o.lt x0 x = false) := by
  unfold invertMono invertLoop at h
  obtain ⟨⟨x0, x1⟩, ht, rfl⟩ := Option.map_eq_some_iff.1 h
  refine ⟨x0, x1, rfl, ?_⟩
  obtain ⟨n, -, hc, -⟩ := whileLoop_eq_some ht
  have hI := whileLoop_invariant ht (fun s => (s.1 = xMin ∨ o.lt (f s.1) y = true) ∧ (s.2 = xMax ∨ o.lt (f s.2) y = false))
    ⟨Or.inl rfl, Or.inl rfl⟩ (by
      rintro ⟨a, b⟩ - ⟨h1, h2⟩
      unfold gStep
      dsimp only at *
      split_ifs with hf
      · exact ⟨Or.inr hf, h2⟩
      · exact ⟨h1, Or.inr (by simpa using hf)⟩)
  refine ⟨hI.1, hI.2, ?_⟩
  simp only [gCond, Bool.and_eq_false_iff] at hc
  tauto

/-- Three-valued arithmetic with a NaN: everything overflows, and still the loop ends. -/
example : ∃ x, invertMono (F := Option (Fin 2))
    { add := fun _ _ => none, sub := fun a _ => a, mul := fun _ _ => none, div := fun _ _ => none, abs := id,
      lt := fun a b => match a, b with | some a, some b => decide (a < b) | _, _ => false, lit := fun _ => some 0 }
    id (some 0) (some 1) (some 0) (some 1) = some x :=
  invertMono_terminates _ (by rintro (_ | a) <;> simp) (by
    rintro (_ | a) (_ | b) (_ | c) <;> simp
    exact fun h1 h2 => h1.trans h2) _ _ _ _ _

/-! ## Real numbers -/

theorem middle_real (a b : ℝ) : middle realOps a b = (a + b) / 2 := by
  simp [middle, realOps]

theorem gCond_real (delta : ℝ) (s : ℝ × ℝ) : gCond realOps delta s = true ↔ delta < |s.2 - s.1| ∧ s.1 < s.2 := by
  simp only [gCond, middle_real, Bool.and_eq_true]
  simp only [realOps, decide_eq_true_eq]
  constructor
  · rintro ⟨⟨h1, h2⟩, h3⟩
    exact ⟨h1, by linarith⟩
  · rintro ⟨h1, h2⟩
    exact ⟨⟨h1, by linarith⟩, by linarith⟩

theorem gStep_real (f : ℝ → ℝ) (y : ℝ) (s : ℝ × ℝ) : gStep realOps f y s
    = if f ((s.1 + s.2) / 2) < y then ((s.1 + s.2) / 2, s.2) else (s.1, (s.1 + s.2) / 2) := by
  simp only [gStep, middle_real]
  simp only [realOps, decide_eq_true_eq]

theorem iterate_width (f : ℝ → ℝ) (y : ℝ) (n : ℕ) (s : ℝ × ℝ) :
    ((gStep realOps f y)^[n] s).2 - ((gStep realOps f y)^[n] s).1 = (s.2 - s.1) / 2 ^ n := by
  induction n with
  | zero => simp
  | succ n ih =>
    rw [Function.iterate_succ_apply', gStep_real, pow_succ, ← div_div, ← ih]
    split_ifs <;> (dsimp only; ring)

/-- **C19**: in exact arithmetic the loop ends for every positive tolerance. -/
theorem invertMono_terminates_real (f : ℝ → ℝ) (xMin xMax delta y : ℝ) (hd : 0 < delta) :
    ∃ x, invertMono realOps f xMin xMax delta y = some x := by
  obtain ⟨n, hn⟩ := pow_unbounded_of_one_lt (|xMax - xMin| / delta) (one_lt_two (α := ℝ))
  have h : gCond realOps delta ((gStep realOps f y)^[n] (xMin, xMax)) = false := by
    rw [← Bool.not_eq_true, gCond_real, iterate_width]
    rintro ⟨h1, -⟩
    rw [abs_div, abs_of_pos (by positivity : (0 : ℝ) < 2 ^ n), lt_div_iff₀ (by positivity)] at h1
    rw [div_lt_iff₀ hd] at hn
    dsimp only at h1
    linarith
  obtain ⟨t, -, -, ht, -⟩ := whileLoop_of_exit h
  refine ⟨middle realOps t.1 t.2, ?_⟩
  unfold invertMono invertLoop
  rw [ht]
  rfl

/-- What is known about the bracket in exact arithmetic. -/
theorem invertMono_real_bracket (f : ℝ → ℝ) (xMin xMax delta y x : ℝ) (hx : xMin ≤ xMax) (hd : 0 < delta)
    (h : invertMono realOps f xMin xMax delta y = some x) :
    ∃ x0 x1, x = (x0 + x1) / 2 ∧ xMin ≤ x0 ∧ x0 ≤ x1 ∧ x1 ≤ xMax ∧ x1 - x0 ≤ delta ∧
      (x0 = xMin ∨ f x0 < y) ∧ (x1 = xMax ∨ y ≤ f x1) := by
  unfold invertMono invertLoop at h
  obtain ⟨⟨x0, x1⟩, ht, rfl⟩ := Option.map_eq_some_iff.1 h
  obtain ⟨n, -, hc, -⟩ := whileLoop_eq_some ht
  have hI := whileLoop_invariant ht (fun s => xMin ≤ s.1 ∧ s.1 ≤ s.2 ∧ s.2 ≤ xMax ∧
      (s.1 = xMin ∨ f s.1 < y) ∧ (s.2 = xMax ∨ y ≤ f s.2)) ⟨le_rfl, hx, le_rfl, Or.inl rfl, Or.inl rfl⟩ (by
      rintro ⟨a, b⟩ - ⟨h1, h2, h3, h4, h5⟩
      rw [gStep_real]
      dsimp only at *
      split_ifs with hf
      · exact ⟨by linarith, by dsimp only; linarith, h3, Or.inr hf, h5⟩
      · exact ⟨h1, by dsimp only; linarith, by dsimp only; linarith, h4, Or.inr (not_lt.1 hf)⟩)
  refine ⟨x0, x1, middle_real _ _, hI.1, hI.2.1, hI.2.2.1, ?_, hI.2.2.2.1, hI.2.2.2.2⟩
  by_contra hw
  push Not at hw
  have := (gCond_real delta (x0, x1)).2 ⟨lt_of_lt_of_le hw (le_abs_self _), by dsimp only; linarith⟩
  rw [hc] at this
  exact absurd this (by simp)

/-- **C19**: for a function which is increasing on the bracket, the result is within half the tolerance of the
point with the target value. -/
theorem invertMono_accurate (f : ℝ → ℝ) (xMin xMax delta y x t : ℝ) (hd : 0 < delta)
    (hf : StrictMonoOn f (Set.Icc xMin xMax)) (ht : t ∈ Set.Icc xMin xMax) (hy : f t = y)
    (h : invertMono realOps f xMin xMax delta y = some x) : |x - t| ≤ delta / 2 := by
  obtain ⟨x0, x1, rfl, h1, h2, h3, h4, h5, h6⟩ :=
    invertMono_real_bracket f xMin xMax delta y x (ht.1.trans ht.2) hd h
  have h0t : x0 ≤ t := by
    rcases h5 with rfl | h5
    · exact ht.1
    · rw [← hy] at h5
      exact (hf.lt_iff_lt ⟨h1, h2.trans h3⟩ ht).1 h5 |>.le
  have ht1 : t ≤ x1 := by
    rcases h6 with rfl | h6
    · exact ht.2
    · rw [← hy] at h6
      exact (hf.le_iff_le ht ⟨h1.trans h2, h3⟩).1 h6
  rw [abs_le]
  constructor <;> linarith

/-- **C19**: a continuous increasing function attains every value between those at the ends, so that the result
always approximates an exact solution. -/
theorem invertMono_solves (f : ℝ → ℝ) (xMin xMax delta y : ℝ) (hx : xMin ≤ xMax) (hd : 0 < delta)
    (hc : ContinuousOn f (Set.Icc xMin xMax)) (hf : StrictMonoOn f (Set.Icc xMin xMax)) (hy : f xMin ≤ y) (hy' : y ≤ f xMax) :
    ∃ x t, invertMono realOps f xMin xMax delta y = some x ∧ t ∈ Set.Icc xMin xMax ∧ f t = y ∧ |x - t| ≤ delta / 2 := by
  obtain ⟨t, ht, hty⟩ := intermediate_value_Icc hx hc ⟨hy, hy'⟩
  obtain ⟨x, h⟩ := invertMono_terminates_real f xMin xMax delta y hd
  exact ⟨x, t, h, ht, hty, invertMono_accurate f xMin xMax delta y x t hd hf ht hty h⟩

/-- **C19**: targets outside the range of the function saturate at the ends of the bracket. -/
theorem invertMono_saturates (f : ℝ → ℝ) (xMin xMax delta y x : ℝ) (hx : xMin ≤ xMax) (hd : 0 < delta)
    (h : invertMono realOps f xMin xMax delta y = some x) :
    ((∀ z ∈ Set.Icc xMin xMax, y ≤ f z) → |x - xMin| ≤ delta / 2) ∧
      ((∀ z ∈ Set.Icc xMin xMax, f z < y) → |x - xMax| ≤ delta / 2) := by
  obtain ⟨x0, x1, rfl, h1, h2, h3, h4, h5, h6⟩ := invertMono_real_bracket f xMin xMax delta y x hx hd h
  constructor
  · intro hz
    rcases h5 with rfl | h5
    · rw [abs_le]
      constructor <;> linarith
    · exact absurd (hz x0 ⟨h1, h2.trans h3⟩) (not_le.2 h5)
  · intro hz
    rcases h6 with rfl | h6
    · rw [abs_le]
      constructor <;> linarith
    · exact absurd (hz x1 ⟨h1.trans h2, h3⟩) (not_lt.2 h6)

/-- The number of steps does not depend on the function or the target. -/
theorem invertMono_eq_iterate (xMin xMax delta : ℝ) (hd : 0 < delta) :
    ∃ n, ∀ (f : ℝ → ℝ) (y : ℝ), invertLoop realOps f xMin xMax delta y = some ((gStep realOps f y)^[n] (xMin, xMax)) := by
  have hc : ∀ (f g : ℝ → ℝ) (y z : ℝ) (n : ℕ), gCond realOps delta ((gStep realOps f y)^[n] (xMin, xMax)) = true →
      gCond realOps delta ((gStep realOps g z)^[n] (xMin, xMax)) = true := by
    intro f g y z n h
    rw [gCond_real, iterate_width] at h ⊢
    refine ⟨h.1, ?_⟩
    have h2 := sub_pos.2 h.2
    rw [iterate_width] at h2
    rw [← sub_pos, iterate_width]
    exact h2
  have ht : ∀ (f : ℝ → ℝ) (y : ℝ), ∃ n, invertLoop realOps f xMin xMax delta y
      = some ((gStep realOps f y)^[n] (xMin, xMax)) ∧
      gCond realOps delta ((gStep realOps f y)^[n] (xMin, xMax)) = false ∧
      ∀ k < n, gCond realOps delta ((gStep realOps f y)^[k] (xMin, xMax)) = true := by
    intro f y
    obtain ⟨x, hx⟩ := invertMono_terminates_real f xMin xMax delta y hd
    obtain ⟨t, ht, -⟩ := Option.map_eq_some_iff.1 hx
    obtain ⟨n, rfl, h1, h2⟩ := whileLoop_eq_some ht
    exact ⟨n, ht, h1, h2⟩
  obtain ⟨n, -, h1, h2⟩ := ht id 0
  refine ⟨n, fun f y => ?_⟩
  obtain ⟨k, h3, h4, h5⟩ := ht f y
  rcases lt_trichotomy n k with h | rfl | h
  · have := hc _ id _ 0 _ (h5 n h)
    rw [h1] at this
    exact absurd this (by simp)
  · exact h3
  · have := hc _ f _ y _ (h2 k h)
    rw [h4] at this
    exact absurd this (by simp)

/-- **C19**: the result grows with the target, so that the transform never changes the order of two points. -/
theorem invertMono_mono (f : ℝ → ℝ) (xMin xMax delta y y' x x' : ℝ) (hx : xMin ≤ xMax) (hd : 0 < delta) (hyy : y ≤ y')
    (h : invertMono realOps f xMin xMax delta y = some x) (h' : invertMono realOps f xMin xMax delta y' = some x') :
    x ≤ x' := by
  obtain ⟨n, hn⟩ := invertMono_eq_iterate xMin xMax delta hd
  have key : ((gStep realOps f y)^[n] (xMin, xMax)).1 ≤ ((gStep realOps f y)^[n] (xMin, xMax)).2 ∧
      ((gStep realOps f y')^[n] (xMin, xMax)).1 ≤ ((gStep realOps f y')^[n] (xMin, xMax)).2 ∧
      ((gStep realOps f y)^[n] (xMin, xMax) = (gStep realOps f y')^[n] (xMin, xMax) ∨
        ((gStep realOps f y)^[n] (xMin, xMax)).2 ≤ ((gStep realOps f y')^[n] (xMin, xMax)).1) := by
    clear hn
    induction n with
    | zero => exact ⟨hx, hx, Or.inl rfl⟩
    | succ n ih =>
      rw [Function.iterate_succ_apply', Function.iterate_succ_apply']
      generalize (gStep realOps f y)^[n] (xMin, xMax) = s at *
      generalize (gStep realOps f y')^[n] (xMin, xMax) = t at *
      obtain ⟨s0, s1⟩ := s
      obtain ⟨t0, t1⟩ := t
      obtain ⟨i1, i2, i3⟩ := ih
      rw [gStep_real, gStep_real]
      dsimp only at *
      rcases i3 with i3 | i3
      · rw [Prod.mk.injEq] at i3
        obtain ⟨rfl, rfl⟩ := i3
        split_ifs with a b b
        · exact ⟨by dsimp only; linarith, by dsimp only; linarith, Or.inl rfl⟩
        · exact absurd (a.trans_le hyy) b
        · exact ⟨by dsimp only; linarith, by dsimp only; linarith, Or.inr le_rfl⟩
        · exact ⟨by dsimp only; linarith, by dsimp only; linarith, Or.inl rfl⟩
      · split_ifs <;> exact ⟨by dsimp only; linarith, by dsimp only; linarith, Or.inr (by dsimp only; linarith)⟩
  unfold invertMono at h h'
  rw [hn] at h h'
  obtain rfl := Option.some.inj h
  obtain rfl := Option.some.inj h'
  show middle realOps _ _ ≤ middle realOps _ _
  rw [middle_real, middle_real]
  rcases key.2.2 with e | e
  · rw [e]
  · linarith [key.1, key.2.1]

/-- **C19**: the transform takes only finitely many values, so that it is not injective: a variable transformed by
it is discrete, and only in the limit `delta → 0` does it have the inverted distribution function. -/
theorem invertMono_finite (f : ℝ → ℝ) (xMin xMax delta : ℝ) (hd : 0 < delta) :
    {x | ∃ y, invertMono realOps f xMin xMax delta y = some x}.Finite := by
  obtain ⟨n, hn⟩ := invertMono_eq_iterate xMin xMax delta hd
  have hr : {s | ∃ y, s = (gStep realOps f y)^[n] (xMin, xMax)}.Finite := by
    clear hn
    induction n with
    | zero =>
      refine (Set.finite_singleton (xMin, xMax)).subset ?_
      rintro s ⟨y, rfl⟩
      rfl
    | succ n ih =>
      refine ((ih.image fun s => ((s.1 + s.2) / 2, s.2)).union (ih.image fun s => (s.1, (s.1 + s.2) / 2))).subset ?_
      rintro s ⟨y, rfl⟩
      rw [Function.iterate_succ_apply', gStep_real]
      split_ifs
      · exact Or.inl ⟨_, ⟨y, rfl⟩, rfl⟩
      · exact Or.inr ⟨_, ⟨y, rfl⟩, rfl⟩
  refine (hr.image fun s => middle realOps s.1 s.2).subset ?_
  rintro x ⟨y, h⟩
  unfold invertMono at h
  rw [hn] at h
  exact ⟨_, ⟨y, rfl⟩, Option.some.inj h⟩

/-- The result of the default bracket is known to 12 decimal places after 45 steps. -/
theorem invertCdf_steps (cdf : ℝ → ℝ) (y : ℝ) : ∃ n ≤ 45, invertLoop realOps cdf (-10) 10 1e-12 y
    = some ((gStep realOps cdf y)^[n] (-10, 10)) := by
  have h : gCond realOps 1e-12 ((gStep realOps cdf y)^[45] (-10, 10)) = false := by
    rw [← Bool.not_eq_true, gCond_real, iterate_width]
    norm_num
  obtain ⟨t, k, hk, ht, rfl⟩ := whileLoop_of_exit h
  exact ⟨k, hk, ht⟩

/-- The square root of 2 as the inverse of the square. -/
example : ∃ x, invertMono realOps (fun x => x ^ 2) 0 2 1e-6 2 = some x ∧ |x - √2| ≤ 1e-6 / 2 := by
  have hm : StrictMonoOn (fun x : ℝ => x ^ 2) (Set.Icc 0 2) := fun a ha b _ hab =>
    pow_lt_pow_left₀ hab ha.1 (by norm_num)
  obtain ⟨x, t, h1, h2, h3, h4⟩ := invertMono_solves (fun x => x ^ 2) 0 2 1e-6 2 (by norm_num) (by norm_num)
    (by fun_prop) hm (by norm_num) (by norm_num)
  refine ⟨x, h1, ?_⟩
  have : √2 = t := by
    rw [← h3]
    exact Real.sqrt_sq h2.1
  rwa [this]

end BMI.Search
