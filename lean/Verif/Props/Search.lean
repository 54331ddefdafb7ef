import Verif.Model.Search
import Verif.Props.MatrixUtils
import Verif.Props.Transforms

/-! Property C20: the binary search of /repo/workflows/projects/Beyond_Normal/_high_mi_utils.py and the tasks made with
it. -/

namespace BMI.Search

open BMI.Samplers BMI.MatrixUtils MeasureTheory

variable {F Key : Type}

/-! ## Helpers -/

section
variable (o : FloatOps F) (func : F → Except Err F) (target minValue maxValue delta : F) (uniform : F → F → ℕ → F)

/-- What one iteration does. -/
theorem binsearchStep_cases {s t : SearchState F} {b : Bool}
    (h : binsearchStep o func target minValue maxValue delta uniform s = .ok (t, b)) :
    t.evaluated = s.mid :: s.evaluated ∧
    ((b = true ∧ func s.mid = .ok t.value ∧ t.mid = s.mid ∧ meets o target delta t.value = true) ∨
     (b = false ∧ func s.mid = .ok t.value ∧ meets o target delta t.value = false) ∨
     (b = false ∧ func s.mid = .error .valueError ∧ t.value = s.value)) := by
  unfold binsearchStep at h
  dsimp only at h
  split at h
  · rename_i value hv
    split_ifs at h with h1 h2
    · cases h
      exact ⟨rfl, Or.inl ⟨rfl, hv, rfl, h1⟩⟩
    · cases h
      exact ⟨rfl, Or.inr (Or.inl ⟨rfl, hv, by simpa using h1⟩)⟩
    · cases h
      exact ⟨rfl, Or.inr (Or.inl ⟨rfl, hv, by simpa using h1⟩)⟩
  · rename_i hv
    cases h
    exact ⟨rfl, Or.inr (Or.inr ⟨rfl, hv, rfl⟩)⟩
  · cases h

theorem binsearchLoop_cases (n : ℕ) {s t : SearchState F}
    (h : binsearchLoop o func target minValue maxValue delta uniform n s = .ok t) :
    (∃ L, t.evaluated = L ++ s.evaluated ∧ L.length ≤ n ∧
      (meets o target delta t.value = true → func t.mid = .ok t.value ∨
        (t.value = s.value ∧ ∀ x ∈ L, func x = .error .valueError)) ∧
      (meets o target delta t.value = false → ∀ x ∈ L, ∀ v, func x = .ok v → meets o target delta v = false)) := by
  induction n generalizing s with
  | zero =>
    cases h
    exact ⟨[], rfl, le_rfl, fun _ => Or.inr ⟨rfl, by simp⟩, by simp⟩
  | succ n ih =>
    unfold binsearchLoop at h
    cases hs : binsearchStep o func target minValue maxValue delta uniform s with
    | error e =>
      rw [hs] at h
      cases h
    | ok r =>
      obtain ⟨s', b⟩ := r
      rw [hs] at h
      change (if b = true then Except.ok s' else _) = _ at h
      obtain ⟨he, hc⟩ := binsearchStep_cases o func target minValue maxValue delta uniform hs
      rcases hc with ⟨rfl, h1, h2, h3⟩ | ⟨rfl, h1, h2⟩ | ⟨rfl, h1, h2⟩
      · rw [if_pos rfl] at h
        cases h
        refine ⟨[s.mid], he, by simp, fun _ => Or.inl (by rw [h2, h1]), fun h => ?_⟩
        rw [h3] at h
        cases h
      · rw [if_neg (by simp)] at h
        obtain ⟨L, e1, e2, e3, e4⟩ := ih h
        refine ⟨L ++ [s.mid], by simp [e1, he], by simp; omega, fun hm => ?_, fun hm x hx v hv => ?_⟩
        · rcases e3 hm with e | ⟨e, -⟩
          · exact Or.inl e
          · rw [e, h2] at hm
            cases hm
        · rcases List.mem_append.1 hx with hx | hx
          · exact e4 hm x hx v hv
          · rw [List.mem_singleton.1 hx, h1] at hv
            cases hv
            exact h2
      · rw [if_neg (by simp)] at h
        obtain ⟨L, e1, e2, e3, e4⟩ := ih h
        refine ⟨L ++ [s.mid], by simp [e1, he], by simp; omega, fun hm => ?_, fun hm x hx v hv => ?_⟩
        · rcases e3 hm with e | ⟨e, e'⟩
          · exact Or.inl e
          · refine Or.inr ⟨e.trans h2, fun x hx => ?_⟩
            rcases List.mem_append.1 hx with hx | hx
            · exact e' x hx
            · rw [List.mem_singleton.1 hx]
              exact h1
        · rcases List.mem_append.1 hx with hx | hx
          · exact e4 hm x hx v hv
          · rw [List.mem_singleton.1 hx, h1] at hv
            cases hv

/-! ## C20 -/

/-- **C20**: unless the target is within `delta` of the initial value -10⁹, a value is returned only if the function at
that value is within `delta` of the target.  This holds for any kind of numbers and any function, raising or not. -/
theorem binsearch_sound (maxIter : ℕ) (x : F) (h0 : meets o target delta (o.lit (-1000000000)) = false)
    (h : binsearch o func target minValue maxValue delta maxIter uniform = .ok (some x)) :
    ∃ v, func x = .ok v ∧ o.lt (o.abs (o.sub v target)) delta = true := by
  unfold binsearch at h
  cases hl : binsearchLoop o func target minValue maxValue delta uniform maxIter (binsearchStart o minValue maxValue) with
  | error e =>
    rw [hl] at h
    cases h
  | ok t =>
    rw [hl] at h
    change (if meets o target delta t.value = true then Except.ok (some t.mid) else Except.ok none) = _ at h
    split_ifs at h with hm
    · cases h
      obtain ⟨L, -, -, e, -⟩ := binsearchLoop_cases o func target minValue maxValue delta uniform maxIter hl
      rcases e hm with e | ⟨e, -⟩
      · exact ⟨_, e, hm⟩
      · rw [e] at hm
        exact absurd (hm.symm.trans h0) (by simp)
    · cases h

/-- **C20**: the loop calls the function at most `max_iter` times, and when `None` is returned none of the values it met
was within `delta` of the target. -/
theorem binsearch_calls (maxIter : ℕ) (r : Option F)
    (h : binsearch o func target minValue maxValue delta maxIter uniform = .ok r) :
    ∃ t, binsearchLoop o func target minValue maxValue delta uniform maxIter (binsearchStart o minValue maxValue) = .ok t ∧
      t.evaluated.length ≤ maxIter ∧
      (r = none → ∀ x ∈ t.evaluated, ∀ v, func x = .ok v → o.lt (o.abs (o.sub v target)) delta = false) := by
  unfold binsearch at h
  cases hl : binsearchLoop o func target minValue maxValue delta uniform maxIter (binsearchStart o minValue maxValue) with
  | error e =>
    rw [hl] at h
    cases h
  | ok t =>
    rw [hl] at h
    change (if meets o target delta t.value = true then Except.ok (some t.mid) else Except.ok none) = _ at h
    obtain ⟨L, e1, e2, -, e4⟩ := binsearchLoop_cases o func target minValue maxValue delta uniform maxIter hl
    have e1' : t.evaluated = L := by rw [e1]; simp [binsearchStart]
    refine ⟨t, rfl, by rw [e1']; exact e2, ?_⟩
    rintro rfl
    split_ifs at h with hm
    · cases h
    · rw [e1']
      exact e4 (by simpa using hm)

end

/-- **C20**: the search itself raises only what the function raises, and never `ValueError`. -/
theorem binsearch_raises (o : FloatOps F) (func : F → Except Err F) (target minValue maxValue delta : F)
    (uniform : F → F → ℕ → F) (maxIter : ℕ) (e : Err)
    (h : binsearch o func target minValue maxValue delta maxIter uniform = .error e) :
    e ≠ .valueError ∧ ∃ x, func x = .error e := by
  have key : ∀ (n : ℕ) (s : SearchState F),
      binsearchLoop o func target minValue maxValue delta uniform n s = .error e →
        e ≠ .valueError ∧ ∃ x, func x = .error e := by
    intro n
    induction n with
    | zero =>
      intro s hs
      cases hs
    | succ n ih =>
      intro s hs
      unfold binsearchLoop at hs
      cases hr : binsearchStep o func target minValue maxValue delta uniform s with
      | error e' =>
        rw [hr] at hs
        cases hs
        unfold binsearchStep at hr
        dsimp only at hr
        split at hr
        · split_ifs at hr
        · cases hr
        · rename_i e'' hne hv
          cases hr
          exact ⟨hne, _, hv⟩
      | ok r =>
        rw [hr] at hs
        change (if r.2 = true then Except.ok r.1 else _) = _ at hs
        split_ifs at hs
        exact ih _ hs
  unfold binsearch at h
  cases hl : binsearchLoop o func target minValue maxValue delta uniform maxIter (binsearchStart o minValue maxValue) with
  | error e' =>
    rw [hl] at h
    cases h
    exact key _ _ hl
  | ok t =>
    rw [hl] at h
    change (if meets o target delta t.value = true then Except.ok (some t.mid) else Except.ok none) = _ at h
    split_ifs at h

theorem binsearchLoop_raises (o : FloatOps F) (func : F → Except Err F) (target minValue maxValue delta : F)
    (uniform : F → F → ℕ → F) (hf : ∀ x, func x = .error .valueError) (n : ℕ) (s : SearchState F) :
    ∃ t, binsearchLoop o func target minValue maxValue delta uniform n s = .ok t ∧ t.value = s.value := by
  induction n generalizing s with
  | zero => exact ⟨s, rfl, rfl⟩
  | succ n ih =>
    have hs : binsearchStep o func target minValue maxValue delta uniform s = .ok ({ s with
        evaluated := s.mid :: s.evaluated, mid := uniform minValue maxValue s.draws, draws := s.draws + 1 }, false) := by
      unfold binsearchStep
      dsimp only
      rw [hf]
    unfold binsearchLoop
    rw [hs]
    obtain ⟨t, h1, h2⟩ := ih { s with
      evaluated := s.mid :: s.evaluated, mid := uniform minValue maxValue s.draws, draws := s.draws + 1 }
    exact ⟨t, h1, h2⟩

/-- **C20**: the hypothesis of `binsearch_sound` cannot be dropped: with a function which always raises `ValueError` and
the target -10⁹ a value is returned. -/
theorem binsearch_unsound (maxIter : ℕ) (uniform : ℝ → ℝ → ℕ → ℝ) : ∃ x,
    binsearch realOps (fun _ => .error .valueError) (-1000000000) 0 1 1e-4 maxIter uniform = .ok (some x) := by
  obtain ⟨t, h1, h2⟩ := binsearchLoop_raises realOps (fun _ => .error .valueError) (-1000000000) 0 1 1e-4 uniform
    (fun _ => rfl) maxIter (binsearchStart realOps 0 1)
  refine ⟨t.mid, ?_⟩
  unfold binsearch
  rw [h1]
  show (if meets realOps _ _ t.value = true then Except.ok (some t.mid) else Except.ok none) = _
  rw [if_pos]
  rw [h2]
  simp [meets, realOps, binsearchStart]
  norm_num

theorem meets_real (target delta v : ℝ) : meets realOps target delta v = true ↔ |v - target| < delta := by
  simp [meets, realOps]

theorem binsearchStep_real {func : ℝ → Except Err ℝ} {target minValue maxValue delta : ℝ} {uniform : ℝ → ℝ → ℕ → ℝ}
    {s : SearchState ℝ} {v : ℝ} (hv : func s.mid = .ok v) :
    binsearchStep realOps func target minValue maxValue delta uniform s =
      if |v - target| < delta then .ok ({ s with evaluated := s.mid :: s.evaluated, value := v }, true)
      else if target < v then
        .ok (⟨s.minVal, s.mid, (s.minVal + s.mid) / 2, v, s.draws, s.mid :: s.evaluated⟩, false)
      else .ok (⟨s.mid, s.maxVal, (s.mid + s.maxVal) / 2, v, s.draws, s.mid :: s.evaluated⟩, false) := by
  unfold binsearchStep
  dsimp only
  rw [hv]
  dsimp only
  simp only [meets_real]
  have e : ∀ a b : ℝ, realOps.mul (realOps.lit (1 / 2)) (realOps.add a b) = (b + a) / 2 := by
    intro a b
    simp [realOps]
    ring
  have e' : realOps.lt target v = true ↔ target < v := by simp [realOps]
  simp only [e, e']
  split_ifs <;> rfl

/-- **C20**: bisection finds a value.  `f` is what the function returns inside the bracket; it is at most the target to
the left of `t` and above it to the right; and points very close to `t` meet the target. -/
theorem binsearch_finds (func : ℝ → Except Err ℝ) (f : ℝ → ℝ) (target minValue maxValue delta t : ℝ) (n : ℕ)
    (uniform : ℝ → ℝ → ℕ → ℝ) (hmm : minValue < maxValue) (hf : ∀ x ∈ Set.Ioo minValue maxValue, func x = .ok (f x))
    (ht : t ∈ Set.Icc minValue maxValue) (hlo : ∀ x ∈ Set.Ioo minValue maxValue, x < t → f x ≤ target)
    (hhi : ∀ x ∈ Set.Ioo minValue maxValue, t < x → target < f x)
    (hclose : ∀ x ∈ Set.Ioo minValue maxValue, |x - t| ≤ (maxValue - minValue) / 2 ^ (n + 1) → |f x - target| < delta) :
    ∃ x ∈ Set.Ioo minValue maxValue,
      binsearch realOps func target minValue maxValue delta (n + 1) uniform = .ok (some x) ∧ |f x - target| < delta := by
  have key : ∀ (k : ℕ) (s : SearchState ℝ), minValue ≤ s.minVal → s.minVal < s.maxVal → s.maxVal ≤ maxValue →
      s.minVal ≤ t → t ≤ s.maxVal → s.mid = (s.minVal + s.maxVal) / 2 →
      (s.maxVal - s.minVal) / 2 ^ (k + 1) ≤ (maxValue - minValue) / 2 ^ (n + 1) →
      ∃ r, binsearchLoop realOps func target minValue maxValue delta uniform (k + 1) s = .ok r ∧
        r.value = f r.mid ∧ |r.value - target| < delta ∧ r.mid ∈ Set.Ioo minValue maxValue := by
    intro k
    induction k with
    | zero =>
      intro s h1 h2 h3 h4 h5 h6 h7
      have hm : s.mid ∈ Set.Ioo minValue maxValue := by
        rw [h6]
        constructor <;> linarith
      have hc : |f s.mid - target| < delta := by
        refine hclose _ hm (le_trans ?_ h7)
        rw [h6, abs_le]
        constructor <;> norm_num <;> linarith
      unfold binsearchLoop
      rw [binsearchStep_real (hf _ hm), if_pos hc]
      exact ⟨_, rfl, rfl, hc, hm⟩
    | succ k ih =>
      intro s h1 h2 h3 h4 h5 h6 h7
      have hm : s.mid ∈ Set.Ioo minValue maxValue := by
        rw [h6]
        constructor <;> linarith
      unfold binsearchLoop
      rw [binsearchStep_real (hf _ hm)]
      by_cases hc : |f s.mid - target| < delta
      · rw [if_pos hc]
        exact ⟨_, rfl, rfl, hc, hm⟩
      · rw [if_neg hc]
        rw [pow_succ' 2 (k + 1), ← div_div] at h7
        by_cases hv : target < f s.mid
        · rw [if_pos hv]
          refine ih _ h1 (by dsimp only; linarith) hm.2.le h4 ?_ rfl ?_
          · by_contra hlt
            exact absurd (hlo _ hm (not_le.1 hlt)) (not_le.2 hv)
          · refine le_trans (le_of_eq ?_) h7
            dsimp only
            rw [h6]
            ring
        · rw [if_neg hv]
          refine ih _ hm.1.le (by dsimp only; linarith) h3 ?_ h5 rfl ?_
          · by_contra hlt
            exact absurd (hhi _ hm (not_le.1 hlt)) hv
          · refine le_trans (le_of_eq ?_) h7
            dsimp only
            rw [h6]
            ring
  obtain ⟨r, h1, h0, h2, h3⟩ := key n (binsearchStart realOps minValue maxValue) le_rfl hmm le_rfl ht.1 ht.2
    (by simp [binsearchStart, realOps]; ring) le_rfl
  refine ⟨r.mid, h3, ?_, h0 ▸ h2⟩
  unfold binsearch
  rw [h1]
  show (if meets realOps _ _ r.value = true then Except.ok (some r.mid) else Except.ok none) = _
  rw [if_pos ((meets_real _ _ _).2 h2)]

/-- **C20**: for a continuous, strictly increasing function which takes the target value inside the bracket, enough
iterations always find a value. -/
theorem binsearch_finds_continuous (f : ℝ → ℝ) (target minValue maxValue delta : ℝ) (uniform : ℝ → ℝ → ℕ → ℝ)
    (hmm : minValue < maxValue) (hd : 0 < delta) (hc : ContinuousOn f (Set.Icc minValue maxValue))
    (hm : StrictMonoOn f (Set.Icc minValue maxValue)) (h1 : f minValue ≤ target) (h2 : target ≤ f maxValue) :
    ∃ N, ∀ n ≥ N, ∃ x, binsearch realOps (fun x => .ok (f x)) target minValue maxValue delta n uniform = .ok (some x) ∧
      |f x - target| < delta := by
  obtain ⟨t, ht, hft⟩ := intermediate_value_Icc hmm.le hc ⟨h1, h2⟩
  obtain ⟨η, hη, hclose⟩ := Metric.continuousOn_iff.1 hc t ht delta hd
  obtain ⟨N, hN⟩ := pow_unbounded_of_one_lt ((maxValue - minValue) / η) (one_lt_two (α := ℝ))
  refine ⟨N + 1, fun n hn => ?_⟩
  obtain ⟨m, rfl⟩ : ∃ m, n = m + 1 := ⟨n - 1, by omega⟩
  have hw : (maxValue - minValue) / 2 ^ (m + 1) < η := by
    rw [div_lt_iff₀ (by positivity)]
    rw [div_lt_iff₀ hη] at hN
    have : (2 : ℝ) ^ N ≤ 2 ^ (m + 1) := pow_le_pow_right₀ (by norm_num) (by omega)
    nlinarith
  have hcl : ∀ x ∈ Set.Ioo minValue maxValue, |x - t| ≤ (maxValue - minValue) / 2 ^ (m + 1) → |f x - target| < delta := by
    intro x hx hxt
    have := hclose x (Set.Ioo_subset_Icc_self hx) (by rw [Real.dist_eq]; exact lt_of_le_of_lt hxt hw)
    rwa [Real.dist_eq, hft] at this
  obtain ⟨x, hx, h, h'⟩ := binsearch_finds (fun x => .ok (f x)) f target minValue maxValue delta t m uniform hmm
    (fun _ _ => rfl) ht
    (fun x hx hxt => by
      rw [← hft]
      exact (hm (Set.Ioo_subset_Icc_self hx) ht hxt).le)
    (fun x hx hxt => by
      rw [← hft]
      exact hm ht (Set.Ioo_subset_Icc_self hx) hxt) hcl
  exact ⟨x, h, h'⟩

/-- Searching `√2` by squaring. -/
example (uniform : ℝ → ℝ → ℕ → ℝ) : ∃ N, ∀ n ≥ N, ∃ x,
    binsearch realOps (fun x => .ok (x ^ 2)) 2 0 3 1e-4 n uniform = .ok (some x) ∧ |x ^ 2 - 2| < 1e-4 :=
  binsearch_finds_continuous (fun x => x ^ 2) 2 0 3 1e-4 uniform (by norm_num) (by norm_num) (by fun_prop)
    (fun a ha b _ hab => by
      have := ha.1
      dsimp only
      nlinarith) (by norm_num) (by norm_num)

end BMI.Search
