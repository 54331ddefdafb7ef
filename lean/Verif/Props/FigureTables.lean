import Verif.Model.FigureTables
import Verif.Props.Tables
import Mathlib.Order.Bounds.Basic

/-! C67: what the benchmark figures show. -/

namespace BMI.FigureTables

open BMI.Tables (Row maximum average maximum_spec)

/-! ### Specification -/

/-- The smallest tested number of samples from which on every tested number is good. -/
def IsNeeded (tested : Set ℤ) (good : ℤ → Prop) (n : ℤ) : Prop :=
  IsLeast {k | k ∈ tested ∧ ∀ m ∈ tested, k ≤ m → good m} n

/-- The largest tested number of samples is not good. -/
def NeverReached (tested : Set ℤ) (good : ℤ → Prop) : Prop := ∃ m, IsGreatest tested m ∧ ¬ good m

/-- The positive estimates among those of some runs. -/
noncomputable def positives (rs : List Row) : List ℝ :=
  open Classical in (rs.filterMap Row.mi).filter fun v => 0 < v

/-- The runs are good: no estimate is exactly zero, some estimate is positive, and the geometric mean of the positive ones
is within a factor 3/2 of the truth. -/
def Good (τ : ℝ) (rs : List Row) : Prop :=
  (∀ r ∈ rs, r.mi ≠ some 0) ∧ positives rs ≠ [] ∧
    |((positives rs).map fun v => Real.log (v / τ)).sum / (positives rs).length| < Real.log 1.5

/-! ### Minima and maxima -/

theorem indexMin_spec (l : List ℤ) (n : ℤ) : indexMin l = some n ↔ IsLeast {k | k ∈ l} n := by
  have key : ∀ (l : List ℤ) (a : ℤ), IsLeast {k | k ∈ a :: l} (l.foldl min a) := by
    intro l
    induction l with
    | nil => intro a; simp [IsLeast, lowerBounds]
    | cons b l ih =>
      intro a
      rw [List.foldl_cons]
      obtain ⟨h1, h2⟩ := ih (min a b)
      refine ⟨?_, ?_⟩
      · rcases List.mem_cons.1 h1 with h | h
        · rw [h]
          rcases min_choice a b with h' | h' <;> rw [h'] <;> simp
        · exact List.mem_cons_of_mem _ (List.mem_cons_of_mem _ h)
      · intro k hk
        rcases List.mem_cons.1 hk with rfl | hk
        · exact (h2 List.mem_cons_self).trans (min_le_left _ _)
        · rcases List.mem_cons.1 hk with rfl | hk
          · exact (h2 List.mem_cons_self).trans (min_le_right _ _)
          · exact h2 (List.mem_cons_of_mem _ hk)
  cases l with
  | nil => simp [indexMin, IsLeast]
  | cons a l =>
    simp only [indexMin, Option.some.injEq]
    exact ⟨fun h => h ▸ key l a, fun h => (key l a).unique h⟩

theorem indexMax_spec (l : List ℤ) (n : ℤ) : indexMax l = some n ↔ IsGreatest {k | k ∈ l} n := by
  have key : ∀ (l : List ℤ) (a : ℤ), IsGreatest {k | k ∈ a :: l} (l.foldl max a) := by
    intro l
    induction l with
    | nil => intro a; simp [IsGreatest, upperBounds]
    | cons b l ih =>
      intro a
      rw [List.foldl_cons]
      obtain ⟨h1, h2⟩ := ih (max a b)
      refine ⟨?_, ?_⟩
      · rcases List.mem_cons.1 h1 with h | h
        · rw [h]
          rcases max_choice a b with h' | h' <;> rw [h'] <;> simp
        · exact List.mem_cons_of_mem _ (List.mem_cons_of_mem _ h)
      · intro k hk
        rcases List.mem_cons.1 hk with rfl | hk
        · exact (le_max_left _ _).trans (h2 List.mem_cons_self)
        · rcases List.mem_cons.1 hk with rfl | hk
          · exact (le_max_right _ _).trans (h2 List.mem_cons_self)
          · exact h2 (List.mem_cons_of_mem _ hk)
  cases l with
  | nil => simp [indexMax, IsGreatest]
  | cons a l =>
    simp only [indexMax, Option.some.injEq]
    exact ⟨fun h => h ▸ key l a, fun h => (key l a).unique h⟩

theorem indexMin_none (l : List ℤ) : indexMin l = none ↔ l = [] := by cases l <;> simp [indexMin]

theorem indexMax_none (l : List ℤ) : indexMax l = none ↔ l = [] := by cases l <;> simp [indexMax]

/-! ### Number of samples needed -/

/-- **C67**: `n_samples_needed` returns the smallest tested number of samples from which on all tested numbers are solved,
infinity if the largest one is not solved, and NaN only without data. -/
theorem nSamplesNeeded_spec (data : List (ℤ × Option EReal)) :
    (∀ n, nSamplesNeeded data = .num n ↔
      IsNeeded {n | n ∈ data.map Prod.fst} (fun m => ∀ d ∈ data, d.1 = m → isSolved d.2 = true) n) ∧
    (nSamplesNeeded data = .inf ↔
      NeverReached {n | n ∈ data.map Prod.fst} (fun m => ∀ d ∈ data, d.1 = m → isSolved d.2 = true)) ∧
    (nSamplesNeeded data = .nan ↔ data = []) := by
  set good : ℤ → Prop := fun m => ∀ d ∈ data, d.1 = m → isSolved d.2 = true with hgood
  have hfst : (data.map fun d => (d.1, isSolved d.2)).map Prod.fst = data.map Prod.fst := by
    rw [List.map_map]; rfl
  have hfail : ∀ m, m ∈ (((data.map fun d => (d.1, isSolved d.2)).filter fun d => !d.2).map Prod.fst) ↔ ¬ good m := by
    intro m
    simp only [hgood, List.mem_map, List.mem_filter, not_forall]
    constructor
    · rintro ⟨_, ⟨⟨d, hd, rfl⟩, h⟩, rfl⟩
      exact ⟨d, hd, rfl, by simpa using h⟩
    · rintro ⟨d, hd, rfl, h⟩
      exact ⟨_, ⟨⟨d, hd, rfl⟩, by simpa using h⟩, rfl⟩
  have hbad : ∀ m, ¬ good m → m ∈ data.map Prod.fst := by
    intro m hm
    simp only [hgood, not_forall] at hm
    obtain ⟨d, hd, rfl, _⟩ := hm
    exact List.mem_map.2 ⟨d, hd, rfl⟩
  simp only [nSamplesNeeded, hfst]
  rcases hmax : indexMax (((data.map fun d => (d.1, isSolved d.2)).filter fun d => !d.2).map Prod.fst) with _ | m
  · simp only [hmax]
    rw [indexMax_none] at hmax
    have hall : ∀ m, good m := by
      intro m
      by_contra h
      have := (hfail m).2 h
      rw [hmax] at this
      simp at this
    rcases hmin : indexMin (data.map Prod.fst) with _ | k
    · have hd : data = [] := by simpa [indexMin_none] using hmin
      subst hd
      simp [Needed.ofMin, IsNeeded, NeverReached, IsLeast, IsGreatest]
    · have hk := (indexMin_spec _ _).1 hmin
      have hset : {k | k ∈ {n | n ∈ data.map Prod.fst} ∧ ∀ m ∈ {n | n ∈ data.map Prod.fst}, k ≤ m → good m}
          = {n | n ∈ data.map Prod.fst} := by
        ext k; simp [hall]
      simp only [Needed.ofMin, IsNeeded, hset, Needed.num.injEq, reduceCtorEq, false_iff]
      refine ⟨fun n => ⟨fun h => h ▸ hk, fun h => hk.unique h⟩, ?_, ?_⟩
      · rintro ⟨m, _, hm⟩
        exact hm (hall m)
      · rintro rfl
        simp [indexMin] at hmin
  · simp only [hmax]
    obtain ⟨hm1, hm2⟩ := (indexMax_spec _ _).1 hmax
    have hmbad : ¬ good m := (hfail m).1 hm1
    have hmle : ∀ k, ¬ good k → k ≤ m := fun k hk => hm2 ((hfail k).2 hk)
    have hne : data ≠ [] := by
      rintro rfl
      simpa using hbad m hmbad
    have hset : {k | k ∈ {n | n ∈ data.map Prod.fst} ∧ ∀ m ∈ {n | n ∈ data.map Prod.fst}, k ≤ m → good m}
        = {k | k ∈ (data.map Prod.fst).filter fun n => m < n} := by
      ext k
      simp only [Set.mem_setOf_eq, List.mem_filter, decide_eq_true_eq]
      refine and_congr_right fun hk => ⟨fun h => ?_, fun h j _ hkj => ?_⟩
      · by_contra hlt
        exact hmbad (h m (hbad m hmbad) (not_lt.1 hlt))
      · by_contra hj
        exact absurd (hmle j hj) (by omega)
    split_ifs with hs
    · simp only [IsNeeded, hset, hs, reduceCtorEq, false_iff, true_iff, hne]
      refine ⟨fun n h => by simpa using h.1, ⟨m, ⟨hbad m hmbad, fun k hk => ?_⟩, hmbad⟩, trivial⟩
      by_contra hlt
      have : k ∈ (data.map Prod.fst).filter fun n => m < n := by
        rw [List.mem_filter]
        exact ⟨hk, by simpa using hlt⟩
      rw [hs] at this
      simp at this
    · rcases hmin : indexMin ((data.map Prod.fst).filter fun n => m < n) with _ | k
      · exact absurd ((indexMin_none _).1 hmin) hs
      · have hk := (indexMin_spec _ _).1 hmin
        simp only [Needed.ofMin, IsNeeded, hset, Needed.num.injEq, reduceCtorEq, false_iff, hne, not_false_eq_true,
          and_true]
        refine ⟨fun n => ⟨fun h => h ▸ hk, fun h => hk.unique h⟩, ?_⟩
        rintro ⟨j, ⟨hj1, hj2⟩, hjbad⟩
        have h1 : k ∈ (data.map Prod.fst).filter fun n => m < n := hk.1
        rw [List.mem_filter] at h1
        have h2 : k ≤ j := hj2 h1.1
        have h3 := hmle j hjbad
        have h4 : m < k := by simpa using h1.2
        omega

/-! ### Errors -/

theorem errorOf_pos {r : Row} {τ v : ℝ} (hτ : 0 < τ) (hr : r.miTrue = τ) (hv : r.mi = some v) :
    (0 < v → errorOf r = some ((Real.log (v / τ) : ℝ) : EReal)) ∧ (v = 0 → errorOf r = some ⊥) ∧
      (v < 0 → errorOf r = none) := by
  simp only [errorOf, hv, Option.bind_some, logRelativeError, hr, if_neg hτ.ne']
  refine ⟨fun h => ?_, fun h => ?_, fun h => ?_⟩
  · have := div_pos h hτ
    rw [if_neg this.le.not_gt, if_neg this.ne']
  · simp [h]
  · rw [if_pos (div_neg_of_neg_of_pos h hτ)]

open Classical in
/-- **C67**: the mean of a group of errors is NaN exactly if the group has no error at all or infinities of both signs,
infinite if it has infinities of one sign, and otherwise the average; NaN entries are skipped. -/
theorem meanError_spec (vs : List (Option EReal)) :
    (meanError vs = none ↔ (∀ v ∈ vs, v = none) ∨ (some ⊤ ∈ vs ∧ some ⊥ ∈ vs)) ∧
    (meanError vs = some ⊤ ↔ some ⊤ ∈ vs ∧ some ⊥ ∉ vs) ∧
    (meanError vs = some ⊥ ↔ some ⊥ ∈ vs ∧ some ⊤ ∉ vs) ∧
    ∀ x : ℝ, meanError vs = some (x : EReal) ↔ some ⊤ ∉ vs ∧ some ⊥ ∉ vs ∧
      ∃ xs : List ℝ, xs ≠ [] ∧ vs.filter (fun v => v ≠ none) = xs.map (fun y : ℝ => some (y : EReal)) ∧
        x * xs.length = xs.sum := by
  have hmem : ∀ w : EReal, w ∈ vs.filterMap id ↔ some w ∈ vs := by intro w; simp
  have hnil : vs.filterMap id = [] ↔ ∀ v ∈ vs, v = none := by simp [List.filterMap_eq_nil_iff]
  have hfil : vs.filter (fun v => v ≠ none) = (vs.filterMap id).map some := by
    clear hmem hnil
    induction vs with
    | nil => rfl
    | cons v vs ih => cases v <;> simp_all
  by_cases h0 : vs.filterMap id = []
  · have h1 := hnil.1 h0
    have ht : some ⊤ ∉ vs := fun h => by simpa using h1 _ h
    have hb : some ⊥ ∉ vs := fun h => by simpa using h1 _ h
    simp only [meanError, h0, if_true, true_iff, ht, hb, false_and, reduceCtorEq, not_false_eq_true, true_and, false_iff,
      hfil, List.map_nil]
    refine ⟨Or.inl h1, fun x ⟨xs, hx, h, _⟩ => hx ?_⟩
    exact List.map_eq_nil_iff.1 h.symm
  · have h1 : ¬ ∀ v ∈ vs, v = none := fun h => h0 (hnil.2 h)
    by_cases ht : some ⊤ ∈ vs
    · by_cases hb : some ⊥ ∈ vs
      · simp [meanError, if_neg h0, if_pos ((hmem _).2 ht), if_pos ((hmem _).2 hb), ht, hb]
      · simp [meanError, if_neg h0, if_pos ((hmem _).2 ht), if_neg (mt (hmem _).1 hb), ht, hb, h1]
    · by_cases hb : some ⊥ ∈ vs
      · simp [meanError, if_neg h0, if_neg (mt (hmem _).1 ht), if_pos ((hmem _).2 hb), ht, hb, h1]
      · have hreal : vs.filterMap id = ((vs.filterMap id).map EReal.toReal).map fun y : ℝ => (y : EReal) := by
          rw [List.map_map]
          conv_lhs => rw [← List.map_id (vs.filterMap id)]
          refine List.map_congr_left fun w hw => ?_
          exact (EReal.coe_toReal (fun h => ht ((hmem _).1 (h ▸ hw))) (fun h => hb ((hmem _).1 (h ▸ hw)))).symm
        have hval : meanError vs = some ((((vs.filterMap id).map EReal.toReal).sum / (vs.filterMap id).length : ℝ) : EReal) := by
          simp only [meanError, if_neg h0, if_neg (mt (hmem _).1 ht), if_neg (mt (hmem _).1 hb)]
        have hl : ((vs.filterMap id).length : ℝ) ≠ 0 := by
          simpa [List.length_eq_zero_iff] using h0
        rw [hval]
        refine ⟨by simp [h1, ht], by simp [ht], by simp [hb], fun x => ?_⟩
        simp only [Option.some.injEq, EReal.coe_eq_coe_iff, ht, hb, not_false_eq_true, true_and, hfil]
        constructor
        · rintro rfl
          refine ⟨(vs.filterMap id).map EReal.toReal, by simpa using h0, ?_, by
            rw [List.length_map]; field_simp⟩
          conv_lhs => rw [hreal]
          rw [List.map_map]; rfl
        · rintro ⟨xs, _, h, hx⟩
          have : vs.filterMap id = xs.map fun y : ℝ => (y : EReal) := by
            apply List.map_injective_iff.2 (Option.some_injective _)
            rw [h, List.map_map]; rfl
          have h2 : (vs.filterMap id).map EReal.toReal = xs := by
            rw [this, List.map_map]; simp [Function.comp_def]
          rw [h2, div_eq_iff hl, ← hx, this, List.length_map]

example : meanError [some ⊤, none, some ⊥] = none := ((meanError_spec _).1).2 (Or.inr (by simp))

example : meanError [some ((1 : ℝ) : EReal), none, some ((3 : ℝ) : EReal)] = some ((2 : ℝ) : EReal) :=
  ((meanError_spec _).2.2.2 2).2 ⟨by
    simp only [List.mem_cons, Option.some.injEq, reduceCtorEq, List.not_mem_nil, or_false, false_or, not_or]
    exact ⟨(EReal.coe_ne_top 1).symm, (EReal.coe_ne_top 3).symm⟩, by
    simp only [List.mem_cons, Option.some.injEq, reduceCtorEq, List.not_mem_nil, or_false, false_or, not_or]
    exact ⟨(EReal.coe_ne_bot 1).symm, (EReal.coe_ne_bot 3).symm⟩, [1, 3], by simp, by simp, by norm_num⟩

/-- **C67**: one run is good exactly if the estimate is within a factor 3/2 of the truth. -/
theorem isSolved_single (r : Row) (v : ℝ) (hτ : 0 < r.miTrue) (hv : r.mi = some v) :
    isSolved (errorOf r) = true ↔ r.miTrue / 1.5 < v ∧ v < 1.5 * r.miTrue := by
  obtain ⟨h1, h2, h3⟩ := errorOf_pos hτ rfl hv
  rcases lt_trichotomy v 0 with h | h | h
  · rw [h3 h]
    simp only [isSolved, Bool.false_eq_true, false_iff, not_and]
    intro h'
    exact absurd h (not_lt.2 ((by positivity : (0:ℝ) ≤ r.miTrue / 1.5).trans h'.le))
  · rw [h2 h]
    simp only [isSolved, ne_eq, not_true_eq_false, false_and, and_false, decide_false, Bool.false_eq_true, false_iff,
      not_and]
    intro h'
    exact absurd h' (not_lt.2 (h ▸ (by positivity : (0:ℝ) ≤ r.miTrue / 1.5)))
  · rw [h1 h]
    have hq : 0 < v / r.miTrue := div_pos h hτ
    simp only [isSolved, ne_eq, EReal.coe_ne_top, not_false_eq_true, EReal.coe_ne_bot, EReal.toReal_coe, true_and,
      decide_eq_true_eq]
    rw [abs_lt, ← Real.log_inv, Real.log_lt_log_iff (by norm_num) hq, Real.log_lt_log_iff hq (by norm_num),
      lt_div_iff₀ hτ, div_lt_iff₀ hτ]
    refine and_congr ?_ Iff.rfl
    rw [div_eq_inv_mul]

theorem isSolved_meanError (τ : ℝ) (hτ : 0 < τ) (rs : List Row) (h : ∀ r ∈ rs, r.miTrue = τ) :
    isSolved (meanError (rs.map errorOf)) = true ↔ Good τ rs := by
  classical
  have hmem : ∀ x, x ∈ (rs.map errorOf).filterMap id ↔
      (x = ⊥ ∧ ∃ r ∈ rs, r.mi = some 0) ∨ ∃ v ∈ positives rs, x = ((Real.log (v / τ) : ℝ) : EReal) := by
    intro x
    simp only [List.mem_filterMap, List.mem_map, id, positives, List.mem_filter, decide_eq_true_eq]
    constructor
    · rintro ⟨_, ⟨r, hr, rfl⟩, hx⟩
      rcases hv : r.mi with _ | v
      · simp [errorOf, hv] at hx
      · obtain ⟨h1, h2, h3⟩ := errorOf_pos hτ (h r hr) hv
        rcases lt_trichotomy v 0 with h' | h' | h'
        · simp [h3 h'] at hx
        · rw [h2 h', Option.some.injEq] at hx
          exact Or.inl ⟨hx.symm, r, hr, by rw [hv, h']⟩
        · rw [h1 h', Option.some.injEq] at hx
          exact Or.inr ⟨v, ⟨⟨r, hr, hv⟩, h'⟩, hx.symm⟩
    · rintro (⟨rfl, r, hr, hv⟩ | ⟨v, ⟨⟨r, hr, hv⟩, h'⟩, rfl⟩)
      · exact ⟨_, ⟨r, hr, rfl⟩, (errorOf_pos hτ (h r hr) hv).2.1 rfl⟩
      · exact ⟨_, ⟨r, hr, rfl⟩, (errorOf_pos hτ (h r hr) hv).1 h'⟩
  have htop : (⊤ : EReal) ∉ (rs.map errorOf).filterMap id := by
    rw [hmem]
    rintro (⟨h', _⟩ | ⟨v, _, h'⟩)
    · exact absurd h' (by simp)
    · exact EReal.coe_ne_top _ h'.symm
  have hbot : (⊥ : EReal) ∈ (rs.map errorOf).filterMap id ↔ ∃ r ∈ rs, r.mi = some 0 := by
    rw [hmem]
    constructor
    · rintro (⟨_, h'⟩ | ⟨v, _, h'⟩)
      · exact h'
      · exact absurd h'.symm (EReal.coe_ne_bot _)
    · exact fun h' => Or.inl ⟨rfl, h'⟩
  by_cases hz : ∃ r ∈ rs, r.mi = some 0
  · have hne : (rs.map errorOf).filterMap id ≠ [] := List.ne_nil_of_mem (hbot.2 hz)
    simp only [meanError, hne, if_false, htop, hbot.2 hz, if_true, isSolved, ne_eq, not_true_eq_false, false_and, and_false,
      decide_false, Bool.false_eq_true, false_iff]
    rintro ⟨h1, _⟩
    obtain ⟨r, hr, hv⟩ := hz
    exact h1 r hr hv
  · have hz' : ∀ r ∈ rs, r.mi ≠ some 0 := fun r hr hv => hz ⟨r, hr, hv⟩
    have hlist : (rs.map errorOf).filterMap id = (positives rs).map fun v => ((Real.log (v / τ) : ℝ) : EReal) := by
      clear hmem htop hbot hz
      induction rs with
      | nil => simp [positives]
      | cons r rs ih =>
        have ih' := ih (fun r hr => h r (List.mem_cons_of_mem _ hr)) (fun r hr => hz' r (List.mem_cons_of_mem _ hr))
        rw [List.map_cons, List.filterMap_cons]
        rcases hv : r.mi with _ | v
        · have : errorOf r = none := by simp [errorOf, hv]
          have hp : positives (r :: rs) = positives rs := by simp only [positives, List.filterMap_cons, hv]
          simp only [this, id_eq, hp]
          exact ih'
        · obtain ⟨h1, h2, h3⟩ := errorOf_pos hτ (h r List.mem_cons_self) hv
          rcases lt_trichotomy v 0 with h' | h' | h'
          · have hp : positives (r :: rs) = positives rs := by
              simp only [positives, List.filterMap_cons, hv, List.filter_cons, not_lt.2 h'.le, decide_false,
                Bool.false_eq_true, if_false]
            simp only [h3 h', id_eq, hp]
            exact ih'
          · exact absurd (h' ▸ hv) (hz' r List.mem_cons_self)
          · have hp : positives (r :: rs) = v :: positives rs := by
              simp only [positives, List.filterMap_cons, hv, List.filter_cons, h', decide_true, if_true]
            simp only [h1 h', id_eq, hp, List.map_cons]
            exact congrArg _ ih'
    have hbot' : (⊥ : EReal) ∉ (rs.map errorOf).filterMap id := fun h' => hz (hbot.1 h')
    rw [hlist] at htop hbot'
    by_cases hp : positives rs = []
    · simp only [meanError, hlist, hp, List.map_nil, if_true, isSolved, Good, ne_eq, not_true_eq_false, false_and, and_false,
        Bool.false_eq_true]
    · have hne : ((positives rs).map fun v => ((Real.log (v / τ) : ℝ) : EReal)) ≠ [] := by simpa using hp
      simp only [meanError, hlist, if_neg hne, if_neg htop, if_neg hbot', isSolved, ne_eq, EReal.coe_ne_top,
        not_false_eq_true, EReal.coe_ne_bot, EReal.toReal_coe, true_and, decide_eq_true_eq, List.map_map, List.length_map,
        Good, hp, hz', implies_true]
      have : (EReal.toReal ∘ fun v : ℝ => ((Real.log (v / τ) : ℝ) : EReal)) = fun v => Real.log (v / τ) := by
        funext v; simp
      rw [this]
      exact ⟨fun h => ⟨hz', h⟩, fun h => h.2⟩

/-! ### Failed runs -/

/-- **C67**: a run counts as failed exactly if the estimator is neural and the estimate is negative or below a tenth of the
largest estimate of the same estimator, task and number of samples; NaN is not a failure. -/
theorem neuralFail_iff (neural : String → Bool) (results : List Row) (r : Row) :
    neuralFail neural results r = true ↔ neural r.est = true ∧ ∃ v, r.mi = some v ∧
      (v < 0 ∨ ∃ s ∈ results, s.est = r.est ∧ s.task = r.task ∧ s.n = r.n ∧ ∃ w, s.mi = some w ∧
        (∀ s' ∈ results, s'.est = r.est → s'.task = r.task → s'.n = r.n → ∀ w', s'.mi = some w' → w' ≤ w) ∧
        v < 0.1 * w) := by
  rw [neuralFail, Bool.and_eq_true]
  refine and_congr_right fun _ => ?_
  rcases hv : r.mi with _ | v
  · simp
  · simp only [Bool.or_eq_true, decide_eq_true_eq, Option.some.injEq, exists_eq_left']
    refine or_congr Iff.rfl ?_
    rcases hm : maximum ((groupOf results r).map Row.mi) with _ | m
    · simp only [Bool.false_eq_true, false_iff]
      rintro ⟨s, hs, h1, h2, h3, w, hw, hle, _⟩
      have : maximum ((groupOf results r).map Row.mi) = some w := by
        rw [maximum_spec]
        refine ⟨List.mem_map.2 ⟨s, List.mem_filter.2 ⟨hs, by simp [h1, h2, h3]⟩, hw⟩, ?_⟩
        intro w' hw'
        obtain ⟨s', hs', hw''⟩ := List.mem_map.1 hw'
        obtain ⟨hs1, hs2⟩ := List.mem_filter.1 hs'
        rw [decide_eq_true_eq] at hs2
        exact hle s' hs1 hs2.1 hs2.2.1 hs2.2.2 w' hw''
      rw [hm] at this
      cases this
    · obtain ⟨hm1, hm2⟩ := (maximum_spec _ _).1 hm
      obtain ⟨s, hs, hw⟩ := List.mem_map.1 hm1
      obtain ⟨hs1, hs2⟩ := List.mem_filter.1 hs
      rw [decide_eq_true_eq] at hs2
      have hub : ∀ s' ∈ results, s'.est = r.est → s'.task = r.task → s'.n = r.n → ∀ w', s'.mi = some w' → w' ≤ m :=
        fun s' hs' h1 h2 h3 w' hw' =>
          hm2 (List.mem_map.2 ⟨s', List.mem_filter.2 ⟨hs', by simp [h1, h2, h3]⟩, hw'⟩)
      simp only [decide_eq_true_eq]
      constructor
      · exact fun h => ⟨s, hs1, hs2.1, hs2.2.1, hs2.2.2, m, hw, hub, h⟩
      · rintro ⟨s', hs', h1, h2, h3, w, hw', hle, hlt⟩
        have e1 := hub s' hs' h1 h2 h3 w hw'
        have e2 := hle s hs1 hs2.1 hs2.2.1 hs2.2.2 m hw
        rwa [le_antisymm e2 e1]

/-- **C67**: runs of other estimators and NaN are always kept. -/
theorem not_neural_kept (neural : String → Bool) (results : List Row) (r : Row)
    (h : neural r.est = false ∨ r.mi = none) : neuralFail neural results r = false := by
  rw [Bool.eq_false_iff, ne_eq, neuralFail_iff]
  rintro ⟨h1, v, hv, _⟩
  rcases h with h | h
  · rw [h] at h1; cases h1
  · rw [h] at hv; cases hv

/-- **C67**: a largest estimate that is not negative is kept, so a setting is lost only if all its estimates are negative. -/
theorem largest_kept (neural : String → Bool) (results : List Row) (r : Row) (v : ℝ) (hv : r.mi = some v) (h0 : 0 ≤ v)
    (hmax : ∀ s ∈ results, s.est = r.est → s.task = r.task → s.n = r.n → ∀ w, s.mi = some w → w ≤ v) :
    neuralFail neural results r = false := by
  rw [Bool.eq_false_iff, ne_eq, neuralFail_iff]
  rintro ⟨_, v', hv', h⟩
  rw [hv, Option.some.injEq] at hv'
  subst hv'
  rcases h with h | ⟨s, hs, h1, h2, h3, w, hw, _, hlt⟩
  · exact absurd h (not_lt.2 h0)
  · have := hmax s hs h1 h2 h3 w hw
    linarith

/-! ### Tables -/

theorem find_keys {β : Type} (ks : List (String × String)) (v : String × String → Option β) (e t : String) :
    ((ks.map fun k => (k.1, k.2, v k)).find? fun d => d.1 = e ∧ d.2.1 = t) =
      if (e, t) ∈ ks then some (e, t, v (e, t)) else none := by
  induction ks with
  | nil => simp
  | cons k ks ih =>
    rw [List.map_cons, List.find?_cons]
    by_cases h : k.1 = e ∧ k.2 = t
    · have : k = (e, t) := Prod.ext h.1 h.2
      subst this
      simp
    · have hne : (e, t) ≠ k := fun h' => h ⟨by rw [← h'], by rw [← h']⟩
      simp only [h, decide_false, Bool.false_eq_true, List.mem_cons, hne, false_or]
      exact ih

theorem mapM_names (names : String → Option String) (nm : String → String) (es : List String)
    (h : ∀ e ∈ es, names e = some (nm e)) :
    (es.mapM fun e => (names e).map fun n => (e, n)) = some (es.map fun e => (e, nm e)) := by
  induction es with
  | nil => rfl
  | cons e es ih =>
    rw [List.mapM_cons, h e List.mem_cons_self, ih fun e' he' => h e' (List.mem_cons_of_mem _ he')]
    rfl

/-- What `make_benchmark_table` makes of data with one value for each of some pairs: rows in the order of the tasks, columns
in the order of the estimators, without those that do not occur. -/
theorem makeTable_keys {β : Type} (ks : List (String × String)) (hks : ks.Nodup) (v : String × String → Option β)
    (ests : List String) (tasks : List TaskInfo) (names : String → Option String) (nm : String → String)
    (hn : ∀ e ∈ ests, (∃ t, (e, t) ∈ ks) → names e = some (nm e)) :
    makeTable (ks.map fun k => (k.1, k.2, v k)) ests tasks names
      = .ok ((tasks.filter fun t => t.id ∈ ks.map Prod.snd).map fun t =>
          (t.name, (ests.filter fun e => e ∈ ks.map Prod.fst).map fun e =>
            (nm e, if (e, t.id) ∈ ks then v (e, t.id) else none))) := by
  have h1 : ((ks.map fun k => (k.1, k.2, v k)).map fun d => (d.1, d.2.1)) = ks := by
    rw [List.map_map]
    exact List.map_id' _
  have h2 : (ks.map fun k => (k.1, k.2, v k)).map (fun d => d.2.1) = ks.map Prod.snd := by rw [List.map_map]; rfl
  have h3 : (ks.map fun k => (k.1, k.2, v k)).map Prod.fst = ks.map Prod.fst := by rw [List.map_map]; rfl
  have h4 := mapM_names names nm (ests.filter fun e => e ∈ ks.map Prod.fst) (by
    intro e he
    obtain ⟨he1, he2⟩ := List.mem_filter.1 he
    rw [decide_eq_true_eq, List.mem_map] at he2
    obtain ⟨⟨a, b⟩, hk, rfl⟩ := he2
    exact hn _ he1 ⟨b, hk⟩)
  simp only [makeTable, h1, if_pos hks, h2, h3, h4, Except.ok.injEq]
  refine List.map_congr_left fun t _ => ?_
  rw [List.map_map]
  refine Prod.ext rfl (List.map_congr_left fun e _ => Prod.ext rfl ?_)
  simp only [Function.comp_apply, find_keys]
  split <;> rfl

/-- **C67**: an estimator without a name to be shown makes every figure fail. -/
theorem makeTable_unnamed {β : Type} (data : List (String × String × Option β)) (ests : List String)
    (tasks : List TaskInfo) (names : String → Option String) (hd : (data.map fun d => (d.1, d.2.1)).Nodup)
    (e : String) (he : e ∈ ests) (hed : e ∈ data.map Prod.fst) (hnone : names e = none) :
    makeTable data ests tasks names = .error .keyError := by
  have : ((ests.filter fun e => e ∈ data.map Prod.fst).mapM fun e => (names e).map fun n => (e, n)) = none := by
    have hmem : e ∈ ests.filter fun e => e ∈ data.map Prod.fst := List.mem_filter.2 ⟨he, by simpa using hed⟩
    generalize (ests.filter fun e => e ∈ data.map Prod.fst) = es at hmem
    induction es with
    | nil => simp at hmem
    | cons a es ih =>
      rw [List.mapM_cons]
      rcases List.mem_cons.1 hmem with rfl | h
      · simp [hnone]
      · simp only [ih h]
        cases names a <;> rfl
  simp only [makeTable, if_pos hd, this]

theorem mem_keys3 (rows : List Row) (e t : String) (n : ℤ) :
    (e, t, n) ∈ groupKeys3 rows ↔ ∃ r ∈ rows, r.est = e ∧ r.task = t ∧ r.n = n := by
  simp [groupKeys3]

/-- The runs of an estimator on a task that are kept. -/
noncomputable def runs (neural : String → Bool) (results : List Row) (e t : String) : List Row :=
  (kept neural results results).filter fun r => r.est = e ∧ r.task = t

/-- The numbers of samples of some runs. -/
def sizes (rs : List Row) : Set ℤ := {n | ∃ r ∈ rs, r.n = n}

/-- The runs with a number of samples. -/
def atN (rs : List Row) (n : ℤ) : List Row := rs.filter fun r => r.n = n

/-- What the figure with the number of samples should say about some runs: nothing without runs, otherwise the smallest
number of samples from which on the runs are good, or that it was not reached. -/
structure Says (τ : ℝ) (rs : List Row) (c : Option Needed) : Prop where
  empty : c = none ↔ rs = []
  num : ∀ n, c = some (.num n) ↔ IsNeeded (sizes rs) (fun m => Good τ (atN rs m)) n
  inf : c = some .inf ↔ NeverReached (sizes rs) (fun m => Good τ (atN rs m))
  nan : c ≠ some .nan

/-- **C67**: the figure with the number of samples: tasks and estimators without kept runs are left out, the others appear in
the given order, and each cell says how many samples are needed. -/
theorem samplesTable_spec (neural : String → Bool) (results : List Row) (ests : List String) (tasks : List TaskInfo)
    (names : String → Option String) (nm : String → String) (truth : String → ℝ)
    (hn : ∀ e ∈ ests, (∃ r ∈ results, r.est = e) → names e = some (nm e))
    (htrue : ∀ r ∈ results, r.miTrue = truth r.task) (hpos : ∀ r ∈ results, 0 < r.miTrue) :
    ∃ (rows : List TaskInfo) (cols : List String) (cell : String → String → Option Needed),
      samplesTable neural results ests tasks names
        = .ok (rows.map fun t => (t.name, cols.map fun e => (nm e, cell e t.id))) ∧
      rows.Sublist tasks ∧ cols.Sublist ests ∧
      (∀ t ∈ tasks, t ∈ rows ↔ ∃ e, runs neural results e t.id ≠ []) ∧
      (∀ e ∈ ests, e ∈ cols ↔ ∃ t, runs neural results e t ≠ []) ∧
      ∀ e t, Says (truth t) (runs neural results e t) (cell e t) := by
  set data := kept neural results results with hdata
  have hsub : ∀ r ∈ data, r ∈ results := fun r hr => List.mem_of_mem_filter hr
  set means := (groupKeys3 data).map fun k => (k.1, k.2.1, k.2.2, meanError ((group3 data k).map errorOf)) with hmeans
  set pairs := (means.map fun m => (m.1, m.2.1)).dedup with hpairs
  have hruns : ∀ e t r, r ∈ runs neural results e t ↔ r ∈ data ∧ r.est = e ∧ r.task = t := by
    intro e t r
    rw [runs, List.mem_filter, decide_eq_true_eq]
  have hmem : ∀ e t, (e, t) ∈ pairs ↔ runs neural results e t ≠ [] := by
    intro e t
    rw [hpairs, List.mem_dedup, List.mem_map]
    constructor
    · rintro ⟨m, hm, hme⟩
      obtain ⟨⟨a, b, n⟩, hk, rfl⟩ := List.mem_map.1 hm
      obtain ⟨r, hr, h1, h2, _⟩ := (mem_keys3 _ _ _ _).1 hk
      simp only [Prod.mk.injEq] at hme
      exact List.ne_nil_of_mem ((hruns e t r).2 ⟨hr, h1.trans hme.1, h2.trans hme.2⟩)
    · intro hne
      obtain ⟨r, hr⟩ := List.exists_mem_of_ne_nil _ hne
      obtain ⟨hr, h1, h2⟩ := (hruns _ _ _).1 hr
      exact ⟨_, List.mem_map.2 ⟨(e, t, r.n), (mem_keys3 _ _ _ _).2 ⟨r, hr, h1, h2, rfl⟩, rfl⟩, rfl⟩
  have htab : samplesTable neural results ests tasks names = makeTable (pairs.map fun k => (k.1, k.2,
      (some (nSamplesNeeded ((means.filter fun m => (m.1, m.2.1) = k).map fun m => m.2.2)) : Option Needed)))
      ests tasks names := rfl
  have hcell : ∀ e t, runs neural results e t ≠ [] → Says (truth t) (runs neural results e t)
      (some (nSamplesNeeded ((means.filter fun m => (m.1, m.2.1) = (e, t)).map fun m => m.2.2))) := by
    intro e t hne
    set D := (means.filter fun m => (m.1, m.2.1) = (e, t)).map fun m => m.2.2 with hD
    have hDmem : ∀ d, d ∈ D ↔ ∃ r ∈ runs neural results e t,
        d = (r.n, meanError ((group3 data (e, t, r.n)).map errorOf)) := by
      intro d
      rw [hD, List.mem_map]
      constructor
      · rintro ⟨m, hm, rfl⟩
        obtain ⟨hm, hme⟩ := List.mem_filter.1 hm
        obtain ⟨⟨a, b, n⟩, hk, rfl⟩ := List.mem_map.1 hm
        simp only [Prod.mk.injEq, decide_eq_true_eq] at hme
        obtain ⟨rfl, rfl⟩ := hme
        obtain ⟨r, hr, h1, h2, rfl⟩ := (mem_keys3 _ _ _ _).1 hk
        exact ⟨r, (hruns _ _ _).2 ⟨hr, h1, h2⟩, rfl⟩
      · rintro ⟨r, hr, rfl⟩
        obtain ⟨hr, h1, h2⟩ := (hruns _ _ _).1 hr
        exact ⟨_, List.mem_filter.2 ⟨List.mem_map.2 ⟨(e, t, r.n), (mem_keys3 _ _ _ _).2 ⟨r, hr, h1, h2, rfl⟩, rfl⟩,
          by simp⟩, rfl⟩
    have hgroup : ∀ n, group3 data (e, t, n) = atN (runs neural results e t) n := by
      intro n
      rw [group3, atN, runs, List.filter_filter, ← hdata]
      refine List.filter_congr fun r _ => ?_
      simp only [Prod.mk.injEq, ← Bool.decide_and]
      exact decide_eq_decide.2 ⟨fun h => ⟨h.2.2, h.1, h.2.1⟩, fun h => ⟨h.2.1, h.2.2, h.1⟩⟩
    have hsizes : {n | n ∈ D.map Prod.fst} = sizes (runs neural results e t) := by
      ext n
      simp only [Set.mem_setOf_eq, List.mem_map, sizes]
      constructor
      · rintro ⟨d, hd, rfl⟩
        obtain ⟨r, hr, rfl⟩ := (hDmem d).1 hd
        exact ⟨r, hr, rfl⟩
      · rintro ⟨r, hr, rfl⟩
        exact ⟨_, (hDmem _).2 ⟨r, hr, rfl⟩, rfl⟩
    have hgood : ∀ m ∈ sizes (runs neural results e t),
        (∀ d ∈ D, d.1 = m → isSolved d.2 = true) ↔ Good (truth t) (atN (runs neural results e t) m) := by
      rintro m ⟨r, hr, rfl⟩
      have hτ : 0 < truth t := by
        obtain ⟨hr', _, h2⟩ := (hruns _ _ _).1 hr
        rw [← h2, ← htrue r (hsub r hr')]
        exact hpos r (hsub r hr')
      have hiff := isSolved_meanError (truth t) hτ (atN (runs neural results e t) r.n) (by
        intro s hs
        obtain ⟨hs', _, h2⟩ := (hruns _ _ _).1 (List.mem_of_mem_filter hs)
        rw [htrue s (hsub s hs'), h2])
      rw [← hiff]
      constructor
      · intro h
        have := h _ ((hDmem _).2 ⟨r, hr, rfl⟩) rfl
        rwa [hgroup] at this
      · intro h d hd hdn
        obtain ⟨s, _, rfl⟩ := (hDmem d).1 hd
        dsimp only at hdn ⊢
        rw [hgroup, hdn]
        exact h
    obtain ⟨g1, g2, g3⟩ := nSamplesNeeded_spec D
    rw [hsizes] at g1 g2
    have hDne : D ≠ [] := by
      obtain ⟨r, hr⟩ := List.exists_mem_of_ne_nil _ hne
      exact List.ne_nil_of_mem ((hDmem _).2 ⟨r, hr, rfl⟩)
    refine ⟨by simp [hne], fun n => ?_, ?_, fun h => hDne (g3.1 (by simpa using h))⟩
    · rw [Option.some.injEq, g1]
      have : {k | k ∈ sizes (runs neural results e t) ∧ ∀ m ∈ sizes (runs neural results e t), k ≤ m →
            ∀ d ∈ D, d.1 = m → isSolved d.2 = true}
          = {k | k ∈ sizes (runs neural results e t) ∧ ∀ m ∈ sizes (runs neural results e t), k ≤ m →
            Good (truth t) (atN (runs neural results e t) m)} := by
        ext k
        exact and_congr_right fun _ => forall₃_congr fun m hm _ => hgood m hm
      rw [IsNeeded, IsNeeded, this]
    · rw [Option.some.injEq, g2]
      refine exists_congr fun m => and_congr_right fun hm => not_congr (hgood m hm.1)
  refine ⟨tasks.filter fun t => t.id ∈ pairs.map Prod.snd, ests.filter fun e => e ∈ pairs.map Prod.fst,
    fun e t => if (e, t) ∈ pairs then
      some (nSamplesNeeded ((means.filter fun m => (m.1, m.2.1) = (e, t)).map fun m => m.2.2)) else none,
    ?_, List.filter_sublist, List.filter_sublist, ?_, ?_, ?_⟩
  · rw [htab, makeTable_keys pairs (List.nodup_dedup _) _ ests tasks names nm ?_]
    intro e he ⟨t, ht⟩
    obtain ⟨r, hr⟩ := List.exists_mem_of_ne_nil _ ((hmem e t).1 ht)
    obtain ⟨hr, h1, _⟩ := (hruns _ _ _).1 hr
    exact hn e he ⟨r, hsub r hr, h1⟩
  · intro t ht
    rw [List.mem_filter, decide_eq_true_eq, List.mem_map]
    constructor
    · rintro ⟨_, ⟨e, t'⟩, h, h'⟩
      dsimp only at h'
      exact ⟨e, h' ▸ (hmem _ _).1 h⟩
    · rintro ⟨e, h⟩
      exact ⟨ht, (e, t.id), (hmem _ _).2 h, rfl⟩
  · intro e he
    rw [List.mem_filter, decide_eq_true_eq, List.mem_map]
    constructor
    · rintro ⟨_, ⟨e', t⟩, h, h'⟩
      dsimp only at h'
      exact ⟨t, h' ▸ (hmem _ _).1 h⟩
    · rintro ⟨t, h⟩
      exact ⟨he, (e, t), (hmem _ _).2 h, rfl⟩
  · intro e t
    dsimp only
    split_ifs with h
    · exact hcell e t ((hmem e t).1 h)
    · have hnil : runs neural results e t = [] := by
        by_contra h'
        exact h ((hmem e t).2 h')
      rw [hnil]
      refine ⟨by simp, fun n => ?_, ?_, by simp⟩
      · simp only [reduceCtorEq, false_iff, IsNeeded, IsLeast, sizes, List.not_mem_nil, false_and, exists_false,
          Set.setOf_false, Set.mem_empty_iff_false, not_false_eq_true]
      · simp only [reduceCtorEq, false_iff, NeverReached, IsGreatest, sizes, List.not_mem_nil, false_and, exists_false,
          Set.setOf_false, Set.mem_empty_iff_false, not_false_eq_true]

/-! ### Figures for the largest number of samples -/

/-- The runs with the largest number of samples. -/
def atLargest (results : List Row) (r : Row) : Prop := r ∈ results ∧ ∀ s ∈ results, s.n ≤ r.n

theorem mem_largest (results : List Row) (r : Row) : r ∈ largest results ↔ atLargest results r := by
  rw [largest, List.mem_filter, decide_eq_true_eq, eq_comm, indexMax_spec]
  constructor
  · rintro ⟨h, _, h2⟩
    exact ⟨h, fun s hs => h2 (List.mem_map.2 ⟨s, hs, rfl⟩)⟩
  · rintro ⟨h, h2⟩
    refine ⟨h, List.mem_map.2 ⟨r, h, rfl⟩, ?_⟩
    intro k hk
    obtain ⟨s, hs, rfl⟩ := List.mem_map.1 hk
    exact h2 s hs

theorem keys3_one {γ : Type} (data : List Row) (N : ℤ) (h : ∀ r ∈ data, r.n = N) (g : String × String × ℤ → γ) :
    (groupKeys3 data).map g = ((groupKeys3 data).map fun k => (k.1, k.2.1)).map (fun p => g (p.1, p.2, N)) ∧
      ((groupKeys3 data).map fun k => (k.1, k.2.1)).Nodup := by
  have hN : ∀ k ∈ groupKeys3 data, k.2.2 = N := by
    rintro ⟨e, t, n⟩ hk
    obtain ⟨r, hr, _, _, rfl⟩ := (mem_keys3 _ _ _ _).1 hk
    exact h r hr
  constructor
  · rw [List.map_map]
    refine List.map_congr_left fun k hk => ?_
    simp only [Function.comp_apply, ← hN k hk]
  · refine List.Nodup.map_on ?_ (List.nodup_dedup _)
    rintro ⟨e, t, n⟩ hk ⟨e', t', n'⟩ hk' heq
    simp only [Prod.mk.injEq] at heq
    have h1 := hN _ hk
    have h2 := hN _ hk'
    dsimp only at h1 h2
    rw [heq.1, heq.2, h1, h2]

/-- The data of a figure for the largest number of samples, made into a table. -/
theorem largestTable {β : Type} (data : List Row) (N : ℤ) (hN : ∀ r ∈ data, r.n = N) (f : List Row → Option β)
    (ests : List String) (tasks : List TaskInfo) (names : String → Option String) (nm : String → String)
    (hn : ∀ e ∈ ests, (∃ r ∈ data, r.est = e) → names e = some (nm e)) :
    makeTable ((groupKeys3 data).map fun k => (k.1, k.2.1, f (group3 data k))) ests tasks names
      = .ok ((tasks.filter fun t => ∃ r ∈ data, r.task = t.id).map fun t =>
          (t.name, (ests.filter fun e => ∃ r ∈ data, r.est = e).map fun e =>
            (nm e, if ∃ r ∈ data, r.est = e ∧ r.task = t.id then f (data.filter fun r => r.est = e ∧ r.task = t.id)
              else none))) := by
  obtain ⟨h1, h2⟩ := keys3_one data N hN (fun k => (k.1, k.2.1, f (group3 data k)))
  set ks := (groupKeys3 data).map fun k => (k.1, k.2.1) with hks
  have hmem : ∀ e t, (e, t) ∈ ks ↔ ∃ r ∈ data, r.est = e ∧ r.task = t := by
    intro e t
    rw [hks, List.mem_map]
    constructor
    · rintro ⟨⟨a, b, n⟩, hk, heq⟩
      simp only [Prod.mk.injEq] at heq
      obtain ⟨rfl, rfl⟩ := heq
      obtain ⟨r, hr, h1, h2, _⟩ := (mem_keys3 _ _ _ _).1 hk
      exact ⟨r, hr, h1, h2⟩
    · rintro ⟨r, hr, h1, h2⟩
      exact ⟨(e, t, r.n), (mem_keys3 _ _ _ _).2 ⟨r, hr, h1, h2, rfl⟩, rfl⟩
  have hsnd : ∀ t, t ∈ ks.map Prod.snd ↔ ∃ r ∈ data, r.task = t := by
    intro t
    rw [List.mem_map]
    constructor
    · rintro ⟨⟨e, t'⟩, hk, rfl⟩
      obtain ⟨r, hr, _, h⟩ := (hmem _ _).1 hk
      exact ⟨r, hr, h⟩
    · rintro ⟨r, hr, h⟩
      exact ⟨(r.est, t), (hmem _ _).2 ⟨r, hr, rfl, h⟩, rfl⟩
  have hfst : ∀ e, e ∈ ks.map Prod.fst ↔ ∃ r ∈ data, r.est = e := by
    intro e
    rw [List.mem_map]
    constructor
    · rintro ⟨⟨e', t⟩, hk, rfl⟩
      obtain ⟨r, hr, h, _⟩ := (hmem _ _).1 hk
      exact ⟨r, hr, h⟩
    · rintro ⟨r, hr, h⟩
      exact ⟨(e, r.task), (hmem _ _).2 ⟨r, hr, h, rfl⟩, rfl⟩
  have hgroup : ∀ e t, group3 data (e, t, N) = data.filter fun r => r.est = e ∧ r.task = t := by
    intro e t
    refine List.filter_congr fun r hr => decide_eq_decide.2 ?_
    simp only [Prod.mk.injEq, hN r hr, and_true]
  rw [h1, makeTable_keys ks h2 (fun p => f (group3 data (p.1, p.2, N))) ests tasks names nm
    fun e he ⟨t, ht⟩ => hn e he (by obtain ⟨r, hr, h, _⟩ := (hmem _ _).1 ht; exact ⟨r, hr, h⟩)]
  simp only [hsnd, hfst, hmem, hgroup]

/-- The runs shown in the figure of the estimates: those with the largest number of samples that have not failed. -/
noncomputable def shown (neural : String → Bool) (results : List Row) : List Row :=
  (largest results).filter fun r => !neuralFail neural results r

theorem mem_shown (neural : String → Bool) (results : List Row) (r : Row) :
    r ∈ shown neural results ↔ atLargest results r ∧ neuralFail neural results r = false := by
  rw [shown, List.mem_filter, mem_largest, Bool.not_eq_true']

theorem largest_const (results : List Row) : ∃ N, ∀ r ∈ largest results, r.n = N := by
  rcases h : largest results with _ | ⟨r, rs⟩
  · exact ⟨0, by simp⟩
  · refine ⟨r.n, fun s hs => ?_⟩
    have h1 := (mem_largest results r).1 (h ▸ List.mem_cons_self)
    have h2 := (mem_largest results s).1 (h ▸ hs)
    exact le_antisymm (h1.2 s h2.1) (h2.2 r h1.1)

/-- **C67**: the figure of the estimates shows, if each task has a run to show, one row per task in the given order with the
average of the estimates shown for each estimator and the mutual information of this very task. -/
theorem miTable_spec (neural : String → Bool) (results : List Row) (ests : List String) (tasks : List TaskInfo)
    (names : String → Option String) (nm : String → String)
    (hn : ∀ e ∈ ests, (∃ r ∈ results, r.est = e) → names e = some (nm e))
    (htasks : ∀ t ∈ tasks, ∃ r ∈ shown neural results, r.task = t.id) :
    miTable neural results ests tasks names = .ok (tasks.map fun t =>
      (t.name, ((ests.filter fun e => ∃ r ∈ shown neural results, r.est = e).map fun e =>
        (nm e, average (Tables.estimates (shown neural results) e t.id))) ++ [("True MI", some t.mi)])) := by
  obtain ⟨N, hN⟩ := largest_const results
  have hsub : ∀ r ∈ shown neural results, r ∈ largest results := fun r hr => List.mem_of_mem_filter hr
  have htab := largestTable (shown neural results) N (fun r hr => hN r (hsub r hr))
    (fun rs => Tables.mean (rs.map Row.mi)) ests tasks names nm
    (fun e he ⟨r, hr, h⟩ => hn e he ⟨r, ((mem_largest _ _).1 (hsub r hr)).1, h⟩)
  have hall : (tasks.filter fun t => ∃ r ∈ shown neural results, r.task = t.id) = tasks := by
    rw [List.filter_eq_self]
    exact fun t ht => decide_eq_true (htasks t ht)
  rw [hall] at htab
  have hmt : miTable neural results ests tasks names = (do
      let table ← makeTable ((groupKeys3 (shown neural results)).map fun k =>
        (k.1, k.2.1, Tables.mean ((group3 (shown neural results) k).map Row.mi))) ests tasks names
      if table.length = tasks.length then
        .ok (List.zipWith (fun row t => (row.1, row.2 ++ [("True MI", some t.mi)])) table tasks)
      else .error .valueError) := rfl
  rw [hmt, htab]
  simp only [bind, Except.bind, List.length_map, if_true, Except.ok.injEq]
  rw [List.zipWith_map_left, List.zipWith_self]
  refine List.map_congr_left fun t _ => Prod.ext rfl ?_
  dsimp only
  refine congrArg (· ++ [("True MI", some t.mi)]) (List.map_congr_left fun e _ => Prod.ext rfl ?_)
  dsimp only
  have hm : Tables.mean (((shown neural results).filter fun r => r.est = e ∧ r.task = t.id).map Row.mi)
      = average (Tables.estimates (shown neural results) e t.id) := by
    rw [← Tables.mean_group, Tables.group]
    simp only [Prod.mk.injEq]
  split_ifs with h
  · exact hm
  · rw [← hm]
    have : (shown neural results).filter (fun r => r.est = e ∧ r.task = t.id) = [] := by
      rw [List.filter_eq_nil_iff]
      intro r hr hd
      exact h ⟨r, hr, by simpa using hd⟩
    rw [this]
    rfl

/-- **C67**: if all runs of some task have failed (or there are none) the figure of the estimates cannot be made. -/
theorem miTable_missing (neural : String → Bool) (results : List Row) (ests : List String) (tasks : List TaskInfo)
    (names : String → Option String) (nm : String → String)
    (hn : ∀ e ∈ ests, (∃ r ∈ results, r.est = e) → names e = some (nm e)) (t : TaskInfo) (ht : t ∈ tasks)
    (hmiss : ∀ r ∈ shown neural results, r.task ≠ t.id) :
    miTable neural results ests tasks names = .error .valueError := by
  obtain ⟨N, hN⟩ := largest_const results
  have hsub : ∀ r ∈ shown neural results, r ∈ largest results := fun r hr => List.mem_of_mem_filter hr
  have htab := largestTable (shown neural results) N (fun r hr => hN r (hsub r hr))
    (fun rs => Tables.mean (rs.map Row.mi)) ests tasks names nm
    (fun e he ⟨r, hr, h⟩ => hn e he ⟨r, ((mem_largest _ _).1 (hsub r hr)).1, h⟩)
  have hlt : (tasks.filter fun t => ∃ r ∈ shown neural results, r.task = t.id).length < tasks.length := by
    rw [List.length_filter_lt_length_iff_exists]
    refine ⟨t, ht, ?_⟩
    rw [decide_eq_true_eq]
    rintro ⟨r, hr, h⟩
    exact hmiss r hr h
  have hmt : miTable neural results ests tasks names = (do
      let table ← makeTable ((groupKeys3 (shown neural results)).map fun k =>
        (k.1, k.2.1, Tables.mean ((group3 (shown neural results) k).map Row.mi))) ests tasks names
      if table.length = tasks.length then
        .ok (List.zipWith (fun row t => (row.1, row.2 ++ [("True MI", some t.mi)])) table tasks)
      else .error .valueError) := rfl
  rw [hmt, htab]
  simp only [bind, Except.bind, List.length_map]
  rw [if_neg hlt.ne]

/-- **C67**: the figure of the failures counts the failed runs of neural estimators with the largest number of samples. -/
theorem failsTable_spec (neural : String → Bool) (results : List Row) (ests : List String) (tasks : List TaskInfo)
    (names : String → Option String) (nm : String → String)
    (hn : ∀ e ∈ ests, (∃ r ∈ results, r.est = e) → names e = some (nm e)) :
    failsTable neural results ests tasks names = .ok
      ((tasks.filter fun t => ∃ r ∈ largest results, neural r.est = true ∧ r.task = t.id).map fun t =>
        (t.name, (ests.filter fun e => neural e = true ∧ ∃ r ∈ largest results, r.est = e).map fun e =>
          (nm e, if ∃ r ∈ largest results, r.est = e ∧ r.task = t.id then
            some ((largest results).countP fun r => r.est = e ∧ r.task = t.id ∧ neuralFail neural results r = true)
            else none))) := by
  obtain ⟨N, hN⟩ := largest_const results
  set data := (largest results).filter fun r => neural r.est with hdata
  have hmem : ∀ r, r ∈ data ↔ r ∈ largest results ∧ neural r.est = true := fun r => List.mem_filter
  have htab := largestTable data N (fun r hr => hN r ((hmem r).1 hr).1)
    (fun rs => some (rs.countP (neuralFail neural results))) ests tasks names nm
    (fun e he ⟨r, hr, h⟩ => hn e he ⟨r, ((mem_largest _ _).1 ((hmem r).1 hr).1).1, h⟩)
  have hft : failsTable neural results ests tasks names = makeTable ((groupKeys3 data).map fun k =>
    (k.1, k.2.1, some ((group3 data k).countP (neuralFail neural results)))) ests tasks names := rfl
  rw [hft, htab]
  congr 1
  have hrows : (tasks.filter fun t => ∃ r ∈ data, r.task = t.id)
      = tasks.filter fun t => ∃ r ∈ largest results, neural r.est = true ∧ r.task = t.id := by
    refine List.filter_congr fun t _ => decide_eq_decide.2 (exists_congr fun r => ?_)
    rw [hmem, and_assoc]
  have hcols : (ests.filter fun e => ∃ r ∈ data, r.est = e)
      = ests.filter fun e => neural e = true ∧ ∃ r ∈ largest results, r.est = e := by
    refine List.filter_congr fun e _ => decide_eq_decide.2 ⟨?_, ?_⟩
    · rintro ⟨r, hr, rfl⟩
      exact ⟨((hmem r).1 hr).2, r, ((hmem r).1 hr).1, rfl⟩
    · rintro ⟨h, r, hr, rfl⟩
      exact ⟨r, (hmem r).2 ⟨hr, h⟩, rfl⟩
  rw [hrows, hcols]
  refine List.map_congr_left fun t _ => Prod.ext rfl (List.map_congr_left fun e he => Prod.ext rfl ?_)
  have hne : neural e = true := (of_decide_eq_true (List.mem_filter.1 he).2).1
  have hex : (∃ r ∈ data, r.est = e ∧ r.task = t.id) ↔ ∃ r ∈ largest results, r.est = e ∧ r.task = t.id := by
    constructor
    · rintro ⟨r, hr, h⟩
      exact ⟨r, ((hmem r).1 hr).1, h⟩
    · rintro ⟨r, hr, h1, h2⟩
      exact ⟨r, (hmem r).2 ⟨hr, h1 ▸ hne⟩, h1, h2⟩
  dsimp only
  simp only [hex]
  split_ifs
  · rw [hdata, List.countP_filter, List.countP_filter]
    congr 1
    refine List.countP_congr fun r _ => ?_
    simp only [Bool.and_eq_true, decide_eq_true_eq]
    constructor
    · rintro ⟨⟨h1, h2, h3⟩, _⟩
      exact ⟨h2, h3, h1⟩
    · rintro ⟨h1, h2, h3⟩
      exact ⟨⟨h3, h1, h2⟩, h1 ▸ hne⟩
  · rfl

/-! ### What the figures do not show -/

/-- **C67**, disagreement: estimates that are negative or NaN do not count against an estimator in the figure with the number of
samples. -/
theorem good_ignores (τ : ℝ) (rs bad : List Row) (hbad : ∀ r ∈ bad, r.mi = none ∨ ∃ v < 0, r.mi = some v) :
    Good τ (rs ++ bad) ↔ Good τ rs := by
  have hz : ∀ r ∈ bad, r.mi ≠ some 0 := by
    intro r hr h
    rcases hbad r hr with h' | ⟨v, hv, h'⟩
    · rw [h'] at h; cases h
    · rw [h', Option.some.injEq] at h; exact hv.ne h
  have hp : positives (rs ++ bad) = positives rs := by
    have : positives bad = [] := by
      rw [positives, List.filter_eq_nil_iff]
      intro v hv hpos
      obtain ⟨r, hr, h⟩ := List.mem_filterMap.1 hv
      rw [decide_eq_true_eq] at hpos
      rcases hbad r hr with h' | ⟨w, hw, h'⟩
      · rw [h'] at h; cases h
      · rw [h', Option.some.injEq] at h
        exact absurd hpos (not_lt.2 (h ▸ hw.le))
    rw [positives, List.filterMap_append, List.filter_append]
    change positives rs ++ positives bad = _
    rw [this, List.append_nil]
  simp only [Good, hp, List.mem_append]
  refine and_congr_left fun _ => ⟨fun h r hr => h r (Or.inl hr), ?_⟩
  rintro h r (hr | hr)
  · exact h r hr
  · exact hz r hr

/-- **C67**, disagreement: a task without mutual information is never solved, even by an estimator that always returns
zero. -/
theorem independent_never_solved (rs : List Row) (h : ∀ r ∈ rs, r.miTrue = 0) :
    isSolved (meanError (rs.map errorOf)) = false := by
  have hall : ∀ x ∈ (rs.map errorOf).filterMap id, x = ⊤ := by
    intro x hx
    obtain ⟨_, ho, hx⟩ := List.mem_filterMap.1 hx
    obtain ⟨r, hr, rfl⟩ := List.mem_map.1 ho
    rcases hv : r.mi with _ | v
    · simp [errorOf, hv] at hx
    · simp only [errorOf, hv, Option.bind_some, logRelativeError, h r hr, if_true, id] at hx
      split_ifs at hx with hpos
      · simpa using hx.symm
  by_cases hne : (rs.map errorOf).filterMap id = []
  · simp only [meanError, hne, if_true, isSolved]
  · obtain ⟨x, hx⟩ := List.exists_mem_of_ne_nil _ hne
    have htop : (⊤ : EReal) ∈ (rs.map errorOf).filterMap id := hall x hx ▸ hx
    have hbot : (⊥ : EReal) ∉ (rs.map errorOf).filterMap id := fun h' => absurd (hall _ h') (by simp)
    simp only [meanError, if_neg hne, if_pos htop, if_neg hbot, isSolved, ne_eq, not_true_eq_false, false_and,
      decide_false]

/-! ### Examples -/

/-- Annotations are rounded down. -/
example : annotation 10000 (.num 500) = "500" ∧ annotation 10000 (.num 1999) = "1k" ∧ annotation 10000 .inf = ">10k" ∧
    annotation 500 .inf = ">0k" := by decide +kernel

/-- Two sizes: a neural estimator with a failed run, an exact one. -/
noncomputable def exampleResults : List Row :=
  [⟨"MINE", "a", 100, some 1, 1⟩, ⟨"MINE", "a", 500, some 1, 1⟩, ⟨"MINE", "a", 500, some (-1), 1⟩,
   ⟨"CCA", "a", 100, some (1 / 2), 1⟩, ⟨"CCA", "a", 500, some 1, 1⟩]

/-- Names shown in the examples. -/
def exampleNames (e : String) : Option String := if e = "MINE" ∨ e = "CCA" then some e else none

theorem exampleNames_ok : ∀ e ∈ ["CCA", "MINE"], (∃ r ∈ exampleResults, r.est = e) → exampleNames e = some (id e) := by
  decide +kernel

example : ∃ (rows : List TaskInfo) (cols : List String) (cell : String → String → Option Needed),
    samplesTable (· == "MINE") exampleResults ["CCA", "MINE"] [⟨"a", "A", 1⟩] exampleNames
      = .ok (rows.map fun t => (t.name, cols.map fun e => (e, cell e t.id))) ∧
    ∀ e t, Says 1 (runs (· == "MINE") exampleResults e t) (cell e t) := by
  obtain ⟨rows, cols, cell, h, _, _, _, _, hs⟩ := samplesTable_spec (· == "MINE") exampleResults ["CCA", "MINE"]
    [⟨"a", "A", 1⟩] exampleNames id (fun _ => 1) exampleNames_ok (by simp [exampleResults]) (by simp [exampleResults])
  exact ⟨rows, cols, cell, h, hs⟩

/-- The failed run of the example is left out, the good one is kept. -/
theorem example_fail : neuralFail (· == "MINE") exampleResults ⟨"MINE", "a", 500, some (-1), 1⟩ = true ∧
    neuralFail (· == "MINE") exampleResults ⟨"MINE", "a", 500, some 1, 1⟩ = false := by
  constructor
  · rw [neuralFail_iff]
    exact ⟨rfl, -1, rfl, Or.inl (by norm_num)⟩
  · refine largest_kept _ _ _ 1 rfl zero_le_one ?_
    intro s hs h1 h2 h3 w hw
    simp only [exampleResults, List.mem_cons, List.not_mem_nil, or_false] at hs
    rcases hs with rfl | rfl | rfl | rfl | rfl <;> simp at h1 h3 hw <;> linarith

example : ∃ T, miTable (· == "MINE") exampleResults ["CCA", "MINE"] [⟨"a", "A", 1⟩] exampleNames = .ok T := by
  refine ⟨_, miTable_spec _ _ _ _ _ id exampleNames_ok ?_⟩
  intro t ht
  rw [List.mem_singleton] at ht
  subst ht
  refine ⟨⟨"MINE", "a", 500, some 1, 1⟩, (mem_shown _ _ _).2 ⟨⟨by simp [exampleResults], ?_⟩, example_fail.2⟩, rfl⟩
  simp [exampleResults]

example : miTable (· == "MINE") exampleResults ["CCA", "MINE"] [⟨"a", "A", 1⟩, ⟨"b", "B", 2⟩] exampleNames
    = .error .valueError := by
  refine miTable_missing _ _ _ _ _ id exampleNames_ok ⟨"b", "B", 2⟩ (by simp) ?_
  intro r hr
  have := ((mem_shown _ _ _).1 hr).1.1
  simp only [exampleResults, List.mem_cons, List.not_mem_nil, or_false] at this
  rcases this with rfl | rfl | rfl | rfl | rfl <;> decide

example : ∃ T, failsTable (· == "MINE") exampleResults ["CCA", "MINE"] [⟨"a", "A", 1⟩] exampleNames = .ok T :=
  ⟨_, failsTable_spec _ _ _ _ _ id exampleNames_ok⟩

/-- One estimate that is right makes a setting good, although nine others are negative. -/
example : Good 1 (⟨"LNN", "a", 500, some 1, 1⟩ :: List.replicate 9 ⟨"LNN", "a", 500, some (-5), 1⟩) := by
  refine (good_ignores 1 [⟨"LNN", "a", 500, some 1, 1⟩] (List.replicate 9 ⟨"LNN", "a", 500, some (-5), 1⟩) ?_).2 ?_
  · intro r hr
    rw [List.eq_of_mem_replicate hr]
    exact Or.inr ⟨-5, by norm_num, rfl⟩
  · have hp : positives [⟨"LNN", "a", 500, some 1, 1⟩] = [1] := by simp [positives]
    refine ⟨by simp, by simp [hp], ?_⟩
    rw [hp]
    simpa using Real.log_pos (by norm_num : (1 : ℝ) < 1.5)

end BMI.FigureTables
