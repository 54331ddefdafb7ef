import Verif.Model.TaskIds
import Mathlib.Data.List.Nodup
import Mathlib.Tactic.Common

/-!
# C44 – task identifiers
-/

namespace BMI.TaskIds

variable {F : Type}

/-- What is assumed of Python's `repr` of floats: it is injective (shortest round-trip rendering) and no rendering
is another one followed by `-…` (the only `-` after the first character follows an `e`, and no rendering ends
with `e`). -/
structure GoodRepr (r : F → List Char) : Prop where
  inj : Function.Injective r
  nodash : ∀ a b s, r a ≠ r b ++ '-' :: s

theorem nat_inj {m n : ℕ} (h : nat m = nat n) : m = n := by
  have := congrArg (Nat.ofDigitChars 10 · 0) h
  simpa [nat] using this

theorem nat_digit {n : ℕ} {c : Char} (h : c ∈ nat n) : c.isDigit :=
  Nat.isDigit_of_mem_toDigits (by decide) (by decide) h

theorem nat_ne_nil (n : ℕ) : nat n ≠ [] := by
  intro h
  have := congrArg List.length h
  have h2 := @Nat.length_toDigits_pos 10 n
  simp [nat] at this

/-- Two renderings, each closed by a `-`, can be told apart. -/
theorem split_dash {ι : Type} {r : ι → List Char} (hr : Function.Injective r)
    (hd : ∀ a b s, r a ≠ r b ++ '-' :: s) {a b : ι} {s t : List Char}
    (h : r a ++ '-' :: s = r b ++ '-' :: t) : a = b ∧ s = t := by
  rcases List.append_eq_append_iff.1 h with ⟨u, h1, h2⟩ | ⟨u, h1, h2⟩
  · cases u with
    | nil =>
      simp only [List.append_nil] at h1
      have := hr h1.symm
      subst this
      simpa using h
    | cons c u =>
      simp only [List.cons_append, List.cons.injEq] at h2
      rw [← h2.1] at h1
      exact absurd h1 (hd _ _ _)
  · cases u with
    | nil =>
      simp only [List.append_nil] at h1
      have := hr h1
      subst this
      simpa using h
    | cons c u =>
      simp only [List.cons_append, List.cons.injEq] at h2
      rw [← h2.1] at h1
      exact absurd h1 (hd _ _ _)

theorem nat_nodash (a b : ℕ) (s : List Char) : nat a ≠ nat b ++ '-' :: s := by
  intro h
  have : '-' ∈ nat a := by rw [h]; simp
  have := nat_digit this
  exact absurd this (by decide)

theorem split_nat {a b : ℕ} {s t : List Char} (h : nat a ++ '-' :: s = nat b ++ '-' :: t) :
    a = b ∧ s = t := split_dash (fun _ _ h => nat_inj h) nat_nodash h

/-- A number followed by a letter can be split off. -/
theorem split_digits {l l' s t : List Char} (hl : ∀ c ∈ l, c.isDigit) (hl' : ∀ c ∈ l', c.isDigit)
    (h : l ++ 'v' :: s = l' ++ 'v' :: t) : l = l' ∧ s = t := by
  induction l generalizing l' with
  | nil =>
    cases l' with
    | nil => simpa using h
    | cons c l' =>
      simp only [List.nil_append, List.cons_append, List.cons.injEq] at h
      have := hl' c (by simp)
      rw [← h.1] at this
      exact absurd this (by decide)
  | cons c l ih =>
    cases l' with
    | nil =>
      simp only [List.nil_append, List.cons_append, List.cons.injEq] at h
      have := hl c (by simp)
      rw [h.1] at this
      exact absurd this (by decide)
    | cons c' l' =>
      simp only [List.cons_append, List.cons.injEq] at h
      have := ih (fun c hc => hl c (by simp [hc])) (fun c hc => hl' c (by simp [hc])) h.2
      simp [h.1, this]

/-- Constructors whose identifier mentions all parameters with full precision. -/
def Faithful : Call F → Prop
  | .lvm .. => False
  | .uniformise .. => False
  | .gaussianise .. => False
  | .power .. => False
  | .spiral .. => False
  | .asinh t => Faithful t
  | .halfCube t => Faithful t
  | .normalCdf t => Faithful t
  | .wiggly t => Faithful t
  | .rotate t => Faithful t
  | .swissroll t => Faithful t
  | .rescale t => Faithful t
  | _ => True

/-- Reads off an identifier which constructor made it. -/
def tagOf (s : List Char) : ℕ :=
  let r := s.dropWhile Char.isDigit
  let at' (i : ℕ) : ℕ := (r[i]?.getD ' ').toNat
  if at' 0 = 118 then 1000 + at' 3              -- v
  else if at' 0 = 115 then                      -- s
    if at' 1 = 119 then 1 else 2000 + at' 8
  else if at' 0 = 109 then                      -- m
    if at' 4 = 45 then 2 else 3000 + at' 12
  else if at' 0 = 114 then                      -- r
    if at' 1 = 111 then 3 else 4
  else at' 0

/-- The tag of each constructor. -/
def kind : Call F → ℕ
  | .additive _ => 1097
  | .binormal _ => 1110
  | .bimodal _ => 1098
  | .lvm .. => 3108
  | .dense .. => 3100
  | .sparse .. => 3115
  | .studentIdentity .. => 2105
  | .studentDense .. => 2100
  | .studentSparse .. => 2115
  | .mixX _ => 1088
  | .mixAI => 1065
  | .galaxy .. => 1103
  | .waves .. => 1119
  | .concentric .. => 1099
  | .inliers .. => 2
  | .asinh _ => 97
  | .halfCube _ => 104
  | .normalCdf _ => 110
  | .wiggly _ => 119
  | .rotate _ => 3
  | .swissroll _ => 1
  | .rescale _ => 4
  | .uniformise .. => 117
  | .gaussianise .. => 103
  | .power .. => 112
  | .spiral .. => 5

theorem dropWhile_nat (d : ℕ) (s : List Char) :
    (nat d ++ 'v' :: s).dropWhile Char.isDigit = 'v' :: s := by
  rw [List.dropWhile_append_of_pos (fun c hc => nat_digit hc)]
  rfl

set_option maxHeartbeats 1000000 in
theorem tagOf_id (fm : Format F) (t : Call F) (hf : Faithful t) : tagOf (t.id fm) = kind t := by
  cases t with
  | lvm => exact hf.elim
  | uniformise => exact hf.elim
  | gaussianise => exact hf.elim
  | power => exact hf.elim
  | spiral => exact hf.elim
  | concentric d n =>
    have e : (Call.concentric d n : Call F).id fm
        = nat d ++ 'v' :: (['1', '-', 'c', 'o', 'n', 'c', 'e', 'n', 't', 'r', 'i', 'c', '_', 'g', 'a', 'u', 's', 's', 'i', 'a', 'n', 's', '-'] ++ nat n) := by
      simp [Call.id]
    rw [e, tagOf, dropWhile_nat]
    simp only [List.cons_append, List.nil_append]
    rfl
  | _ =>
    simp only [Call.id, List.cons_append, List.nil_append]
    rfl

set_option maxHeartbeats 4000000 in
/-- C44.  Full statement: two different constructor calls never have the same identifier.
Proved for calls built from the constructors whose identifier prints all parameters in full; for the others
(`task_multinormal_lvm`, power, spiral, uniformise, gaussianise) it is false, see `spiral_collision` etc. -/
theorem id_injective_partial (fm : Format F) (hr : GoodRepr fm.repr) (t t' : Call F)
    (hf : Faithful t) (hf' : Faithful t') (h : t.id fm = t'.id fm) : t = t' := by
  have hF : ∀ {a b : F} {s t : List Char}, fm.repr a ++ '-' :: s = fm.repr b ++ '-' :: t →
      a = b ∧ s = t := fun h => split_dash hr.inj hr.nodash h
  have hk : kind t = kind t' := by rw [← tagOf_id fm t hf, ← tagOf_id fm t' hf', h]
  induction t generalizing t' with
  | lvm => exact hf.elim
  | uniformise => exact hf.elim
  | gaussianise => exact hf.elim
  | power => exact hf.elim
  | spiral => exact hf.elim
  | concentric d n =>
    cases t' <;> first | (simp only [kind] at hk; exact absurd hk (by decide)) | skip
    simp only [Call.id, List.cons_append, List.nil_append] at h
    have h1 := split_digits (fun _ h => nat_digit h) (fun _ h => nat_digit h) h
    simp only [List.cons.injEq, true_and] at h1
    rw [nat_inj h1.1, nat_inj h1.2]
  | additive | binormal | bimodal | mixX =>
    cases t' <;> first | (simp only [kind] at hk; exact absurd hk (by decide)) | skip
    simp only [Call.id, List.append_cancel_left_eq] at h
    rw [hr.inj h]
  | mixAI =>
    cases t' <;> first | (simp only [kind] at hk; exact absurd hk (by decide)) | skip
    rfl
  | asinh _ ih | halfCube _ ih | normalCdf _ ih | wiggly _ ih | rotate _ ih | swissroll _ ih
  | rescale _ ih =>
    cases t' <;> first | (simp only [kind] at hk; exact absurd hk (by decide)) | skip
    simp only [Call.id, List.append_cancel_left_eq] at h
    simp only [Faithful] at hf hf'
    rw [ih _ hf hf' h (by rw [← tagOf_id fm _ hf, ← tagOf_id fm _ hf', h])]
  | dense =>
    cases t' <;> first | (simp only [kind] at hk; exact absurd hk (by decide)) | skip
    simp only [Call.id, List.append_cancel_left_eq] at h
    have ⟨e1, h1⟩ := split_nat h
    have ⟨e2, h2⟩ := split_nat h1
    rw [e1, e2, hr.inj h2]
  | sparse | studentDense =>
    cases t' <;> first | (simp only [kind] at hk; exact absurd hk (by decide)) | skip
    simp only [Call.id, List.append_cancel_left_eq] at h
    have ⟨e1, h1⟩ := split_nat h
    have ⟨e2, h2⟩ := split_nat h1
    have ⟨e3, h3⟩ := split_nat h2
    rw [e1, e2, e3, hr.inj h3]
  | studentSparse =>
    cases t' <;> first | (simp only [kind] at hk; exact absurd hk (by decide)) | skip
    simp only [Call.id, List.append_cancel_left_eq] at h
    have ⟨e1, h1⟩ := split_nat h
    have ⟨e2, h2⟩ := split_nat h1
    have ⟨e3, h3⟩ := split_nat h2
    have ⟨e4, h4⟩ := split_nat h3
    rw [e1, e2, e3, e4, hr.inj h4]
  | inliers =>
    cases t' <;> first | (simp only [kind] at hk; exact absurd hk (by decide)) | skip
    simp only [Call.id, List.append_cancel_left_eq] at h
    have ⟨e1, h1⟩ := split_nat h
    have ⟨e2, h2⟩ := split_nat h1
    have ⟨e3, h3⟩ := split_nat h2
    have ⟨e4, h4⟩ := hF h3
    rw [e1, e2, e3, e4, hr.inj h4]
  | studentIdentity =>
    cases t' <;> first | (simp only [kind] at hk; exact absurd hk (by decide)) | skip
    simp only [Call.id, List.append_cancel_left_eq] at h
    have ⟨e1, h1⟩ := split_nat h
    have ⟨e2, h2⟩ := split_nat h1
    rw [e1, e2, nat_inj h2]
  | galaxy =>
    cases t' <;> first | (simp only [kind] at hk; exact absurd hk (by decide)) | skip
    simp only [Call.id, List.append_cancel_left_eq] at h
    have ⟨e1, h1⟩ := hF h
    rw [e1, hr.inj h1]
  | waves =>
    cases t' <;> first | (simp only [kind] at hk; exact absurd hk (by decide)) | skip
    simp only [Call.id, List.append_cancel_left_eq] at h
    have ⟨e1, h1⟩ := split_nat h
    have ⟨e2, h2⟩ := hF h1
    rw [e1, e2, hr.inj h2]

/-- C44 is false for `transform_spiral_task`: the speed is not part of the identifier. -/
theorem spiral_collision (fm : Format F) (t : Call F) (s s' : F) (b b' : Bool) (hs : s ≠ s') :
    Call.spiral t s b ≠ .spiral t s' b' ∧
      (Call.spiral t s b).id fm = (Call.spiral t s' b').id fm :=
  ⟨fun h => hs (by injection h), rfl⟩

/-- C44 is false for `transform_uniformise` and `transform_gaussianise`: the number of quantiles is not part of
the identifier. -/
theorem quantile_collision (fm : Format F) (t : Call F) :
    Call.uniformise t 100 ≠ .uniformise t 10 ∧
      (Call.uniformise t 100).id fm = (Call.uniformise t 10).id fm ∧
    Call.gaussianise t 100 ≠ .gaussianise t 10 ∧
      (Call.gaussianise t 100).id fm = (Call.gaussianise t 10).id fm :=
  ⟨by simp, rfl, by simp, rfl⟩

/-- C44 is false for `transform_power_task` and `task_multinormal_lvm`: parameters that agree to five decimals
give the same identifier. -/
theorem rounding_collision (fm : Format F) (t : Call F) (a a' : F) (dx dy n : ℕ) (l β η : F)
    (hne : a ≠ a') (hround : fm.fix5 a = fm.fix5 a') :
    Call.power t a ≠ .power t a' ∧ (Call.power t a).id fm = (Call.power t a').id fm ∧
    (Call.lvm dx dy n a l β η ≠ .lvm dx dy n a' l β η) ∧
      (Call.lvm dx dy n a l β η).id fm = (Call.lvm dx dy n a' l β η).id fm := by
  refine ⟨fun h => hne (by injection h), by simp [Call.id, hround],
    fun h => hne (by injection h), by simp [Call.id, hround]⟩

/-! ### The registry -/

/-- C44: the registered benchmark tasks have pairwise different identifiers (the registry is one concrete
list; this is checked by computation). -/
theorem registry_ids_nodup : (registry.map (Call.id regFormat)).Nodup := by
  decide +kernel

/-- C44: in a registry with pairwise different identifiers every task is found under its identifier, and
nothing else is found. -/
theorem lookup_by_id (fm : Format F) (l : List (Call F)) (hn : (l.map (Call.id fm)).Nodup) :
    benchmarkTasks fm l = l.map fun t => (t.id fm, t) := by
  suffices H : ∀ (l acc : List (Call F)), ((acc ++ l).map (Call.id fm)).Nodup →
      l.foldl (insertTask fm) (acc.map fun t => (t.id fm, t))
        = (acc ++ l).map fun t => (t.id fm, t) from H l [] hn
  intro l
  induction l with
  | nil => intro acc _; simp
  | cons t l ih =>
    intro acc h
    have h' : ((acc ++ [t] ++ l).map (Call.id fm)).Nodup := by simpa using h
    have := ih (acc ++ [t]) h'
    rw [List.foldl_cons]
    have e : insertTask fm (acc.map fun t => (t.id fm, t)) t
        = (acc ++ [t]).map fun t => (t.id fm, t) := by
      unfold insertTask
      rw [if_neg]
      · simp
      · simp only [List.any_map, List.any_eq_true, Function.comp, decide_eq_true_eq, not_exists,
          not_and]
        intro u hu huv
        rw [List.map_append, List.nodup_append] at h
        exact h.2.2 (u.id fm) (List.mem_map_of_mem hu) (t.id fm) (by simp) huv
    rw [e, this]; simp

/-- C44: the public dictionary of the benchmark contains exactly the registered tasks, each under its own id. -/
theorem benchmark_registry :
    benchmarkTasks regFormat registry = (registry.map fun t => (t.id regFormat, t)) ∧
      registry.length = 40 :=
  ⟨lookup_by_id regFormat registry registry_ids_nodup, rfl⟩

/-- Non-vacuity: the renderings of the registry's floats satisfy the assumption on `repr`, and a nested call is
faithful. -/
theorem regFormat_good : GoodRepr regFormat.repr where
  inj := by intro a b; cases a <;> cases b <;> decide
  nodash := by
    intro a b s h
    have hmem : '-' ∈ regFormat.repr a := by rw [h]; simp
    cases a <;> exact absurd hmem (by decide)

example : Faithful (.asinh (.halfCube (.studentDense 2 3 5 RegF.f0_5))) := by
  simp [Faithful]

end BMI.TaskIds
