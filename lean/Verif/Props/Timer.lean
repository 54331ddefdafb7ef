import Verif.Model.Timer
import Mathlib.Tactic.Linarith
import Mathlib.Algebra.BigOperators.Group.List.Basic

/-!
# C46 – the timer
-/

namespace BMI.Timer

/-- Specification: how many clock readings a history makes. -/
def readings : List Op → ℕ
  | [] => 0
  | .reset :: os => 1 + readings os
  | .check :: os => 1 + readings os
  | .checkAndReset :: os => 2 + readings os

/-- Specification: the number of the clock reading at which the timer was last reset, when `n` readings
were made before the history and the last of the resets before it was reading `r`. -/
def lastReset (n r : ℕ) : List Op → ℕ
  | [] => r
  | .reset :: os => lastReset (n + 1) n os
  | .check :: os => lastReset (n + 1) r os
  | .checkAndReset :: os => lastReset (n + 2) (n + 1) os

theorem run_state (clock : ℕ → ℝ) (os : List Op) (n r : ℕ) :
    (run clock ⟨clock r, n⟩ os).2 = ⟨clock (lastReset n r os), n + readings os⟩ := by
  induction os generalizing n r with
  | nil => rfl
  | cons o os ih =>
    cases o with
    | reset => simp [run, step, reset, readings, lastReset, ih]; omega
    | check => simp [run, step, check, readings, lastReset, ih]; omega
    | checkAndReset => simp [run, step, check, checkAndReset, reset, readings, lastReset, ih]; omega

theorem lastReset_lt (os : List Op) (n r : ℕ) (h : r < n) :
    lastReset n r os < n + readings os := by
  induction os generalizing n r with
  | nil => simpa [lastReset, readings] using h
  | cons o os ih =>
    cases o with
    | reset => have := ih (n + 1) n (by omega); simp only [lastReset, readings]; omega
    | check => have := ih (n + 1) r (by omega); simp only [lastReset, readings]; omega
    | checkAndReset =>
      have := ih (n + 2) (n + 1) (by omega); simp only [lastReset, readings]; omega

/-- The last reset is one of: the reading of the constructor, or the (last) reading made by the latest
`reset`/`check_and_reset`; afterwards only `check`s happen. -/
theorem lastReset_is_last (os : List Op) (n r k : ℕ) (o : Op) (ho : o ≠ .check) :
    lastReset n r (os ++ o :: List.replicate k .check) = n + readings (os ++ [o]) - 1 := by
  have hc : ∀ k n r, lastReset n r (List.replicate k .check) = r := by
    intro k
    induction k with
    | zero => intro n r; rfl
    | succ k ih => intro n r; simp [List.replicate_succ, lastReset, ih]
  induction os generalizing n r with
  | nil => cases o <;> simp_all [lastReset, readings]
  | cons o' os ih =>
    cases o' <;> simp only [List.cons_append, lastReset, ih, readings] <;> omega

/-- C46: after any history, `check` and `check_and_reset` return the clock difference since the reading
made by the last reset. -/
theorem check_elapsed (clock : ℕ → ℝ) (os : List Op) :
    (check clock (run clock (init clock) os).2).1
        = clock (1 + readings os) - clock (lastReset 1 0 os) ∧
    (checkAndReset clock (run clock (init clock) os).2).1
        = clock (1 + readings os) - clock (lastReset 1 0 os) := by
  have h := run_state clock os 1 0
  unfold init
  simp [h, check, checkAndReset]

/-- C46: with a non-decreasing clock no reported time is negative, over any history. -/
theorem reported_nonneg (clock : ℕ → ℝ) (hc : Monotone clock) (os : List Op) :
    ∀ t, some t ∈ (run clock (init clock) os).1 → 0 ≤ t := by
  suffices H : ∀ os n r, r < n → ∀ t, some t ∈ (run clock ⟨clock r, n⟩ os).1 → 0 ≤ t from
    H os 1 0 (by omega)
  clear os
  intro os
  induction os with
  | nil => intro n r _ t ht; simp [run] at ht
  | cons o os ih =>
    intro n r hr t ht
    have hle := hc (le_of_lt hr)
    cases o with
    | reset =>
      simp only [run, step, reset, List.mem_cons, reduceCtorEq, false_or] at ht
      exact ih _ _ (by omega) t ht
    | check =>
      simp only [run, step, check, List.mem_cons, Option.some.injEq] at ht
      rcases ht with rfl | ht
      · linarith
      · exact ih _ _ (by omega) t ht
    | checkAndReset =>
      simp only [run, step, check, checkAndReset, reset, List.mem_cons, Option.some.injEq] at ht
      rcases ht with rfl | ht
      · linarith
      · exact ih (n + 2) (n + 1) (by omega) t ht

/-- C46: the intervals reported by successive `check_and_reset` calls do not overlap: their total never
exceeds the time between the construction of the timer and now. -/
theorem intervals_disjoint (clock : ℕ → ℝ) (hc : Monotone clock) (k : ℕ) :
    ((run clock (init clock) (List.replicate k .checkAndReset)).1.map (·.getD 0)).sum
      ≤ clock (2 * k) - clock 0 := by
  suffices H : ∀ k n r, r < n →
      ((run clock ⟨clock r, n⟩ (List.replicate k .checkAndReset)).1.map (·.getD 0)).sum
        ≤ clock (n + 2 * k - 1) - clock r from by
    have := H k 1 0 (by omega)
    simpa [init, show 1 + 2 * k - 1 = 2 * k by omega] using this
  clear k
  intro k
  induction k with
  | zero =>
    intro n r hr
    have : clock r ≤ clock (n - 1) := hc (by omega)
    simp [run]; linarith
  | succ k ih =>
    intro n r hr
    have h1 := ih (n + 2) (n + 1) (by omega)
    have h2 : clock n ≤ clock (n + 1) := hc (by omega)
    simp only [List.replicate_succ, run, step, checkAndReset, check, reset, List.map_cons,
      List.sum_cons, Option.getD_some]
    have e : n + 2 + 2 * k - 1 = n + 2 * (k + 1) - 1 := by omega
    rw [e] at h1
    linarith

/-- Non-vacuity: a strictly increasing clock. -/
example : Monotone (fun n : ℕ => (n : ℝ)) ∧
    (run (fun n : ℕ => (n : ℝ)) (init fun n : ℕ => (n : ℝ)) [.check, .checkAndReset, .check]).1
      = [some 1, some 2, some 1] := by
  refine ⟨fun a b h => by simpa using h, ?_⟩
  simp [run, step, init, check, checkAndReset, reset]; norm_num

end BMI.Timer
