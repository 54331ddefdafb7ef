import Verif.Model.Task
import Verif.Props.SampleIO

/-!
# C43 – a task advertises its sampler
-/

namespace BMI.Task

open BMI.Training (Fl)

variable {α F P : Type} [LinearOrder α] [Zero α]

/-- C43: for a sampler whose dimensions are defined and whose mutual information is a non-negative number,
everything is accessible and is what was given / what the sampler reports. -/
theorem task_advertises (t : Task α F P) (dx dy : ℕ) (a : α) (hx : t.sampler.dimX = .ok dx)
    (hy : t.sampler.dimY = .ok dy) (hm : t.sampler.mi = .ok (.num a)) (ha : 0 ≤ a) :
    t.id = .ok t.taskId ∧ t.name = .ok t.taskName ∧ t.dimX = t.sampler.dimX ∧
      t.dimY = t.sampler.dimY ∧ t.mi = t.sampler.mi ∧ t.getParams = .ok (t.params.getD []) := by
  have : t.metadata = .ok ⟨t.taskId, t.taskName, dx, dy, .num a, t.params.getD []⟩ := by
    simp [Task.metadata, hx, hy, hm, bind, Except.bind, nonNegativeFloat, ha]
  simp [Task.id, Task.name, Task.dimX, Task.dimY, Task.mi, Task.getParams, this, Except.map, hx, hy,
    hm]

/-- C43: the identifier – and every other field – can be read *only* in that case: with a negative or NaN
mutual information even `Task.id` raises. -/
theorem id_ok_iff (t : Task α F P) :
    t.id = .ok t.taskId ↔ (∃ dx, t.sampler.dimX = .ok dx) ∧ (∃ dy, t.sampler.dimY = .ok dy) ∧
      ∃ a, t.sampler.mi = .ok (.num a) ∧ 0 ≤ a := by
  constructor
  · intro h
    unfold Task.id Task.metadata at h
    cases hx : t.sampler.dimX with
    | error e => simp [hx, bind, Except.bind, Except.map] at h
    | ok dx =>
      cases hy : t.sampler.dimY with
      | error e => simp [hx, hy, bind, Except.bind, Except.map] at h
      | ok dy =>
        cases hm : t.sampler.mi with
        | error e => simp [hx, hy, hm, bind, Except.bind, Except.map] at h
        | ok m =>
          cases m with
          | nan => simp [hx, hy, hm, bind, Except.bind, Except.map, nonNegativeFloat] at h
          | num a =>
            refine ⟨⟨dx, rfl⟩, ⟨dy, rfl⟩, a, rfl, ?_⟩
            by_contra hneg
            simp [hx, hy, hm, bind, Except.bind, Except.map, nonNegativeFloat, hneg] at h
  · rintro ⟨⟨dx, hx⟩, ⟨dy, hy⟩, a, hm, ha⟩
    exact (task_advertises t dx dy a hx hy hm ha).1

/-- C43: sampling never looks at the metadata: it is the sampler's sample even when the mutual information is
negative, NaN or raises and so nothing else can be read from the task. -/
theorem sample_delegates (t : Task α F P) (m : Except Err (Fl α)) (n : ℕ) (seed : ℤ) :
    ({ t with sampler := { t.sampler with mi := m } } : Task α F P).sample n seed
      = t.sampler.sample n seed := rfl

/-- C43 + C40: a saved sample read back is the sampler's sample. -/
theorem save_sample_roundtrip (t : Task α F P) (k : ℕ) (seed : ℤ) (n dx dy : ℕ)
    (x : Fin n → Fin dx → F) (y : Fin n → Fin dy → F) (hd : 0 < dx + dy)
    (hs : t.sampler.sample k seed = .ok (.mat n dx x, .mat n dy y)) :
    ∃ f, t.saveSample k seed = .ok f ∧ SampleIO.readSample (fun v => v) f = .ok
      ((dx, List.ofFn fun i => List.ofFn (x i)), (dy, List.ofFn fun i => List.ofFn (y i))) := by
  obtain ⟨f, h1, h2⟩ := SampleIO.read_save_exact (fun v => v) n dx dy x y hd (fun _ _ => rfl)
    (fun _ _ => rfl)
  exact ⟨f, by simp [Task.saveSample, Task.sample, hs, bind, Except.bind, h1], h2⟩

/-- Non-vacuity: one sampler with defined fields, and one reporting `-1`, whose task has no identifier. -/
example :
    let s (m : ℤ) : Sampler ℤ ℤ := ⟨.ok 2, .ok 1, .ok (.num m), fun n _ =>
      .ok (.mat n 2 fun _ _ => 0, .mat n 1 fun _ _ => 0)⟩
    (⟨s 1, "a", "b", none⟩ : Task ℤ ℤ ℕ).id = .ok "a" ∧
    (⟨s (-1), "a", "b", none⟩ : Task ℤ ℤ ℕ).id = .error .validationError := by
  constructor <;> rfl

end BMI.Task
