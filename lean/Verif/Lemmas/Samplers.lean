import Verif.Spec.Samplers
import Verif.Lemmas.MutualInfo
import Mathlib.MeasureTheory.Constructions.BorelSpace.Real
import Mathlib.Data.Fin.Tuple.Basic
import Mathlib.Data.List.OfFn

/-! Lemmas about arrays, transforms and concatenations. -/

namespace BMI.Samplers

open MeasureTheory

variable {Key : Type}

theorem length_rowsOf {n d : ℕ} (a : Fin n → Fin d → ℝ) : (rowsOf a).length = n := by simp [rowsOf]

theorem length_of_mem_rowsOf {n d : ℕ} (a : Fin n → Fin d → ℝ) : ∀ r ∈ rowsOf a, r.length = d := by
  intro r hr
  simp only [rowsOf, List.mem_ofFn] at hr
  obtain ⟨i, rfl⟩ := hr
  simp

theorem exists_ofFn (d : ℕ) (r : List ℝ) (h : r.length = d) : ∃ v : Fin d → ℝ, r = List.ofFn v := by
  subst h
  exact ⟨r.get, (List.ofFn_get r).symm⟩

theorem exists_rowsOf (n d : ℕ) (x : Arr) (h : x.length = n) (hr : ∀ r ∈ x, r.length = d) :
    ∃ a : Fin n → Fin d → ℝ, x = rowsOf a := by
  subst h
  have := fun i : Fin x.length => exists_ofFn d (x.get i) (hr _ (List.get_mem _ _))
  choose a ha using this
  refine ⟨a, ?_⟩
  unfold rowsOf
  rw [show (fun i => List.ofFn (a i)) = x.get from funext fun i => (ha i).symm, List.ofFn_get]

theorem rowsOf_map {n d e : ℕ} (a : Fin n → Fin d → ℝ) (g : List ℝ → List ℝ) (f : (Fin d → ℝ) → (Fin e → ℝ))
    (h : ∀ v, g (List.ofFn v) = List.ofFn (f v)) : (rowsOf a).map g = rowsOf fun i => f (a i) := by
  unfold rowsOf
  rw [List.map_ofFn]
  congr 1
  funext i
  exact h (a i)

theorem zipWith_ofFn {α β γ : Type*} {n : ℕ} (f : α → β → γ) (a : Fin n → α) (b : Fin n → β) :
    List.zipWith f (List.ofFn a) (List.ofFn b) = List.ofFn fun i => f (a i) (b i) := by
  apply List.ext_getElem
  · simp
  · intro i h1 h2
    simp

theorem zip_ofFn {α β : Type*} {n : ℕ} (a : Fin n → α) (b : Fin n → β) :
    List.zip (List.ofFn a) (List.ofFn b) = List.ofFn fun i => (a i, b i) := zipWith_ofFn _ a b

theorem hcat_rowsOf {n d e : ℕ} (a : Fin n → Fin d → ℝ) (b : Fin n → Fin e → ℝ) :
    hcat (rowsOf a) (rowsOf b) = rowsOf fun i => Fin.append (a i) (b i) := by
  unfold hcat rowsOf
  rw [zipWith_ofFn]
  congr 1
  funext i
  rw [List.ofFn_fin_append]

theorem length_hcat (a b : Arr) : (hcat a b).length = min a.length b.length := by simp [hcat]

/-- Arrays with `n` rows side by side, starting from `n` empty rows. -/
def hstackN (n : ℕ) (xs : List Arr) : Arr := xs.foldr hcat (List.replicate n [])

theorem length_hstackN (n : ℕ) (xs : List Arr) (h : ∀ a ∈ xs, a.length = n) : (hstackN n xs).length = n := by
  induction xs with
  | nil => simp [hstackN]
  | cons a xs ih =>
    have h1 := ih fun b hb => h b (List.mem_cons_of_mem _ hb)
    have h2 := h a List.mem_cons_self
    show (hcat a (hstackN n xs)).length = n
    rw [length_hcat, h1, h2, min_self]

theorem hcat_replicate_nil (a : Arr) : hcat a (List.replicate a.length []) = a := by
  unfold hcat
  induction a with
  | nil => rfl
  | cons r a ih => simp [List.replicate_succ, ih]

theorem hstack_eq (n : ℕ) (xs : List Arr) (hne : xs ≠ []) (h : ∀ a ∈ xs, a.length = n) :
    hstack xs = .ok (hstackN n xs) := by
  induction xs with
  | nil => exact absurd rfl hne
  | cons a xs ih =>
    have ha := h a List.mem_cons_self
    cases xs with
    | nil =>
      simp only [hstack, hstackN, List.foldr]
      rw [← ha, hcat_replicate_nil]
    | cons b rest =>
      have hr : ∀ c ∈ b :: rest, c.length = n := fun c hc => h c (List.mem_cons_of_mem _ hc)
      have h1 := ih (by simp) hr
      simp only [hstack, h1]
      show (if a.length = (hstackN n (b :: rest)).length then _ else _) = _
      rw [if_pos (by rw [ha, length_hstackN n _ hr])]
      rfl

theorem sumDims_ok (ds : List (Except Err ℕ)) (es : List ℕ) (h : List.Forall₂ (fun d e => d = .ok e) ds es) :
    sumDims ds = .ok es.sum := by
  induction h with
  | nil => rfl
  | cons h _ ih =>
    subst h
    simp only [sumDims, ih]
    rfl

/-! ### Measurability of the joins -/

theorem measurable_append {d e : ℕ} :
    Measurable (fun z : (Fin d → ℝ) × (Fin e → ℝ) => Fin.append z.1 z.2) := by
  refine measurable_pi_lambda _ fun i => ?_
  refine Fin.addCases (fun i => ?_) (fun i => ?_) i
  · simp only [Fin.append_left]
    exact (measurable_pi_apply i).comp measurable_fst
  · simp only [Fin.append_right]
    exact (measurable_pi_apply i).comp measurable_snd

theorem append_injective {d e : ℕ} :
    Function.Injective (fun z : (Fin d → ℝ) × (Fin e → ℝ) => Fin.append z.1 z.2) := by
  rintro ⟨a, b⟩ ⟨c, f⟩ h
  simp only at h
  refine Prod.ext (funext fun i => ?_) (funext fun i => ?_)
  · have := congrFun h (Fin.castAdd e i)
    simpa using this
  · have := congrFun h (Fin.natAdd d i)
    simpa using this

theorem measurable_joinPair {dx dy ex ey : ℕ} :
    Measurable (joinPair : ((Fin dx → ℝ) × (Fin dy → ℝ)) × ((Fin ex → ℝ) × (Fin ey → ℝ)) → _) := by
  unfold joinPair
  exact (measurable_append.comp (by fun_prop :
      Measurable fun z : ((Fin dx → ℝ) × (Fin dy → ℝ)) × ((Fin ex → ℝ) × (Fin ey → ℝ)) => (z.1.1, z.2.1))).prodMk
    (measurable_append.comp (by fun_prop :
      Measurable fun z : ((Fin dx → ℝ) × (Fin dy → ℝ)) × ((Fin ex → ℝ) × (Fin ey → ℝ)) => (z.1.2, z.2.2)))

theorem mutualInfo_joinPair {dx dy ex ey : ℕ} (P : Measure ((Fin dx → ℝ) × (Fin dy → ℝ)))
    (Q : Measure ((Fin ex → ℝ) × (Fin ey → ℝ))) [IsProbabilityMeasure P] [IsProbabilityMeasure Q] :
    mutualInfo ((P.prod Q).map joinPair) = mutualInfo P + mutualInfo Q := by
  rw [← mutualInfo_regroup P Q]
  have hreg : Measurable (regroup : ((Fin dx → ℝ) × (Fin dy → ℝ)) × ((Fin ex → ℝ) × (Fin ey → ℝ)) → _) := by
    unfold regroup; fun_prop
  have : IsProbabilityMeasure ((P.prod Q).map regroup) := Measure.isProbabilityMeasure_map hreg.aemeasurable
  have e : (P.prod Q).map joinPair = ((P.prod Q).map regroup).map
      (Prod.map (fun z : (Fin dx → ℝ) × (Fin ex → ℝ) => Fin.append z.1 z.2)
        (fun z : (Fin dy → ℝ) × (Fin ey → ℝ) => Fin.append z.1 z.2)) := by
    rw [Measure.map_map (measurable_append.prodMap measurable_append) hreg]
    rfl
  rw [e]
  exact mutualInfo_map_eq_of_injOn _ measurable_append measurable_append MeasurableSet.univ MeasurableSet.univ
    (by simp) (by simp) append_injective.injOn append_injective.injOn

/-- Joining two independent samples row by row. -/
theorem pi_join {n : ℕ} {dx dy ex ey : ℕ} (P : Measure ((Fin dx → ℝ) × (Fin dy → ℝ)))
    (Q : Measure ((Fin ex → ℝ) × (Fin ey → ℝ))) [IsProbabilityMeasure P] [IsProbabilityMeasure Q] :
    ((Measure.pi fun _ : Fin n => P).prod (Measure.pi fun _ : Fin n => Q)).map
        (fun z i => joinPair (z.1 i, z.2 i))
      = Measure.pi fun _ : Fin n => (P.prod Q).map joinPair := by
  have h1 := (measurePreserving_arrowProdEquivProdArrow
    ((Fin dx → ℝ) × (Fin dy → ℝ)) ((Fin ex → ℝ) × (Fin ey → ℝ)) (Fin n) (fun _ => P) (fun _ => Q)).symm
  have hp : IsProbabilityMeasure ((P.prod Q).map joinPair) :=
    Measure.isProbabilityMeasure_map measurable_joinPair.aemeasurable
  have h2 := Measure.pi_map_pi (μ := fun _ : Fin n => P.prod Q) (f := fun _ => joinPair)
    (fun _ => measurable_joinPair.aemeasurable)
  rw [← h2, ← h1.map_eq, Measure.map_map _ h1.measurable]
  · rfl
  · exact measurable_pi_lambda _ fun i => measurable_joinPair.comp (measurable_pi_apply i)

end BMI.Samplers
