import Verif.Lemmas.Mine
import Verif.Props.Training

/-! The training loop with its calls written out is the loop of `BMI.Training` when no call raises. -/

namespace BMI.Mine

open BMI.NeuralData BMI.Training BMI.Training.Spec

variable {Key S : Type}

/-- The calls of the loop as the environment of `BMI.Training.loop`; the state remembers the last key, which the
test objective may use. -/
def envOf (st : S → Key → S × Fl ℝ) (te : S → Key → Fl ℝ) : Env ℝ (S × Option Key) Key where
  step s k := (((st s.1 k).1, some k), (st s.1 k).2)
  testMI s := match s.2 with
    | none => .nan
    | some k => te s.1 k

theorem trainLoop_eq_loop {step : S → Key → Except Err (S × Fl ℝ)} {test : S → Key → Except Err (Fl ℝ)}
    {st : S → Key → S × Fl ℝ} {te : S → Key → Fl ℝ} (h1 : ∀ s k, step s k = .ok (st s k))
    (h2 : ∀ s k, test s k = .ok (te s k)) (t : ℤ) (keys : List Key) (n : ℕ) (s : S) (o : Option Key) (l : Log ℝ) :
    trainLoop step test t keys n s l = (loop (envOf st te) t keys n (s, o) l).map fun p => (p.1, p.2.1) := by
  induction keys generalizing n s o l with
  | nil => rfl
  | cons k ks ih =>
    rw [trainLoop, loop, h1]
    simp only [envOf, bind, Except.bind]
    split_ifs with ha hb hc hd
    · rfl
    · rw [h2]
      simp [Except.map, hc]
    · rw [h2]
      simp only [hc, if_false, Bool.false_eq_true]
      exact ih _ _ _ _
    · rfl
    · exact ih _ _ _ _

/-- The critic of `envOf` along the keys. -/
theorem traj_envOf (st : S → Key → S × Fl ℝ) (te : S → Key → Fl ℝ) (s : S) (o : Option Key) (keys : List Key) (m : ℕ) :
    (traj (envOf st te) (s, o) keys m).1 = (keys.take m).foldl (fun s k => (st s k).1) s := by
  unfold traj
  generalize keys.take m = l
  induction l generalizing s o with
  | nil => rfl
  | cons k l ih => exact ih _ _

/-- The log describes its test history, and the run is that of `training_spec`. -/
theorem basicTraining_inv {α S Key : Type} [LinearOrder α] (env : Env α S Key) (es : Bool) (t : Int) (ht : t ≠ 0)
    (keys : List Key) (critic : S) :
    ∃ m l, basicTraining env es t keys critic = .ok (l, traj env critic keys m) ∧ m ≤ keys.length ∧
      l.nTrainingSteps = m ∧ l.testHist = testLog env critic keys t m ∧ LogInv l ∧
      (m < keys.length → es = true ∧ StopRule (l.testHist.map Prod.snd)) := by
  have h := loop_spec env es t ht critic [] keys { earlyStopping := es } (logInv_init es) rfl
    (by simp [trainVals]) (by simp [testLog]) (by
      intro m' hm'
      have : m' = 0 := by simpa using hm'
      subst this
      simp [testLog, StopRule])
  obtain ⟨m, l, h1, h2, h3, h4, h5, h6, h7, h8, h9⟩ := h
  simp only [List.nil_append] at h1 h3 h6 h7 h8 h9
  have h1' : basicTraining env es t keys critic = .ok (l, traj env critic keys m) := h1
  refine ⟨m, l, h1', h3, ?_, h7, h4, fun hm => ⟨(h8 hm).1, by rw [h7]; exact (h8 hm).2.2⟩⟩
  obtain ⟨l', s, e1, e2, -⟩ := training_reports_steps env es t ht keys critic
  rw [h1'] at e1
  have e3 : l = l' := (Prod.mk.inj (Except.ok.inj e1)).1
  subst e3
  rw [e2, h6]
  have hlen : ∀ (s : S) (ks : List Key), (trainVals env s ks).length = ks.length := by
    intro s ks
    induction ks generalizing s with
    | nil => rfl
    | cons k ks ih => simp [trainVals, ih]
  rw [List.length_zip, hlen, List.length_range', List.length_take]
  omega

/-- What `final_mi` is, in terms of the test history. -/
theorem finalMI_of_inv {α : Type} [LinearOrder α] {l : Log α} (h : LogInv l) :
    (l.testHist = [] → l.finalMI = .nan) ∧
      ∀ a rest, l.testHist.map Prod.snd = .num a :: rest →
        ∃ m, l.finalMI = .num m ∧ IsGreatest {v | Fl.num v ∈ l.testHist.map Prod.snd} m := by
  unfold LogInv at h
  refine ⟨fun h0 => ?_, fun a rest h0 => ?_⟩
  · rw [h0] at h
    rcases h with ⟨-, hb, -⟩ | ⟨j, v, hj, -⟩
    · simp [Log.finalMI, hb]
    · simp at hj
  · rcases h with ⟨h1, -⟩ | ⟨j, v, hj, hb, -, -, hw⟩
    · rw [h1] at h0; simp at h0
    · rcases hw with ⟨m, rfl, hm⟩ | ⟨rfl, rfl⟩
      · refine ⟨m, by simp [Log.finalMI, hb], ?_, ?_⟩
        · exact List.mem_of_getElem? hj
        · intro b hb'
          obtain ⟨i, hi⟩ := List.getElem?_of_mem hb'
          exact hm i b hi
      · rw [h0] at hj; simp at hj

theorem finalMI_mem_of_inv {α : Type} [LinearOrder α] {l : Log α} (h : LogInv l) {v : α} (hv : l.finalMI = .num v) :
    Fl.num v ∈ l.testHist.map Prod.snd := by
  unfold LogInv at h
  rcases h with ⟨-, hb, -⟩ | ⟨j, w, hj, hb, -⟩
  · simp [Log.finalMI, hb] at hv
  · simp only [Log.finalMI, hb] at hv
    rw [← hv]
    exact List.mem_of_getElem? hj

/-- The loop with calls that do not raise: the run, its tests and its reported value. -/
theorem trainLoop_spec {step : S → Key → Except Err (S × Fl ℝ)} {test : S → Key → Except Err (Fl ℝ)}
    {st : S → Key → S × Fl ℝ} {te : S → Key → Fl ℝ} (h1 : ∀ s k, step s k = .ok (st s k))
    (h2 : ∀ s k, test s k = .ok (te s k)) (t : ℤ) (ht : t ≠ 0) (keys : List Key) (s : S) (es : Bool) :
    ∃ m l, trainLoop step test t keys 1 s { earlyStopping := es } =
        .ok (l, (keys.take m).foldl (fun s k => (st s k).1) s) ∧ m ≤ keys.length ∧ l.nTrainingSteps = m ∧
      l.testHist = ((List.range' 1 m).filter fun (i : ℕ) => decide (t ∣ (i : ℤ))).map (fun i =>
        (i, (keys[i - 1]?).elim .nan (te ((keys.take i).foldl (fun s k => (st s k).1) s)))) ∧ LogInv l ∧
      (m < keys.length → es = true ∧ StopRule (l.testHist.map Prod.snd)) := by
  obtain ⟨m, l, e1, e2, e3, e4, e5, e6⟩ := basicTraining_inv (envOf st te) es t ht keys (s, none)
  refine ⟨m, l, ?_, e2, e3, ?_, e5, e6⟩
  · rw [trainLoop_eq_loop h1 h2 t keys 1 s none]
    unfold basicTraining at e1
    rw [e1, ← traj_envOf st te s none keys m]
    rfl
  · rw [e4, testLog]
    refine List.map_congr_left fun i hi => ?_
    have hi' := (List.mem_range'.1 (List.mem_of_mem_filter hi))
    obtain ⟨j, hj, rfl⟩ := hi'
    have hjk : j < keys.length := by omega
    congr 1
    rw [← traj_envOf st te s none keys (1 + 1 * j)]
    have hlast : (traj (envOf st te) (s, none) keys (1 + 1 * j)).2 = some keys[j] := by
      unfold traj
      rw [show 1 + 1 * j = j + 1 by omega, List.take_succ_eq_append_getElem hjk, List.foldl_append]
      rfl
    have : (1 + 1 * j) - 1 = j := by omega
    rw [this, List.getElem?_eq_getElem hjk]
    simp only [envOf, Option.elim_some] at hlast ⊢
    rw [hlast]

end BMI.Mine
