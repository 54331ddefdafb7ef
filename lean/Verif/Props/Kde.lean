import Verif.Lemmas.Kde

/-! C52: the kernel density estimator of mutual information. -/

namespace BMI.Kde

open BMI.PSpace (Mat)
open BMI.Kde.Spec

/-! ### Construction -/

/-- C52: construction with valid names succeeds; parameters left out are those of the joint space, and the reported
parameters are those used by the three densities. -/
theorem create_spec (kxy : Kernel) (nxy : String) (kx ky : Option (Kernel × String)) (bxy : Bandwidth) (axy : BandwidthArg)
    (bx by_ : Option (Bandwidth × BandwidthArg)) (std : Bool) (hxy : Kernel.ofName nxy = some kxy)
    (hx : ∀ k s, kx = some (k, s) → Kernel.ofName s = some k) (hy : ∀ k s, ky = some (k, s) → Kernel.ofName s = some k)
    (haxy : axy.parse = .ok bxy) (hax : ∀ b a, bx = some (b, a) → a.parse = .ok b)
    (hay : ∀ b a, by_ = some (b, a) → a.parse = .ok b) :
    ∃ e, create nxy (kx.map Prod.snd) (ky.map Prod.snd) axy (bx.map Prod.snd) (by_.map Prod.snd) std = .ok e ∧
      e.parameters = ⟨kxy, (kx.map Prod.fst).getD kxy, (ky.map Prod.fst).getD kxy, bxy, (bx.map Prod.fst).getD bxy,
        (by_.map Prod.fst).getD bxy, std⟩ ∧
      e.kdeX.kernel = e.parameters.kernelX ∧ e.kdeY.kernel = e.parameters.kernelY ∧
      e.kdeXY.kernel = e.parameters.kernelXY ∧ e.kdeX.bandwidth = e.parameters.bandwidthX ∧
      e.kdeY.bandwidth = e.parameters.bandwidthY ∧ e.kdeXY.bandwidth = e.parameters.bandwidthXY ∧
      e.standardize = std := by
  have key : ∀ (k : Option (Kernel × String)), (∀ c s, k = some (c, s) → Kernel.ofName s = some c) →
      parseKernel (orElse (k.map Prod.snd) nxy) = .ok ((k.map Prod.fst).getD kxy) := by
    intro k hk
    match k, hk with
    | none, _ => simp [orElse, parseKernel, hxy]
    | some (c, s), hk =>
      have h := hk c s rfl
      have hne : s ≠ "" := by
        rintro rfl
        simp [Kernel.ofName] at h
      simp [orElse, parseKernel, hne, h]
  have keyb : ∀ (b : Option (Bandwidth × BandwidthArg)), (∀ c a, b = some (c, a) → a.parse = .ok c) →
      ((b.map Prod.snd).getD axy).parse = .ok ((b.map Prod.fst).getD bxy) := by
    intro b hb
    match b, hb with
    | none, _ => simpa using haxy
    | some (c, a), hb => simpa using hb c a rfl
  have h0 : parseKernel nxy = .ok kxy := by simp [parseKernel, hxy]
  simp only [create, bind, Except.bind, h0, key kx hx, key ky hy, haxy, keyb bx hax, keyb by_ hay]
  exact ⟨_, rfl, rfl, rfl, rfl, rfl, rfl, rfl, rfl, rfl⟩

/-- C52: an unknown kernel name is refused on construction. -/
theorem create_refuses (s : String) (kx ky : Option String) (bxy : BandwidthArg) (bx by_ : Option BandwidthArg)
    (std : Bool) (h : Kernel.ofName s = none) : create s kx ky bxy bx by_ std = .error .validationError := by
  simp [create, parseKernel, h, bind, Except.bind]

/-- C52: construction succeeds exactly if the name of the joint kernel is known, the other two are known, left out or empty,
and no bandwidth is a text other than "scott" and "silverman"; otherwise pydantic raises its `ValidationError`.  An empty
name stands for the kernel of the joint space. -/
theorem create_accepts_iff (nxy : String) (nx ny : Option String) (axy : BandwidthArg) (ax ay : Option BandwidthArg)
    (std : Bool) :
    ((∃ e, create nxy nx ny axy ax ay std = .ok e) ↔
      Known nxy ∧ (∀ s, nx = some s → s = "" ∨ Known s) ∧ (∀ s, ny = some s → s = "" ∨ Known s) ∧
        Rule axy ∧ (∀ a, ax = some a → Rule a) ∧ ∀ a, ay = some a → Rule a) ∧
    ((¬ ∃ e, create nxy nx ny axy ax ay std = .ok e) → create nxy nx ny axy ax ay std = .error .validationError) ∧
    create nxy (some "") (some "") axy ax ay std = create nxy none none axy ax ay std := by
  have hk : ∀ s, (∃ k, parseKernel s = .ok k) ∧ Known s ∨ parseKernel s = .error .validationError ∧ ¬ Known s := by
    intro s
    unfold parseKernel Known
    cases h : Kernel.ofName s with
    | none =>
      refine .inr ⟨rfl, fun hm => ?_⟩
      simp only [List.mem_cons, List.not_mem_nil, or_false] at hm
      rcases hm with rfl | rfl | rfl | rfl | rfl | rfl <;> simp [Kernel.ofName] at h
    | some k =>
      refine .inl ⟨⟨k, rfl⟩, ?_⟩
      by_contra hm
      simp only [List.mem_cons, List.not_mem_nil, or_false, not_or] at hm
      simp [Kernel.ofName, hm] at h
  have hb : ∀ a : BandwidthArg, (∃ k, a.parse = .ok k) ∧ Rule a ∨ a.parse = .error .validationError ∧ ¬ Rule a := by
    intro a
    cases a with
    | number b => exact .inl ⟨⟨_, rfl⟩, fun s h => by cases h⟩
    | text s =>
      have hp : (BandwidthArg.text s).parse = if s = "scott" then .ok .scott
          else if s = "silverman" then .ok .silverman else .error .validationError := rfl
      rw [hp]
      split_ifs with h1 h2
      · exact .inl ⟨⟨_, rfl⟩, fun t h => by cases h; exact .inl h1⟩
      · exact .inl ⟨⟨_, rfl⟩, fun t h => by cases h; exact .inr h2⟩
      · exact .inr ⟨rfl, fun h => (h s rfl).elim h1 h2⟩
  have ho : ∀ n : Option String, Known nxy → (Known (orElse n nxy) ↔ ∀ s, n = some s → s = "" ∨ Known s) := by
    intro n hn
    cases n with
    | none => simp [orElse, hn]
    | some s =>
      by_cases h : s = ""
      · simp [orElse, h, hn]
      · simp [orElse, h]
  have hr : ∀ a : Option BandwidthArg, Rule axy → (Rule (a.getD axy) ↔ ∀ b, a = some b → Rule b) := by
    intro a ha
    cases a with
    | none => simp [ha]
    | some b => simp
  refine ⟨?_, ?_, rfl⟩
  all_goals
    unfold create
    simp only [bind, Except.bind]
    rcases hk nxy with ⟨⟨k1, e1⟩, g1⟩ | ⟨e1, g1⟩
    · rcases hk (orElse nx nxy) with ⟨⟨k2, e2⟩, g2⟩ | ⟨e2, g2⟩
      · rcases hk (orElse ny nxy) with ⟨⟨k3, e3⟩, g3⟩ | ⟨e3, g3⟩
        · rcases hb axy with ⟨⟨b1, e4⟩, g4⟩ | ⟨e4, g4⟩
          · rcases hb (ax.getD axy) with ⟨⟨b2, e5⟩, g5⟩ | ⟨e5, g5⟩
            · rcases hb (ay.getD axy) with ⟨⟨b3, e6⟩, g6⟩ | ⟨e6, g6⟩
              · simp only [e1, e2, e3, e4, e5, e6, ← ho nx g1, ← ho ny g1, ← hr ax g4, ← hr ay g4, g1, g2, g3, g4, g5, g6]
                simp
              · simp only [e1, e2, e3, e4, e5, e6, ← hr ay g4, g6]
                simp
            · simp only [e1, e2, e3, e4, e5, ← hr ax g4, g5]
              simp
          · simp only [e1, e2, e3, e4, g4]
            simp
        · simp only [e1, e2, e3, ← ho ny g1, g3]
          simp
      · simp only [e1, e2, ← ho nx g1, g2]
        simp
    · simp only [e1, g1]
      simp

/-- The empty name of a marginal kernel is accepted, an unknown one and an unknown rule are not. -/
example : (∃ e, create "tophat" (some "") (some "cosine") (.text "scott") (some (.number 2)) none true = .ok e) ∧
    create "tophat" (some "Tophat") none (.text "scott") none none true = .error .validationError ∧
    create "tophat" none none (.text "Scott") none none true = .error .validationError := by
  refine ⟨(create_accepts_iff _ _ _ _ _ _ _).1.2 ⟨by simp [Known], by simp, by simp [Known], by simp [Rule], by simp [Rule],
    by simp⟩, (create_accepts_iff _ _ _ _ _ _ _).2.1 fun h => ?_, (create_accepts_iff _ _ _ _ _ _ _).2.1 fun h => ?_⟩
  · have := ((create_accepts_iff _ _ _ _ _ _ _).1.1 h).2.1 _ rfl
    simp [Known] at this
  · have := ((create_accepts_iff _ _ _ _ _ _ _).1.1 h).2.2.2.1 _ rfl
    simp at this

/-- Any number is accepted as a bandwidth on construction, also one that no fit accepts. -/
theorem create_accepts_negative : ∃ e, create "tophat" none none (.number (-1)) none none true = .ok e :=
  ⟨_, rfl⟩

/-! ### The estimate -/

/-- C52: the three entropies are minus the average log-densities at the data, each with its own kernel and bandwidth; the
number reported as mutual information is their combination, the average of `log p(x,y) / (p(x) p(y))`.  All four are
finite, for every kernel and every acceptable bandwidth, and do not depend on what the object was fitted to before. -/
theorem estimate_spec (Z : Kernel → ℕ → ℝ) (hZ : ∀ k d, 0 < Z k d) (ε : ℝ) (E : Estimator)
    (hbx : Usable E.kdeX.bandwidth) (hby : Usable E.kdeY.bandwidth) (hbxy : Usable E.kdeXY.bandwidth)
    {n d e : ℕ} (v : Fin n → Fin d → ℝ) (w : Fin n → Fin e → ℝ) (hn : 0 < n) (hd : 0 < d) (he : 0 < e)
    (x : Fin n → Fin d → ℝ) (y : Fin n → Fin e → ℝ)
    (hx : x = if E.standardize then fun i j => PSpace.scaleCol ε (fun i' => v i' j) i else v)
    (hy : y = if E.standardize then fun i j => PSpace.scaleCol ε (fun i' => w i' j) i else w) :
    ∃ hX hY hXY mi : ℝ,
      (estimateEntropies Z ε E ⟨n, d, v⟩ ⟨n, e, w⟩).1 = .ok ⟨hX, hY, hXY, mi⟩ ∧
      (estimateEntropies Z ε E ⟨n, d, v⟩ ⟨n, e, w⟩).2.parameters = E.parameters ∧
      (estimate Z ε E ⟨n, d, v⟩ ⟨n, e, w⟩).1 = .ok (mi : EReal) ∧ mi = hX + hY - hXY ∧
      hX = entropy (shape E.kdeX.kernel) (Z E.kdeX.kernel d) (width n d E.kdeX.bandwidth) x ∧
      hY = entropy (shape E.kdeY.kernel) (Z E.kdeY.kernel e) (width n e E.kdeY.bandwidth) y ∧
      hXY = entropy (shape E.kdeXY.kernel) (Z E.kdeXY.kernel (d + e)) (width n (d + e) E.kdeXY.bandwidth)
        (fun i => Fin.append (x i) (y i)) ∧
      mi = info (shape E.kdeX.kernel) (shape E.kdeY.kernel) (shape E.kdeXY.kernel) (Z E.kdeX.kernel d)
        (Z E.kdeY.kernel e) (Z E.kdeXY.kernel (d + e)) (width n d E.kdeX.bandwidth) (width n e E.kdeY.bandwidth)
        (width n (d + e) E.kdeXY.bandwidth) x y := by
  obtain rfl : x = KSG.stdv ε E.standardize v := hx
  obtain rfl : y = KSG.stdv ε E.standardize w := hy
  set x := KSG.stdv ε E.standardize v with hx
  set y := KSG.stdv ε E.standardize w with hy
  have f1 := fit_ok E.kdeX hbx ⟨n, d, x⟩ hn hd
  have f2 := fit_ok E.kdeY hby ⟨n, e, y⟩ hn he
  have f3 := fit_ok E.kdeXY hbxy ⟨n, d + e, PSpace.xy ⟨n, d, x⟩ ⟨n, e, y⟩ rfl⟩ hn (by simp; omega)
  have hxy : PSpace.xy ⟨n, d, x⟩ ⟨n, e, y⟩ rfl = fun i => Fin.append (x i) (y i) := rfl
  have hE : (estimateEntropies Z ε E ⟨n, d, v⟩ ⟨n, e, w⟩).2.parameters = E.parameters ∧
      (estimateEntropies Z ε E ⟨n, d, v⟩ ⟨n, e, w⟩).1 =
      .ok ⟨((entropy (shape E.kdeX.kernel) (Z E.kdeX.kernel d) (width n d E.kdeX.bandwidth) x : ℝ) : EReal),
        ((entropy (shape E.kdeY.kernel) (Z E.kdeY.kernel e) (width n e E.kdeY.bandwidth) y : ℝ) : EReal),
        ((entropy (shape E.kdeXY.kernel) (Z E.kdeXY.kernel (d + e)) (width n (d + e) E.kdeXY.bandwidth)
          (fun i => Fin.append (x i) (y i)) : ℝ) : EReal),
        ((entropy (shape E.kdeX.kernel) (Z E.kdeX.kernel d) (width n d E.kdeX.bandwidth) x +
          entropy (shape E.kdeY.kernel) (Z E.kdeY.kernel e) (width n e E.kdeY.bandwidth) y -
          entropy (shape E.kdeXY.kernel) (Z E.kdeXY.kernel (d + e)) (width n (d + e) E.kdeXY.bandwidth)
            (fun i => Fin.append (x i) (y i)) : ℝ) : EReal)⟩ := by
    unfold estimateEntropies
    rw [space_eq ε E.standardize v w hn hd he, ← hx, ← hy]
    dsimp only
    rw [dif_pos rfl, f1]
    dsimp only
    rw [f2]
    dsimp only
    rw [f3]
    dsimp only
    refine ⟨rfl, ?_⟩
    unfold combine
    simp only [entropy_ok Z hZ _ _ _ (width_pos hbx hn d) x, entropy_ok Z hZ _ _ _ (width_pos hby hn e) y, hxy,
      entropy_ok Z hZ _ _ _ (width_pos hbxy hn (d + e)) (fun i => Fin.append (x i) (y i)), bind, Except.bind]
    rw [EReal.coe_sub, EReal.coe_add]
  refine ⟨_, _, _, _, hE.2, hE.1, ?_, rfl, rfl, rfl, rfl, ?_⟩
  · unfold estimate
    simp only [hE.2, Except.map]
  · exact info_eq _ _ _ (hZ _ _) (hZ _ _) (hZ _ _) (width_pos hbx hn d) (width_pos hby hn e) (width_pos hbxy hn _) x y

/-- C52: different numbers of points, an empty array, or a bandwidth that is not positive give a `ValueError`. -/
theorem estimate_refuses (Z : Kernel → ℕ → ℝ) (ε : ℝ) (E : Estimator) (x y : Mat)
    (h : x.n ≠ y.n ∨ x.n = 0 ∨ x.d = 0 ∨ y.d = 0 ∨ ¬ Usable E.kdeX.bandwidth ∨ ¬ Usable E.kdeY.bandwidth ∨
      ¬ Usable E.kdeXY.bandwidth) : (estimate Z ε E x y).1 = .error .valueError := by
  suffices hs : (estimateEntropies Z ε E x y).1 = .error .valueError by
    unfold estimate
    simp only [hs, Except.map]
  obtain ⟨n, d, v⟩ := x
  obtain ⟨m, e, w⟩ := y
  by_cases hnm : n = m
  · subst hnm
    have hs : KSG.space ε E.standardize ⟨n, d, v⟩ ⟨n, e, w⟩ = .error .valueError ∨
        KSG.space ε E.standardize ⟨n, d, v⟩ ⟨n, e, w⟩ =
          .ok (⟨n, d, KSG.stdv ε E.standardize v⟩, ⟨n, e, KSG.stdv ε E.standardize w⟩) := by
      unfold KSG.space KSG.stdv
      cases E.standardize
      · simp
      · by_cases hz : n = 0 ∨ d = 0 ∨ e = 0 <;> simp [hz]
    unfold estimateEntropies
    rcases hs with hs | hs
    · rw [hs]
    · rw [hs]
      dsimp only
      rw [dif_pos rfl]
      by_cases hX : ¬ Usable E.kdeX.bandwidth ∨ n = 0 ∨ d = 0
      · rw [fit_refuses E.kdeX ⟨n, d, _⟩ hX]
      · push Not at hX
        rw [fit_ok E.kdeX hX.1 ⟨n, d, _⟩ (by simp; omega) (by simp; omega)]
        dsimp only
        by_cases hY : ¬ Usable E.kdeY.bandwidth ∨ n = 0 ∨ e = 0
        · rw [fit_refuses E.kdeY ⟨n, e, _⟩ hY]
        · push Not at hY
          rw [fit_ok E.kdeY hY.1 ⟨n, e, _⟩ (by simp; omega) (by simp; omega)]
          dsimp only
          have hXY : ¬ Usable E.kdeXY.bandwidth := by
            rcases h with h | h | h | h | h | h | h
            · exact absurd rfl h
            · exact absurd h hX.2.1
            · exact absurd h hX.2.2
            · exact absurd h hY.2.2
            · exact absurd hX.1 h
            · exact absurd hY.1 h
            · exact h
          rw [fit_refuses E.kdeXY ⟨n, d + e, _⟩ (Or.inl hXY)]
  · unfold estimateEntropies KSG.space
    simp [hnm]

/-! ### Invariances -/

/-- C52: reordering the sample does not change the estimate. -/
theorem estimate_perm (Z : Kernel → ℕ → ℝ) (hZ : ∀ k d, 0 < Z k d) (ε : ℝ) (E : Estimator)
    (hbx : Usable E.kdeX.bandwidth) (hby : Usable E.kdeY.bandwidth) (hbxy : Usable E.kdeXY.bandwidth)
    {n d e : ℕ} (v : Fin n → Fin d → ℝ) (w : Fin n → Fin e → ℝ) (hn : 0 < n) (hd : 0 < d) (he : 0 < e)
    (σ : Equiv.Perm (Fin n)) :
    (estimate Z ε E ⟨n, d, fun i => v (σ i)⟩ ⟨n, e, fun i => w (σ i)⟩).1 =
      (estimate Z ε E ⟨n, d, v⟩ ⟨n, e, w⟩).1 := by
  obtain ⟨_, _, _, m1, -, -, e1, -, -, -, -, i1⟩ := estimate_spec Z hZ ε E hbx hby hbxy v w hn hd he _ _ rfl rfl
  obtain ⟨_, _, _, m2, -, -, e2, -, -, -, -, i2⟩ :=
    estimate_spec Z hZ ε E hbx hby hbxy (fun i => v (σ i)) (fun i => w (σ i)) hn hd he _ _ rfl rfl
  rw [e1, e2, i1, i2]
  have hs : ∀ {d : ℕ} (v : Fin n → Fin d → ℝ),
      (if E.standardize then fun i j => PSpace.scaleCol ε (fun i' => v (σ i') j) i else fun i => v (σ i)) =
      fun i => (if E.standardize then fun i j => PSpace.scaleCol ε (fun i' => v i' j) i else v) (σ i) := by
    intro d v
    cases E.standardize
    · rfl
    · funext i j
      exact scaleCol_perm ε (fun i' => v i' j) σ i
  rw [hs v, hs w]
  generalize (if E.standardize then fun i j => PSpace.scaleCol ε (fun i' => v i' j) i else v) = x
  generalize (if E.standardize then fun i j => PSpace.scaleCol ε (fun i' => w i' j) i else w) = y
  congr 2
  unfold info
  simp only [pdf_perm _ _ _ x σ, pdf_perm _ _ _ y σ, pdf_perm _ _ _ (fun i => Fin.append (x i) (y i)) σ]
  exact mean_perm (fun i => Real.log (pdf (shape E.kdeXY.kernel) (Z E.kdeXY.kernel (d + e))
    (width n (d + e) E.kdeXY.bandwidth) (fun i => Fin.append (x i) (y i)) (Fin.append (x i) (y i)) /
    (pdf (shape E.kdeX.kernel) (Z E.kdeX.kernel d) (width n d E.kdeX.bandwidth) x (x i) *
      pdf (shape E.kdeY.kernel) (Z E.kdeY.kernel e) (width n e E.kdeY.bandwidth) y (y i)))) σ

/-- C52: exchanging X and Y together with their parameters does not change the estimate. -/
theorem estimate_swap (Z : Kernel → ℕ → ℝ) (hZ : ∀ k d, 0 < Z k d) (ε : ℝ) (E F : Estimator)
    (hbx : Usable E.kdeX.bandwidth) (hby : Usable E.kdeY.bandwidth) (hbxy : Usable E.kdeXY.bandwidth)
    (h1 : F.kdeX = E.kdeY) (h2 : F.kdeY = E.kdeX) (h3 : F.kdeXY = E.kdeXY) (h4 : F.standardize = E.standardize)
    {n d e : ℕ} (v : Fin n → Fin d → ℝ) (w : Fin n → Fin e → ℝ) (hn : 0 < n) (hd : 0 < d) (he : 0 < e) :
    (estimate Z ε F ⟨n, e, w⟩ ⟨n, d, v⟩).1 = (estimate Z ε E ⟨n, d, v⟩ ⟨n, e, w⟩).1 := by
  obtain ⟨_, _, _, m1, -, -, e1, -, -, -, -, i1⟩ := estimate_spec Z hZ ε E hbx hby hbxy v w hn hd he _ _ rfl rfl
  obtain ⟨_, _, _, m2, -, -, e2, -, -, -, -, i2⟩ :=
    estimate_spec Z hZ ε F (h1 ▸ hby) (h2 ▸ hbx) (h3 ▸ hbxy) w v hn he hd _ _ rfl rfl
  rw [e1, e2, i1, i2, h1, h2, h3, h4, add_comm e d]
  congr 2
  unfold info
  simp only [pdf_swap]
  congr 1
  funext i
  rw [mul_comm]

/-- C52: without standardisation, shifting X and shifting Y does not change the estimate. -/
theorem estimate_shift (Z : Kernel → ℕ → ℝ) (hZ : ∀ k d, 0 < Z k d) (ε : ℝ) (E : Estimator)
    (hbx : Usable E.kdeX.bandwidth) (hby : Usable E.kdeY.bandwidth) (hbxy : Usable E.kdeXY.bandwidth)
    (hstd : E.standardize = false) {n d e : ℕ} (v : Fin n → Fin d → ℝ) (w : Fin n → Fin e → ℝ) (hn : 0 < n) (hd : 0 < d)
    (he : 0 < e) (a : Fin d → ℝ) (b : Fin e → ℝ) :
    (estimate Z ε E ⟨n, d, fun i => v i + a⟩ ⟨n, e, fun i => w i + b⟩).1 = (estimate Z ε E ⟨n, d, v⟩ ⟨n, e, w⟩).1 := by
  obtain ⟨_, _, _, m1, -, -, e1, -, -, -, -, i1⟩ := estimate_spec Z hZ ε E hbx hby hbxy v w hn hd he _ _ rfl rfl
  obtain ⟨_, _, _, m2, -, -, e2, -, -, -, -, i2⟩ :=
    estimate_spec Z hZ ε E hbx hby hbxy (fun i => v i + a) (fun i => w i + b) hn hd he _ _ rfl rfl
  rw [e1, e2, i1, i2, hstd]
  simp only [Bool.false_eq_true, if_false]
  congr 2
  unfold info pdf
  simp only [dist_append, WithLp.toLp_add, dist_add_right]

/-- C52: with standardisation (and an ideal test for constant columns), rescaling and shifting every column, with
positive factors, does not change the estimate. -/
theorem estimate_affine (Z : Kernel → ℕ → ℝ) (hZ : ∀ k d, 0 < Z k d) (E : Estimator)
    (hbx : Usable E.kdeX.bandwidth) (hby : Usable E.kdeY.bandwidth) (hbxy : Usable E.kdeXY.bandwidth)
    (hstd : E.standardize = true) {n d e : ℕ} (v : Fin n → Fin d → ℝ) (w : Fin n → Fin e → ℝ) (hn : 0 < n) (hd : 0 < d)
    (he : 0 < e) (a s : Fin d → ℝ) (b t : Fin e → ℝ) (hs : ∀ j, 0 < s j) (ht : ∀ j, 0 < t j) :
    (estimate Z 0 E ⟨n, d, fun i j => s j * v i j + a j⟩ ⟨n, e, fun i j => t j * w i j + b j⟩).1 =
      (estimate Z 0 E ⟨n, d, v⟩ ⟨n, e, w⟩).1 := by
  obtain ⟨_, _, _, m1, -, -, e1, -, -, -, -, i1⟩ := estimate_spec Z hZ 0 E hbx hby hbxy v w hn hd he _ _ rfl rfl
  obtain ⟨_, _, _, m2, -, -, e2, -, -, -, -, i2⟩ :=
    estimate_spec Z hZ 0 E hbx hby hbxy (fun i j => s j * v i j + a j) (fun i j => t j * w i j + b j) hn hd he _ _ rfl rfl
  rw [e1, e2, i1, i2, hstd]
  simp only [if_true]
  have h1 : (fun (i : Fin n) (j : Fin d) => PSpace.scaleCol 0 (fun i' => s j * v i' j + a j) i) =
      fun i j => PSpace.scaleCol 0 (fun i' => v i' j) i := by
    funext i j
    exact PSpace.scaled_affine_invariant (s j) (a j) (hs j) (fun i' => v i' j) i
  have h2 : (fun (i : Fin n) (j : Fin e) => PSpace.scaleCol 0 (fun i' => t j * w i' j + b j) i) =
      fun i j => PSpace.scaleCol 0 (fun i' => w i' j) i := by
    funext i j
    exact PSpace.scaled_affine_invariant (t j) (b j) (ht j) (fun i' => w i' j) i
  rw [h1, h2]

/-- C52: what a kernel estimate can be at most and at least: entropies lie in an interval of length `log n`. -/
theorem entropy_bounds {n d : ℕ} (k : Kernel) {z h : ℝ} (hz : 0 < z) (hh : 0 < h) (hn : 0 < n)
    (data : Fin n → Fin d → ℝ) : Real.log (z * h ^ d) ≤ entropy (shape k) z h data ∧
      entropy (shape k) z h data ≤ Real.log (z * h ^ d) + Real.log n := by
  have hn' : (0 : ℝ) < n := by exact_mod_cast hn
  have hzh : 0 < z * h ^ d := by positivity
  have hb : ∀ i, -(Real.log (z * h ^ d) + Real.log n) ≤ Real.log (pdf (shape k) z h data (data i)) ∧
      Real.log (pdf (shape k) z h data (data i)) ≤ -Real.log (z * h ^ d) := by
    intro i
    obtain ⟨h1, h2⟩ := pdf_bounds k hz hh data i
    constructor
    · have := Real.log_le_log (by positivity) h1
      rw [one_div, Real.log_inv, Real.log_mul hn'.ne' hzh.ne', add_comm] at this
      exact this
    · have := Real.log_le_log (pdf_pos k hz hh data i) h2
      rwa [one_div, Real.log_inv] at this
  unfold entropy mean
  constructor
  · have := Finset.sum_le_sum fun i (_ : i ∈ Finset.univ) => (hb i).2
    rw [Finset.sum_const, Finset.card_univ, Fintype.card_fin, nsmul_eq_mul] at this
    have := div_le_div_of_nonneg_right this hn'.le
    rw [mul_div_cancel_left₀ _ hn'.ne'] at this
    linarith
  · have := Finset.sum_le_sum fun i (_ : i ∈ Finset.univ) => (hb i).1
    rw [Finset.sum_const, Finset.card_univ, Fintype.card_fin, nsmul_eq_mul] at this
    have := div_le_div_of_nonneg_right this hn'.le
    rw [mul_div_cancel_left₀ _ hn'.ne'] at this
    linarith

/-- The hypotheses of the theorems above are met by the estimator with default arguments. -/
example : ∃ E, create "tophat" none none (.text "scott") none none true = .ok E ∧ Usable E.kdeX.bandwidth ∧
    Usable E.kdeY.bandwidth ∧ Usable E.kdeXY.bandwidth ∧ E.kdeX.kernel = .tophat ∧ E.standardize = true := by
  obtain ⟨E, h1, h2, h3, -, -, h4, h5, h6, h7⟩ := create_spec .tophat "tophat" none none .scott (.text "scott") none none
    true (by decide) (by simp) (by simp) rfl (by simp) (by simp)
  refine ⟨E, h1, ?_, ?_, ?_, ?_, h7⟩
  · rw [h4, h2]; intro r h; simp at h
  · rw [h5, h2]; intro r h; simp at h
  · rw [h6, h2]; intro r h; simp at h
  · rw [h3, h2]; rfl

/-- Two different points with narrow kernels: each density sees only its own point and the estimate is one bit, up to
normalisation. -/
example : ∃ E, create "tophat" none none (.number 1) none none false = .ok E ∧
    (estimate (fun _ _ => 1) 0 E ⟨2, 1, ![![0], ![5]]⟩ ⟨2, 1, ![![0], ![5]]⟩).1 = .ok ((Real.log 2 : ℝ) : EReal) := by
  refine ⟨_, rfl, ?_⟩
  obtain ⟨_, _, _, mi, -, -, h, -, -, -, -, hi⟩ := estimate_spec (fun _ _ => 1) (fun _ _ => one_pos) 0
    ⟨⟨.number 1, .tophat, none⟩, ⟨.number 1, .tophat, none⟩, ⟨.number 1, .tophat, none⟩,
      ⟨.tophat, .tophat, .tophat, .number 1, .number 1, .number 1, false⟩, false⟩
    (by rintro r ⟨⟩; exact one_pos) (by rintro r ⟨⟩; exact one_pos) (by rintro r ⟨⟩; exact one_pos)
    (![![0], ![5]] : Fin 2 → Fin 1 → ℝ) (![![0], ![5]] : Fin 2 → Fin 1 → ℝ) (by norm_num) (by norm_num) (by norm_num)
    _ _ rfl rfl
  refine h.trans ?_
  rw [hi]
  congr 2
  simp only [info, mean, pdf, dist_append, Fin.sum_univ_two, width, shape]
  norm_num [EuclideanSpace.dist_eq, Real.dist_eq, Set.indicator]
  rw [if_neg (not_lt.2 (Real.one_le_sqrt.2 (by norm_num))), if_neg (not_lt.2 (Real.one_le_sqrt.2 (by norm_num)))]
  norm_num

end BMI.Kde
