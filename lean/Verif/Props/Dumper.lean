import Verif.Model.Dumper
import Mathlib.Data.List.Basic
import Mathlib.Tactic.Common

/-!
# C45 – YAML dump of metadata
-/

namespace BMI.Dumper

variable {F : Type}

/-- Plain data: what ordinary YAML dumpers accept. -/
inductive Plain (F : Type) where
  | scalar (s : Scalar F)
  | list (l : List (Plain F))
  | dict (l : List (String × Plain F))

mutual
/-- Specification: the YAML tree of a plain value. -/
def tree : Plain F → Node F
  | .scalar s => .scalar s
  | .list l => .seq (treeList l)
  | .dict l => .map (treeDict l)
def treeList : List (Plain F) → List (Node F)
  | [] => []
  | v :: l => tree v :: treeList l
def treeDict : List (String × Plain F) → List (String × Node F)
  | [] => []
  | (k, v) :: l => (k, tree v) :: treeDict l
end

mutual
/-- `Means v p`: the Python object `v` stands for the plain value `p`: a path for its string, a numpy scalar for
its Python number, an array for the nested list of its entries, an enum member for its value – at every
depth. -/
inductive Means : PyVal F → Plain F → Prop
  | scalar s : Means (.scalar s) (.scalar s)
  | path s : Means (.path s) (.scalar (.str s))
  | npScalar {v p} : Means v p → Means (.npScalar v) p
  | npArray {v p} : Means v p → Means (.npArray v) p
  | enum {v p} : Means v p → Means (.enum v) p
  | list {l l'} : MeansList l l' → Means (.list l) (.list l')
  | dict {l l'} : MeansDict l l' → Means (.dict l) (.dict l')
inductive MeansList : List (PyVal F) → List (Plain F) → Prop
  | nil : MeansList [] []
  | cons {v p l l'} : Means v p → MeansList l l' → MeansList (v :: l) (p :: l')
inductive MeansDict : List (String × PyVal F) → List (String × Plain F) → Prop
  | nil : MeansDict [] []
  | cons {k v p l l'} : Means v p → MeansDict l l' → MeansDict ((k, v) :: l) ((k, p) :: l')
end

/-- Neither a path, nor a numpy object, nor an enum member (its items may be). -/
def ordinary : PyVal F → Prop
  | .scalar _ => True
  | .list _ => True
  | .dict _ => True
  | _ => False

mutual
/-- Well-formed objects: what numpy's `item`/`tolist` return is not again a numpy object, and the value of an
enum member is not itself a path, numpy object or enum member. -/
def WF : PyVal F → Prop
  | .scalar _ => True
  | .path _ => True
  | .list l => WFList l
  | .dict l => WFDict l
  | .npScalar v => ordinary v ∧ WF v
  | .npArray v => ordinary v ∧ WF v
  | .enum v => ordinary v ∧ WF v
  | .other => True
def WFList : List (PyVal F) → Prop
  | [] => True
  | v :: l => WF v ∧ WFList l
def WFDict : List (String × PyVal F) → Prop
  | [] => True
  | (_, v) :: l => WF v ∧ WFDict l
end

theorem superRep_ordinary {v : PyVal F} (h : ordinary v) : superRep v = rep v := by
  cases v <;> simp_all [ordinary, superRep, rep]

mutual
theorem rep_means : ∀ (v : PyVal F) (p : Plain F), WF v → Means v p → rep v = .ok (tree p)
  | .scalar s, p, _, hm => by cases hm; simp [rep, tree]
  | .path s, p, _, hm => by cases hm; simp [rep, tree]
  | .list l, p, hw, hm => by
    cases hm with
    | list h => rw [rep, repList_means l _ (by simpa [WF] using hw) h]; simp [tree, Except.map]
  | .dict l, p, hw, hm => by
    cases hm with
    | dict h => rw [rep, repDict_means l _ (by simpa [WF] using hw) h]; simp [tree, Except.map]
  | .npScalar v, p, hw, hm => by
    cases hm with
    | npScalar h =>
      have hw' : ordinary v ∧ WF v := by simpa [WF] using hw
      rw [rep, superRep_ordinary hw'.1, rep_means v p hw'.2 h]
  | .npArray v, p, hw, hm => by
    cases hm with
    | npArray h =>
      have hw' : ordinary v ∧ WF v := by simpa [WF] using hw
      rw [rep, superRep_ordinary hw'.1, rep_means v p hw'.2 h]
  | .enum v, p, hw, hm => by
    cases hm with
    | enum h =>
      have hw' : ordinary v ∧ WF v := by simpa [WF] using hw
      rw [rep, superRep_ordinary hw'.1, rep_means v p hw'.2 h]
  | .other, p, _, hm => by cases hm
theorem repList_means : ∀ (l : List (PyVal F)) (l' : List (Plain F)), WFList l →
    MeansList l l' → repList l = .ok (treeList l')
  | [], l', _, h => by cases h; simp [repList, treeList]
  | v :: l, l', hw, h => by
    cases h with
    | cons h1 h2 =>
      have hw' : WF v ∧ WFList l := by simpa [WFList] using hw
      rw [repList, rep_means v _ hw'.1 h1, repList_means l _ hw'.2 h2]
      simp [treeList, bind, Except.bind]
theorem repDict_means : ∀ (l : List (String × PyVal F)) (l' : List (String × Plain F)), WFDict l →
    MeansDict l l' → repDict l = .ok (treeDict l')
  | [], l', _, h => by cases h; simp [repDict, treeDict]
  | (k, v) :: l, l', hw, h => by
    cases h with
    | cons h1 h2 =>
      have hw' : WF v ∧ WFDict l := by simpa [WFDict] using hw
      rw [repDict, rep_means v _ hw'.1 h1, repDict_means l _ hw'.2 h2]
      simp [treeDict, bind, Except.bind]
end

/-- C45.  Full statement: for *every* object `v` standing for a plain value `p`, dumping `v` yields the tree of
`p`.  Proved for objects in which no enum member directly wraps a path, numpy object or enum member; for the
others see `dump_enum_of_path_fails`. -/
theorem dump_means_partial (v : PyVal F) (p : Plain F) (hw : WF v) (hm : Means v p) :
    rep v = .ok (tree p) := rep_means v p hw hm

/-- C45 fails for an enum member whose value is a path (or a numpy number): dumping raises. -/
theorem dump_enum_of_path_fails (s : String) :
    Means (.enum (.path s)) (.scalar (.str s) : Plain F) ∧
      rep (F := F) (.enum (.path s)) = .error .representerError ∧
      rep (F := F) (.enum (.npScalar (.scalar (.int 1)))) = .error .representerError :=
  ⟨.enum (.path s), by simp [rep, superRep], by simp [rep, superRep]⟩

mutual
theorem means_unique : ∀ (v : PyVal F) (p q : Plain F), Means v p → Means v q → p = q
  | .scalar s, p, q, hp, hq => by cases hp; cases hq; rfl
  | .path s, p, q, hp, hq => by cases hp; cases hq; rfl
  | .npScalar v, p, q, hp, hq => by
    cases hp with | npScalar hp => cases hq with | npScalar hq => exact means_unique v p q hp hq
  | .npArray v, p, q, hp, hq => by
    cases hp with | npArray hp => cases hq with | npArray hq => exact means_unique v p q hp hq
  | .enum v, p, q, hp, hq => by
    cases hp with | enum hp => cases hq with | enum hq => exact means_unique v p q hp hq
  | .list l, p, q, hp, hq => by
    cases hp with | list hp => cases hq with | list hq => rw [meansList_unique l _ _ hp hq]
  | .dict l, p, q, hp, hq => by
    cases hp with | dict hp => cases hq with | dict hq => rw [meansDict_unique l _ _ hp hq]
  | .other, p, q, hp, _ => by cases hp
theorem meansList_unique : ∀ (l : List (PyVal F)) (p q : List (Plain F)),
    MeansList l p → MeansList l q → p = q
  | [], p, q, hp, hq => by cases hp; cases hq; rfl
  | v :: l, p, q, hp, hq => by
    cases hp with
    | cons h1 h2 =>
      cases hq with
      | cons h3 h4 => rw [means_unique v _ _ h1 h3, meansList_unique l _ _ h2 h4]
theorem meansDict_unique : ∀ (l : List (String × PyVal F)) (p q : List (String × Plain F)),
    MeansDict l p → MeansDict l q → p = q
  | [], p, q, hp, hq => by cases hp; cases hq; rfl
  | (k, v) :: l, p, q, hp, hq => by
    cases hp with
    | cons h1 h2 =>
      cases hq with
      | cons h3 h4 => rw [means_unique v _ _ h1 h3, meansDict_unique l _ _ h2 h4]
end

/-- C45: an object of a class nobody knows makes the dump raise instead of writing Python-specific tags,
wherever it occurs in a list. -/
theorem dump_unknown_raises (l l' : List (PyVal F)) :
    ∃ e, rep (.list (l ++ .other :: l')) = .error e := by
  have : ∃ e, repList (l ++ .other :: l') = .error e := by
    induction l with
    | nil => exact ⟨.representerError, by simp [repList, rep, bind, Except.bind]⟩
    | cons v l ih =>
      obtain ⟨e, he⟩ := ih
      rw [List.cons_append, repList, he]
      cases rep v <;> simp [bind, Except.bind]
  obtain ⟨e, he⟩ := this
  exact ⟨e, by rw [rep, he]; rfl⟩

/-- Non-vacuity: a nested dictionary with an array, an enum member and a path. -/
example : WF (F := ℕ) (.dict [("a", .npArray (.list [.scalar (.float 1), .scalar (.float 2)])),
      ("b", .list [.enum (.scalar (.str "red")), .path "/tmp"])]) ∧
    Means (.dict [("a", .npArray (.list [.scalar (.float 1), .scalar (.float 2)])),
      ("b", .list [.enum (.scalar (.str "red")), .path "/tmp"])])
      (.dict [("a", .list [.scalar (.float 1), .scalar (.float 2)]),
        ("b", .list [.scalar (.str "red"), .scalar (.str "/tmp")])] : Plain ℕ) := by
  constructor
  · simp [WF, WFDict, WFList, ordinary]
  · exact .dict (.cons (.npArray (.list (.cons (.scalar _) (.cons (.scalar _) .nil))))
      (.cons (.list (.cons (.enum (.scalar _)) (.cons (.path _) .nil))) .nil))

end BMI.Dumper
