import Verif.Model.Basic

/-!
Model of `DictDumper` (/repo/src/bmi/benchmark/utils/dict_dumper.py) on top of PyYAML's `SafeDumper`.

PyYAML (third party) is modelled at the level of node trees: `represent_data` turns a Python object into a
tree of scalar / sequence / mapping nodes, looking at the class of the object and calling the *overridable*
`self.represent_data` for the items of lists and mappings; an unknown class raises `RepresenterError`.
Serialising the tree to text, and the sharing of repeated objects through anchors, are not modelled.
-/

namespace BMI.Dumper

/-- Plain scalars known to `SafeDumper`.  `F` is the type of floats. -/
inductive Scalar (F : Type) where
  | none
  | bool (b : Bool)
  | int (i : Int)
  | float (f : F)
  | str (s : String)

/-- Python objects that may occur in metadata (/repo/src/bmi/benchmark/utils/dict_dumper.py:21-30).
`npScalar p` and `npArray p` carry what `.item()` and `.tolist()` return. Dictionaries have string
keys, listed in the order in which PyYAML sorts them. `other` is an object of any other class. -/
inductive PyVal (F : Type) where
  | scalar (s : Scalar F)
  | list (l : List (PyVal F))
  | dict (l : List (String × PyVal F))
  | path (s : String)
  | npScalar (item : PyVal F)
  | npArray (tolist : PyVal F)
  | enum (value : PyVal F)
  | other

/-- YAML nodes produced by `represent_data` (/repo/src/bmi/benchmark/utils/dict_dumper.py:20). -/
inductive Node (F : Type) where
  | scalar (s : Scalar F)
  | seq (l : List (Node F))
  | map (l : List (String × Node F))

mutual
/-- `DictDumper.represent_data` (/repo/src/bmi/benchmark/utils/dict_dumper.py:20-30). -/
def rep {F : Type} : PyVal F → Except Err (Node F)
  | .path s => .ok (.scalar (.str s))
  | .npScalar p => superRep p
  | .npArray p => superRep p
  | .enum v => superRep v
  | .scalar s => .ok (.scalar s)
  | .list l => (repList l).map .seq
  | .dict l => (repDict l).map .map
  | .other => .error .representerError
/-- `super().represent_data` = `SafeDumper.represent_data`
(called at /repo/src/bmi/benchmark/utils/dict_dumper.py:22-30): none of the four special classes is known
to it, but it calls back `self.represent_data` on items. -/
def superRep {F : Type} : PyVal F → Except Err (Node F)
  | .scalar s => .ok (.scalar s)
  | .list l => (repList l).map .seq
  | .dict l => (repDict l).map .map
  | .path _ => .error .representerError
  | .npScalar _ => .error .representerError
  | .npArray _ => .error .representerError
  | .enum _ => .error .representerError
  | .other => .error .representerError
/-- `represent_sequence` of PyYAML calling `self.represent_data`
(/repo/src/bmi/benchmark/utils/dict_dumper.py:20). -/
def repList {F : Type} : List (PyVal F) → Except Err (List (Node F))
  | [] => .ok []
  | v :: l => do
    let n ← rep v
    let ns ← repList l
    .ok (n :: ns)
/-- `represent_mapping` of PyYAML calling `self.represent_data`
(/repo/src/bmi/benchmark/utils/dict_dumper.py:20). -/
def repDict {F : Type} : List (String × PyVal F) → Except Err (List (String × Node F))
  | [] => .ok []
  | (k, v) :: l => do
    let n ← rep v
    let ns ← repDict l
    .ok ((k, n) :: ns)
end

end BMI.Dumper
