/-
Model of nested dictionaries and their h5 storage (`tools/data/data.py:873-1020`).
-/
import Verif.Model.Py
import Mathlib.Data.List.Basic

namespace Cdtools

/-- Python strings (dictionary keys, h5 link names, string values). -/
abbrev Name := List Char

mutual
/-- A value in a nested dictionary / an object in an h5 file: a leaf or a mapping / group. -/
inductive Tree (L : Type) where
  | leaf (l : L)
  | map (d : Forest L)
/-- An insertion-ordered mapping from names to values. -/
inductive Forest (L : Type) where
  | nil
  | cons (k : Name) (v : Tree L) (rest : Forest L)
end

/-- An n-dimensional array: its shape and its entries in C order. -/
structure Arr (S : Type) where
  shape : List ℕ
  vals : List S
  deriving DecidableEq

/-- Python values that can sit in a nested dictionary, by the `isinstance` tests of
`data.py:889-904`: numbers (incl. `np.bool_` and numpy scalars), numpy arrays, torch tensors (with
`requires_grad`), strings, anything else. Simplification: one scalar type, dtypes are not
tracked; arrays are arrays of numbers. -/
inductive PyLeaf (S : Type) where
  | num (x : S)
  | arr (a : Arr S)
  | tensor (requiresGrad : Bool) (a : Arr S)
  | str (s : Name)
  | other

/-- Datasets in an h5 file: numeric arrays (a scalar dataset has shape `[]`) and strings. -/
inductive H5Leaf (S : Type) where
  | data (a : Arr S)
  | string (s : Name)

variable {S L : Type}

/-- Lookup of a key. -/
def Forest.find : Forest L → Name → Option (Tree L)
  | .nil, _ => none
  | .cons k v rest, q => if q = k then some v else rest.find q

/-- The keys, in order. -/
def Forest.keys : Forest L → List Name
  | .nil => []
  | .cons k _ rest => k :: rest.keys

/-- Add a link. Simplification: h5py lists links in name order, here it goes last; dictionaries
compare equal whatever the order. -/
def Forest.snoc : Forest L → Name → Tree L → Forest L
  | .nil, k, v => .cons k v .nil
  | .cons k' v' rest, k, v => .cons k' v' (rest.snoc k v)

/-- h5 path components of a name: split at '/', empty and "." components are dropped. -/
def splitSlash : Name → List Name
  | [] => [[]]
  | c :: cs =>
      if c = '/' then [] :: splitSlash cs
      else match splitSlash cs with
        | [] => [[c]]
        | w :: ws => (c :: w) :: ws

/-- The components that matter. -/
def components (k : Name) : List Name :=
  (splitSlash k).filter fun w => w ≠ [] ∧ w ≠ ['.']

mutual
/-- `create_dataset` / `create_group` below a group: intermediate groups are created, an existing
name is refused (ValueError), as is a path through a dataset. -/
def Tree.create : Tree L → List Name → Tree L → Except PyExc (Tree L)
  | .leaf _, _, _ => .error .valueError
  | .map d, ps, v => (Forest.create d ps v).map .map
/-- see `Tree.create` -/
def Forest.create : Forest L → List Name → Tree L → Except PyExc (Forest L)
  | _, [], _ => .error .valueError
  | .nil, [p], v => .ok (.cons p v .nil)
  | .nil, p :: ps, v => (Forest.create .nil ps v).map fun d => .cons p (.map d) .nil
  | .cons k x rest, p :: ps, v =>
      if p = k then
        match ps with
        | [] => .error .valueError
        | _ :: _ => (Tree.create x ps v).map fun x' => .cons k x' rest
      else (Forest.create rest (p :: ps) v).map fun rest' => .cons k x rest'
end

/-- The dataset written for a leaf, `data.py:891-904`. A tensor is detached and moved to the
CPU; h5py refuses embedded NUL characters (ValueError); other types raise ValueError. -/
def leafToH5 : PyLeaf S → Except PyExc (H5Leaf S)
  | .num x => .ok (.data ⟨[], [x]⟩)
  | .arr a => .ok (.data a)
  | .tensor _ a => .ok (.data a)
  | .str s => if '\x00' ∈ s then .error .valueError else .ok (.string s)
  | .other => .error .valueError

/-- `nested_dict_to_h5`, `data.py:887-906`, writing into an open group. The sub-dictionary is
written below the freshly created group. Simplifications: what a failing call leaves in the file
is not modelled; keys starting with '/' inside a sub-dictionary are taken relative to it. -/
def nestedDictToH5 : Forest (PyLeaf S) → Forest (H5Leaf S) → Except PyExc (Forest (H5Leaf S))
  | .nil, g => .ok g
  | .cons k (.leaf l) rest, g => do
      let x ← leafToH5 l
      let g' ← g.create (components k) (.leaf x)
      nestedDictToH5 rest g'
  | .cons k (.map d) rest, g => do
      let sub ← nestedDictToH5 d .nil
      let g' ← g.create (components k) (.map sub)
      nestedDictToH5 rest g'

/-- What `value[()]` gives for a dataset, `data.py:929-939`: a numpy scalar for a scalar dataset,
an array otherwise, a decoded string for a string dataset. -/
def leafFromH5 : H5Leaf S → PyLeaf S
  | .data ⟨[], [x]⟩ => .num x
  | .data a => .arr a
  | .string s => .str s

mutual
/-- `h5_to_nested_dict`, `data.py:926-949`. -/
def treeFromH5 : Tree (H5Leaf S) → Tree (PyLeaf S)
  | .leaf l => .leaf (leafFromH5 l)
  | .map d => .map (h5ToNestedDict d)
/-- see `treeFromH5` -/
def h5ToNestedDict : Forest (H5Leaf S) → Forest (PyLeaf S)
  | .nil => .nil
  | .cons k v rest => .cons k (treeFromH5 v) (h5ToNestedDict rest)
end

/-- One leaf of `nested_dict_to_numpy`, `data.py:970-979`; `.numpy()` on a tensor that requires
grad raises RuntimeError. -/
def leafToNumpy : PyLeaf S → Except PyExc (PyLeaf S)
  | .num x => .ok (.num x)
  | .arr a => .ok (.arr a)
  | .tensor g a => if g then .error .runtimeError else .ok (.arr a)
  | .str s => .ok (.str s)
  | .other => .error .valueError

/-- One leaf of `nested_dict_to_torch`, `data.py:1008-1018`. -/
def leafToTorch : PyLeaf S → Except PyExc (PyLeaf S)
  | .num x => .ok (.tensor false ⟨[], [x]⟩)
  | .arr a => .ok (.tensor false a)
  | .tensor g a => .ok (.tensor g a)
  | .str s => .ok (.str s)
  | .other => .error .valueError

mutual
/-- The recursion shared by `nested_dict_to_numpy` (`data.py:966-981`) and `nested_dict_to_torch`
(`data.py:1004-1020`): convert leaves in order, recurse into mappings, stop at the first error. -/
def Tree.convert (f : L → Except PyExc L) : Tree L → Except PyExc (Tree L)
  | .leaf l => (f l).map .leaf
  | .map d => (Forest.convert f d).map .map
/-- see `Tree.convert` -/
def Forest.convert (f : L → Except PyExc L) : Forest L → Except PyExc (Forest L)
  | .nil => .ok .nil
  | .cons k v rest => do
      let v' ← Tree.convert f v
      let rest' ← Forest.convert f rest
      .ok (.cons k v' rest')
end

/-- `nested_dict_to_numpy`. -/
def nestedDictToNumpy (d : Forest (PyLeaf S)) : Except PyExc (Forest (PyLeaf S)) :=
  d.convert leafToNumpy

/-- `nested_dict_to_torch`. Simplification: devices are not modelled. -/
def nestedDictToTorch (d : Forest (PyLeaf S)) : Except PyExc (Forest (PyLeaf S)) :=
  d.convert leafToTorch

/-! ### Results of a model -/

/-- The part of a CDIModel that results files carry: the state dictionary (parameters and buffers),
loss history, epoch and training history (`models/base.py:69-76`). -/
structure ResultsModel (S : Type) where
  state : List (Name × Arr S)
  lossHistory : List S
  epoch : ℕ
  trainingHistory : Name

/-- A dictionary from a list of entries. -/
def Forest.ofList : List (Name × Tree L) → Forest L
  | [] => .nil
  | (k, v) :: es => .cons k v (.ofList es)

/-- Key constants of a results file, `models/base.py:190-202`. -/
def kStateDict : Name := "state_dict".toList
@[inherit_doc kStateDict] def kLossHistory : Name := "loss_history".toList
@[inherit_doc kStateDict] def kEpoch : Name := "epoch".toList
@[inherit_doc kStateDict] def kTrainingHistory : Name := "training_history".toList
@[inherit_doc kStateDict] def kLossFunction : Name := "loss_function".toList
@[inherit_doc kStateDict] def kModelClass : Name := "model_class".toList
@[inherit_doc kStateDict] def kVersion : Name := "cdtools_version".toList

/-- `save_results`, `models/base.py:188-202`; `state_dict()` gives detached tensors. `lossName`,
`cls`, `version` are the metadata strings. -/
def saveResults (ofNat : ℕ → S) (lossName cls version : Name) (m : ResultsModel S) :
    Except PyExc (Forest (PyLeaf S)) := do
  let sd ← nestedDictToNumpy (.ofList (m.state.map fun e => (e.1, .leaf (.tensor false e.2))))
  .ok (.ofList
    [(kStateDict, .map sd),
     (kLossHistory, .leaf (.arr ⟨[m.lossHistory.length], m.lossHistory⟩)),
     (kEpoch, .leaf (.num (ofNat m.epoch))),
     (kTrainingHistory, .leaf (.str m.trainingHistory)),
     (kLossFunction, .leaf (.str lossName)),
     (kModelClass, .leaf (.str cls)),
     (kVersion, .leaf (.str version))])

/-- `load_state_dict(state_dict, strict=False)`: every own entry present in the dictionary is
overwritten if the shapes agree (RuntimeError otherwise, also if the entry is not a tensor);
others are kept; unknown keys are ignored. -/
def loadStateDict (sd : Forest (PyLeaf S)) :
    List (Name × Arr S) → Except PyExc (List (Name × Arr S))
  | [] => .ok []
  | (k, a) :: es =>
      match sd.find k with
      | none => (loadStateDict sd es).map ((k, a) :: ·)
      | some (.leaf (.tensor _ b)) =>
          if b.shape = a.shape then (loadStateDict sd es).map ((k, b) :: ·)
          else .error .runtimeError
      | some _ => .error .runtimeError

/-- `list(x)` for a loss history. -/
def pyListOf : Tree (PyLeaf S) → Except PyExc (List S)
  | .leaf (.arr ⟨[_], vs⟩) => .ok vs
  | .leaf (.tensor _ ⟨[_], vs⟩) => .ok vs
  | _ => .error .typeError

/-- `int(x)` for an epoch count (numbers and 0-d arrays). -/
def pyIntOf (toNat : S → ℕ) : Tree (PyLeaf S) → Except PyExc ℕ
  | .leaf (.num x) => .ok (toNat x)
  | .leaf (.arr ⟨[], [x]⟩) => .ok (toNat x)
  | _ => .error .typeError

/-- `_load_results_dict`, `models/base.py:218-235`. `pyStr` is Python's `str()` on values that are
not strings already. -/
def loadResults (toNat : S → ℕ) (pyStr : Tree (PyLeaf S) → Name) (m : ResultsModel S)
    (d : Forest (PyLeaf S)) : Except PyExc (ResultsModel S) := do
  let sd ← match d.find kStateDict with
    | none => .error .keyError
    | some (.map sd) => nestedDictToTorch sd
    | some _ => .error .attributeError
  let state ← loadStateDict sd m.state
  let loss ← match d.find kLossHistory with
    | none => .ok []
    | some v => pyListOf v
  let epoch ← match d.find kEpoch with
    | none => .ok 0
    | some v => pyIntOf toNat v
  let hist := match d.find kTrainingHistory with
    | none => []
    | some (.leaf (.str s)) => s
    | some v => pyStr v
  .ok ⟨state, loss, epoch, hist⟩

end Cdtools
