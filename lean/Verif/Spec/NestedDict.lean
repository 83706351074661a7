/- Specification vocabulary for nested dictionaries (C13–C15). -/
import Verif.Model.NestedDict

namespace Cdtools
variable {S L M : Type}

/-- What a nested dictionary holds at a path of keys: nothing, a mapping (`some none`) or a leaf
(`some (some l)`). Two dictionaries with the same `at` are equal as Python dictionaries. -/
def Tree.at : Tree L → List Name → Option (Option L)
  | .leaf l, [] => some (some l)
  | .leaf _, _ :: _ => none
  | .map _, [] => some none
  | .map d, p :: ps =>
      match d.find p with
      | none => none
      | some t => t.at ps

/-- A name that h5 stores as one link. -/
def NameOK (k : Name) : Prop := k ≠ [] ∧ '/' ∉ k ∧ k ≠ ['.']

mutual
/-- Distinct keys at every level, each a plain name. -/
def Tree.KeysOK : Tree L → Prop
  | .leaf _ => True
  | .map d => d.KeysOK
/-- see `Tree.KeysOK` -/
def Forest.KeysOK : Forest L → Prop
  | .nil => True
  | .cons k v rest => NameOK k ∧ k ∉ rest.keys ∧ v.KeysOK ∧ rest.KeysOK
end

mutual
/-- Every leaf satisfies `P`. -/
def Tree.All (P : L → Prop) : Tree L → Prop
  | .leaf l => P l
  | .map d => d.All P
/-- see `Tree.All` -/
def Forest.All (P : L → Prop) : Forest L → Prop
  | .nil => True
  | .cons _ v rest => v.All P ∧ rest.All P
end

/-- Leaves the documentation promises to store: numbers, arrays, tensors and strings (h5 strings
cannot contain NUL). -/
def Storable : PyLeaf S → Prop
  | .other => False
  | .str s => '\x00' ∉ s
  | _ => True

/-- The documented form in which a leaf comes back: tensors as arrays, 0-d arrays as scalars. -/
def comesBackAs : PyLeaf S → PyLeaf S
  | .arr ⟨[], [x]⟩ => .num x
  | .tensor _ ⟨[], [x]⟩ => .num x
  | .tensor _ a => .arr a
  | l => l

/-- Numbers and 0-d arrays identified. -/
def zeroDim : PyLeaf S → PyLeaf S
  | .num x => .arr ⟨[], [x]⟩
  | l => l

end Cdtools
