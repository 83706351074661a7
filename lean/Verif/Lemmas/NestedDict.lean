/- Helper lemmas for nested dictionaries. -/
import Verif.Spec.NestedDict
import Mathlib.Tactic.Common

namespace Cdtools
variable {S L M : Type}
set_option linter.unusedSectionVars false

mutual
/-- change every leaf -/
def Tree.mapLeaf (f : L → M) : Tree L → Tree M
  | .leaf l => .leaf (f l)
  | .map d => .map (d.mapLeaf f)
/-- see `Tree.mapLeaf` -/
def Forest.mapLeaf (f : L → M) : Forest L → Forest M
  | .nil => .nil
  | .cons k v rest => .cons k (v.mapLeaf f) (rest.mapLeaf f)
end

def Forest.append : Forest L → Forest L → Forest L
  | .nil, e => e
  | .cons k v rest, e => .cons k v (rest.append e)

theorem Forest.keys_mapLeaf (f : L → M) : (d : Forest L) → (d.mapLeaf f).keys = d.keys
  | .nil => by simp [Forest.mapLeaf, Forest.keys]
  | .cons k v rest => by simp [Forest.mapLeaf, Forest.keys, Forest.keys_mapLeaf f rest]

theorem Forest.find_mapLeaf (f : L → M) (q : Name) :
    (d : Forest L) → (d.mapLeaf f).find q = (d.find q).map (Tree.mapLeaf f)
  | .nil => by simp [Forest.mapLeaf, Forest.find]
  | .cons k v rest => by
      simp only [Forest.mapLeaf, Forest.find]
      split
      · simp
      · exact Forest.find_mapLeaf f q rest

theorem Forest.find_append (q : Name) (e : Forest L) :
    (d : Forest L) → (d.append e).find q = (d.find q).or (e.find q)
  | .nil => by simp [Forest.append, Forest.find]
  | .cons k v rest => by
      simp only [Forest.append, Forest.find]
      split
      · simp
      · exact Forest.find_append q e rest

theorem Forest.find_isSome (q : Name) : (d : Forest L) → ((d.find q).isSome ↔ q ∈ d.keys)
  | .nil => by simp [Forest.find, Forest.keys]
  | .cons k v rest => by
      simp only [Forest.find, Forest.keys, List.mem_cons]
      split
      · simp [*]
      · simp [*, Forest.find_isSome q rest]

theorem Forest.find_none {q : Name} {d : Forest L} (h : q ∉ d.keys) : d.find q = none := by
  rw [← Option.not_isSome_iff_eq_none, Forest.find_isSome]; exact h

theorem Tree.at_mapLeaf (f : L → M) (p : List Name) (t : Tree L) :
    (t.mapLeaf f).at p = (t.at p).map (Option.map f) := by
  induction p generalizing t with
  | nil => cases t <;> simp [Tree.mapLeaf, Tree.at]
  | cons q ps ih =>
    cases t with
    | leaf l => simp [Tree.mapLeaf, Tree.at]
    | map d =>
      simp only [Tree.mapLeaf, Tree.at, Forest.find_mapLeaf]
      cases d.find q with
      | none => simp
      | some t => simp [ih]

mutual
theorem treeFromH5_eq : (t : Tree (H5Leaf S)) → treeFromH5 t = t.mapLeaf leafFromH5
  | .leaf l => by simp [treeFromH5, Tree.mapLeaf]
  | .map d => by simp [treeFromH5, Tree.mapLeaf, h5ToNestedDict_eq d]
theorem h5ToNestedDict_eq : (d : Forest (H5Leaf S)) → h5ToNestedDict d = d.mapLeaf leafFromH5
  | .nil => by simp [h5ToNestedDict, Forest.mapLeaf]
  | .cons k v rest => by
      simp [h5ToNestedDict, Forest.mapLeaf, treeFromH5_eq v, h5ToNestedDict_eq rest]
end

mutual
theorem Tree.mapLeaf_mapLeaf {K : Type} (f : L → M) (g : M → K) :
    (t : Tree L) → (t.mapLeaf f).mapLeaf g = t.mapLeaf (g ∘ f)
  | .leaf l => by simp [Tree.mapLeaf]
  | .map d => by simp [Tree.mapLeaf, Forest.mapLeaf_mapLeaf f g d]
theorem Forest.mapLeaf_mapLeaf {K : Type} (f : L → M) (g : M → K) :
    (d : Forest L) → (d.mapLeaf f).mapLeaf g = d.mapLeaf (g ∘ f)
  | .nil => by simp [Forest.mapLeaf]
  | .cons k v rest => by
      simp [Forest.mapLeaf, Tree.mapLeaf_mapLeaf f g v, Forest.mapLeaf_mapLeaf f g rest]
end

theorem splitSlash_plain : (k : Name) → '/' ∉ k → splitSlash k = [k]
  | [], _ => rfl
  | c :: cs, h => by
      simp only [List.mem_cons, not_or] at h
      have := splitSlash_plain cs h.2
      simp [splitSlash, this, Ne.symm h.1]

theorem components_plain {k : Name} (h : NameOK k) : components k = [k] := by
  simp [components, splitSlash_plain k h.2.1, h.1, h.2.2]

theorem create_plain (k : Name) (v : Tree L) :
    (g : Forest L) → k ∉ g.keys → g.create [k] v = .ok (g.append (.cons k v .nil))
  | .nil, _ => by simp [Forest.create, Forest.append]
  | .cons k' v' rest, h => by
      simp only [Forest.keys, List.mem_cons, not_or] at h
      rw [Forest.create]
      simp [h.1, create_plain k v rest h.2, Except.map, Forest.append]

theorem create_dup (k : Name) (v : Tree L) :
    (g : Forest L) → k ∈ g.keys → g.create [k] v = .error .valueError
  | .nil, h => by simp [Forest.keys] at h
  | .cons k' v' rest, h => by
      rw [Forest.create]
      by_cases hk : k = k'
      · simp [hk]
      · simp only [Forest.keys, List.mem_cons, hk, false_or] at h
        simp [hk, create_dup k v rest h, Except.map]

theorem append_assoc (a b c : Forest L) : (a.append b).append c = a.append (b.append c) := by
  have : (a : Forest L) → (a.append b).append c = a.append (b.append c) := by
    intro a
    exact Forest.rec (motive_1 := fun _ => True)
      (motive_2 := fun a => (a.append b).append c = a.append (b.append c))
      (fun _ => trivial) (fun _ _ => trivial) (by simp [Forest.append])
      (fun k v rest _ ih => by simp [Forest.append, ih]) a
  exact this a

theorem append_nil (a : Forest L) : a.append .nil = a :=
  Forest.rec (motive_1 := fun _ => True) (motive_2 := fun a => a.append .nil = a)
      (fun _ => trivial) (fun _ _ => trivial) (by simp [Forest.append])
      (fun k v rest _ ih => by simp [Forest.append, ih]) a

theorem keys_append (a b : Forest L) : (a.append b).keys = a.keys ++ b.keys :=
  Forest.rec (motive_1 := fun _ => True)
      (motive_2 := fun a => (a.append b).keys = a.keys ++ b.keys)
      (fun _ => trivial) (fun _ _ => trivial) (by simp [Forest.append, Forest.keys])
      (fun k v rest _ ih => by simp [Forest.append, Forest.keys, ih]) a

/-- the dataset of a storable leaf -/
def storedAs : PyLeaf S → H5Leaf S
  | .num x => .data ⟨[], [x]⟩
  | .arr a => .data a
  | .tensor _ a => .data a
  | .str s => .string s
  | .other => .string []

theorem leafToH5_storable {l : PyLeaf S} (h : Storable l) : leafToH5 l = .ok (storedAs l) := by
  cases l <;> simp_all [Storable, leafToH5, storedAs]

theorem leafToH5_not_storable {l : PyLeaf S} (h : ¬ Storable l) :
    leafToH5 l = .error .valueError := by
  cases l <;> simp_all [Storable, leafToH5]

theorem leafFromH5_storedAs {l : PyLeaf S} (h : Storable l) :
    leafFromH5 (storedAs l) = comesBackAs l := by
  cases l with
  | num x => rfl
  | arr a => rcases a with ⟨_ | ⟨n, ns⟩, _ | ⟨x, _ | ⟨y, xs⟩⟩⟩ <;> rfl
  | tensor g a => rcases a with ⟨_ | ⟨n, ns⟩, _ | ⟨x, _ | ⟨y, xs⟩⟩⟩ <;> rfl
  | str s => rfl
  | other => exact absurd h (by simp [Storable])

theorem write_eq : (d : Forest (PyLeaf S)) → (g : Forest (H5Leaf S)) → d.KeysOK →
    d.All Storable → (∀ k ∈ d.keys, k ∉ g.keys) →
    nestedDictToH5 d g = .ok (g.append (d.mapLeaf storedAs))
  | .nil, g, _, _, _ => by simp [nestedDictToH5, Forest.mapLeaf, append_nil]
  | .cons k (.leaf l) rest, g, hk, hl, hd => by
      simp only [Forest.KeysOK] at hk
      simp only [Forest.All, Tree.All] at hl
      rw [nestedDictToH5, leafToH5_storable hl.1]
      have hkg : k ∉ g.keys := hd k (by simp [Forest.keys])
      simp only [bind, Except.bind, components_plain hk.1, create_plain k _ g hkg]
      rw [write_eq rest _ hk.2.2.2 hl.2, append_assoc]
      · simp [Forest.append, Forest.mapLeaf, Tree.mapLeaf]
      · intro q hq
        rw [keys_append]
        simp only [Forest.keys, List.mem_append, List.mem_singleton, not_or]
        exact ⟨hd q (by simp [Forest.keys, hq]), by rintro rfl; exact hk.2.1 hq⟩
  | .cons k (.map e) rest, g, hk, hl, hd => by
      simp only [Forest.KeysOK, Tree.KeysOK] at hk
      simp only [Forest.All, Tree.All] at hl
      have hkg : k ∉ g.keys := hd k (by simp [Forest.keys])
      rw [nestedDictToH5, write_eq e .nil hk.2.2.1 hl.1 (by simp [Forest.keys])]
      simp only [bind, Except.bind, components_plain hk.1, create_plain k _ g hkg]
      rw [write_eq rest _ hk.2.2.2 hl.2, append_assoc]
      · simp [Forest.append, Forest.mapLeaf, Tree.mapLeaf]
      · intro q hq
        rw [keys_append]
        simp only [Forest.keys, List.mem_append, List.mem_singleton, not_or]
        exact ⟨hd q (by simp [Forest.keys, hq]), by rintro rfl; exact hk.2.1 hq⟩

/-- a dictionary with a bad leaf is refused -/
theorem write_bad : (d : Forest (PyLeaf S)) → (g : Forest (H5Leaf S)) → d.KeysOK →
    ¬ d.All Storable → (∀ k ∈ d.keys, k ∉ g.keys) →
    nestedDictToH5 d g = .error .valueError
  | .nil, g, _, hl, _ => absurd (by simp [Forest.All]) hl
  | .cons k (.leaf l) rest, g, hk, hl, hd => by
      simp only [Forest.KeysOK] at hk
      simp only [Forest.All, Tree.All] at hl
      have hkg : k ∉ g.keys := hd k (by simp [Forest.keys])
      rw [nestedDictToH5]
      by_cases hs : Storable l
      · rw [leafToH5_storable hs]
        simp only [bind, Except.bind, components_plain hk.1, create_plain k _ g hkg]
        apply write_bad rest _ hk.2.2.2 (fun h => hl ⟨hs, h⟩)
        intro q hq
        rw [keys_append]
        simp only [Forest.keys, List.mem_append, List.mem_singleton, not_or]
        exact ⟨hd q (by simp [Forest.keys, hq]), by rintro rfl; exact hk.2.1 hq⟩
      · rw [leafToH5_not_storable hs]; rfl
  | .cons k (.map e) rest, g, hk, hl, hd => by
      simp only [Forest.KeysOK, Tree.KeysOK] at hk
      simp only [Forest.All, Tree.All] at hl
      have hkg : k ∉ g.keys := hd k (by simp [Forest.keys])
      rw [nestedDictToH5]
      by_cases hs : e.All Storable
      · rw [write_eq e .nil hk.2.2.1 hs (by simp [Forest.keys])]
        simp only [bind, Except.bind, components_plain hk.1, create_plain k _ g hkg]
        apply write_bad rest _ hk.2.2.2 (fun h => hl ⟨hs, h⟩)
        intro q hq
        rw [keys_append]
        simp only [Forest.keys, List.mem_append, List.mem_singleton, not_or]
        exact ⟨hd q (by simp [Forest.keys, hq]), by rintro rfl; exact hk.2.1 hq⟩
      · rw [write_bad e .nil hk.2.2.1 hs (by simp [Forest.keys])]; rfl

mutual
theorem Tree.mapLeaf_congr {f g : L → M} {P : L → Prop} (h : ∀ l, P l → f l = g l) :
    (t : Tree L) → t.All P → t.mapLeaf f = t.mapLeaf g
  | .leaf l, hl => by simp only [Tree.All] at hl; simp [Tree.mapLeaf, h l hl]
  | .map d, hl => by
      simp only [Tree.All] at hl; simp [Tree.mapLeaf, Forest.mapLeaf_congr h d hl]
theorem Forest.mapLeaf_congr {f g : L → M} {P : L → Prop} (h : ∀ l, P l → f l = g l) :
    (d : Forest L) → d.All P → d.mapLeaf f = d.mapLeaf g
  | .nil, _ => by simp [Forest.mapLeaf]
  | .cons k v rest, hl => by
      simp only [Forest.All] at hl
      simp [Forest.mapLeaf, Tree.mapLeaf_congr h v hl.1, Forest.mapLeaf_congr h rest hl.2]
end

mutual
theorem Tree.convert_ok {f : L → Except PyExc L} {g : L → L} {P : L → Prop}
    (h : ∀ l, P l → f l = .ok (g l)) : (t : Tree L) → t.All P → t.convert f = .ok (t.mapLeaf g)
  | .leaf l, hl => by
      simp only [Tree.All] at hl; simp [Tree.convert, Tree.mapLeaf, h l hl, Except.map]
  | .map d, hl => by
      simp only [Tree.All] at hl
      simp [Tree.convert, Tree.mapLeaf, Forest.convert_ok h d hl, Except.map]
theorem Forest.convert_ok {f : L → Except PyExc L} {g : L → L} {P : L → Prop}
    (h : ∀ l, P l → f l = .ok (g l)) : (d : Forest L) → d.All P → d.convert f = .ok (d.mapLeaf g)
  | .nil, _ => by simp [Forest.convert, Forest.mapLeaf]
  | .cons k v rest, hl => by
      simp only [Forest.All] at hl
      simp [Forest.convert, Forest.mapLeaf, Tree.convert_ok h v hl.1,
        Forest.convert_ok h rest hl.2, bind, Except.bind]
end

mutual
theorem Tree.convert_bad {f : L → Except PyExc L} {g : L → L} {P : L → Prop} {Q : PyExc → Prop}
    (h : ∀ l, P l → f l = .ok (g l)) (hb : ∀ l, ¬ P l → ∃ e, f l = .error e ∧ Q e) :
    (t : Tree L) → ¬ t.All P → ∃ e, t.convert f = .error e ∧ Q e
  | .leaf l, hl => by
      simp only [Tree.All] at hl
      obtain ⟨e, he, hq⟩ := hb l hl
      exact ⟨e, by simp [Tree.convert, he, Except.map], hq⟩
  | .map d, hl => by
      simp only [Tree.All] at hl
      obtain ⟨e, he, hq⟩ := Forest.convert_bad h hb d hl
      exact ⟨e, by simp [Tree.convert, he, Except.map], hq⟩
theorem Forest.convert_bad {f : L → Except PyExc L} {g : L → L} {P : L → Prop} {Q : PyExc → Prop}
    (h : ∀ l, P l → f l = .ok (g l)) (hb : ∀ l, ¬ P l → ∃ e, f l = .error e ∧ Q e) :
    (d : Forest L) → ¬ d.All P → ∃ e, d.convert f = .error e ∧ Q e
  | .nil, hl => absurd (by simp [Forest.All]) hl
  | .cons k v rest, hl => by
      simp only [Forest.All] at hl
      by_cases hv : v.All P
      · obtain ⟨e, he, hq⟩ := Forest.convert_bad h hb rest (fun hr => hl ⟨hv, hr⟩)
        exact ⟨e, by simp [Forest.convert, Tree.convert_ok h v hv, he, bind, Except.bind], hq⟩
      · obtain ⟨e, he, hq⟩ := Tree.convert_bad h hb v hv
        exact ⟨e, by simp [Forest.convert, he, bind, Except.bind], hq⟩
end

mutual
theorem Tree.all_mapLeaf {P : M → Prop} (f : L → M) :
    (t : Tree L) → ((t.mapLeaf f).All P ↔ t.All (fun l => P (f l)))
  | .leaf l => by simp [Tree.mapLeaf, Tree.All]
  | .map d => by simp [Tree.mapLeaf, Tree.All, Forest.all_mapLeaf f d]
theorem Forest.all_mapLeaf {P : M → Prop} (f : L → M) :
    (d : Forest L) → ((d.mapLeaf f).All P ↔ d.All (fun l => P (f l)))
  | .nil => by simp [Forest.mapLeaf, Forest.All]
  | .cons k v rest => by
      simp [Forest.mapLeaf, Forest.All, Tree.all_mapLeaf f v, Forest.all_mapLeaf f rest]
end

mutual
theorem Tree.all_mono {P Q : L → Prop} (h : ∀ l, P l → Q l) : (t : Tree L) → t.All P → t.All Q
  | .leaf l, hl => by simp only [Tree.All] at *; exact h l hl
  | .map d, hl => by simp only [Tree.All] at *; exact Forest.all_mono h d hl
theorem Forest.all_mono {P Q : L → Prop} (h : ∀ l, P l → Q l) :
    (d : Forest L) → d.All P → d.All Q
  | .nil, _ => by simp [Forest.All]
  | .cons k v rest, hl => by
      simp only [Forest.All] at *
      exact ⟨Tree.all_mono h v hl.1, Forest.all_mono h rest hl.2⟩
end

end Cdtools
