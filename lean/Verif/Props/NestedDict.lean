/- Property theorems C13–C15: results files and nested dictionaries. -/
import Verif.Lemmas.NestedDict

namespace Cdtools
variable {S : Type}
set_option linter.unusedSectionVars false

/-! ### C14 -/

/-- **C14, round trip (partial: keys that are plain h5 names).** Writing a nested dictionary of
numbers, arrays, tensors, strings and mappings into an empty h5 file succeeds, and reading the
file gives, at every path of keys, the same mapping or the same leaf contents (tensors as
arrays, 0-d arrays as scalars) — and nothing else. -/
theorem h5_roundtrip_partial (d : Forest (PyLeaf S)) (hk : d.KeysOK) (hl : d.All Storable) :
    ∃ g, nestedDictToH5 d .nil = .ok g ∧
      ∀ path, (Tree.map (h5ToNestedDict g)).at path =
        ((Tree.map d).at path).map (Option.map comesBackAs) := by
  refine ⟨_, write_eq d .nil hk hl (by simp [Forest.keys]), ?_⟩
  intro path
  have : Tree.map (h5ToNestedDict (Forest.append .nil (d.mapLeaf storedAs)))
      = (Tree.map d).mapLeaf comesBackAs := by
    simp only [Forest.append, h5ToNestedDict_eq, Forest.mapLeaf_mapLeaf, Tree.mapLeaf]
    congr 1
    exact Forest.mapLeaf_congr (P := Storable) (fun l h => leafFromH5_storedAs h) d hl
  rw [this, Tree.at_mapLeaf]

/-- **C14**, writing into a group that already holds other entries: they are left alone. -/
theorem h5_write_into_group_partial (d : Forest (PyLeaf S)) (hk : d.KeysOK)
    (hl : d.All Storable) (g : Forest (H5Leaf S)) (hdis : ∀ k ∈ d.keys, k ∉ g.keys) :
    ∃ g', nestedDictToH5 d g = .ok g' ∧
      ∀ p ps, (Tree.map (h5ToNestedDict g')).at (p :: ps) =
        if p ∈ d.keys then ((Tree.map d).at (p :: ps)).map (Option.map comesBackAs)
        else (Tree.map (h5ToNestedDict g)).at (p :: ps) := by
  refine ⟨_, write_eq d g hk hl hdis, ?_⟩
  intro p ps
  simp only [h5ToNestedDict_eq, Tree.at, Forest.find_mapLeaf, Forest.find_append]
  by_cases hp : p ∈ d.keys
  · rw [if_pos hp, Forest.find_none (hdis p hp)]
    obtain ⟨t, ht⟩ := Option.isSome_iff_exists.1 ((Forest.find_isSome p d).2 hp)
    simp only [Option.none_or, ht, Option.map_some, Tree.mapLeaf_mapLeaf]
    rw [← Tree.at_mapLeaf]
    have hall : ∀ (d : Forest (PyLeaf S)), d.All Storable → ∀ t, d.find p = some t →
        t.All Storable := by
      intro d
      exact Forest.rec (motive_1 := fun _ => True)
        (motive_2 := fun d => d.All Storable → ∀ t, d.find p = some t → t.All Storable)
        (fun _ => trivial) (fun _ _ => trivial)
        (by intro _ t h; simp [Forest.find] at h)
        (by
          intro k v rest _ ih h t ht
          simp only [Forest.All] at h
          simp only [Forest.find] at ht
          split at ht
          · cases ht; exact h.1
          · exact ih h.2 t ht) d
    congr 1
    exact Tree.mapLeaf_congr (P := Storable) (fun l h => leafFromH5_storedAs h) t (hall d hl t ht)
  · rw [if_neg hp, Forest.find_none hp]
    simp

/-- **C14**, refusal: a leaf of any other type, at any depth, makes the write raise ValueError; it
is never silently dropped. -/
theorem h5_refuses_other_types (d : Forest (PyLeaf S)) (hk : d.KeysOK)
    (hl : ¬ d.All Storable) : nestedDictToH5 d .nil = .error .valueError :=
  write_bad d .nil hk hl (by simp [Forest.keys])

/-- **C14 is violated for keys containing a slash**: `{"a/b": x}` is stored without any error
and comes back as `{"a": {"b": x}}`. -/
theorem h5_slash_key_violated (x : S) :
    ∃ g, nestedDictToH5 (.cons "a/b".toList (.leaf (.num x)) .nil) .nil = .ok g ∧
      h5ToNestedDict g = .cons "a".toList (.map (.cons "b".toList (.leaf (.num x)) .nil)) .nil ∧
      (Tree.map (h5ToNestedDict g)).at ["a/b".toList] = none := by
  refine ⟨.cons "a".toList (.map (.cons "b".toList (.leaf (.data ⟨[], [x]⟩)) .nil)) .nil,
    ?_, ?_, ?_⟩
  · have h : components ['a', '/', 'b'] = [['a'], ['b']] := by decide
    simp [nestedDictToH5, leafToH5, h, Forest.create, bind, Except.bind, Except.map]
  · simp [h5ToNestedDict, treeFromH5, leafFromH5]
  · simp [h5ToNestedDict, Tree.at, Forest.find]

theorem splitSlash_cons (w k : Name) (h : '/' ∉ w) : splitSlash (w ++ '/' :: k) = w :: splitSlash k := by
  induction w with
  | nil => simp [splitSlash]
  | cons c w ih =>
    simp only [List.mem_cons, not_or] at h
    simp [splitSlash, ih h.2, Ne.symm h.1]

theorem splitSlash_intercalate (ws : List Name) (hne : ws ≠ []) (h : ∀ w ∈ ws, '/' ∉ w) :
    splitSlash (['/'].intercalate ws) = ws := by
  induction ws with
  | nil => exact absurd rfl hne
  | cons w ws ih =>
    cases ws with
    | nil => simpa [List.intercalate] using splitSlash_plain w (h w (by simp))
    | cons w' ws =>
      have e : ['/'].intercalate (w :: w' :: ws) = w ++ '/' :: ['/'].intercalate (w' :: ws) := by
        simp [List.intercalate, List.intersperse]
      rw [e, splitSlash_cons w _ (h w (by simp)), ih (by simp) fun x hx => h x (List.mem_cons_of_mem _ hx)]

/-- A value below a chain of single keys. -/
def chain {L : Type} : List Name → Tree L → Tree L
  | [], v => v
  | p :: ps, v => .map (.cons p (chain ps v) .nil)

theorem create_chain {L : Type} (p : Name) (ps : List Name) (v : Tree L) :
    Forest.create .nil (p :: ps) v = .ok (.cons p (chain ps v) .nil) := by
  induction ps generalizing p with
  | nil => simp [Forest.create, chain]
  | cons q ps ih =>
    rw [Forest.create]
    · rw [ih]; rfl
    · simp

theorem treeFromH5_chain (ps : List Name) (v : Tree (H5Leaf S)) :
    treeFromH5 (chain ps v) = chain ps (treeFromH5 v) := by
  induction ps with
  | nil => rfl
  | cons p ps ih => simp [chain, treeFromH5, h5ToNestedDict, ih]

/-- **C14 is violated for keys containing a slash**, in general: a key of parts separated by slashes is stored below a chain of
groups, one for every part other than the empty one and ".", and comes back as such a chain; if there is no other part the write is
refused. -/
theorem h5_slash_chain_violated (ws : List Name) (hne : ws ≠ []) (h : ∀ w ∈ ws, '/' ∉ w) (x : S) :
    match ws.filter fun w => w ≠ "".toList ∧ w ≠ ".".toList with
    | [] => nestedDictToH5 (.cons (['/'].intercalate ws) (.leaf (.num x)) .nil) .nil = .error .valueError
    | p :: ps => ∃ g, nestedDictToH5 (.cons (['/'].intercalate ws) (.leaf (.num x)) .nil) .nil = .ok g ∧
        h5ToNestedDict g = .cons p (chain ps (.leaf (.num x))) .nil := by
  have hc : components (['/'].intercalate ws) = ws.filter fun w => w ≠ "".toList ∧ w ≠ ".".toList := by
    unfold components
    rw [splitSlash_intercalate ws hne h]
    rfl
  rw [← hc]
  rcases he : components (['/'].intercalate ws) with _ | ⟨p, ps⟩
  · simp [nestedDictToH5, leafToH5, he, Forest.create, bind, Except.bind]
  · refine ⟨.cons p (chain ps (.leaf (.data ⟨[], [x]⟩))) .nil, ?_, ?_⟩
    · simp only [nestedDictToH5, leafToH5, he, bind, Except.bind, create_chain]
    · simp [h5ToNestedDict, treeFromH5_chain, treeFromH5, leafFromH5]

/-- The key "./a//b" is read back as a chain of "a" and "b". -/
example : ([".".toList, "a".toList, "".toList, "b".toList].filter fun w => w ≠ "".toList ∧ w ≠ ".".toList) =
    ["a".toList, "b".toList] := by decide

/-- A nested example dictionary (three levels, every kind of leaf). -/
def demoDict : Forest (PyLeaf ℕ) :=
  .cons "n".toList (.leaf (.num 3))
    (.cons "sub".toList (.map (.cons "t".toList (.leaf (.tensor true ⟨[2], [7, 8]⟩))
        (.cons "deep".toList (.map (.cons "s".toList (.leaf (.str "hi".toList)) .nil)) .nil)))
      (.cons "a".toList (.leaf (.arr ⟨[], [5]⟩)) .nil))

/-- Non-vacuity of C14's hypotheses. -/
example : demoDict.KeysOK ∧ demoDict.All Storable ∧
    (Tree.map demoDict).at ["sub".toList, "t".toList] = some (some (.tensor true ⟨[2], [7, 8]⟩)) := by
  refine ⟨?_, ?_, rfl⟩
  · simp [demoDict, Forest.KeysOK, Tree.KeysOK, NameOK, Forest.keys]
  · simp [demoDict, Forest.All, Tree.All, Storable]

/-! ### C15 -/

/-- Leaves that the conversions document as supported. -/
def Supported : PyLeaf S → Prop
  | .other => False
  | _ => True

/-- Supported, and not a tensor that still requires grad. -/
def Detached : PyLeaf S → Prop
  | .other => False
  | .tensor g _ => g = false
  | _ => True

/-- What the numpy conversion documents for a leaf. -/
def asNumpy : PyLeaf S → PyLeaf S
  | .tensor _ a => .arr a
  | l => l

/-- What the torch conversion documents for a leaf. -/
def asTorch : PyLeaf S → PyLeaf S
  | .num x => .tensor false ⟨[], [x]⟩
  | .arr a => .tensor false a
  | l => l

theorem leafToNumpy_ok (l : PyLeaf S) (h : Detached l) : leafToNumpy l = .ok (asNumpy l) := by
  cases l <;> simp_all [Detached, leafToNumpy, asNumpy]

theorem leafToTorch_ok (l : PyLeaf S) (h : Supported l) : leafToTorch l = .ok (asTorch l) := by
  cases l <;> simp_all [Supported, leafToTorch, asTorch]

/-- **C15, numpy (partial: tensors must not require grad).** The result has the same keys and
mappings at every path, strings and numbers untouched, and every tensor replaced by the array of
its values. -/
theorem to_numpy_preserves_structure_partial (d : Forest (PyLeaf S)) (h : d.All Detached) :
    ∃ d', nestedDictToNumpy d = .ok d' ∧ d'.keys = d.keys ∧
      ∀ path, (Tree.map d').at path = ((Tree.map d).at path).map (Option.map asNumpy) :=
  ⟨_, Forest.convert_ok leafToNumpy_ok d h, Forest.keys_mapLeaf _ _, fun p => by
    have := Tree.at_mapLeaf asNumpy p (Tree.map d)
    simpa [Tree.mapLeaf] using this⟩

/-- **C15, torch.** The same for `nested_dict_to_torch`: every number and array becomes a tensor,
strings and existing tensors are untouched. -/
theorem to_torch_preserves_structure (d : Forest (PyLeaf S)) (h : d.All Supported) :
    ∃ d', nestedDictToTorch d = .ok d' ∧ d'.keys = d.keys ∧
      ∀ path, (Tree.map d').at path = ((Tree.map d).at path).map (Option.map asTorch) :=
  ⟨_, Forest.convert_ok leafToTorch_ok d h, Forest.keys_mapLeaf _ _, fun p => by
    have := Tree.at_mapLeaf asTorch p (Tree.map d)
    simpa [Tree.mapLeaf] using this⟩

/-- **C15**, idempotence of both conversions, on every dictionary they accept. -/
theorem conversions_idempotent (d d' : Forest (PyLeaf S)) :
    (nestedDictToNumpy d = .ok d' → nestedDictToNumpy d' = .ok d') ∧
    (nestedDictToTorch d = .ok d' → nestedDictToTorch d' = .ok d') := by
  constructor
  · intro h
    by_cases hd : d.All Detached
    · unfold nestedDictToNumpy at h ⊢
      rw [Forest.convert_ok leafToNumpy_ok d hd] at h
      cases h
      rw [Forest.convert_ok leafToNumpy_ok, Forest.mapLeaf_mapLeaf]
      · congr 1
        exact Forest.mapLeaf_congr (P := Detached) (fun l _ => by cases l <;> rfl) d hd
      · rw [Forest.all_mapLeaf]
        exact Forest.all_mono (fun l hl => by cases l <;> simp_all [Detached, asNumpy]) d hd
    · obtain ⟨e, he, _⟩ := Forest.convert_bad (Q := fun _ => True) leafToNumpy_ok
        (fun l hl => by cases l <;> simp_all [Detached, leafToNumpy]) d hd
      unfold nestedDictToNumpy at h
      rw [he] at h; cases h
  · intro h
    by_cases hd : d.All Supported
    · unfold nestedDictToTorch at h ⊢
      rw [Forest.convert_ok leafToTorch_ok d hd] at h
      cases h
      rw [Forest.convert_ok leafToTorch_ok, Forest.mapLeaf_mapLeaf]
      · congr 1
        exact Forest.mapLeaf_congr (P := Supported) (fun l _ => by cases l <;> rfl) d hd
      · rw [Forest.all_mapLeaf]
        exact Forest.all_mono (fun l hl => by cases l <;> simp_all [Supported, asTorch]) d hd
    · obtain ⟨e, he, _⟩ := Forest.convert_bad (Q := fun _ => True) leafToTorch_ok
        (fun l hl => by cases l <;> simp_all [Supported, leafToTorch]) d hd
      unfold nestedDictToTorch at h
      rw [he] at h; cases h

/-- **C15**, composition: converting to torch and then to numpy is converting to numpy, up to
numbers having become 0-d arrays. -/
theorem torch_then_numpy_partial (d : Forest (PyLeaf S)) (h : d.All Detached) :
    ∃ dt dn dtn, nestedDictToTorch d = .ok dt ∧ nestedDictToNumpy d = .ok dn ∧
      nestedDictToNumpy dt = .ok dtn ∧
      ∀ path, (Tree.map dtn).at path = ((Tree.map dn).at path).map (Option.map zeroDim) := by
  have hs : d.All Supported := Forest.all_mono
    (fun l hl => by cases l <;> simp_all [Supported, Detached]) d h
  refine ⟨_, _, (d.mapLeaf asTorch).mapLeaf asNumpy, Forest.convert_ok leafToTorch_ok d hs,
    Forest.convert_ok leafToNumpy_ok d h, ?_, ?_⟩
  · refine Forest.convert_ok leafToNumpy_ok _ ?_
    rw [Forest.all_mapLeaf]
    exact Forest.all_mono (fun l hl => by cases l <;> simp_all [Detached, asTorch]) d h
  · intro p
    have : Tree.map ((d.mapLeaf asTorch).mapLeaf asNumpy)
        = (Tree.map (d.mapLeaf asNumpy)).mapLeaf zeroDim := by
      simp only [Tree.mapLeaf, Forest.mapLeaf_mapLeaf]
      congr 1
      exact Forest.mapLeaf_congr (P := Detached) (fun l _ => by cases l <;> rfl) d h
    rw [this, Tree.at_mapLeaf]

/-- **C15**, refusal: both conversions raise ValueError on a dictionary with an unsupported leaf
at any depth (for numpy: if no tensor requires grad). -/
theorem conversions_refuse_other (d : Forest (PyLeaf S)) (hd : ¬ d.All Supported) :
    nestedDictToTorch d = .error .valueError ∧
    (d.All (fun l => ∀ a, l ≠ .tensor true a) → nestedDictToNumpy d = .error .valueError) := by
  constructor
  · obtain ⟨e, he, hq⟩ := Forest.convert_bad (Q := fun e => e = .valueError) leafToTorch_ok
      (fun l hl => by cases l <;> simp_all [Supported, leafToTorch]) d hd
    exact hq ▸ he
  · intro hg
    let f : PyLeaf S → Except PyExc (PyLeaf S) := fun l =>
      match l with
      | .tensor true _ => .error .valueError
      | l => leafToNumpy l
    have hfg : ∀ t : Forest (PyLeaf S), t.All (fun l => ∀ a, l ≠ .tensor true a) →
        t.convert leafToNumpy = t.convert f := by
      intro t
      exact Forest.rec
        (motive_1 := fun t => t.All (fun l => ∀ a, l ≠ .tensor true a) →
          t.convert leafToNumpy = t.convert f)
        (motive_2 := fun t => t.All (fun l => ∀ a, l ≠ .tensor true a) →
          t.convert leafToNumpy = t.convert f)
        (by
          intro l hl
          simp only [Tree.All] at hl
          have : leafToNumpy l = f l := by
            cases l with
            | tensor g a =>
              cases g with
              | true => exact absurd rfl (hl a)
              | false => rfl
            | _ => rfl
          simp [Tree.convert, this])
        (by intro d ih hl; simp only [Tree.All] at hl; simp [Tree.convert, ih hl])
        (by intro _; simp [Forest.convert])
        (by
          intro k v rest ih1 ih2 hl
          simp only [Forest.All] at hl
          simp [Forest.convert, ih1 hl.1, ih2 hl.2]) t
    unfold nestedDictToNumpy
    rw [hfg d hg]
    have hdet : ¬ d.All Detached := fun h => hd (Forest.all_mono
      (fun l hl => by cases l <;> simp_all [Supported, Detached]) d h)
    obtain ⟨e, he, hq⟩ := Forest.convert_bad (f := f) (g := asNumpy) (P := Detached)
      (Q := fun e => e = .valueError)
      (fun l hl => by
        simp only [f]; split
        · simp [Detached] at hl
        · exact leafToNumpy_ok l hl)
      (fun l hl => by
        simp only [f]; split
        · exact ⟨_, rfl, rfl⟩
        · rename_i hne
          cases l with
          | tensor g a =>
            cases g with
            | true => exact absurd rfl (hne a)
            | false => simp [Detached] at hl
          | other => exact ⟨_, rfl, rfl⟩
          | num x => simp [Detached] at hl
          | arr a => simp [Detached] at hl
          | str s => simp [Detached] at hl) d hdet
    exact hq ▸ he

/-- **C15 is violated for tensors that require grad** (for instance a live model parameter):
`nested_dict_to_numpy` raises RuntimeError, although `nested_dict_to_h5` and
`nested_dict_to_torch` accept the same dictionary. -/
theorem to_numpy_requires_grad_violated (k : Name) (a : Arr S) :
    nestedDictToNumpy (.cons k (.leaf (.tensor true a)) .nil) = .error .runtimeError ∧
    nestedDictToTorch (.cons k (.leaf (.tensor true a)) .nil) =
      .ok (.cons k (.leaf (.tensor true a)) .nil) := ⟨rfl, rfl⟩

/-- Non-vacuity: a nested dictionary meeting the hypotheses. -/
example : (Forest.cons "x".toList (.map (.cons "y".toList
      (.leaf (.tensor false ⟨[1], [4]⟩ : PyLeaf ℕ)) .nil)) .nil).All Detached := by
  simp [Forest.All, Tree.All, Detached]

/-! ### C13 -/

theorem find_ofList {L : Type} (q : Name) : (es : List (Name × Tree L)) →
    (Forest.ofList es).find q = es.lookup q
  | [] => rfl
  | (k, v) :: es => by
      simp only [Forest.ofList, Forest.find, List.lookup_cons, find_ofList q es]
      by_cases h : q = k
      · simp [h]
      · have : (q == k) = false := by simpa using h
        simp [h, this]

theorem ofList_keys {L : Type} : (es : List (Name × Tree L)) →
    (Forest.ofList es).keys = es.map (·.1)
  | [] => rfl
  | (k, v) :: es => by simp [Forest.ofList, Forest.keys, ofList_keys es]

theorem ofList_all {L : Type} {P : L → Prop} : (es : List (Name × Tree L)) →
    ((Forest.ofList es).All P ↔ ∀ e ∈ es, e.2.All P)
  | [] => by simp [Forest.ofList, Forest.All]
  | (k, v) :: es => by simp [Forest.ofList, Forest.All, ofList_all es]

theorem ofList_keysOK {L : Type} : (es : List (Name × Tree L)) → (es.map (·.1)).Nodup →
    (∀ e ∈ es, NameOK e.1 ∧ e.2.KeysOK) → (Forest.ofList es).KeysOK
  | [], _, _ => by simp [Forest.ofList, Forest.KeysOK]
  | (k, v) :: es, hn, h => by
      simp only [List.map_cons, List.nodup_cons] at hn
      simp only [Forest.ofList, Forest.KeysOK, ofList_keys]
      have h1 := h (k, v) (by simp)
      exact ⟨h1.1, hn.1, h1.2, ofList_keysOK es hn.2 (fun e he => h e (by simp [he]))⟩

/-- Two models of the same class: same parameter and buffer names with the same shapes. -/
def SameShape (a b : List (Name × Arr S)) : Prop :=
  List.Forall₂ (fun x y => x.1 = y.1 ∧ x.2.shape = y.2.shape) a b

/-- **C13**, which entries are loaded: after `load_state_dict(strict=False)` every own entry that
the file provides (with the same shape) has the file's value, every other own entry keeps its
value, and keys the model does not have are ignored. -/
theorem load_state_dict_partial_update (sd : Forest (PyLeaf S)) (own : List (Name × Arr S))
    (h : ∀ e ∈ own, ∀ t, sd.find e.1 = some t → ∃ g b, t = .leaf (.tensor g b) ∧
      b.shape = e.2.shape) :
    loadStateDict sd own = .ok (own.map fun e =>
      match sd.find e.1 with
      | some (.leaf (.tensor _ b)) => (e.1, b)
      | _ => e) := by
  induction own with
  | nil => rfl
  | cons e own ih =>
    obtain ⟨k, a⟩ := e
    have ih' := ih (fun e he => h e (List.mem_cons_of_mem _ he))
    simp only [loadStateDict]
    rcases hf : sd.find k with _ | t
    · simp [ih', Except.map, hf]
    · obtain ⟨g, b, rfl, hb⟩ := h (k, a) (by simp) t hf
      simp [hb, ih', Except.map, hf]

/-- **C13**, an entry of another shape is refused with RuntimeError, not silently skipped. -/
theorem load_state_dict_shape_mismatch (sd : Forest (PyLeaf S)) (k : Name) (a b : Arr S) (g : Bool)
    (own : List (Name × Arr S)) (hf : sd.find k = some (.leaf (.tensor g b)))
    (hs : b.shape ≠ a.shape) : loadStateDict sd ((k, a) :: own) = .error .runtimeError := by
  simp [loadStateDict, hf, hs]

theorem load_same_shape (sd : Forest (PyLeaf S)) : ∀ (own state : List (Name × Arr S)),
    SameShape own state → (∀ e ∈ state, sd.find e.1 = some (.leaf (.tensor false e.2))) →
    loadStateDict sd own = .ok state := by
  intro own state hs
  induction hs with
  | nil => intro _; rfl
  | @cons x y xs ys hxy _ ih =>
    intro hf
    obtain ⟨k, a⟩ := x
    obtain ⟨k', b⟩ := y
    obtain ⟨rfl, hsh⟩ := hxy
    have h1 := hf (k, b) (by simp)
    simp only at h1 hsh
    simp only [loadStateDict, h1, hsh.symm, if_true]
    rw [ih (fun e he => hf e (List.mem_cons_of_mem _ he))]
    simp [Except.map]

theorem lookup_of_mem {α : Type} {es : List (Name × α)} (hn : (es.map (·.1)).Nodup)
    {e : Name × α} (he : e ∈ es) : es.lookup e.1 = some e.2 := by
  induction es with
  | nil => cases he
  | cons x es ih =>
    simp only [List.map_cons, List.nodup_cons] at hn
    rw [List.lookup_cons]
    by_cases hx : e.1 = x.1
    · rcases List.mem_cons.1 he with rfl | h'
      · simp
      · exact absurd (List.mem_map.2 ⟨e, h', hx⟩) hn.1
    · have : (e.1 == x.1) = false := by simpa using hx
      rw [this]
      rcases List.mem_cons.1 he with rfl | h'
      · exact absurd rfl hx
      · exact ih hn.2 h'

theorem lookup_map_val {α β : Type} (f : α → β) (q : Name) (es : List (Name × α)) :
    (es.map fun e => (e.1, f e.2)).lookup q = (es.lookup q).map f := by
  induction es with
  | nil => rfl
  | cons e es ih =>
    obtain ⟨k, a⟩ := e
    simp only [List.map_cons, List.lookup_cons, ih]
    cases q == k <;> rfl

theorem ofList_mapLeaf {L M : Type} (f : L → M) : (es : List (Name × Tree L)) →
    (Forest.ofList es).mapLeaf f = Forest.ofList (es.map fun e => (e.1, e.2.mapLeaf f))
  | [] => by simp [Forest.ofList, Forest.mapLeaf]
  | (k, v) :: es => by simp [Forest.ofList, Forest.mapLeaf, ofList_mapLeaf f es]

/-- The dictionary `save_results` returns, written out. -/
def resultsDict (ofNat : ℕ → S) (lossName cls version : Name) (m : ResultsModel S) :
    Forest (PyLeaf S) :=
  .ofList
    [(kStateDict, .map (.ofList (m.state.map fun e => (e.1, .leaf (.arr e.2))))),
     (kLossHistory, .leaf (.arr ⟨[m.lossHistory.length], m.lossHistory⟩)),
     (kEpoch, .leaf (.num (ofNat m.epoch))),
     (kTrainingHistory, .leaf (.str m.trainingHistory)),
     (kLossFunction, .leaf (.str lossName)),
     (kModelClass, .leaf (.str cls)),
     (kVersion, .leaf (.str version))]

theorem saveResults_eq (ofNat : ℕ → S) (ln cls ver : Name) (m : ResultsModel S) :
    saveResults ofNat ln cls ver m = .ok (resultsDict ofNat ln cls ver m) := by
  have : nestedDictToNumpy (Forest.ofList (m.state.map fun e =>
      (e.1, Tree.leaf (PyLeaf.tensor false e.2)))) =
      .ok (.ofList (m.state.map fun e => (e.1, .leaf (.arr e.2)))) := by
    unfold nestedDictToNumpy
    rw [Forest.convert_ok leafToNumpy_ok]
    · rw [ofList_mapLeaf, List.map_map]
      rfl
    · rw [ofList_all]
      intro e he
      simp only [List.mem_map] at he
      obtain ⟨x, _, rfl⟩ := he
      simp [Tree.All, Detached]
  unfold saveResults
  rw [this]
  rfl

/-- The names under which `save_results` of the base model returns its results. -/
theorem save_results_names (ofNat : ℕ → S) (ln cls ver : Name) (m : ResultsModel S) :
    ∃ d, saveResults ofNat ln cls ver m = .ok d ∧ d.keys = ["state_dict", "loss_history", "epoch", "training_history",
      "loss_function", "model_class", "cdtools_version"].map String.toList :=
  ⟨_, saveResults_eq ofNat ln cls ver m, rfl⟩

/-- what loading needs to find in a results dictionary -/
theorem loadResults_of_finds (toNat : S → ℕ) (pyStr : Tree (PyLeaf S) → Name)
    (m m0 : ResultsModel S) (d sd : Forest (PyLeaf S))
    (h1 : d.find kStateDict = some (.map sd)) (hsd : sd.All Supported)
    (hst : ∀ e ∈ m.state, ∃ l, sd.find e.1 = some (.leaf l) ∧ asTorch l = .tensor false e.2)
    (h2 : d.find kLossHistory = some (.leaf (.arr ⟨[m.lossHistory.length], m.lossHistory⟩)))
    (x : S) (h3 : d.find kEpoch = some (.leaf (.num x))) (hx : toNat x = m.epoch)
    (h4 : d.find kTrainingHistory = some (.leaf (.str m.trainingHistory)))
    (hs : SameShape m0.state m.state) :
    loadResults toNat pyStr m0 d = .ok m := by
  have hconv : nestedDictToTorch sd = .ok (sd.mapLeaf asTorch) :=
    Forest.convert_ok leafToTorch_ok sd hsd
  have hload : loadStateDict (sd.mapLeaf asTorch) m0.state = .ok m.state := by
    apply load_same_shape _ _ _ hs
    intro e he
    obtain ⟨l, hl, ha⟩ := hst e he
    rw [Forest.find_mapLeaf, hl]
    simp [Tree.mapLeaf, ha]
  unfold loadResults
  simp only [h1, h2, h3, h4, hconv, hload, bind, Except.bind, pyListOf, pyIntOf, hx]

/-- Parameter and buffer names of a torch module: distinct and free of '/'. -/
def NamesOK (m : ResultsModel S) : Prop :=
  (m.state.map (·.1)).Nodup ∧ ∀ e ∈ m.state, NameOK e.1

/-- **C13, in memory.** Loading the dictionary `save_results` returns into any model of the same
shape restores every parameter and buffer, the loss history, the epoch and the training
history, whatever the other model held before. -/
theorem results_dict_roundtrip (ofNat : ℕ → S) (toNat : S → ℕ) (hint : ∀ n, toNat (ofNat n) = n)
    (pyStr : Tree (PyLeaf S) → Name) (ln cls ver : Name) (m m0 : ResultsModel S)
    (hn : NamesOK m) (hs : SameShape m0.state m.state) :
    (saveResults ofNat ln cls ver m).bind (loadResults toNat pyStr m0) = .ok m := by
  rw [saveResults_eq]
  simp only [Except.bind]
  refine loadResults_of_finds toNat pyStr m m0 _
    (.ofList (m.state.map fun e => (e.1, .leaf (.arr e.2)))) rfl ?_ ?_ rfl _ rfl (hint _) rfl hs
  · rw [ofList_all]
    intro e he
    simp only [List.mem_map] at he
    obtain ⟨x, _, rfl⟩ := he
    simp [Tree.All, Supported]
  · intro e he
    refine ⟨.arr e.2, ?_, rfl⟩
    rw [find_ofList, lookup_map_val (fun a => Tree.leaf (PyLeaf.arr a)), lookup_of_mem hn.1 he]
    rfl

/-- Strings of a results file contain no NUL. -/
def StringsOK (ln cls ver : Name) (m : ResultsModel S) : Prop :=
  '\x00' ∉ m.trainingHistory ∧ '\x00' ∉ ln ∧ '\x00' ∉ cls ∧ '\x00' ∉ ver

/-- **C13, through an h5 file.** `save_to_h5` followed by reading the file and loading it into a
model of the same shape restores the model exactly. -/
theorem results_h5_roundtrip (ofNat : ℕ → S) (toNat : S → ℕ) (hint : ∀ n, toNat (ofNat n) = n)
    (pyStr : Tree (PyLeaf S) → Name) (ln cls ver : Name) (m m0 : ResultsModel S)
    (hn : NamesOK m) (hstr : StringsOK ln cls ver m) (hs : SameShape m0.state m.state) :
    ∃ d g, saveResults ofNat ln cls ver m = .ok d ∧ nestedDictToH5 d .nil = .ok g ∧
      loadResults toNat pyStr m0 (h5ToNestedDict g) = .ok m := by
  have hsdk : (Forest.ofList (m.state.map fun e =>
      (e.1, Tree.leaf (PyLeaf.arr e.2)))).KeysOK := by
    apply ofList_keysOK
    · simpa [List.map_map, Function.comp_def] using hn.1
    · intro e he
      simp only [List.mem_map] at he
      obtain ⟨x, hx, rfl⟩ := he
      exact ⟨hn.2 x hx, by simp [Tree.KeysOK]⟩
  have hsda : (Forest.ofList (m.state.map fun e =>
      (e.1, Tree.leaf (PyLeaf.arr e.2)))).All Storable := by
    rw [ofList_all]
    intro e he
    simp only [List.mem_map] at he
    obtain ⟨x, hx, rfl⟩ := he
    simp [Tree.All, Storable]
  have hk : (resultsDict ofNat ln cls ver m).KeysOK := by
    apply ofList_keysOK
    · simp only [List.map_cons, List.map_nil]; decide
    · intro e he
      simp only [List.mem_cons, List.not_mem_nil, or_false] at he
      have hname : ∀ k ∈ [kStateDict, kLossHistory, kEpoch, kTrainingHistory, kLossFunction,
          kModelClass, kVersion], NameOK k := by
        intro k hk
        have : k ≠ [] ∧ '/' ∉ k ∧ k ≠ ['.'] := by
          revert k; decide
        exact this
      rcases he with rfl | rfl | rfl | rfl | rfl | rfl | rfl
      · exact ⟨hname _ (by simp), by simpa [Tree.KeysOK] using hsdk⟩
      all_goals exact ⟨hname _ (by simp), by simp [Tree.KeysOK]⟩
  have ha : (resultsDict ofNat ln cls ver m).All Storable := by
    rw [resultsDict, ofList_all]
    intro e he
    simp only [List.mem_cons, List.not_mem_nil, or_false] at he
    obtain ⟨s1, s2, s3, s4⟩ := hstr
    rcases he with rfl | rfl | rfl | rfl | rfl | rfl | rfl
    · simpa [Tree.All] using hsda
    all_goals simp [Tree.All, Storable, s1, s2, s3, s4]
  refine ⟨_, _, saveResults_eq ofNat ln cls ver m, write_eq _ _ hk ha (by simp [Forest.keys]), ?_⟩
  simp only [Forest.append, h5ToNestedDict_eq, Forest.mapLeaf_mapLeaf, resultsDict,
    ofList_mapLeaf]
  refine loadResults_of_finds toNat pyStr m m0 _
    ((Forest.ofList (m.state.map fun e => (e.1, Tree.leaf (PyLeaf.arr e.2)))).mapLeaf
      (leafFromH5 ∘ storedAs)) ?_ ?_ ?_ rfl _ rfl (hint _) rfl hs
  · simp [find_ofList, List.lookup, Tree.mapLeaf, Forest.mapLeaf_mapLeaf]
  · rw [Forest.all_mapLeaf]
    refine Forest.all_mono (fun l hl => ?_) _ hsda
    cases l with
    | arr a => rcases a with ⟨_ | ⟨n, ns⟩, _ | ⟨x, _ | ⟨y, xs⟩⟩⟩ <;> simp [storedAs, leafFromH5, Supported]
    | tensor g a => rcases a with ⟨_ | ⟨n, ns⟩, _ | ⟨x, _ | ⟨y, xs⟩⟩⟩ <;> simp [storedAs, leafFromH5, Supported]
    | num x => simp [storedAs, leafFromH5, Supported]
    | str s => simp [storedAs, leafFromH5, Supported]
    | other => simp [storedAs, leafFromH5, Supported]
  · intro e he
    refine ⟨leafFromH5 (storedAs (.arr e.2)), ?_, ?_⟩
    · rw [Forest.find_mapLeaf, find_ofList, lookup_map_val (fun a => Tree.leaf (PyLeaf.arr a)),
        lookup_of_mem hn.1 he]
      rfl
    · rcases e with ⟨k, ⟨_ | ⟨n, ns⟩, _ | ⟨x, _ | ⟨y, xs⟩⟩⟩⟩ <;> rfl

/-- Non-vacuity: a model with two parameters and a fresh one of the same shape. -/
example : NamesOK (⟨[("probe".toList, ⟨[2], [1, 2]⟩), ("obj".toList, ⟨[], [5]⟩)], [9, 8], 2,
      "run".toList⟩ : ResultsModel ℕ) ∧
    SameShape [("probe".toList, (⟨[2], [0, 0]⟩ : Arr ℕ)), ("obj".toList, ⟨[], [0]⟩)]
      [("probe".toList, ⟨[2], [1, 2]⟩), ("obj".toList, ⟨[], [5]⟩)] := by
  refine ⟨⟨by decide, ?_⟩, ?_⟩
  · intro e he
    simp only [List.mem_cons, List.not_mem_nil, or_false] at he
    rcases he with rfl | rfl <;> simp [NameOK]
  · exact .cons ⟨rfl, rfl⟩ (.cons ⟨rfl, rfl⟩ .nil)

end Cdtools
