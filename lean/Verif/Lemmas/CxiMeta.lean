/- Helper lemmas about cxi metadata. -/
import Verif.Lemmas.Cxi
import Mathlib.Data.List.Basic

namespace Cdtools
set_option linter.unusedSectionVars false

theorem append_singleton_ne {base : Path} {k k' : String} (h : k ≠ k') :
    base ++ [k] ≠ base ++ [k'] := by
  intro e; exact h (by simpa using e)

theorem addMeta_cons {D : Type} (iso : D → String) (base : Path) (f : H5File) (k : String)
    (v : MetaVal D) (rest : List (String × MetaVal D)) (f' : H5File) :
    addMeta iso base f ((k, v) :: rest) = .ok f' ↔
      (metaDataset iso v = .ok none ∧ addMeta iso base f rest = .ok f') ∨
      (∃ x g, metaDataset iso v = .ok (some x) ∧ f.has base = true ∧
        f.create (base ++ [k]) (.dataset x none) = .ok g ∧ addMeta iso base g rest = .ok f') := by
  rw [addMeta, except_bind_ok]
  constructor
  · rintro ⟨o, ho, h⟩
    cases o with
    | none => exact Or.inl ⟨ho, h⟩
    | some x =>
      refine Or.inr ?_
      simp only at h
      split at h
      · rw [except_bind_ok] at h
        obtain ⟨g, hg, h⟩ := h
        exact ⟨x, g, ho, by assumption, hg, h⟩
      · cases h
  · rintro (⟨ho, h⟩ | ⟨x, g, ho, hb, hg, h⟩)
    · exact ⟨none, ho, h⟩
    · refine ⟨some x, ho, ?_⟩
      simp only
      rw [if_pos hb, except_bind_ok]
      exact ⟨g, hg, h⟩

theorem addMeta_ok {D : Type} {iso : D → String} {base : Path} :
    ∀ {md : List (String × MetaVal D)} {f f' : H5File}, addMeta iso base f md = .ok f' →
      f.Le f' ∧
      (∀ k v, (k, v) ∈ md → ∀ x, metaDataset iso v = .ok (some x) →
        f' (base ++ [k]) = some (.dataset x none)) ∧
      (∀ k v, (k, v) ∈ md → ∃ o, metaDataset iso v = .ok o) ∧
      (∀ q, (∀ k ∈ md.map Prod.fst, q ≠ base ++ [k]) → f' q = f q)
  | [], f, f', h => by
      cases h
      exact ⟨H5File.Le.refl _, by simp, by simp, fun _ _ => rfl⟩
  | (k, v) :: rest, f, f', h => by
      rcases (addMeta_cons iso base f k v rest f').1 h with ⟨ho, h⟩ | ⟨x, g, ho, hb, hg, h⟩
      · obtain ⟨a, b, c, d⟩ := addMeta_ok h
        refine ⟨a, ?_, ?_, fun q hq => d q (fun k hk => hq k (by simp at hk ⊢; exact Or.inr hk))⟩
        · intro k' v' hm x hx
          rcases List.mem_cons.1 hm with e | e
          · cases e; rw [ho] at hx; cases hx
          · exact b k' v' e x hx
        · intro k' v' hm
          rcases List.mem_cons.1 hm with e | e
          · cases e; exact ⟨_, ho⟩
          · exact c k' v' e
      · obtain ⟨_, c2, c3, c4⟩ := create_ok hg
        obtain ⟨a, b, c, d⟩ := addMeta_ok h
        refine ⟨c4.trans a, ?_, ?_, ?_⟩
        · intro k' v' hm x' hx
          rcases List.mem_cons.1 hm with e | e
          · cases e; rw [ho] at hx; cases hx; exact a _ _ c2
          · exact b k' v' e x' hx
        · intro k' v' hm
          rcases List.mem_cons.1 hm with e | e
          · cases e; exact ⟨_, ho⟩
          · exact c k' v' e
        · intro q hq
          rw [d q (fun k hk => hq k (by simp at hk ⊢; exact Or.inr hk)), c3 q (hq k (by simp))]

theorem addMeta_total {D : Type} {iso : D → String} {base : Path} :
    ∀ (md : List (String × MetaVal D)) (f : H5File), f base = some .group →
      (md.map Prod.fst).Nodup → (∀ k ∈ md.map Prod.fst, f (base ++ [k]) = none) →
      (∀ k v, (k, v) ∈ md → ∃ o, metaDataset iso v = .ok o) →
      ∃ f', addMeta iso base f md = .ok f'
  | [], f, _, _, _, _ => ⟨f, rfl⟩
  | (k, v) :: rest, f, hb, hnd, habs, hv => by
      simp only [List.map_cons, List.nodup_cons] at hnd
      obtain ⟨o, ho⟩ := hv k v (by simp)
      have hv' : ∀ k' v', (k', v') ∈ rest → ∃ o, metaDataset iso v' = .ok o :=
        fun k' v' h => hv k' v' (by simp [h])
      cases o with
      | none =>
        obtain ⟨f', hf'⟩ := addMeta_total rest f hb hnd.2
          (fun k hk => habs k (by simp at hk ⊢; exact Or.inr hk)) hv'
        exact ⟨f', (addMeta_cons ..).2 (Or.inl ⟨ho, hf'⟩)⟩
      | some x =>
        have hn := habs k (by simp)
        obtain ⟨g, hc⟩ : ∃ g, f.create (base ++ [k]) (.dataset x none) = .ok g := by
          simp [H5File.create, hn]
        obtain ⟨_, c2, c3, c4⟩ := create_ok hc
        obtain ⟨f', hf'⟩ := addMeta_total (iso := iso) (base := base) rest g (c4 _ _ hb) hnd.2
          (fun k' hk' => by
            rw [c3 _ (append_singleton_ne (by rintro rfl; exact hnd.1 hk'))]
            exact habs k' (by simp at hk' ⊢; exact Or.inr hk')) hv'
        exact ⟨f', (addMeta_cons ..).2 (Or.inr ⟨x, _, ho, by simp [H5File.has, H5File.resolve, hb],
          hc, hf'⟩)⟩

theorem collectAttrs_eq {V : Type} {rd : String → Except PyExc (Option V)} {v : String → Option V} :
    ∀ {as : List String}, (∀ a ∈ as, rd a = .ok (v a)) →
      collectAttrs rd as = .ok (as.filterMap fun a => (v a).map fun x => (a, x))
  | [], _ => rfl
  | a :: as, h => by
      rw [collectAttrs, except_bind_ok]
      refine ⟨v a, h a (by simp), ?_⟩
      rw [except_bind_ok]
      refine ⟨_, collectAttrs_eq fun b hb => h b (by simp [hb]), ?_⟩
      cases hv : v a <;> simp [hv]

theorem lookup_filterMap {V : Type} {v : String → Option V} {k : String} :
    ∀ {as : List String},
      (as.filterMap fun a => (v a).map fun x => (a, x)).lookup k = if k ∈ as then v k else none
  | [] => by simp
  | a :: as => by
      rw [List.filterMap_cons]
      cases hv : v a with
      | none =>
        simp only [Option.map_none, lookup_filterMap (as := as), List.mem_cons]
        by_cases h : k = a
        · subst h; simp [hv]
        · simp [h]
      | some x =>
        simp only [Option.map_some, List.lookup_cons, lookup_filterMap (as := as), List.mem_cons]
        by_cases h : k = a
        · subst h; simp [hv]
        · simp [h, beq_false_of_ne h]

theorem lookup_append {V : Type} (k : String) (a b : List (String × V)) :
    (a ++ b).lookup k = (a.lookup k).or (b.lookup k) := by
  induction a with
  | nil => simp
  | cons x xs ih =>
    obtain ⟨k', v⟩ := x
    simp only [List.cons_append, List.lookup_cons]
    cases k == k' <;> simp [ih]

theorem mem_of_lookup {V : Type} {k : String} {v : V} :
    ∀ {l : List (String × V)}, l.lookup k = some v → (k, v) ∈ l
  | [], h => by simp at h
  | (k', v') :: l, h => by
      rw [List.lookup_cons] at h
      by_cases e : k = k'
      · subst e; simp at h; simp [h]
      · simp [beq_false_of_ne e] at h; simp [mem_of_lookup h]

theorem lookup_none_iff {V : Type} {k : String} {l : List (String × V)} :
    l.lookup k = none ↔ k ∉ l.map Prod.fst := by
  induction l with
  | nil => simp
  | cons x xs ih =>
    obtain ⟨k', v⟩ := x
    rw [List.lookup_cons]
    by_cases e : k = k'
    · subst e; simp
    · simp [beq_false_of_ne e, ih, e]

theorem lookup_of_mem_nodup {V : Type} {k : String} {v : V} :
    ∀ {l : List (String × V)}, (l.map Prod.fst).Nodup → (k, v) ∈ l → l.lookup k = some v
  | [], _, h => by simp at h
  | (k', v') :: l, hn, h => by
      simp only [List.map_cons, List.nodup_cons] at hn
      rcases List.mem_cons.1 h with e | e
      · cases e; simp
      · have : k ≠ k' := by
          rintro rfl; exact hn.1 (List.mem_map_of_mem (f := Prod.fst) e)
        rw [List.lookup_cons]; simp [beq_false_of_ne this, lookup_of_mem_nodup hn.2 e]

end Cdtools
