/- Property theorem C19: entry and sample metadata in cxi files. -/
import Verif.Lemmas.CxiMeta
import Verif.Props.Cxi

namespace Cdtools
set_option linter.unusedSectionVars false
variable {D : Type}

/-! ### C19 -/

/-- Entry metadata that the cxi reader understands: under the six text attributes, ASCII strings
that do not look like a date, or dates whose isoformat parses back; an array under
`polarization_states`. -/
def EntryOk (iso : D → String) (parse : String → Option D) (k : String) (v : MetaVal D) : Prop :=
  (k ∈ ["title", "experiment_identifier", "experiment_description", "program_name", "start_time",
      "end_time"] ∧
    ((∃ s, v = .str s ∧ (∀ c ∈ s.toList, c.toNat < 128) ∧ parse s = none) ∨
     (∃ d, v = .date d ∧ (∀ c ∈ (iso d).toList, c.toNat < 128) ∧ parse (iso d) = some d))) ∨
  (k = "polarization_states" ∧ ∃ a, v = .arr a)

/-- The seven entry attributes. -/
def entryKeys : List String := entryAttrs ++ ["polarization_states"]

theorem toBytes_ascii {s : String} (h : ∀ c ∈ s.toList, c.toNat < 128) : toBytes s = .ok (.str s) := by
  unfold toBytes
  rw [if_pos]
  simpa using h

theorem EntryOk.dataset {iso : D → String} {parse : String → Option D} {k : String} {v : MetaVal D}
    (h : EntryOk iso parse k v) : ∃ x, metaDataset iso v = .ok (some x) := by
  rcases h with ⟨_, ⟨s, rfl, hs, _⟩ | ⟨d, rfl, hd, _⟩⟩ | ⟨_, a, rfl⟩
  · exact ⟨_, by rw [metaDataset, toBytes_ascii hs]; rfl⟩
  · exact ⟨_, by rw [metaDataset, toBytes_ascii hd]; rfl⟩
  · exact ⟨_, rfl⟩

/-- Reading back entry metadata from a file holding exactly these attributes. -/
theorem entry_info_read {iso : D → String} {parse : String → Option D} {g : H5File}
    {md : List (String × MetaVal D)} (hp : g.has pEntry = true)
    (hok : ∀ k v, (k, v) ∈ md → EntryOk iso parse k v)
    (hin : ∀ k v, (k, v) ∈ md → ∀ x, metaDataset iso v = .ok (some x) →
      g (pEntry ++ [k]) = some (.dataset x none))
    (habs : ∀ k ∈ entryKeys, k ∉ md.map Prod.fst → g (pEntry ++ [k]) = none) :
    ∃ l, getEntryInfo parse g = .ok l ∧ ∀ k, l.lookup k = md.lookup k := by
  have r1 : ∀ a ∈ entryAttrs, readEntryAttr parse g a = .ok (md.lookup a) := by
    intro a ha
    rcases hl : md.lookup a with _ | v
    · have := habs a (by simp [entryKeys, ha]) (lookup_none_iff.1 hl)
      simp [readEntryAttr, has_of_none this]
    · have hm := mem_of_lookup hl
      rcases hok _ _ hm with ⟨_, ⟨s, rfl, hs, hps⟩ | ⟨d, rfl, hd, hpd⟩⟩ | ⟨rfl, _⟩
      · have := hin _ _ hm (.str s) (by rw [metaDataset, toBytes_ascii hs]; rfl)
        simp [readEntryAttr, has_of_dataset this, read_of_dataset this, hps]
      · have := hin _ _ hm (.str (iso d)) (by rw [metaDataset, toBytes_ascii hd]; rfl)
        simp [readEntryAttr, has_of_dataset this, read_of_dataset this, hpd]
      · exact absurd ha (by decide)
  have r2 : ∀ a ∈ ["polarization_states"], (if g.has (pEntry ++ [a]) then
        match g.read (pEntry ++ [a]) with
        | .ok (.arr a) => .ok (some (MetaVal.arr a))
        | .ok _ => .error .typeError
        | .error e => .error e
      else .ok none : Except PyExc (Option (MetaVal D))) = .ok (md.lookup a) := by
    intro a ha
    rcases hl : md.lookup a with _ | v
    · have := habs a (by simp at ha; subst ha; decide) (lookup_none_iff.1 hl)
      simp [has_of_none this]
    · have hm := mem_of_lookup hl
      rcases hok _ _ hm with ⟨hk, _⟩ | ⟨_, x, rfl⟩
      · simp at ha; subst ha; exact absurd hk (by decide)
      · have := hin _ _ hm (.arr x) rfl
        simp [has_of_dataset this, read_of_dataset this]
  refine ⟨(entryAttrs.filterMap fun a => (md.lookup a).map fun x => (a, x)) ++
    (["polarization_states"].filterMap fun a => (md.lookup a).map fun x => (a, x)), ?_, ?_⟩
  · unfold getEntryInfo
    rw [hp]
    simp only [Bool.not_true, Bool.false_eq_true, if_false]
    rw [except_bind_ok]
    refine ⟨_, collectAttrs_eq r1, ?_⟩
    rw [except_bind_ok]
    exact ⟨_, collectAttrs_eq r2, rfl⟩
  · intro k
    rw [lookup_append, lookup_filterMap, lookup_filterMap]
    rcases hl : md.lookup k with _ | v
    · split <;> split <;> simp
    · rcases hok _ _ (mem_of_lookup hl) with ⟨hk, _⟩ | ⟨rfl, _⟩
      · rw [if_pos (show k ∈ entryAttrs from hk)]; simp
      · rw [if_neg (by decide), if_pos (by decide)]; simp

/-- **C19** (entry metadata; restricted to the attributes and values of `EntryOk`): writing
metadata into an entry without such attributes succeeds and `get_entry_info` then returns a
dictionary with exactly the same items. -/
theorem entry_info_roundtrip_partial (iso : D → String) (parse : String → Option D) (f : H5File)
    (md : List (String × MetaVal D)) (hnd : (md.map Prod.fst).Nodup)
    (hok : ∀ k v, (k, v) ∈ md → EntryOk iso parse k v)
    (hf : f pEntry = some .group) (habs : ∀ k ∈ entryKeys, f (pEntry ++ [k]) = none) :
    ∃ f' l, addEntryInfo iso f md = .ok f' ∧ getEntryInfo parse f' = .ok l ∧
      ∀ k, l.lookup k = md.lookup k := by
  have hkey : ∀ k ∈ md.map Prod.fst, k ∈ entryKeys := by
    intro k hk
    obtain ⟨⟨k', v⟩, hm, rfl⟩ := List.mem_map.1 hk
    rcases hok _ _ hm with ⟨h, _⟩ | ⟨h, _⟩
    · exact List.mem_append_left _ h
    · have : k' = "polarization_states" := h
      subst this; exact (by decide : "polarization_states" ∈ entryKeys)
  obtain ⟨f', h⟩ := addMeta_total (iso := iso) (base := pEntry) md f hf hnd
    (fun k hk => habs k (hkey k hk)) (fun k v hm => by
      obtain ⟨x, hx⟩ := (hok k v hm).dataset; exact ⟨_, hx⟩)
  obtain ⟨a, b, c, d⟩ := addMeta_ok h
  obtain ⟨l, hl, hlk⟩ := entry_info_read (iso := iso) (g := f') (md := md)
    (by have := a _ _ hf; simp [H5File.has, H5File.resolve, this]) hok b
    (fun k hk hn => by
      rw [d _ (fun k' hk' => append_singleton_ne (by rintro rfl; exact hn hk'))]
      exact habs k hk)
  exact ⟨f', l, h, hl, hlk⟩

/-- Sample metadata that the cxi reader understands. -/
def SampleOk (f32 : ℝ → ℝ) (k : String) (v : MetaVal D) : Prop :=
  (k ∈ ["name", "description", "unit_cell_group"] ∧
    ∃ s, v = .str s ∧ ∀ c ∈ s.toList, c.toNat < 128) ∨
  (k ∈ ["concentration", "mass", "temperature", "thickness", "unit_cell_volume"] ∧
    ∃ x, v = .num x ∧ f32 x = x) ∨
  (k = "unit_cell" ∧ ∃ a : Arr ℝ, v = .arr a ∧ ∀ x ∈ a.vals, f32 x = x)

/-- An orientation matrix: single precision rows, the first two of unit length, the third their
cross product. -/
def OrientOk (f32 : ℝ → ℝ) (o : Orientation) : Prop :=
  let fix := fun v : ℝ × ℝ × ℝ => f32 v.1 = v.1 ∧ f32 v.2.1 = v.2.1 ∧ f32 v.2.2 = v.2.2
  let unit := fun v : ℝ × ℝ × ℝ => v.1 ^ 2 + v.2.1 ^ 2 + v.2.2 ^ 2 = 1
  fix o.1 ∧ fix o.2.1 ∧ unit o.1 ∧ unit o.2.1 ∧
  o.2.2 = (o.1.2.1 * o.2.1.2.2 - o.1.2.2 * o.2.1.2.1, o.1.2.2 * o.2.1.1 - o.1.1 * o.2.1.2.2,
    o.1.1 * o.2.1.2.1 - o.1.2.1 * o.2.1.1)

/-- The nine plain sample attributes. -/
def sampleKeys : List String :=
  ["name", "description", "unit_cell_group"] ++
  ["concentration", "mass", "temperature", "thickness", "unit_cell_volume"] ++ ["unit_cell"]

theorem SampleOk.dataset {iso : D → String} {f32 : ℝ → ℝ} {k : String} {v : MetaVal D}
    (h : SampleOk f32 k v) : ∃ x, metaDataset iso v = .ok (some x) := by
  rcases h with ⟨_, s, rfl, hs⟩ | ⟨_, x, rfl, _⟩ | ⟨_, a, rfl, _⟩
  · exact ⟨_, by rw [metaDataset, toBytes_ascii hs]; rfl⟩
  · exact ⟨_, rfl⟩
  · exact ⟨_, rfl⟩

theorem unit3_unit {v : ℝ × ℝ × ℝ} (h : v.1 ^ 2 + v.2.1 ^ 2 + v.2.2 ^ 2 = 1) : unit3 v = v := by
  simp [unit3, h]

theorem SampleOk.key {f32 : ℝ → ℝ} {k : String} {v : MetaVal D} (h : SampleOk f32 k v) :
    k ∈ sampleKeys := by
  rcases h with ⟨h, _⟩ | ⟨h, _⟩ | ⟨h, _⟩
  · simp [sampleKeys]; simp at h; tauto
  · simp [sampleKeys]; simp at h; tauto
  · simp [sampleKeys, h]

/-- Reading back sample metadata from a file holding exactly these attributes. -/
theorem sample_info_read {iso : D → String} {f32 : ℝ → ℝ} {g : H5File} {md : SampleInfo D}
    (hp : g.has pSample = true)
    (hok : ∀ k v, (k, v) ∈ md.entries → SampleOk f32 k v)
    (hor : ∀ o, md.orientation = some o → OrientOk f32 o)
    (hin : ∀ k v, (k, v) ∈ md.entries → ∀ x, metaDataset iso v = .ok (some x) →
      g (pSample ++ [k]) = some (.dataset x none))
    (hino : ∀ o, md.orientation = some o → g (pGeom ++ ["orientation"]) = some (.dataset
      (.arr ⟨[6], [o.1.1, o.1.2.1, o.1.2.2, o.2.1.1, o.2.1.2.1, o.2.1.2.2]⟩) none))
    (habs : ∀ k ∈ sampleKeys, k ∉ md.entries.map Prod.fst → g (pSample ++ [k]) = none)
    (habso : md.orientation = none → g (pGeom ++ ["orientation"]) = none)
    (hsn : g (pGeom ++ ["surface_normal"]) = none) :
    ∃ r : SampleInfo D, r.orientation = md.orientation ∧
      (∀ k, r.entries.lookup k = md.entries.lookup k) ∧
      getSampleInfo f32 g = .ok
        (if md.entries = [] ∧ md.orientation = none then none else some r) := by
  have key : ∀ k v, (k, v) ∈ md.entries → ∀ x, metaDataset iso v = .ok (some x) →
      g.has (pSample ++ [k]) = true ∧ g.read (pSample ++ [k]) = .ok x :=
    fun k v hm x hx => ⟨has_of_dataset (hin k v hm x hx), read_of_dataset (hin k v hm x hx)⟩
  have nkey : ∀ k ∈ sampleKeys, md.entries.lookup k = none → g.has (pSample ++ [k]) = false :=
    fun k hk hl => has_of_none (habs k hk (lookup_none_iff.1 hl))
  have hmap : ∀ a : Arr ℝ, (∀ x ∈ a.vals, f32 x = x) → (⟨a.shape, a.vals.map f32⟩ : Arr ℝ) = a := by
    intro a ha
    have : a.vals.map f32 = a.vals := by
      conv_rhs => rw [← List.map_id a.vals]
      exact List.map_congr_left ha
    rw [this]
  have r1 : ∀ a ∈ ["name", "description", "unit_cell_group"],
      readSampleStr (D := D) g a = .ok (md.entries.lookup a) := by
    intro a ha
    rcases hl : md.entries.lookup a with _ | v
    · simp [readSampleStr, nkey a (by simp [sampleKeys]; simp at ha; tauto) hl]
    · have hm := mem_of_lookup hl
      rcases hok _ _ hm with ⟨_, s, rfl, hs⟩ | ⟨hk, _⟩ | ⟨rfl, _⟩
      · obtain ⟨k1, k2⟩ := key _ _ hm (.str s) (by rw [metaDataset, toBytes_ascii hs]; rfl)
        simp [readSampleStr, k1, k2]
      · simp at ha hk; rcases ha with rfl | rfl | rfl <;> simp at hk
      · exact absurd ha (by decide)
  have r2 : ∀ a ∈ ["concentration", "mass", "temperature", "thickness", "unit_cell_volume"],
      readSampleNum (D := D) f32 g a = .ok (md.entries.lookup a) := by
    intro a ha
    rcases hl : md.entries.lookup a with _ | v
    · simp [readSampleNum, nkey a (by simp [sampleKeys]; simp at ha; tauto) hl]
    · have hm := mem_of_lookup hl
      rcases hok _ _ hm with ⟨hk, _⟩ | ⟨_, x, rfl, hx⟩ | ⟨rfl, _⟩
      · simp at ha hk; rcases hk with rfl | rfl | rfl <;> simp at ha
      · obtain ⟨k1, k2⟩ := key _ _ hm (.num x) rfl
        simp [readSampleNum, k1, k2, hx]
      · exact absurd ha (by decide)
  have r3 : ∀ a ∈ ["unit_cell"], readSampleArr (D := D) f32 g a = .ok (md.entries.lookup a) := by
    intro a ha
    rcases hl : md.entries.lookup a with _ | v
    · simp [readSampleArr, nkey a (by simp [sampleKeys]; simp at ha; tauto) hl]
    · have hm := mem_of_lookup hl
      rcases hok _ _ hm with ⟨hk, _⟩ | ⟨hk, _⟩ | ⟨_, x, rfl, hx⟩
      · simp at ha; subst ha; exact absurd hk (by decide)
      · simp at ha; subst ha; exact absurd hk (by decide)
      · obtain ⟨k1, k2⟩ := key _ _ hm (.arr x) rfl
        simp [readSampleArr, k1, k2, hmap x hx]
  have r4 : readOrientation f32 g = md.orientation := by
    unfold readOrientation
    rcases ho : md.orientation with _ | ⟨x, y, z⟩
    · simp [tryArr, read_of_none (habso ho)]
    · obtain ⟨⟨a1, a2, a3⟩, ⟨b1, b2, b3⟩, ux, uy, hz⟩ := hor _ ho
      simp only [tryArr, read_of_dataset (hino _ ho), triple, List.getD_cons_zero,
        List.getD_cons_succ]
      simp only at a1 a2 a3 b1 b2 b3 ux uy hz
      rw [a1, a2, a3, b1, b2, b3, unit3_unit (v := x) ux, unit3_unit (v := y) uy, hz]
      rfl
  refine ⟨⟨(["name", "description", "unit_cell_group"].filterMap
        fun a => (md.entries.lookup a).map fun x => (a, x)) ++
      (["concentration", "mass", "temperature", "thickness", "unit_cell_volume"].filterMap
        fun a => (md.entries.lookup a).map fun x => (a, x)) ++
      (["unit_cell"].filterMap fun a => (md.entries.lookup a).map fun x => (a, x)),
    md.orientation⟩, rfl, ?_, ?_⟩
  · intro k
    simp only
    rw [lookup_append, lookup_append, lookup_filterMap, lookup_filterMap, lookup_filterMap]
    rcases hl : md.entries.lookup k with _ | v
    · simp
    · have := (hok _ _ (mem_of_lookup hl)).key
      rw [sampleKeys, List.mem_append, List.mem_append] at this
      by_cases h1 : k ∈ ["name", "description", "unit_cell_group"]
      · simp [h1]
      · by_cases h2 : k ∈ ["concentration", "mass", "temperature", "thickness", "unit_cell_volume"]
        · rw [if_neg h1, if_pos h2]; simp
        · rw [if_neg h1, if_neg h2, if_pos (by tauto)]; simp
  · unfold getSampleInfo
    rw [hp]
    simp only [Bool.not_true, Bool.false_eq_true, if_false]
    rw [except_bind_ok]
    refine ⟨_, collectAttrs_eq r1, ?_⟩
    rw [except_bind_ok]
    refine ⟨_, collectAttrs_eq r2, ?_⟩
    rw [except_bind_ok]
    refine ⟨_, collectAttrs_eq r3, ?_⟩
    have e5 : readSurfaceNormal f32 g = none := by
      simp [readSurfaceNormal, tryArr, read_of_none hsn]
    simp only [e5, r4, Option.none_or]
    congr 1
    have hemp : ((["name", "description", "unit_cell_group"].filterMap
        fun a => (md.entries.lookup a).map fun x => (a, x)) ++
      (["concentration", "mass", "temperature", "thickness", "unit_cell_volume"].filterMap
        fun a => (md.entries.lookup a).map fun x => (a, x)) ++
      (["unit_cell"].filterMap fun a => (md.entries.lookup a).map fun x => (a, x))).isEmpty = true
        ↔ md.entries = [] := by
      rw [List.isEmpty_iff]
      constructor
      · intro he
        rcases hmd : md.entries with _ | ⟨⟨k, v⟩, rest⟩
        · rfl
        · exfalso
          have hk := (hok k v (by simp [hmd])).key
          have hl : md.entries.lookup k = some v := by simp [hmd]
          have hm : (k, v) ∈ (["name", "description", "unit_cell_group"].filterMap
            fun a => (md.entries.lookup a).map fun x => (a, x)) ++
            (["concentration", "mass", "temperature", "thickness", "unit_cell_volume"].filterMap
              fun a => (md.entries.lookup a).map fun x => (a, x)) ++
            (["unit_cell"].filterMap fun a => (md.entries.lookup a).map fun x => (a, x)) := by
            rw [← List.filterMap_append, ← List.filterMap_append]
            exact List.mem_filterMap.2 ⟨k, hk, by simp [hl]⟩
          rw [he] at hm
          simp at hm
      · intro he; simp [he]
    by_cases hc : md.entries = [] ∧ md.orientation = none
    · rw [if_pos hc, if_pos]
      simp only [Bool.and_eq_true]
      exact ⟨hemp.2 hc.1, by simp [hc.2]⟩
    · rw [if_neg hc, if_neg]
      simp only [Bool.and_eq_true]
      rintro ⟨h1, h2⟩
      exact hc ⟨hemp.1 h1, by simpa using h2⟩

/-- Leaves written for sample metadata. -/
def sampleLeaves (md : SampleInfo D) : List Path :=
  (pGeom ++ ["orientation"]) :: md.entries.map fun e => pSample ++ [e.1]

theorem sampleKey_not_group {k : String} (h : k ∈ sampleKeys) : pSample ++ [k] ∉ groupPaths := by
  simp only [sampleKeys, List.cons_append, List.nil_append, List.mem_cons, List.not_mem_nil,
    or_false] at h
  rcases h with rfl | rfl | rfl | rfl | rfl | rfl | rfl | rfl | rfl <;> decide

theorem addMeta_sane {iso : D → String} {base : Path} {f f' : H5File}
    {md : List (String × MetaVal D)} (hs : Sane f)
    (hng : ∀ k ∈ md.map Prod.fst, base ++ [k] ∉ groupPaths)
    (h : addMeta iso base f md = .ok f') :
    Sane f' ∧ Chg (md.map fun e => base ++ [e.1]) f f' := by
  obtain ⟨a, _, _, d⟩ := addMeta_ok h
  refine ⟨⟨a _ _ hs.entry, fun p hp => ?_⟩, fun q _ hq => d q fun k hk => ?_⟩
  · rw [d p (fun k hk => by rintro rfl; exact hng k hk hp)]
    exact hs.groups p hp
  · rintro rfl
    obtain ⟨e, he, rfl⟩ := List.mem_map.1 hk
    exact hq (List.mem_map_of_mem (f := fun e : String × MetaVal D => base ++ [e.1]) he)

theorem addSampleInfo_total {iso : D → String} {f32 : ℝ → ℝ} {f : H5File} (hs : Sane f)
    (md : SampleInfo D) (hnd : (md.entries.map Prod.fst).Nodup)
    (hok : ∀ k v, (k, v) ∈ md.entries → SampleOk f32 k v)
    (habs : ∀ k ∈ sampleKeys, f (pSample ++ [k]) = none)
    (habso : f (pGeom ++ ["orientation"]) = none) :
    ∃ f', addSampleInfo iso f md = .ok f' ∧ Sane f' ∧ Chg (sampleLeaves md) f f' ∧ f.Le f' ∧
      f' pSample = some .group ∧
      (∀ k v, (k, v) ∈ md.entries → ∀ x, metaDataset iso v = .ok (some x) →
        f' (pSample ++ [k]) = some (.dataset x none)) ∧
      (∀ o, md.orientation = some o → f' (pGeom ++ ["orientation"]) = some (.dataset
        (.arr ⟨[6], [o.1.1, o.1.2.1, o.1.2.2, o.2.1.1, o.2.1.2.1, o.2.1.2.2]⟩) none)) ∧
      (md.orientation = none → f' (pGeom ++ ["orientation"]) = none) := by
  obtain ⟨f1, h1, s1, c1, g1, l1⟩ := ensure_total hs (name := "sample_1") hs.entry (by decide)
  have keys : ∀ k ∈ md.entries.map Prod.fst, k ∈ sampleKeys := by
    intro k hk
    obtain ⟨⟨k', v⟩, hm, rfl⟩ := List.mem_map.1 hk
    exact (hok _ _ hm).key
  have go_ne : ∀ k : String, pGeom ++ ["orientation"] ≠ pSample ++ [k] := by
    intro k; simp [pGeom, pSample]
  obtain ⟨f3, h3, s3, c3, l3, o3, n3⟩ : ∃ f3, addOrientation f1 md.orientation = .ok f3 ∧ Sane f3 ∧ Chg [pGeom ++ ["orientation"]] f1 f3 ∧ f1.Le f3 ∧
      (∀ o, md.orientation = some o → f3 (pGeom ++ ["orientation"]) = some (.dataset
        (.arr ⟨[6], [o.1.1, o.1.2.1, o.1.2.2, o.2.1.1, o.2.1.2.1, o.2.1.2.2]⟩) none)) ∧
      (md.orientation = none → f3 (pGeom ++ ["orientation"]) = none) := by
    rcases ho : md.orientation with _ | ⟨x, y, z⟩
    · refine ⟨f1, rfl, s1, (Chg.refl f1).mono (by simp), H5File.Le.refl _, by simp, fun _ => ?_⟩
      rw [c1 _ (by decide) (by simp), habso]
    · obtain ⟨f2, h2, s2, c2, g2, l2⟩ := ensure_total s1 (parent := pSample)
        (name := "geometry_1") g1 (by decide)
      obtain ⟨f3, h3, s3, c3, l3⟩ := create_total s2 (p := pGeom ++ ["orientation"]) (by decide)
        (by rw [c2 _ (by decide) (by simp), c1 _ (by decide) (by simp), habso]) (.dataset
          (.arr ⟨[6], [x.1, x.2.1, x.2.2, y.1, y.2.1, y.2.2]⟩) none)
      refine ⟨f3, ?_, s3, c2.trans c3, l2.trans l3, ?_, by simp⟩
      · rw [addOrientation, except_bind_ok]; exact ⟨f2, h2, h3⟩
      · intro o ho; cases ho; exact (create_ok h3).2.1
  have c13 := c1.trans c3
  have habs3 : ∀ k ∈ md.entries.map Prod.fst, f3 (pSample ++ [k]) = none := by
    intro k hk
    rw [c13 _ (sampleKey_not_group (keys k hk)) (by simp [pGeom, pSample])]
    exact habs k (keys k hk)
  obtain ⟨f4, h4⟩ := addMeta_total (iso := iso) (base := pSample) md.entries f3 (l3 _ _ g1) hnd
    habs3 (fun k v hm => by obtain ⟨x, hx⟩ := (hok k v hm).dataset (iso := iso); exact ⟨_, hx⟩)
  obtain ⟨a, b, _, d⟩ := addMeta_ok h4
  obtain ⟨s4, c4⟩ := addMeta_sane s3 (fun k hk => sampleKey_not_group (keys k hk)) h4
  refine ⟨f4, ?_, s4, (c13.trans c4).mono (by simp [sampleLeaves]), (l1.trans l3).trans a,
    a _ _ (l3 _ _ g1), b, fun o ho => a _ _ (o3 o ho), fun ho => ?_⟩
  · rw [addSampleInfo, except_bind_ok]
    refine ⟨f1, h1, ?_⟩
    rw [except_bind_ok]
    exact ⟨f3, h3, h4⟩
  · rw [d _ (fun k _ => go_ne k), n3 ho]

/-- **C19** (sample metadata; restricted to the fields of `SampleOk` and `OrientOk`): writing it
into a file without sample fields succeeds and `get_sample_info` then returns a dictionary with
exactly the same items (None for the empty dictionary). -/
theorem sample_info_roundtrip_partial (iso : D → String) (f32 : ℝ → ℝ) (f : H5File)
    (md : SampleInfo D) (hnd : (md.entries.map Prod.fst).Nodup)
    (hok : ∀ k v, (k, v) ∈ md.entries → SampleOk f32 k v)
    (hor : ∀ o, md.orientation = some o → OrientOk f32 o)
    (hf : Sane f) (habs : ∀ k ∈ sampleKeys, f (pSample ++ [k]) = none)
    (habso : f (pGeom ++ ["orientation"]) = none)
    (hsn : f (pGeom ++ ["surface_normal"]) = none) :
    ∃ f' r, addSampleInfo iso f md = .ok f' ∧ getSampleInfo f32 f' = .ok r ∧
      (md.entries = [] ∧ md.orientation = none → r = none) ∧
      (md.entries ≠ [] ∨ md.orientation ≠ none →
        ∃ r', r = some r' ∧ r'.orientation = md.orientation ∧
          ∀ k, r'.entries.lookup k = md.entries.lookup k) := by
  obtain ⟨f', h, s, c, l, g, b, o, n⟩ := addSampleInfo_total (iso := iso) hf md hnd hok habs habso
  have leaf : ∀ k ∈ sampleKeys, k ∉ md.entries.map Prod.fst →
      f' (pSample ++ [k]) = none := by
    intro k hk hn
    rw [c _ (sampleKey_not_group hk) ?_, habs k hk]
    intro hm
    simp only [sampleLeaves, List.mem_cons, List.mem_map] at hm
    rcases hm with e | ⟨e, he, e'⟩
    · simp [pGeom, pSample] at e
    · exact hn (List.mem_map.2 ⟨e, he, by simpa using e'⟩)
  obtain ⟨r, hr1, hr2, hr3⟩ := sample_info_read (iso := iso) (f32 := f32) (g := f') (md := md)
    (by simp [H5File.has, H5File.resolve, g]) hok hor b o leaf n (by
      rw [c _ (by decide) ?_, hsn]
      intro hm
      simp only [sampleLeaves, List.mem_cons, List.mem_map] at hm
      rcases hm with e | ⟨e, he, e'⟩
      · exact absurd e (by decide)
      · simp [pGeom, pSample] at e')
  refine ⟨f', _, h, hr3, fun hc => by rw [if_pos hc], fun hc => ?_⟩
  rw [if_neg (by tauto)]
  exact ⟨r, rfl, hr1, hr2⟩

/-- Non-vacuity: a title, a date, a sample name, a mass and an orientation. -/
example (iso : ℕ → String) (parse : String → Option ℕ) (h0 : parse "gold ball" = none)
    (h1 : iso 3 = "2020-01-01T00:00:00") (h2 : parse "2020-01-01T00:00:00" = some 3) :
    (∀ k v, (k, v) ∈ [("title", MetaVal.str "gold ball"), ("start_time", .date 3)] →
      EntryOk iso parse k v) ∧
    (∀ k v, (k, v) ∈ [("name", (MetaVal.str "ball" : MetaVal ℕ)), ("mass", .num 2)] →
      SampleOk id k v) ∧ OrientOk id ((0, 1, 0), (0, 0, 1), (1, 0, 0)) := by
  refine ⟨?_, ?_, ?_⟩
  · intro k v hm
    simp only [List.mem_cons, Prod.mk.injEq, List.not_mem_nil, or_false] at hm
    rcases hm with ⟨rfl, rfl⟩ | ⟨rfl, rfl⟩
    · exact Or.inl ⟨by decide, Or.inl ⟨_, rfl, by decide, h0⟩⟩
    · exact Or.inl ⟨by decide, Or.inr ⟨3, rfl, by rw [h1]; decide, by rw [h1]; exact h2⟩⟩
  · intro k v hm
    simp only [List.mem_cons, Prod.mk.injEq, List.not_mem_nil, or_false] at hm
    rcases hm with ⟨rfl, rfl⟩ | ⟨rfl, rfl⟩
    · exact Or.inl ⟨by decide, _, rfl, by decide⟩
    · exact Or.inr (Or.inl ⟨by decide, _, rfl, rfl⟩)
  · simp [OrientOk]

/-- **C19 is violated by the code** in general. (1) A string that parses as a date comes back as a
date. (2) An attribute outside the fixed list is written but never returned. (3) A value of an
unsupported type is dropped without an error. (4) A string with a non-ASCII character is refused.
(5) A number stored under one of the six text attributes can be written but makes
`get_entry_info` raise. -/
theorem entry_info_violated (iso : D → String) (parse : String → Option D) :
    (∀ s d, (∀ c ∈ s.toList, c.toNat < 128) → parse s = some d →
      ∃ f', addEntryInfo iso createCxi [("title", .str s)] = .ok f' ∧
        getEntryInfo parse f' = .ok [("title", .date d)]) ∧
    (∃ f', addEntryInfo iso createCxi [("operator", .num 1)] = .ok f' ∧
      getEntryInfo parse f' = .ok []) ∧
    (∃ f', addEntryInfo iso createCxi [("title", .other)] = .ok f' ∧
      getEntryInfo parse f' = .ok []) ∧
    addEntryInfo iso createCxi [("title", .str "Å")] = .error .valueError ∧
    (∃ f', addEntryInfo iso createCxi [("title", .num 1)] = .ok f' ∧
      getEntryInfo parse f' = .error .attributeError) := by
  have hb : createCxi.has pEntry = true := by
    simp [H5File.has, H5File.resolve, createCxi, pEntry]
  have mk : ∀ k v x, k ∈ ["title", "operator"] → metaDataset (D := D) iso v = .ok (some x) →
      addEntryInfo iso createCxi [(k, v)] = .ok
        (fun q => if q = pEntry ++ [k] then some (.dataset x none) else createCxi q) := by
    intro k v x hk hx
    have hn : createCxi (pEntry ++ [k]) = none := by
      simp at hk; rcases hk with rfl | rfl <;> simp [createCxi, pEntry]
    exact (addMeta_cons ..).2 (Or.inr ⟨x, _, hx, hb, by simp [H5File.create, hn], rfl⟩)
  have nod : ∀ a ∈ entryKeys, createCxi (pEntry ++ [a]) = none := by
    intro a _; simp [createCxi, pEntry]
  refine ⟨?_, ?_, ?_, ?_, ?_⟩
  · intro s d hs hd
    refine ⟨_, mk "title" (.str s) (.str s) (by simp)
      (by rw [metaDataset, toBytes_ascii hs]; rfl), ?_⟩
    simp [getEntryInfo, H5File.has, H5File.resolve, H5File.read, createCxi, pEntry, collectAttrs,
      entryAttrs, readEntryAttr, hd, bind, Except.bind]
  · refine ⟨_, mk "operator" (.num 1) (.num 1) (by simp) rfl, ?_⟩
    simp [getEntryInfo, H5File.has, H5File.resolve, H5File.read, createCxi, pEntry, collectAttrs,
      entryAttrs, readEntryAttr, bind, Except.bind]
  · refine ⟨createCxi, rfl, ?_⟩
    simp [getEntryInfo, H5File.has, H5File.resolve, createCxi, pEntry, collectAttrs,
      entryAttrs, readEntryAttr, bind, Except.bind]
  · have : toBytes "Å" = .error .valueError := by
      unfold toBytes; rw [if_neg (by decide)]
    simp [addEntryInfo, addMeta, metaDataset, this, Except.map, bind, Except.bind]
  · refine ⟨_, mk "title" (.num 1) (.num 1) (by simp) rfl, ?_⟩
    simp [getEntryInfo, H5File.has, H5File.resolve, H5File.read, createCxi, pEntry, collectAttrs,
      entryAttrs, readEntryAttr, bind, Except.bind]

end Cdtools
