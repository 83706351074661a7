/- Property theorem C20: datasets survive to_cxi / from_cxi. -/
import Verif.Props.CxiMeta

namespace Cdtools
set_option linter.unusedSectionVars false
variable {D : Type}

/-- A dataset whose contents the cxi format can hold: wavelength and geometry present, metadata
the reader understands, all numbers representable in single precision, image-shaped background,
axes plain names. -/
structure CxiStorable (f32 : ℝ → ℝ) (iso : D → String) (parse : String → Option D)
    (d : PtychoData D) : Prop where
  entry : ∀ md, d.entryInfo = some md → (md.map Prod.fst).Nodup ∧
    ∀ k v, (k, v) ∈ md → EntryOk iso parse k v
  sample : ∀ s, d.sampleInfo = some s → (s.entries.map Prod.fst).Nodup ∧
    (∀ k v, (k, v) ∈ s.entries → SampleOk f32 k v) ∧
    (∀ o, s.orientation = some o → OrientOk f32 o) ∧ (s.entries ≠ [] ∨ s.orientation ≠ none)
  wavelength : ∃ w, d.wavelength = some w ∧ f32 w = w
  geometry : ∃ g, d.geometry = some g ∧ f32 g.distance = g.distance ∧ g.basis.shape = [3, 2]
  qe : ∀ q, d.qeMask = some q → ∀ x ∈ q.vals, f32 x = x
  background : ∀ b, d.background = some b → b.shape.length ≤ 2
  translations : ∀ x ∈ d.translations.vals, f32 x = x
  axes : ∀ l, d.axes = some l → l ≠ [] ∧ ∀ a ∈ l, ':' ∉ a ∧ stripLower a = a
  intensities : ∀ i, d.intensities = some i → ∀ x ∈ i.vals, f32 x = x

/-- `entry_1` exists and is empty. -/
def EmptyEntry (f : H5File) : Prop :=
  f pEntry = some .group ∧ ∀ p, p ≠ pEntry → pEntry <+: p → f p = none

theorem emptyEntry_createCxi : EmptyEntry createCxi := by
  refine ⟨by simp [createCxi, pEntry], ?_⟩
  rintro p hp ⟨t, rfl⟩
  have : t ≠ [] := by rintro rfl; exact hp rfl
  simp [createCxi, pEntry, this]

theorem EmptyEntry.sane {f : H5File} (h : EmptyEntry f) : Sane f := by
  refine ⟨h.1, fun p hp => ?_⟩
  simp only [groupPaths, List.mem_cons, List.not_mem_nil, or_false] at hp
  rcases hp with rfl | rfl | rfl | rfl | rfl | rfl | rfl
  · exact Or.inr h.1
  all_goals exact Or.inl (h.2 _ (by decide) (by decide))

/-- leaves of a dataset's optional parts -/
def entryLeaves (md : List (String × MetaVal D)) : List Path := md.map fun e => pEntry ++ [e.1]

theorem arr_fix {f32 : ℝ → ℝ} {a : Arr ℝ} (h : ∀ x ∈ a.vals, f32 x = x) :
    (⟨a.shape, a.vals.map f32⟩ : Arr ℝ) = a := by
  have : a.vals.map f32 = a.vals := by
    conv_rhs => rw [← List.map_id a.vals]
    exact List.map_congr_left h
  rw [this]

theorem entryKey_not_group {k : String} (h : k ∈ entryKeys) : pEntry ++ [k] ∉ groupPaths := by
  simp only [entryKeys, entryAttrs, List.cons_append, List.nil_append, List.mem_cons,
    List.not_mem_nil, or_false] at h
  rcases h with rfl | rfl | rfl | rfl | rfl | rfl | rfl <;> decide

/-- All leaf paths that the dataset writers can touch. -/
def allLeaves : List Path :=
  entryKeys.map (fun k => pEntry ++ [k]) ++
  ((pGeom ++ ["orientation"]) :: sampleKeys.map fun k => pSample ++ [k]) ++
  [pSource ++ ["wavelength"], pSource ++ ["energy"]] ++ detectorLeaves ++
  [pDet ++ ["mask"]] ++ [pDet ++ ["qe_mask"]] ++ [pDet ++ ["data_dark"]] ++
  [pDet ++ ["data"], pData ++ ["data"]] ++ shotLeaves "translation" ++ shotLeaves "intensities"

theorem withSome_bind {α β : Type} {f : H5File} {o : Option α}
    {g : H5File → α → Except PyExc H5File} {k : H5File → Except PyExc β} {r : β}
    (f' : H5File) (h : withSome f o g = .ok f') (hk : k f' = .ok r) :
    (withSome f o g >>= k) = .ok r := by rw [except_bind_ok]; exact ⟨f', h, hk⟩

set_option maxHeartbeats 2000000 in
/-- **C20** (partial: for datasets satisfying `CxiStorable`, with non-negative patterns or
`cut_zeros=False`). Writing the dataset into any file with an empty `entry_1` — in particular by
name, through `create_cxi` — succeeds, and reading it back succeeds and returns the same
translations, patterns, axes, intensities, wavelength, geometry, mask (all ones if it had none),
quantum efficiency mask, background, sample and entry metadata (None becomes the empty
dictionary). -/
theorem ptycho_cxi_roundtrip_partial (f32 : ℝ → ℝ) (hid : ∀ x, f32 (f32 x) = f32 x)
    (hodd : ∀ x, f32 (-x) = -f32 x) (iso : D → String) (parse : String → Option D)
    (d : PtychoData D) (hd : CxiStorable f32 iso parse d) (cut : Bool)
    (hcut : cut = true → ∀ x ∈ d.patterns.vals, 0 ≤ x) (f : H5File) (hf : EmptyEntry f) :
    ∃ f' d', d.toCxi f32 iso f = .ok f' ∧ PtychoData.fromCxi f32 parse cut f' = .ok d' ∧
      d'.translations = d.translations ∧ d'.patterns = d.patterns ∧ d'.axes = d.axes ∧
      d'.intensities = d.intensities ∧ d'.wavelength = d.wavelength ∧
      d'.geometry = d.geometry ∧ d'.mask = some (d.mask.getD (onesMask d.patterns)) ∧
      d'.qeMask = d.qeMask ∧ d'.background = d.background ∧
      (∃ l, d'.entryInfo = some l ∧ ∀ k, l.lookup k = (d.entryInfo.getD []).lookup k) ∧
      (d.sampleInfo = none → d'.sampleInfo = none) ∧
      (∀ s, d.sampleInfo = some s → ∃ s', d'.sampleInfo = some s' ∧
        s'.orientation = s.orientation ∧ ∀ k, s'.entries.lookup k = s.entries.lookup k) := by
  have empty : ∀ p ∈ allLeaves, f p = none := by
    intro p hp
    refine hf.2 p ?_ ?_
    · rintro rfl; exact absurd hp (by decide)
    · revert p; decide
  have ng : ∀ p ∈ allLeaves, p ∉ groupPaths := by decide
  obtain ⟨w, hw, hwf⟩ := hd.wavelength
  obtain ⟨geo, hgeo, hgd, hgb⟩ := hd.geometry
  -- entry info
  obtain ⟨f1, h1, s1, c1, l1, i1, a1⟩ : ∃ f1, withSome f d.entryInfo (addEntryInfo iso) = .ok f1 ∧
      Sane f1 ∧ Chg (entryKeys.map (fun k => pEntry ++ [k])) f f1 ∧ f.Le f1 ∧
      (∀ k v, (k, v) ∈ d.entryInfo.getD [] → ∀ x, metaDataset iso v = .ok (some x) →
        f1 (pEntry ++ [k]) = some (.dataset x none)) ∧
      (∀ k ∈ entryKeys, k ∉ (d.entryInfo.getD []).map Prod.fst → f1 (pEntry ++ [k]) = none) := by
    rcases he : d.entryInfo with _ | md
    · exact ⟨f, rfl, hf.sane, (Chg.refl f).mono (by simp), H5File.Le.refl f, by simp,
        fun k hk _ => empty _ (by
          simp only [allLeaves, List.append_assoc]
          exact List.mem_append_left _ (List.mem_map_of_mem (f := fun k => pEntry ++ [k]) hk))⟩
    · obtain ⟨hnd, hok⟩ := hd.entry md he
      have hkey : ∀ k ∈ md.map Prod.fst, k ∈ entryKeys := by
        intro k hk
        obtain ⟨⟨k', v⟩, hm, rfl⟩ := List.mem_map.1 hk
        rcases hok _ _ hm with ⟨h, _⟩ | ⟨h, _⟩
        · exact List.mem_append_left _ h
        · have : k' = "polarization_states" := h
          subst this; exact (by decide : "polarization_states" ∈ entryKeys)
      have hn : ∀ k ∈ entryKeys, f (pEntry ++ [k]) = none := fun k hk => empty _ (by
          simp only [allLeaves, List.append_assoc]
          exact List.mem_append_left _ (List.mem_map_of_mem (f := fun k => pEntry ++ [k]) hk))
      obtain ⟨f1, h⟩ := addMeta_total (iso := iso) (base := pEntry) md f hf.1 hnd
        (fun k hk => hn k (hkey k hk)) (fun k v hm => by
          obtain ⟨x, hx⟩ := (hok k v hm).dataset; exact ⟨_, hx⟩)
      obtain ⟨a, b, _, e⟩ := addMeta_ok h
      obtain ⟨s1, c1⟩ := addMeta_sane hf.sane (fun k hk => entryKey_not_group (hkey k hk)) h
      refine ⟨f1, h, s1, c1.mono ?_, a, b, fun k hk hnk => ?_⟩
      · intro p hp
        obtain ⟨e, he, rfl⟩ := List.mem_map.1 hp
        exact List.mem_map_of_mem (f := fun k => pEntry ++ [k])
          (hkey _ (List.mem_map_of_mem (f := Prod.fst) he))
      · rw [e _ (fun k' hk' => append_singleton_ne (by rintro rfl; exact hnk hk'))]
        exact hn k hk
  -- sample info
  obtain ⟨f2, h2, s2, c2, l2, i2, o2, a2, n2⟩ : ∃ f2,
      withSome f1 d.sampleInfo (addSampleInfo iso) = .ok f2 ∧ Sane f2 ∧
      Chg ((pGeom ++ ["orientation"]) :: sampleKeys.map fun k => pSample ++ [k]) f1 f2 ∧ f1.Le f2 ∧
      (∀ s, d.sampleInfo = some s → ∀ k v, (k, v) ∈ s.entries → ∀ x,
        metaDataset iso v = .ok (some x) → f2 (pSample ++ [k]) = some (.dataset x none)) ∧
      (∀ s, d.sampleInfo = some s → ∀ o, s.orientation = some o →
        f2 (pGeom ++ ["orientation"]) = some (.dataset
        (.arr ⟨[6], [o.1.1, o.1.2.1, o.1.2.2, o.2.1.1, o.2.1.2.1, o.2.1.2.2]⟩) none)) ∧
      (∀ k ∈ sampleKeys, (∀ s, d.sampleInfo = some s → k ∉ s.entries.map Prod.fst) →
        f2 (pSample ++ [k]) = none) ∧
      ((∀ s, d.sampleInfo = some s → s.orientation = none) →
        f2 (pGeom ++ ["orientation"]) = none) := by
    have hn : ∀ k ∈ sampleKeys, f1 (pSample ++ [k]) = none := fun k hk => by
      rw [c1 _ (sampleKey_not_group hk) (by simp [pSample, pEntry])]
      refine empty _ ?_
      have := List.mem_map_of_mem (f := fun k => pSample ++ [k]) hk
      simp only [allLeaves, List.mem_append, List.mem_cons]
      tauto
    have hno : f1 (pGeom ++ ["orientation"]) = none := by
      rw [c1 _ (by decide) (by simp [pGeom, pEntry])]
      exact empty _ (by decide)
    rcases he : d.sampleInfo with _ | md
    · exact ⟨f1, rfl, s1, (Chg.refl f1).mono (by simp), H5File.Le.refl f1, by simp, by simp,
        fun k hk _ => hn k hk, fun _ => hno⟩
    · obtain ⟨hnd, hok, _, _⟩ := hd.sample md he
      obtain ⟨f2, h, s, c, l, g, b, o, n⟩ := addSampleInfo_total (iso := iso) s1 md hnd hok hn hno
      have hkey : ∀ k ∈ md.entries.map Prod.fst, k ∈ sampleKeys := by
        intro k hk
        obtain ⟨⟨k', v⟩, hm, rfl⟩ := List.mem_map.1 hk
        exact (hok _ _ hm).key
      refine ⟨f2, h, s, c.mono ?_, l, ?_, ?_, fun k hk hnk => ?_, fun hh => n (hh md rfl)⟩
      · intro p hp
        rcases List.mem_cons.1 hp with rfl | hp
        · simp
        · obtain ⟨e, he, rfl⟩ := List.mem_map.1 hp
          exact List.mem_cons_of_mem _ (List.mem_map_of_mem (f := fun k => pSample ++ [k])
            (hkey _ (List.mem_map_of_mem (f := Prod.fst) he)))
      · intro s hs; cases hs; exact b
      · intro s hs; cases hs; exact o
      · rw [c _ (sampleKey_not_group hk) ?_, hn k hk]
        intro hm
        simp only [sampleLeaves, List.mem_cons, List.mem_map] at hm
        rcases hm with e | ⟨e, he, e'⟩
        · simp [pGeom, pSample] at e
        · exact hnk md rfl (List.mem_map.2 ⟨e, he, by simpa using e'⟩)
  have C2 := c1.trans c2
  -- source
  obtain ⟨f3, h3, s3, c3⟩ := addSource_total (f32 := f32) s2 w
    (by rw [C2 _ (by decide) (by decide)]; exact empty _ (by decide))
    (by rw [C2 _ (by decide) (by decide)]; exact empty _ (by decide))
  obtain ⟨l3, hi3, w3, _⟩ := addSource_ok h3
  have C3 := C2.trans c3
  -- detector
  obtain ⟨f4, h4, s4, c4, n4⟩ := addDetector_total (f32 := f32) s3 geo.distance geo.basis geo.corner
    (fun p hp => by
      rw [C3 p (ng p (by revert p; decide)) (by revert p; decide)]
      exact empty p (by revert p; decide))
  obtain ⟨l4, hd4, d4, _, _, b4, k4⟩ := addDetector_ok h4
  have C4 := C3.trans c4
  -- mask
  obtain ⟨f5, h5, s5, c5, l5, i5, n5⟩ : ∃ f5,
      withSome f4 d.mask (fun f m => addMask f m.1 m.2) = .ok f5 ∧ Sane f5 ∧
      Chg [pDet ++ ["mask"]] f4 f5 ∧ f4.Le f5 ∧
      (∀ m, d.mask = some m → addMask f4 m.1 m.2 = .ok f5) ∧
      (d.mask = none → f5 (pDet ++ ["mask"]) = none) := by
    have hn : f4 (pDet ++ ["mask"]) = none := by
      rw [C4 _ (by decide) (by decide)]; exact empty _ (by decide)
    rcases he : d.mask with _ | m
    · exact ⟨f4, rfl, s4, (Chg.refl f4).mono (by simp), H5File.Le.refl _, by simp, fun _ => hn⟩
    · obtain ⟨f5, h, s, c⟩ := addMask_total s4 m.1 m.2 hn
      exact ⟨f5, h, s, c, (addMask_ok h).1, by intro m hm; cases hm; exact h, by simp⟩
  have C5 := C4.trans c5
  -- quantum efficiency mask and background
  have detArr : ∀ (name : String) (o : Option (Arr ℝ)) (fa : H5File), Sane fa →
      fa (pDet ++ [name]) = none → ∃ fb, withSome fa o (addDetArr name) = .ok fb ∧ Sane fb ∧
        Chg [pDet ++ [name]] fa fb ∧ fa.Le fb ∧
        (∀ a, o = some a → fb (pDet ++ [name]) = some (.dataset (.arr a) none)) ∧
        (o = none → fb (pDet ++ [name]) = none) := by
    intro name o fa hs hn
    rcases o with _ | a
    · exact ⟨fa, rfl, hs, (Chg.refl fa).mono (by simp), H5File.Le.refl _, by simp, fun _ => hn⟩
    · obtain ⟨fb, h, s, c⟩ := addDetArr_total hs name a hn
      obtain ⟨l, _, k⟩ := addDetArr_ok h
      exact ⟨fb, h, s, c, l, by intro a' ha; cases ha; exact k, by simp⟩
  obtain ⟨f6, h6, s6, c6, l6, i6, n6⟩ := detArr "qe_mask" d.qeMask f5 s5
    (by rw [C5 _ (by decide) (by decide)]; exact empty _ (by decide))
  have C6 := C5.trans c6
  obtain ⟨f7, h7, s7, c7, l7, i7, n7⟩ := detArr "data_dark" d.background f6 s6
    (by rw [C6 _ (by decide) (by decide)]; exact empty _ (by decide))
  have C7 := C6.trans c7
  -- data, translations, intensities
  obtain ⟨f8, h8, s8, c8⟩ := addData_total s7 d.patterns d.axes
    (by rw [C7 _ (by decide) (by decide)]; exact empty _ (by decide))
    (by rw [C7 _ (by decide) (by decide)]; exact empty _ (by decide))
  obtain ⟨l8, _, _⟩ := addData_ok h8
  have C8 := C7.trans c8
  obtain ⟨f9, h9, s9, c9⟩ := addShotInfo_total s8 (negArr d.translations) "translation"
    (fun p hp => by
      rw [C8 p (ng p (by revert p; decide)) (by revert p; decide)]
      exact empty p (by revert p; decide))
  obtain ⟨l9, g9, _, _⟩ := addShotInfo_ok h9
  have C9 := C8.trans c9
  have hn9 : ∀ p ∈ shotLeaves "intensities", f9 p = none := fun p hp => by
    rw [C9 p (ng p (by revert p; decide)) (by revert p; decide)]
    exact empty p (by revert p; decide)
  obtain ⟨f10, h10, s10, c10, l10, i10, n10⟩ : ∃ f10,
      withSome f9 d.intensities (fun f a => addShotInfo f a "intensities") = .ok f10 ∧ Sane f10 ∧
      Chg (shotLeaves "intensities") f9 f10 ∧ f9.Le f10 ∧
      (∀ a, d.intensities = some a → addShotInfo f9 a "intensities" = .ok f10) ∧
      (d.intensities = none → ∀ p ∈ shotLeaves "intensities", f10 p = none) := by
    rcases he : d.intensities with _ | a
    · exact ⟨f9, rfl, s9, (Chg.refl f9).mono (by simp), H5File.Le.refl _, by simp, fun _ => hn9⟩
    · obtain ⟨fb, h, s, c⟩ := addShotInfo_total s9 a "intensities" hn9
      exact ⟨fb, h, s, c, (addShotInfo_ok h).1, by intro a' ha; cases ha; exact h, by simp⟩
  -- the write succeeds
  have hwrite : d.toCxi f32 iso f = .ok f10 := by
    have hbase : d.toCData.toCxi f32 iso f = .ok f7 := by
      unfold CData.toCxi
      refine withSome_bind f1 h1 (withSome_bind f2 h2 (withSome_bind f3 ?_ (withSome_bind f4 ?_
        (withSome_bind f5 h5 (withSome_bind f6 h6 h7)))))
      · rw [hw]; exact h3
      · rw [hgeo]; exact h4
    unfold PtychoData.toCxi
    rw [except_bind_ok]; refine ⟨f7, hbase, ?_⟩
    rw [except_bind_ok]; refine ⟨f8, h8, ?_⟩
    rw [except_bind_ok]; exact ⟨f9, h9, h10⟩
  -- reading
  have L9 := l10
  have L8 := l9.trans L9
  have L7 := l8.trans L8
  have L6 := l7.trans L7
  have L5 := l6.trans L6
  have L4 := l5.trans L5
  have L3 := l4.trans L4
  have L2 := l3.trans L3
  have L1 := l2.trans L2
  have later : ∀ p, p ∉ groupPaths → p ∉ [pSource ++ ["wavelength"], pSource ++ ["energy"]] ++
      detectorLeaves ++ [pDet ++ ["mask"]] ++ [pDet ++ ["qe_mask"]] ++ [pDet ++ ["data_dark"]] ++
      [pDet ++ ["data"], pData ++ ["data"]] ++ shotLeaves "translation" ++
      shotLeaves "intensities" → f10 p = f2 p :=
    (((((((c3.trans c4).trans c5).trans c6).trans c7).trans c8).trans c9).trans c10)
  have mid4 : ∀ p, p ∉ groupPaths → p ∉ [pDet ++ ["mask"]] ++ [pDet ++ ["qe_mask"]] ++
      [pDet ++ ["data_dark"]] ++
      [pDet ++ ["data"], pData ++ ["data"]] ++ shotLeaves "translation" ++
      shotLeaves "intensities" → f10 p = f4 p :=
    (((((c5.trans c6).trans c7).trans c8).trans c9).trans c10)
  have mid5 : ∀ p, p ∉ groupPaths → p ∉ [pDet ++ ["qe_mask"]] ++ [pDet ++ ["data_dark"]] ++
      [pDet ++ ["data"], pData ++ ["data"]] ++ shotLeaves "translation" ++
      shotLeaves "intensities" → f10 p = f5 p :=
    ((((c6.trans c7).trans c8).trans c9).trans c10)
  have mid6 : ∀ p, p ∉ groupPaths → p ∉ [pDet ++ ["data_dark"]] ++
      [pDet ++ ["data"], pData ++ ["data"]] ++ shotLeaves "translation" ++
      shotLeaves "intensities" → f10 p = f6 p :=
    (((c7.trans c8).trans c9).trans c10)
  have mid7 : ∀ p, p ∉ groupPaths → p ∉ 
      [pDet ++ ["data"], pData ++ ["data"]] ++ shotLeaves "translation" ++
      shotLeaves "intensities" → f10 p = f7 p :=
    ((c8.trans c9).trans c10)
  have hi10 : f10.has pInstr = true := has_mono L3 hi3
  -- entry
  obtain ⟨le, he, hle⟩ := entry_info_read (iso := iso) (parse := parse) (g := f10)
    (md := d.entryInfo.getD []) (by simp [H5File.has, H5File.resolve, s10.entry])
    (by
      rcases h : d.entryInfo with _ | md
      · simp
      · exact (hd.entry md h).2)
    (fun k v hm x hx => L1 _ _ (i1 k v hm x hx))
    (fun k hk hn => by
      have hm : pEntry ++ [k] ∈ entryKeys.map (fun k => pEntry ++ [k]) :=
        List.mem_map_of_mem (f := fun k => pEntry ++ [k]) hk
      rw [later _ (entryKey_not_group hk)
          (by generalize pEntry ++ [k] = p at hm ⊢; revert p; decide),
        c2 _ (entryKey_not_group hk) (by generalize pEntry ++ [k] = p at hm ⊢; revert p; decide)]
      exact a1 k hk hn)
  -- sample
  have hsamp : f10.has pSample = true := by
    have : f10.has pGeom = true := by
      unfold addShotInfo at h9
      obtain ⟨g1, e1, h⟩ := except_bind_ok.1 h9
      obtain ⟨g2, e2, h⟩ := except_bind_ok.1 h
      obtain ⟨g3, e3, h⟩ := except_bind_ok.1 h
      obtain ⟨g4, e4, h⟩ := except_bind_ok.1 h
      obtain ⟨g5, e5, h⟩ := except_bind_ok.1 h
      obtain ⟨g6, e6, h⟩ := except_bind_ok.1 h
      exact has_mono (((((((ensure_ok e3).1.trans (ensureDetector_ok e4).1).trans
        (create_ok e5).2.2.2).trans (create_ok e6).2.2.2).trans (create_ok h).2.2.2)).trans L9)
        (ensure_ok e2).2
    unfold addShotInfo at h9
    obtain ⟨g1, e1, h⟩ := except_bind_ok.1 h9
    obtain ⟨g2, e2, h⟩ := except_bind_ok.1 h
    obtain ⟨g3, e3, h⟩ := except_bind_ok.1 h
    obtain ⟨g4, e4, h⟩ := except_bind_ok.1 h
    obtain ⟨g5, e5, h⟩ := except_bind_ok.1 h
    obtain ⟨g6, e6, h⟩ := except_bind_ok.1 h
    exact has_mono ((((((ensure_ok e2).1.trans ((ensure_ok e3).1.trans (ensureDetector_ok e4).1)).trans
        (create_ok e5).2.2.2).trans (create_ok e6).2.2.2).trans (create_ok h).2.2.2).trans L9)
        (ensure_ok e1).2
  have hsample : ∃ r, getSampleInfo (D := D) f32 f10 = .ok r ∧
      (d.sampleInfo = none → r = none) ∧
      (∀ s, d.sampleInfo = some s → ∃ s', r = some s' ∧
        s'.orientation = s.orientation ∧ ∀ k, s'.entries.lookup k = s.entries.lookup k) := by
    have hsn : f10 (pGeom ++ ["surface_normal"]) = none := by
      rw [later _ (by decide) (by decide), C2 _ (by decide) (by decide)]
      exact hf.2 _ (by decide) (by decide)
    have habs : ∀ k ∈ sampleKeys, (∀ s, d.sampleInfo = some s → k ∉ s.entries.map Prod.fst) →
        f10 (pSample ++ [k]) = none := fun k hk hn => by
      have hm : pSample ++ [k] ∈ sampleKeys.map (fun k => pSample ++ [k]) :=
        List.mem_map_of_mem (f := fun k => pSample ++ [k]) hk
      rw [later _ (sampleKey_not_group hk)
          (by generalize pSample ++ [k] = p at hm ⊢; revert p; decide)]
      exact a2 k hk hn
    have habso : (∀ s, d.sampleInfo = some s → s.orientation = none) →
        f10 (pGeom ++ ["orientation"]) = none := fun h => by
      rw [later _ (by decide) (by decide)]; exact n2 h
    rcases hsi : d.sampleInfo with _ | s
    · obtain ⟨r, _, _, h⟩ := sample_info_read (D := D) (iso := iso) (f32 := f32) (g := f10)
        (md := ⟨[], none⟩) hsamp (by simp) (by simp) (by simp) (by simp)
        (fun k hk _ => habs k hk (by simp [hsi])) (fun _ => habso (by simp [hsi])) hsn
      exact ⟨none, by simpa using h, fun _ => rfl, by simp⟩
    · obtain ⟨_, hok, hor, hne⟩ := hd.sample s hsi
      obtain ⟨r, h1, h2, h⟩ := sample_info_read (D := D) (iso := iso) (f32 := f32) (g := f10)
        (md := s) hsamp hok hor (fun k v hm x hx => L2 _ _ (i2 s hsi k v hm x hx))
        (fun o ho => L2 _ _ (o2 s hsi o ho))
        (fun k hk hn => habs k hk (by intro s' hs'; rw [hsi] at hs'; cases hs'; exact hn))
        (fun ho => habso (by intro s' hs'; rw [hsi] at hs'; cases hs'; exact ho)) hsn
      rw [if_neg (by tauto)] at h
      exact ⟨some r, h, by simp, by intro s' hs'; cases hs'; exact ⟨r, rfl, h1, h2⟩⟩
  obtain ⟨rs, hrs, hrs1, hrs2⟩ := hsample
  -- wavelength, geometry
  have hwl : getWavelength f32 f10 = .ok w := by
    rw [wavelength_roundtrip f32 hid _ _ _ _ h3 L3, hwf]
  have hge : getDetectorGeometry f32 f10 = .ok geo := by
    have := geometry_of (c := geo.corner) hid hgb (has_mono L4 hd4) (L4 _ _ d4)
      (by have e : columnBasis geo.basis = geo.basis := by simp [columnBasis, hgb]
          rw [e] at b4; exact L4 _ _ b4)
      (fun c hc => L4 _ _ (k4 c hc))
      (fun hc => by rw [mid4 _ (by decide) (by decide)]; exact n4 hc)
    rw [this, hgd]
  -- mask etc.
  have hmask : getMask f10 = .ok d.mask := by
    rcases hm : d.mask with _ | m
    · exact (mask_absent f10).1 hi10 (by rw [mid5 _ (by decide) (by decide)]; exact n5 hm)
    · exact mask_roundtrip _ _ _ _ _ (i5 m hm) L5
  have hqe : getQeMask f32 f10 = .ok d.qeMask := by
    rcases hm : d.qeMask with _ | q
    · have : f10 (pDet ++ ["qe_mask"]) = none := by
        rw [mid6 _ (by decide) (by decide)]; exact n6 hm
      simp [getQeMask, getDetArr, hi10, has_of_none this, bind, Except.bind]
    · have := L6 _ _ (i6 q hm)
      simp [getQeMask, getDetArr, hi10, has_of_dataset this, read_of_dataset this, bind,
        Except.bind, arr_fix (hd.qe q hm)]
  have hbg : getDark f10 = .ok d.background := by
    rcases hm : d.background with _ | q
    · have : f10 (pDet ++ ["data_dark"]) = none := by
        rw [mid7 _ (by decide) (by decide)]; exact n7 hm
      simp [getDark, getDetArr, hi10, has_of_none this, bind, Except.bind]
    · have := L7 _ _ (i7 q hm)
      simp [getDark, getDetArr, hi10, has_of_dataset this, read_of_dataset this, bind,
        Except.bind, stackMean, hd.background q hm]
  -- shot data
  have htr : getTranslations f32 f10 = .ok d.translations :=
    (translations_roundtrip f32 hodd _ _ _ _ h9 L9).2.1 hd.translations
  have hdat : getData cut f10 = .ok (d.patterns, d.axes) := by
    obtain ⟨e1, _, e2⟩ := data_roundtrip _ _ _ _ _ hd.axes h8 L8
    cases cut
    · exact e1
    · exact e2 (hcut rfl)
  have hint : orNoneOnKeyError (getShotInfo f32 f10 "intensities") = .ok d.intensities := by
    rcases hm : d.intensities with _ | a
    · have n := n10 hm
      have : getShotInfo f32 f10 "intensities" = .error .keyError := by
        simp only [getShotInfo, has_of_none (n (pData ++ ["intensities"]) (by decide)),
          has_of_none (n (pGeom ++ ["intensities"]) (by decide)),
          read_of_none (n (pDet ++ ["intensities"]) (by decide))]
        simp
      rw [this]; rfl
    · rw [shot_info_roundtrip f32 _ _ _ _ _ (i10 a hm) (H5File.Le.refl _),
        arr_fix (hd.intensities a hm)]
      rfl
  have hbase : CData.fromCxi f32 parse f10 = .ok
      ⟨some le, rs, some w, some geo, d.mask, d.qeMask, d.background⟩ := by
    unfold CData.fromCxi
    rw [he, hrs, hwl, hge, hmask, hqe, hbg]
    rfl
  refine ⟨f10, { (⟨some le, rs, some w, some geo, d.mask, d.qeMask, d.background⟩ : CData D) with
      mask := some (d.mask.getD (onesMask d.patterns))
      translations := d.translations, patterns := d.patterns, axes := d.axes
      intensities := d.intensities }, hwrite, ?_, ?_⟩
  · unfold PtychoData.fromCxi
    rw [hbase, htr, hdat, hint]
    rfl
  · exact ⟨rfl, rfl, rfl, rfl, hw.symm, hgeo.symm, rfl, rfl, rfl, ⟨le, rfl, hle⟩, hrs1, hrs2⟩

/-- **C20 by name**: `to_cxi(filename)` then `from_cxi` of a ptychography dataset. -/
theorem ptycho_cxi_file_roundtrip_partial (f32 : ℝ → ℝ) (hid : ∀ x, f32 (f32 x) = f32 x)
    (hodd : ∀ x, f32 (-x) = -f32 x) (iso : D → String) (parse : String → Option D)
    (d : PtychoData D) (hd : CxiStorable f32 iso parse d)
    (hpos : ∀ x ∈ d.patterns.vals, 0 ≤ x) :
    ∃ f' d', d.toCxiByName f32 iso = .ok f' ∧ PtychoData.fromCxi f32 parse true f' = .ok d' ∧
      d'.translations = d.translations ∧ d'.patterns = d.patterns ∧
      d'.wavelength = d.wavelength ∧ d'.geometry = d.geometry ∧
      d'.mask = some (d.mask.getD (onesMask d.patterns)) ∧ d'.background = d.background := by
  obtain ⟨f', d', h1, h2, h3, h4, _, _, h5, h6, h7, _, h8, _⟩ := ptycho_cxi_roundtrip_partial f32
    hid hodd iso parse d hd true (fun _ => hpos) createCxi emptyEntry_createCxi
  exact ⟨f', d', h1, h2, h3, h4, h5, h6, h7, h8⟩

/-- A small dataset with every optional part. -/
noncomputable def sampleDataset : PtychoData ℕ where
  entryInfo := some [("title", .str "gold ball")]
  sampleInfo := some ⟨[("name", .str "ball"), ("mass", .num 2)],
    some ((0, 1, 0), (0, 0, 1), (1, 0, 0))⟩
  wavelength := some 1
  geometry := some ⟨2, ⟨[3, 2], [0, -1, -1, 0, 0, 0]⟩, some ⟨[3], [1, 1, 2]⟩⟩
  mask := some ([1, 2], [true, false])
  qeMask := some ⟨[1, 2], [1, 1]⟩
  background := some ⟨[1, 2], [0, 3]⟩
  translations := ⟨[1, 3], [1, -2, 0]⟩
  patterns := ⟨[1, 1, 2], [5, 6]⟩
  axes := some ["translation".toList, "y".toList, "x".toList]
  intensities := some ⟨[1], [4]⟩

/-- Non-vacuity of `CxiStorable`. -/
example : CxiStorable id (fun _ : ℕ => "2020") (fun s => if s = "2020" then some 3 else none)
    sampleDataset where
  entry := by
    intro md h; cases h
    refine ⟨by decide, fun k v hm => ?_⟩
    simp only [List.mem_cons, Prod.mk.injEq, List.not_mem_nil, or_false] at hm
    obtain ⟨rfl, rfl⟩ := hm
    exact Or.inl ⟨by decide, Or.inl ⟨_, rfl, by decide, by decide⟩⟩
  sample := by
    intro s h; cases h
    refine ⟨by decide, fun k v hm => ?_, ?_, by simp⟩
    · simp only [List.mem_cons, Prod.mk.injEq, List.not_mem_nil, or_false] at hm
      rcases hm with ⟨rfl, rfl⟩ | ⟨rfl, rfl⟩
      · exact Or.inl ⟨by decide, _, rfl, by decide⟩
      · exact Or.inr (Or.inl ⟨by decide, _, rfl, rfl⟩)
    · intro o ho; cases ho; simp [OrientOk]
  wavelength := ⟨1, rfl, rfl⟩
  geometry := ⟨_, rfl, rfl, rfl⟩
  qe := fun _ _ _ _ => rfl
  background := by intro b h; cases h; simp
  translations := fun _ _ => rfl
  axes := by
    intro l h; cases h
    refine ⟨by simp, fun a ha => ?_⟩
    simp only [List.mem_cons, List.not_mem_nil, or_false] at ha
    rcases ha with rfl | rfl | rfl <;> decide
  intensities := fun _ _ _ _ => rfl

/-- **C20 is violated by the code** in general. (1) `CDataset.to_cxi(filename)` opens a file
without `entry_1`, so a base class dataset with a wavelength, a geometry, a mask, an efficiency
mask, a background, or an entry info starting with a number cannot be written by name (KeyError).
(2) A ptychography dataset without wavelength can be written, but the file cannot be read back:
`from_cxi` raises KeyError. -/
theorem cxi_dataset_violated (f32 : ℝ → ℝ) (iso : D → String) (parse : String → Option D) :
    (∀ d : CData D, d.entryInfo = none → d.sampleInfo = none →
      (d.wavelength ≠ none ∨ d.geometry ≠ none ∨ d.mask ≠ none ∨ d.qeMask ≠ none ∨
        d.background ≠ none) → d.toCxiByName f32 iso = .error .keyError) ∧
    (∀ d : CData D, (∃ k x rest, d.entryInfo = some ((k, .num x) :: rest)) →
      d.toCxiByName f32 iso = .error .keyError) ∧
    (∃ d : PtychoData D, d.wavelength = none ∧ ∃ f', d.toCxiByName f32 iso = .ok f' ∧
      PtychoData.fromCxi f32 parse true f' = .error .keyError) := by
  have e0 : ∀ name, emptyH5.ensure pEntry name = .error .keyError := by
    intro name
    simp [H5File.ensure, H5File.has, H5File.resolve, emptyH5, pEntry]
  have ed : ensureDetector emptyH5 = .error .keyError := by
    rw [ensureDetector, e0]; rfl
  refine ⟨?_, ?_, ?_⟩
  · intro d h1 h2 h
    unfold CData.toCxiByName CData.toCxi
    rw [h1, h2]
    rcases hw : d.wavelength with _ | w
    · rcases hg : d.geometry with _ | g
      · rcases hm : d.mask with _ | m
        · rcases hq : d.qeMask with _ | q
          · rcases hb : d.background with _ | b
            · simp [hw, hg, hm, hq, hb] at h
            · simp [withSome, bind, Except.bind, addDark, addDetArr, ed]
          · simp [withSome, bind, Except.bind, addQeMask, addDetArr, ed]
        · simp [withSome, bind, Except.bind, addMask, ed]
      · simp [withSome, bind, Except.bind, addDetector, ed]
    · simp [withSome, bind, Except.bind, addSource, e0]
  · rintro d ⟨k, x, rest, h⟩
    have hne : emptyH5.has pEntry = false := by
      simp [H5File.has, H5File.resolve, emptyH5, pEntry]
    unfold CData.toCxiByName CData.toCxi
    rw [h]
    simp [withSome, bind, Except.bind, addEntryInfo, addMeta, metaDataset, hne]
  · obtain ⟨f1, h1, s1, c1⟩ := addData_total sane_createCxi (⟨[0, 0, 0], []⟩ : Arr ℝ) none
      (by simp [createCxi, pDet, pEntry]) (by simp [createCxi, pData, pEntry])
    obtain ⟨f2, h2, s2, c2⟩ := addShotInfo_total s1 (negArr ⟨[0, 3], []⟩) "translation" (by
      intro p hp
      rw [c1 p (shot_not_group hp) (by revert p; decide)]
      simp only [shotLeaves, List.mem_cons, List.not_mem_nil, or_false] at hp
      rcases hp with rfl | rfl | rfl <;> simp [createCxi, pGeom, pData, pDet, pEntry])
    refine ⟨⟨⟨none, none, none, none, none, none, none⟩, ⟨[0, 3], []⟩, ⟨[0, 0, 0], []⟩, none, none⟩,
      rfl, f2, ?_, ?_⟩
    · unfold PtychoData.toCxiByName PtychoData.toCxi CData.toCxi
      simp only [withSome, bind, Except.bind, h1, addTranslations, h2]
    · have c12 := c1.trans c2
      have none_of : ∀ p, p ∉ groupPaths → p ∉ [pDet ++ ["data"], pData ++ ["data"]] ++
          shotLeaves "translation" → createCxi p = none → f2 p = none := by
        intro p h1 h2 h3; rw [c12 p h1 h2, h3]
      have hent : f2.has pEntry = true := by simp [H5File.has, H5File.resolve, s2.entry]
      have ex : ∃ l, getEntryInfo parse f2 = .ok l := by
        obtain ⟨l, hl, _⟩ := entry_info_read (iso := iso) (parse := parse) (g := f2) (md := [])
          hent (by simp) (by simp) (fun k hk _ => none_of _ (entryKey_not_group hk) (by
            have hm : pEntry ++ [k] ∈ entryKeys.map (fun k => pEntry ++ [k]) :=
              List.mem_map_of_mem (f := fun k => pEntry ++ [k]) hk
            generalize pEntry ++ [k] = p at hm ⊢; revert p; decide) (by simp [createCxi, pEntry]))
        exact ⟨l, hl⟩
      obtain ⟨l, hl⟩ := ex
      have exs : ∃ r, getSampleInfo (D := D) f32 f2 = .ok r := by
        by_cases hp : f2.has pSample = true
        · obtain ⟨r, _, _, h⟩ := sample_info_read (D := D) (iso := iso) (f32 := f32) (g := f2)
            (md := ⟨[], none⟩) hp (by simp) (by simp) (by simp) (by simp)
            (fun k hk _ => none_of _ (sampleKey_not_group hk) (by
              have hm : pSample ++ [k] ∈ sampleKeys.map (fun k => pSample ++ [k]) :=
                List.mem_map_of_mem (f := fun k => pSample ++ [k]) hk
              generalize pSample ++ [k] = p at hm ⊢; revert p; decide)
              (by simp [createCxi, pSample, pEntry]))
            (fun _ => none_of _ (by decide) (by decide) (by simp [createCxi, pGeom, pEntry]))
            (none_of _ (by decide) (by decide) (by simp [createCxi, pGeom, pEntry]))
          exact ⟨_, h⟩
        · exact ⟨none, by simp [getSampleInfo, hp]⟩
      obtain ⟨r, hr⟩ := exs
      have hw := (wavelength_from_energy f32 f2).2.1
        (none_of _ (by decide) (by decide) (by simp [createCxi, pSource, pEntry]))
        (none_of _ (by decide) (by decide) (by simp [createCxi, pSource, pEntry]))
      unfold PtychoData.fromCxi CData.fromCxi
      rw [hl, hr, hw]
      rfl

end Cdtools
