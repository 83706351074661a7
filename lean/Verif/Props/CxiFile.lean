/-
**C105**: writing a dataset into a cxi file only ever adds to it, what is written is a cxi file, and what is
read back is in single precision.
-/
import Verif.Props.DatasetCxi

set_option linter.unusedSectionVars false

namespace Cdtools

variable {D : Type}

/-! ### Specification -/

/-- Every group, dataset and link of the file is still there, unchanged. -/
def OnlyAdds (before after : H5File) : Prop := ∀ p o, before p = some o → after p = some o

/-- All the numbers in an array survive the cast to single precision. -/
def SinglePrecision (f32 : ℝ → ℝ) (a : Arr ℝ) : Prop := ∀ x ∈ a.vals, f32 x = x

/-! ### Proofs -/

theorem withSome_adds {α : Type} {f f' : H5File} {o : Option α} {g : H5File → α → Except PyExc H5File}
    (hg : ∀ a, ∀ f', g f a = .ok f' → f.Le f') (h : withSome f o g = .ok f') : f.Le f' := by
  cases o with
  | none => cases h; exact H5File.Le.refl f
  | some a => exact hg a f' h

theorem addOrientation_adds {f f' : H5File} {o : Option Orientation} (h : addOrientation f o = .ok f') :
    f.Le f' := by
  cases o with
  | none => cases h; exact H5File.Le.refl f
  | some o =>
    obtain ⟨f1, h1, h2⟩ := except_bind_ok.1 h
    exact (ensure_ok h1).1.trans (create_ok h2).2.2.2

theorem addSampleInfo_adds {iso : D → String} {f f' : H5File} {md : SampleInfo D}
    (h : addSampleInfo iso f md = .ok f') : f.Le f' := by
  unfold addSampleInfo at h
  obtain ⟨f1, h1, h⟩ := except_bind_ok.1 h
  obtain ⟨f2, h2, h3⟩ := except_bind_ok.1 h
  exact ((ensure_ok h1).1.trans (addOrientation_adds h2)).trans (addMeta_ok h3).1

/-- **C105** (`CDataset.to_cxi`): whatever the dataset and whatever is in the file, a successful write changes
and removes nothing. -/
theorem cdata_write_only_adds (f32 : ℝ → ℝ) (iso : D → String) (d : CData D) (f f' : H5File)
    (h : d.toCxi f32 iso f = .ok f') : OnlyAdds f f' := by
  unfold CData.toCxi at h
  obtain ⟨f1, h1, h⟩ := except_bind_ok.1 h
  obtain ⟨f2, h2, h⟩ := except_bind_ok.1 h
  obtain ⟨f3, h3, h⟩ := except_bind_ok.1 h
  obtain ⟨f4, h4, h⟩ := except_bind_ok.1 h
  obtain ⟨f5, h5, h⟩ := except_bind_ok.1 h
  obtain ⟨f6, h6, h7⟩ := except_bind_ok.1 h
  have a1 : f.Le f1 := withSome_adds (fun a f' h => (addMeta_ok h).1) h1
  have a2 : f1.Le f2 := withSome_adds (fun a f' h => addSampleInfo_adds h) h2
  have a3 : f2.Le f3 := withSome_adds (fun a f' h => (addSource_ok h).1) h3
  have a4 : f3.Le f4 := withSome_adds (fun a f' h => (addDetector_ok h).1) h4
  have a5 : f4.Le f5 := withSome_adds (fun a f' h => (addMask_ok h).1) h5
  have a6 : f5.Le f6 := withSome_adds (fun a f' h => (addDetArr_ok h).1) h6
  have a7 : f6.Le f' := withSome_adds (fun a f' h => (addDetArr_ok h).1) h7
  exact a1.trans (a2.trans (a3.trans (a4.trans (a5.trans (a6.trans a7)))))

/-- The parts of a successful `Ptycho2DDataset.to_cxi`. -/
theorem toCxi_parts {f32 : ℝ → ℝ} {iso : D → String} {d : PtychoData D} {f f' : H5File}
    (h : d.toCxi f32 iso f = .ok f') : ∃ f1 f2 f3, d.toCData.toCxi f32 iso f = .ok f1 ∧
      addData f1 d.patterns d.axes = .ok f2 ∧ addTranslations f2 d.translations = .ok f3 ∧
      f3.Le f' := by
  unfold PtychoData.toCxi at h
  obtain ⟨f1, h1, h⟩ := except_bind_ok.1 h
  obtain ⟨f2, h2, h⟩ := except_bind_ok.1 h
  obtain ⟨f3, h3, h4⟩ := except_bind_ok.1 h
  exact ⟨f1, f2, f3, h1, h2, h3, withSome_adds (fun a f' h => (addShotInfo_ok h).1) h4⟩

/-- **C105** (`Ptycho2DDataset.to_cxi`): a successful write changes and removes nothing. -/
theorem ptycho_write_only_adds (f32 : ℝ → ℝ) (iso : D → String) (d : PtychoData D) (f f' : H5File)
    (h : d.toCxi f32 iso f = .ok f') : OnlyAdds f f' := by
  obtain ⟨f1, f2, f3, h1, h2, h3, h4⟩ := toCxi_parts h
  have a1 : f.Le f1 := cdata_write_only_adds f32 iso d.toCData f f1 h1
  have a2 : f1.Le f2 := (addData_ok h2).1
  have a3 : f2.Le f3 := (addShotInfo_ok h3).1
  exact a1.trans (a2.trans (a3.trans h4))

/-- **C105** (no overwriting): a file that already holds diffraction patterns cannot be written to: writing
raises. In particular writing any two ptychography datasets into one file raises the second time. -/
theorem ptycho_write_twice_raises (f32 : ℝ → ℝ) (iso : D → String) (d e : PtychoData D) (f f' : H5File)
    (h : d.toCxi f32 iso f = .ok f') : ∃ exc, e.toCxi f32 iso f' = .error exc := by
  obtain ⟨f1, f2, f3, h1, h2, h3, h4⟩ := toCxi_parts h
  have hd : f' (pDet ++ ["data"]) = some (.dataset (.arr d.patterns) (d.axes.map joinColon)) :=
    h4 _ _ ((addShotInfo_ok h3).1 _ _ (addData_ok h2).2.1)
  rcases hx : e.toCxi f32 iso f' with exc | g
  · exact ⟨exc, rfl⟩
  · exfalso
    obtain ⟨g1, g2, g3, k1, k2, k3, k4⟩ := toCxi_parts hx
    have hg1 := cdata_write_only_adds f32 iso e.toCData f' g1 k1 _ _ hd
    unfold addData at k2
    obtain ⟨u1, l1, k2⟩ := except_bind_ok.1 k2
    obtain ⟨u2, l2, k2⟩ := except_bind_ok.1 k2
    obtain ⟨u3, l3, -⟩ := except_bind_ok.1 k2
    have := (create_ok l3).1
    rw [(ensureDetector_ok l2).1 _ _ ((ensure_ok l1).1 _ _ hg1)] at this
    cases this

/-- **C105** (a cxi file): a file written by name is marked as cxi version 1.6 with one entry, and has that
entry; its patterns are at the place the format prescribes, and linked from the entry's data group. -/
theorem ptycho_file_header (f32 : ℝ → ℝ) (iso : D → String) (d : PtychoData D) (f' : H5File)
    (h : d.toCxiByName f32 iso = .ok f') :
    f' ["cxi_version"] = some (.dataset (.num 160) none) ∧
    f' ["number_of_entries"] = some (.dataset (.num 1) none) ∧
    f' ["entry_1"] = some .group ∧
    f' ["entry_1", "instrument_1", "detector_1", "data"] =
      some (.dataset (.arr d.patterns) (d.axes.map joinColon)) ∧
    f' ["entry_1", "data_1", "data"] = some (.soft ["entry_1", "instrument_1", "detector_1", "data"]) ∧
    f' ["entry_1", "data_1", "translation"] = some (.soft ["entry_1", "sample_1", "geometry_1", "translation"]) ∧
    f' ["entry_1", "sample_1", "geometry_1", "translation"] =
      some (.dataset (.arr ⟨d.translations.shape, d.translations.vals.map fun x => -x⟩) none) := by
  have hadd := ptycho_write_only_adds f32 iso d _ f' h
  obtain ⟨f1, f2, f3, h1, h2, h3, h4⟩ := toCxi_parts h
  obtain ⟨a1, a2, a3⟩ := addData_ok h2
  obtain ⟨b1, b2, b3, b4⟩ := addShotInfo_ok h3
  exact ⟨hadd _ _ (by simp [createCxi]), hadd _ _ (by simp [createCxi]), hadd _ _ (by simp [createCxi, pEntry]),
    h4 _ _ (b1 _ _ a2), h4 _ _ (b1 _ _ a3), h4 _ _ b3, h4 _ _ b2⟩

theorem collectAttrs_mem {V : Type} {rd : String → Except PyExc (Option V)} :
    ∀ {l : List String} {r : List (String × V)}, collectAttrs rd l = .ok r →
      ∀ k v, (k, v) ∈ r → rd k = .ok (some v)
  | [], r, h => by cases h; simp
  | a :: as, r, h => by
    unfold collectAttrs at h
    obtain ⟨o, h1, h⟩ := except_bind_ok.1 h
    obtain ⟨rest, h2, h⟩ := except_bind_ok.1 h
    intro k v hm
    cases o with
    | none => cases h; exact collectAttrs_mem h2 k v hm
    | some w =>
      cases h
      rcases List.mem_cons.1 hm with e | hm
      · cases e; exact h1
      · exact collectAttrs_mem h2 k v hm

theorem single_map {f32 : ℝ → ℝ} (hid : ∀ x, f32 (f32 x) = f32 x) (s : List ℕ) (l : List ℝ) :
    SinglePrecision f32 ⟨s, l.map f32⟩ := by
  intro x hx
  obtain ⟨y, -, rfl⟩ := List.mem_map.1 hx
  exact hid y

theorem getShotInfo_single {f32 : ℝ → ℝ} (hid : ∀ x, f32 (f32 x) = f32 x) {f : H5File} {field : String}
    {a : Arr ℝ} (h : getShotInfo f32 f field = .ok a) : SinglePrecision f32 a := by
  unfold getShotInfo at h
  have pull : ∀ p : Path, (match f.read p with
      | .ok (.arr a) => (.ok ⟨a.shape, a.vals.map f32⟩ : Except PyExc (Arr ℝ))
      | .ok _ => .error .typeError
      | .error e => .error e) = .ok a → SinglePrecision f32 a := by
    intro p hp
    split at hp
    · cases hp; exact single_map hid _ _
    · cases hp
    · cases hp
  simp only at h
  split at h
  · exact pull _ h
  split at h
  · exact pull _ h
  split at h
  · exact pull _ h
  · cases h

theorem getQeMask_single {f32 : ℝ → ℝ} (hid : ∀ x, f32 (f32 x) = f32 x) {f : H5File}
    {o : Option (Arr ℝ)} (h : getQeMask f32 f = .ok o) : ∀ a, o = some a → SinglePrecision f32 a := by
  unfold getQeMask at h
  obtain ⟨o', h1, h⟩ := except_bind_ok.1 h
  cases h
  rintro a ha
  cases o' with
  | none => cases ha
  | some b => cases ha; exact single_map hid _ _

theorem sample_single {f32 : ℝ → ℝ} (hid : ∀ x, f32 (f32 x) = f32 x) {f : H5File}
    {o : Option (SampleInfo D)} (h : getSampleInfo f32 f = .ok o) :
    ∀ s, o = some s → (∀ k x, (k, MetaVal.num x) ∈ s.entries → f32 x = x) ∧
      ∀ k a, (k, MetaVal.arr a) ∈ s.entries → SinglePrecision f32 a := by
  unfold getSampleInfo at h
  rintro s rfl
  split at h
  · cases h
  obtain ⟨ss, h1, h⟩ := except_bind_ok.1 h
  obtain ⟨nn, h2, h⟩ := except_bind_ok.1 h
  obtain ⟨uu, h3, h⟩ := except_bind_ok.1 h
  have hs : s.entries = ss ++ nn ++ uu := by
    simp only [Except.ok.injEq] at h
    split at h
    · cases h
    · cases h; rfl
  have str : ∀ k v, readSampleStr (D := D) f k = .ok (some v) → ∃ t, v = .str t := by
    intro k v hv
    unfold readSampleStr at hv
    split at hv
    · split at hv
      · cases hv; exact ⟨_, rfl⟩
      · cases hv
      · cases hv
    · cases hv
  have num : ∀ k v, readSampleNum (D := D) f32 f k = .ok (some v) → ∃ t, v = .num (f32 t) := by
    intro k v hv
    unfold readSampleNum at hv
    split at hv
    · split at hv
      · cases hv; exact ⟨_, rfl⟩
      · cases hv
      · cases hv
    · cases hv
  have arr : ∀ k v, readSampleArr (D := D) f32 f k = .ok (some v) →
      ∃ a : Arr ℝ, v = .arr ⟨a.shape, a.vals.map f32⟩ := by
    intro k v hv
    unfold readSampleArr at hv
    split at hv
    · split at hv
      · cases hv; exact ⟨_, rfl⟩
      · cases hv
      · cases hv
    · cases hv
  rw [hs]
  constructor
  · intro k x hm
    rcases List.mem_append.1 hm with hm | hm
    · rcases List.mem_append.1 hm with hm | hm
      · obtain ⟨t, ht⟩ := str k _ (collectAttrs_mem h1 _ _ hm); cases ht
      · obtain ⟨t, ht⟩ := num k _ (collectAttrs_mem h2 _ _ hm)
        cases ht; exact hid t
    · obtain ⟨t, ht⟩ := arr k _ (collectAttrs_mem h3 _ _ hm); cases ht
  · intro k x hm
    rcases List.mem_append.1 hm with hm | hm
    · rcases List.mem_append.1 hm with hm | hm
      · obtain ⟨t, ht⟩ := str k _ (collectAttrs_mem h1 _ _ hm); cases ht
      · obtain ⟨t, ht⟩ := num k _ (collectAttrs_mem h2 _ _ hm); cases ht
    · obtain ⟨t, ht⟩ := arr k _ (collectAttrs_mem h3 _ _ hm)
      cases ht; exact single_map hid _ _

/-- **C105** (single precision): whatever a file holds, the translations, intensities, quantum efficiency
mask and numerical sample metadata of the loaded dataset are in single precision; its mask is the stored one,
or, if there is none, an all-ones mask with one element per pixel of a pattern. -/
theorem ptycho_read_single_precision (f32 : ℝ → ℝ) (hid : ∀ x, f32 (f32 x) = f32 x)
    (hodd : ∀ x, f32 (-x) = -f32 x) (parse : String → Option D) (cut : Bool) (f : H5File) (d : PtychoData D)
    (h : PtychoData.fromCxi f32 parse cut f = .ok d) :
    SinglePrecision f32 d.translations ∧ (∀ a, d.intensities = some a → SinglePrecision f32 a) ∧
    (∀ a, d.qeMask = some a → SinglePrecision f32 a) ∧
    (∀ s, d.sampleInfo = some s → (∀ k x, (k, MetaVal.num x) ∈ s.entries → f32 x = x) ∧
      ∀ k a, (k, MetaVal.arr a) ∈ s.entries → SinglePrecision f32 a) ∧
    (∀ lead rows cols, d.patterns.shape = lead ++ [rows, cols] → getMask f = .ok none →
      d.mask = some ([rows, cols], List.replicate (rows * cols) true)) ∧
    (∀ mk, getMask f = .ok (some mk) → d.mask = some mk) := by
  unfold PtychoData.fromCxi at h
  obtain ⟨base, h1, h⟩ := except_bind_ok.1 h
  obtain ⟨tr, h2, h⟩ := except_bind_ok.1 h
  obtain ⟨pa, h3, h⟩ := except_bind_ok.1 h
  obtain ⟨it, h4, h⟩ := except_bind_ok.1 h
  cases h
  unfold CData.fromCxi at h1
  obtain ⟨e, -, h1⟩ := except_bind_ok.1 h1
  obtain ⟨s, hs, h1⟩ := except_bind_ok.1 h1
  obtain ⟨w, -, h1⟩ := except_bind_ok.1 h1
  obtain ⟨g, -, h1⟩ := except_bind_ok.1 h1
  obtain ⟨mk, hm, h1⟩ := except_bind_ok.1 h1
  obtain ⟨q, hq, h1⟩ := except_bind_ok.1 h1
  obtain ⟨b, -, h1⟩ := except_bind_ok.1 h1
  cases h1
  refine ⟨?_, ?_, getQeMask_single hid hq, sample_single hid hs, ?_, ?_⟩
  · unfold getTranslations at h2
    rcases hx : getShotInfo f32 f "translation" with exc | a
    · rw [hx] at h2; cases h2
    · rw [hx] at h2
      cases h2
      intro x hx'
      obtain ⟨y, hy, rfl⟩ := List.mem_map.1 hx'
      show f32 (-y) = -y
      rw [hodd, getShotInfo_single hid hx y hy]
  · intro a ha
    change it = some a at ha
    subst ha
    rcases hx : getShotInfo f32 f "intensities" with exc | a'
    · rw [hx] at h4; cases exc <;> cases h4
    · rw [hx] at h4; cases h4; exact getShotInfo_single hid hx
  · intro lead rows cols hp hn
    change pa.1.shape = _ at hp
    rw [hn] at hm
    cases hm
    show some (onesMask pa.1) = _
    unfold onesMask
    rw [hp]
    simp
  · intro mk' hn
    rw [hn] at hm
    cases hm
    rfl

/-- Non-vacuity: a 1×1 pattern written by name, with a rounding that changes something. -/
noncomputable def halvesRound (x : ℝ) : ℝ := if x = 1 / 3 then 1 / 2 else if x = -(1 / 3) then -(1 / 2) else x

example : (∀ x, halvesRound (halvesRound x) = halvesRound x) ∧ ∀ x, halvesRound (-x) = -halvesRound x := by
  constructor
  · intro x
    unfold halvesRound
    by_cases h : x = 1 / 3
    · norm_num [h]
    · by_cases h' : x = -(1 / 3)
      · norm_num [h']
      · simp only [if_neg h, if_neg h']
  · intro x
    unfold halvesRound
    by_cases h : x = 1 / 3
    · norm_num [h]
    · by_cases h' : x = -(1 / 3)
      · norm_num [h']
      · have h1 : -x ≠ 1 / 3 := fun e => h' (by linarith)
        have h2 : -x ≠ -(1 / 3) := fun e => h (by linarith)
        simp only [if_neg h, if_neg h', if_neg h1, if_neg h2]

end Cdtools
