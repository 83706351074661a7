/- Helper lemmas about h5 files and the cxi writers. -/
import Verif.Model.Dataset
import Mathlib.Tactic.Common

namespace Cdtools
set_option linter.unusedSectionVars false

/-- `g` contains everything `f` contains. -/
def H5File.Le (f g : H5File) : Prop := ∀ p o, f p = some o → g p = some o

theorem H5File.Le.refl (f : H5File) : f.Le f := fun _ _ h => h
theorem H5File.Le.trans {f g h : H5File} (a : f.Le g) (b : g.Le h) : f.Le h :=
  fun p o x => b p o (a p o x)

theorem except_bind_ok {α β : Type} {x : Except PyExc α} {k : α → Except PyExc β} {b : β} :
    (x >>= k) = .ok b ↔ ∃ a, x = .ok a ∧ k a = .ok b := by
  cases x <;> simp [bind, Except.bind]

theorem create_ok {f f' : H5File} {p : Path} {o : H5Obj} (h : f.create p o = .ok f') :
    f p = none ∧ f' p = some o ∧ (∀ q, q ≠ p → f' q = f q) ∧ f.Le f' := by
  unfold H5File.create at h
  split at h
  · cases h
  · rename_i hn
    simp only [Except.ok.injEq] at h
    subst h
    have hn' : f p = none := by simpa using hn
    refine ⟨hn', by simp, fun q hq => by simp [hq], ?_⟩
    intro q o' hq
    by_cases hqp : q = p
    · rw [hqp, hn'] at hq; cases hq
    · simpa [hqp] using hq

theorem ensure_ok {f f' : H5File} {parent : Path} {name : String}
    (h : f.ensure parent name = .ok f') : f.Le f' ∧ f'.has (parent ++ [name]) = true := by
  unfold H5File.ensure at h
  split at h
  · rename_i hh; cases h; exact ⟨H5File.Le.refl _, hh⟩
  · split at h
    · obtain ⟨_, h2, _, h4⟩ := create_ok h
      exact ⟨h4, by simp [H5File.has, H5File.resolve, h2]⟩
    · cases h

theorem resolve_mono {f g : H5File} (h : f.Le g) {p : Path} {o : H5Obj}
    (hr : f.resolve p = some o) : g.resolve p = some o := by
  unfold H5File.resolve at hr ⊢
  rcases hp : f p with _ | x
  · simp [hp] at hr
  · have hg := h p x hp
    rw [hp] at hr
    rw [hg]
    cases x with
    | group => exact hr
    | dataset v a => exact hr
    | soft t =>
      simp only at hr ⊢
      rcases ht : f t with _ | y
      · simp [ht] at hr
      · rw [ht] at hr
        rw [h t y ht]
        exact hr

theorem has_mono {f g : H5File} (h : f.Le g) {p : Path} (hp : f.has p = true) :
    g.has p = true := by
  unfold H5File.has at hp ⊢
  obtain ⟨o, ho⟩ := Option.isSome_iff_exists.1 hp
  rw [resolve_mono h ho]; rfl

theorem has_of_dataset {f : H5File} {p : Path} {v a} (h : f p = some (.dataset v a)) :
    f.has p = true := by simp [H5File.has, H5File.resolve, h]

theorem read_of_dataset {f : H5File} {p : Path} {v a} (h : f p = some (.dataset v a)) :
    f.read p = .ok v := by simp [H5File.read, H5File.resolve, h]

theorem has_of_none {f : H5File} {p : Path} (h : f p = none) : f.has p = false := by
  simp [H5File.has, H5File.resolve, h]

theorem read_of_none {f : H5File} {p : Path} (h : f p = none) : f.read p = .error .keyError := by
  simp [H5File.read, H5File.resolve, h]

theorem resolve_soft {f : H5File} {p t : Path} {v a} (h : f p = some (.soft t))
    (ht : f t = some (.dataset v a)) : f.resolve p = some (.dataset v a) := by
  simp [H5File.resolve, h, ht]

theorem ensureDetector_ok {f f' : H5File} (h : ensureDetector f = .ok f') :
    f.Le f' ∧ f'.has pInstr = true ∧ f'.has pDet = true := by
  unfold ensureDetector at h
  obtain ⟨f1, h1, h2⟩ := except_bind_ok.1 h
  obtain ⟨a1, b1⟩ := ensure_ok h1
  obtain ⟨a2, b2⟩ := ensure_ok h2
  exact ⟨a1.trans a2, has_mono a2 b1, b2⟩

/-! ### What a successful writer leaves in the file -/

theorem addMask_ok {f f' : H5File} {s : List ℕ} {m : List Bool} (h : addMask f s m = .ok f') :
    f.Le f' ∧ f'.has pInstr = true ∧
    f' (pDet ++ ["mask"]) = some (.dataset (.ints s (m.map fun b => if b = false then 1 else 0)) none) := by
  unfold addMask at h
  obtain ⟨f1, h1, h2⟩ := except_bind_ok.1 h
  obtain ⟨a1, b1, _⟩ := ensureDetector_ok h1
  obtain ⟨_, c2, _, c4⟩ := create_ok h2
  exact ⟨a1.trans c4, has_mono c4 b1, c2⟩

theorem addDetArr_ok {name : String} {f f' : H5File} {a : Arr ℝ}
    (h : addDetArr name f a = .ok f') :
    f.Le f' ∧ f'.has pInstr = true ∧ f' (pDet ++ [name]) = some (.dataset (.arr a) none) := by
  unfold addDetArr at h
  obtain ⟨f1, h1, h2⟩ := except_bind_ok.1 h
  obtain ⟨a1, b1, _⟩ := ensureDetector_ok h1
  obtain ⟨_, c2, _, c4⟩ := create_ok h2
  exact ⟨a1.trans c4, has_mono c4 b1, c2⟩

theorem addData_ok {f f' : H5File} {d : Arr ℝ} {ax : Option (List Name)}
    (h : addData f d ax = .ok f') :
    f.Le f' ∧ f' (pDet ++ ["data"]) = some (.dataset (.arr d) (ax.map joinColon)) ∧
    f' (pData ++ ["data"]) = some (.soft (pDet ++ ["data"])) := by
  unfold addData at h
  obtain ⟨f1, h1, h⟩ := except_bind_ok.1 h
  obtain ⟨f2, h2, h⟩ := except_bind_ok.1 h
  obtain ⟨f3, h3, h4⟩ := except_bind_ok.1 h
  obtain ⟨a1, _⟩ := ensure_ok h1
  obtain ⟨a2, _, _⟩ := ensureDetector_ok h2
  obtain ⟨_, c2, _, c4⟩ := create_ok h3
  obtain ⟨_, e2, _, e4⟩ := create_ok h4
  exact ⟨((a1.trans a2).trans c4).trans e4, e4 _ _ c2, e2⟩

theorem addShotInfo_ok {f f' : H5File} {d : Arr ℝ} {field : String}
    (h : addShotInfo f d field = .ok f') :
    f.Le f' ∧ f' (pGeom ++ [field]) = some (.dataset (.arr d) none) ∧
    f' (pData ++ [field]) = some (.soft (pGeom ++ [field])) ∧
    f' (pDet ++ [field]) = some (.soft (pGeom ++ [field])) := by
  unfold addShotInfo at h
  obtain ⟨f1, h1, h⟩ := except_bind_ok.1 h
  obtain ⟨f2, h2, h⟩ := except_bind_ok.1 h
  obtain ⟨f3, h3, h⟩ := except_bind_ok.1 h
  obtain ⟨f4, h4, h⟩ := except_bind_ok.1 h
  obtain ⟨f5, h5, h⟩ := except_bind_ok.1 h
  obtain ⟨f6, h6, h7⟩ := except_bind_ok.1 h
  obtain ⟨a1, _⟩ := ensure_ok h1
  obtain ⟨a2, _⟩ := ensure_ok h2
  obtain ⟨a3, _⟩ := ensure_ok h3
  obtain ⟨a4, _, _⟩ := ensureDetector_ok h4
  obtain ⟨_, c2, _, c4⟩ := create_ok h5
  obtain ⟨_, d2, _, d4⟩ := create_ok h6
  obtain ⟨_, e2, _, e4⟩ := create_ok h7
  exact ⟨(((((a1.trans a2).trans a3).trans a4).trans c4).trans d4).trans e4,
    e4 _ _ (d4 _ _ c2), e4 _ _ d2, e2⟩

theorem addSource_ok {f32 : ℝ → ℝ} {f f' : H5File} {w : ℝ} (h : addSource f32 f w = .ok f') :
    f.Le f' ∧ f'.has pInstr = true ∧
    f' (pSource ++ ["wavelength"]) = some (.dataset (.num (f32 w)) none) ∧
    f' (pSource ++ ["energy"]) = some (.dataset (.num (f32 (hc / w))) none) := by
  unfold addSource at h
  obtain ⟨f1, h1, h⟩ := except_bind_ok.1 h
  obtain ⟨f2, h2, h⟩ := except_bind_ok.1 h
  obtain ⟨f3, h3, h4⟩ := except_bind_ok.1 h
  obtain ⟨a1, b1⟩ := ensure_ok h1
  obtain ⟨a2, b2⟩ := ensure_ok h2
  obtain ⟨_, c2, _, c4⟩ := create_ok h3
  obtain ⟨_, d2, _, d4⟩ := create_ok h4
  exact ⟨((a1.trans a2).trans c4).trans d4, has_mono ((a2.trans c4).trans d4) b1,
    d4 _ _ c2, d2⟩

theorem addDetector_ok {f32 : ℝ → ℝ} {f f' : H5File} {d : ℝ} {b : Arr ℝ} {c : Option (Arr ℝ)}
    (h : addDetector f32 f d b c = .ok f') :
    f.Le f' ∧ f'.has pDet = true ∧
    f' (pDet ++ ["distance"]) = some (.dataset (.num (f32 d)) none) ∧
    f' (pDet ++ ["x_pixel_size"]) = some (.dataset (.num (colNorm (columnBasis b) 1)) none) ∧
    f' (pDet ++ ["y_pixel_size"]) = some (.dataset (.num (colNorm (columnBasis b) 0)) none) ∧
    f' (pDet ++ ["basis_vectors"]) = some (.dataset (.arr (columnBasis b)) none) ∧
    (∀ c', c = some c' → f' (pDet ++ ["corner_position"]) = some (.dataset (.arr c') none)) := by
  unfold addDetector at h
  obtain ⟨f1, h1, h⟩ := except_bind_ok.1 h
  obtain ⟨f2, h2, h⟩ := except_bind_ok.1 h
  obtain ⟨f3, h3, h⟩ := except_bind_ok.1 h
  obtain ⟨f4, h4, h⟩ := except_bind_ok.1 h
  obtain ⟨f5, h5, h⟩ := except_bind_ok.1 h
  obtain ⟨a1, b1, b1'⟩ := ensureDetector_ok h1
  obtain ⟨_, c2, _, l2⟩ := create_ok h2
  obtain ⟨_, c3, _, l3⟩ := create_ok h3
  obtain ⟨_, c4, _, l4⟩ := create_ok h4
  obtain ⟨_, c5, _, l5⟩ := create_ok h5
  have l25 := ((l2.trans l3).trans l4).trans l5
  cases c with
  | none =>
    simp only [Except.ok.injEq] at h
    subst h
    exact ⟨a1.trans l25, has_mono l25 b1', (l3.trans (l4.trans l5)) _ _ c2,
      (l4.trans l5) _ _ c3, l5 _ _ c4, c5, by intro c' h; cases h⟩
  | some c =>
    obtain ⟨_, c6, _, l6⟩ := create_ok h
    exact ⟨(a1.trans l25).trans l6, has_mono (l25.trans l6) b1',
      (l3.trans (l4.trans (l5.trans l6))) _ _ c2,
      (l4.trans (l5.trans l6)) _ _ c3, (l5.trans l6) _ _ c4, l6 _ _ c5, by intro c' h; cases h; exact c6⟩

/-! ### Success and exact effect of the writers -/

/-- The groups of a cxi file. -/
def groupPaths : List Path := [pEntry, pInstr, pDet, pSource, pData, pSample, pGeom]

/-- `entry_1` exists, and the standard groups are groups if they exist. -/
structure Sane (f : H5File) : Prop where
  entry : f pEntry = some .group
  groups : ∀ p ∈ groupPaths, f p = none ∨ f p = some .group

/-- Apart from standard groups, only the paths in `L` may differ. -/
def Chg (L : List Path) (f g : H5File) : Prop := ∀ q, q ∉ groupPaths → q ∉ L → g q = f q

theorem Chg.refl (f : H5File) : Chg [] f f := fun _ _ _ => rfl

theorem Chg.trans {L M : List Path} {f g h : H5File} (a : Chg L f g) (b : Chg M g h) :
    Chg (L ++ M) f h := by
  intro q hq hm
  simp only [List.mem_append, not_or] at hm
  rw [b q hq hm.2, a q hq hm.1]

theorem Chg.mono {L M : List Path} {f g : H5File} (a : Chg L f g) (h : L ⊆ M) : Chg M f g :=
  fun q hq hm => a q hq (fun x => hm (h x))

theorem ensure_total {f : H5File} (hs : Sane f) {parent : Path} {name : String}
    (hp : f parent = some .group) (hm : parent ++ [name] ∈ groupPaths) :
    ∃ f', f.ensure parent name = .ok f' ∧ Sane f' ∧ Chg [] f f' ∧
      f' (parent ++ [name]) = some .group ∧ f.Le f' := by
  unfold H5File.ensure
  rcases hs.groups _ hm with hn | hg
  · have h1 : f.has (parent ++ [name]) = false := has_of_none hn
    have h2 : f.has parent = true := by simp [H5File.has, H5File.resolve, hp]
    have hc : f.create (parent ++ [name]) .group
        = .ok fun q => if q = parent ++ [name] then some .group else f q := by
      simp [H5File.create, hn]
    obtain ⟨_, c2, c3, c4⟩ := create_ok hc
    refine ⟨_, by simp only [h1, h2, Bool.false_eq_true, if_false, if_true]; exact hc, ⟨?_, ?_⟩,
      ?_, c2, c4⟩
    · exact c4 _ _ hs.entry
    · intro p hp'
      by_cases h : p = parent ++ [name]
      · rw [h]; exact Or.inr c2
      · rw [c3 p h]; exact hs.groups p hp'
    · intro q hq _
      exact c3 q (by rintro rfl; exact hq hm)
  · have h1 : f.has (parent ++ [name]) = true := by simp [H5File.has, H5File.resolve, hg]
    exact ⟨f, by simp [h1], hs, Chg.refl f, hg, H5File.Le.refl f⟩

theorem create_total {f : H5File} (hs : Sane f) {p : Path} (hp : p ∉ groupPaths)
    (hn : f p = none) (o : H5Obj) :
    ∃ f', f.create p o = .ok f' ∧ Sane f' ∧ Chg [p] f f' ∧ f.Le f' := by
  have hc : f.create p o = .ok fun q => if q = p then some o else f q := by
    simp [H5File.create, hn]
  obtain ⟨_, c2, c3, c4⟩ := create_ok hc
  refine ⟨_, hc, ⟨c4 _ _ hs.entry, ?_⟩, ?_, c4⟩
  · intro q hq
    rw [c3 q (by rintro rfl; exact hp hq)]
    exact hs.groups q hq
  · intro q _ hq
    exact c3 q (by simpa using hq)

theorem ensureDetector_total {f : H5File} (hs : Sane f) :
    ∃ f', ensureDetector f = .ok f' ∧ Sane f' ∧ Chg [] f f' ∧ f.Le f' := by
  obtain ⟨f1, h1, s1, c1, g1, l1⟩ := ensure_total hs (name := "instrument_1") hs.entry (by decide)
  obtain ⟨f2, h2, s2, c2, g2, l2⟩ := ensure_total s1 (parent := pInstr) (name := "detector_1") g1
    (by decide)
  exact ⟨f2, by rw [ensureDetector, except_bind_ok]; exact ⟨f1, h1, h2⟩, s2, c1.trans c2,
    l1.trans l2⟩

theorem addMask_total {f : H5File} (hs : Sane f) (s : List ℕ) (m : List Bool)
    (hn : f (pDet ++ ["mask"]) = none) :
    ∃ f', addMask f s m = .ok f' ∧ Sane f' ∧ Chg [pDet ++ ["mask"]] f f' := by
  obtain ⟨f1, h1, s1, c1, l1⟩ := ensureDetector_total hs
  obtain ⟨f2, h2, s2, c2, l2⟩ := create_total s1 (p := pDet ++ ["mask"]) (by decide)
    (by rw [c1 _ (by decide) (by simp), hn])
    (.dataset (.ints s (m.map fun b => if b = false then 1 else 0)) none)
  exact ⟨f2, by rw [addMask, except_bind_ok]; exact ⟨f1, h1, h2⟩, s2, c1.trans c2⟩

theorem det_not_group (name : String) : pDet ++ [name] ∉ groupPaths := by
  simp [groupPaths, pDet, pEntry, pInstr, pSource, pData, pSample, pGeom]

theorem addDetArr_total {f : H5File} (hs : Sane f) (name : String) (a : Arr ℝ)
    (hn : f (pDet ++ [name]) = none) :
    ∃ f', addDetArr name f a = .ok f' ∧ Sane f' ∧ Chg [pDet ++ [name]] f f' := by
  obtain ⟨f1, h1, s1, c1, l1⟩ := ensureDetector_total hs
  obtain ⟨f2, h2, s2, c2, l2⟩ := create_total s1 (p := pDet ++ [name]) (det_not_group name)
    (by rw [c1 _ (det_not_group name) (by simp), hn]) (.dataset (.arr a) none)
  exact ⟨f2, by rw [addDetArr, except_bind_ok]; exact ⟨f1, h1, h2⟩, s2, c1.trans c2⟩

theorem addSource_total {f32 : ℝ → ℝ} {f : H5File} (hs : Sane f) (w : ℝ)
    (h1n : f (pSource ++ ["wavelength"]) = none) (h2n : f (pSource ++ ["energy"]) = none) :
    ∃ f', addSource f32 f w = .ok f' ∧ Sane f' ∧
      Chg [pSource ++ ["wavelength"], pSource ++ ["energy"]] f f' := by
  obtain ⟨f1, h1, s1, c1, g1, l1⟩ := ensure_total hs (name := "instrument_1") hs.entry (by decide)
  obtain ⟨f2, h2, s2, c2, g2, l2⟩ := ensure_total s1 (parent := pInstr) (name := "source_1") g1
    (by decide)
  have c12 := c1.trans c2
  obtain ⟨f3, h3, s3, c3, l3⟩ := create_total s2 (p := pSource ++ ["wavelength"]) (by decide)
    (by rw [c12 _ (by decide) (by simp), h1n]) (.dataset (.num (f32 w)) none)
  have c13 := c12.trans c3
  obtain ⟨f4, h4, s4, c4, l4⟩ := create_total s3 (p := pSource ++ ["energy"]) (by decide)
    (by rw [c13 _ (by decide) (by decide), h2n]) (.dataset (.num (f32 (hc / w))) none)
  refine ⟨f4, ?_, s4, c13.trans c4⟩
  rw [addSource, except_bind_ok]
  refine ⟨f1, h1, ?_⟩
  rw [except_bind_ok]
  refine ⟨f2, h2, ?_⟩
  rw [except_bind_ok]
  exact ⟨f3, h3, h4⟩

/-- paths written by `add_detector` -/
def detectorLeaves : List Path :=
  [pDet ++ ["distance"], pDet ++ ["x_pixel_size"], pDet ++ ["y_pixel_size"],
    pDet ++ ["basis_vectors"], pDet ++ ["corner_position"]]

theorem addDetector_total {f32 : ℝ → ℝ} {f : H5File} (hs : Sane f) (d : ℝ) (b : Arr ℝ)
    (c : Option (Arr ℝ)) (hn : ∀ p ∈ detectorLeaves, f p = none) :
    ∃ f', addDetector f32 f d b c = .ok f' ∧ Sane f' ∧ Chg detectorLeaves f f' ∧
      (c = none → f' (pDet ++ ["corner_position"]) = none) := by
  obtain ⟨f1, h1, s1, c1, l1⟩ := ensureDetector_total hs
  obtain ⟨f2, h2, s2, c2, l2⟩ := create_total s1 (p := pDet ++ ["distance"]) (by decide)
    (by rw [c1 _ (by decide) (by simp), hn _ (by decide)]) (.dataset (.num (f32 d)) none)
  have e2 := c1.trans c2
  obtain ⟨f3, h3, s3, c3, l3⟩ := create_total s2 (p := pDet ++ ["x_pixel_size"]) (by decide)
    (by rw [e2 _ (by decide) (by decide), hn _ (by decide)])
    (.dataset (.num (colNorm (columnBasis b) 1)) none)
  have e3 := e2.trans c3
  obtain ⟨f4, h4, s4, c4, l4⟩ := create_total s3 (p := pDet ++ ["y_pixel_size"]) (by decide)
    (by rw [e3 _ (by decide) (by decide), hn _ (by decide)])
    (.dataset (.num (colNorm (columnBasis b) 0)) none)
  have e4 := e3.trans c4
  obtain ⟨f5, h5, s5, c5, l5⟩ := create_total s4 (p := pDet ++ ["basis_vectors"]) (by decide)
    (by rw [e4 _ (by decide) (by decide), hn _ (by decide)])
    (.dataset (.arr (columnBasis b)) none)
  have e5 := e4.trans c5
  have hcor : f5 (pDet ++ ["corner_position"]) = none := by
    rw [e5 _ (by decide) (by decide), hn _ (by decide)]
  cases c with
  | none =>
    refine ⟨f5, ?_, s5, e5.mono (by decide), fun _ => hcor⟩
    simp only [addDetector]
    rw [except_bind_ok]
    refine ⟨f1, h1, ?_⟩
    rw [except_bind_ok]
    refine ⟨f2, h2, ?_⟩
    rw [except_bind_ok]
    refine ⟨f3, h3, ?_⟩
    rw [except_bind_ok]
    refine ⟨f4, h4, ?_⟩
    rw [except_bind_ok]
    exact ⟨f5, h5, rfl⟩
  | some c =>
    obtain ⟨f6, h6, s6, c6, l6⟩ := create_total s5 (p := pDet ++ ["corner_position"]) (by decide)
      hcor (.dataset (.arr c) none)
    refine ⟨f6, ?_, s6, (e5.trans c6).mono (by decide), by intro h; cases h⟩
    simp only [addDetector]
    rw [except_bind_ok]
    refine ⟨f1, h1, ?_⟩
    rw [except_bind_ok]
    refine ⟨f2, h2, ?_⟩
    rw [except_bind_ok]
    refine ⟨f3, h3, ?_⟩
    rw [except_bind_ok]
    refine ⟨f4, h4, ?_⟩
    rw [except_bind_ok]
    exact ⟨f5, h5, h6⟩

theorem addData_total {f : H5File} (hs : Sane f) (d : Arr ℝ) (ax : Option (List Name))
    (h1n : f (pDet ++ ["data"]) = none) (h2n : f (pData ++ ["data"]) = none) :
    ∃ f', addData f d ax = .ok f' ∧ Sane f' ∧
      Chg [pDet ++ ["data"], pData ++ ["data"]] f f' := by
  obtain ⟨f1, h1, s1, c1, g1, l1⟩ := ensure_total hs (name := "data_1") hs.entry (by decide)
  obtain ⟨f2, h2, s2, c2, l2⟩ := ensureDetector_total s1
  have c12 := c1.trans c2
  obtain ⟨f3, h3, s3, c3, l3⟩ := create_total s2 (p := pDet ++ ["data"]) (by decide)
    (by rw [c12 _ (by decide) (by simp), h1n]) (.dataset (.arr d) (ax.map joinColon))
  have c13 := c12.trans c3
  obtain ⟨f4, h4, s4, c4, l4⟩ := create_total s3 (p := pData ++ ["data"]) (by decide)
    (by rw [c13 _ (by decide) (by decide), h2n]) (.soft (pDet ++ ["data"]))
  refine ⟨f4, ?_, s4, c13.trans c4⟩
  rw [addData, except_bind_ok]
  refine ⟨f1, h1, ?_⟩
  rw [except_bind_ok]
  refine ⟨f2, h2, ?_⟩
  rw [except_bind_ok]
  exact ⟨f3, h3, h4⟩

/-- paths written by `add_shot_to_shot_info` -/
def shotLeaves (field : String) : List Path :=
  [pGeom ++ [field], pData ++ [field], pDet ++ [field]]

theorem shot_not_group {field : String} {p : Path} (h : p ∈ shotLeaves field) :
    p ∉ groupPaths := by
  simp only [shotLeaves, List.mem_cons, List.not_mem_nil, or_false] at h
  rcases h with rfl | rfl | rfl <;>
  simp [groupPaths, pDet, pEntry, pInstr, pSource, pData, pSample, pGeom]

theorem addShotInfo_total {f : H5File} (hs : Sane f) (d : Arr ℝ) (field : String)
    (hn : ∀ p ∈ shotLeaves field, f p = none) :
    ∃ f', addShotInfo f d field = .ok f' ∧ Sane f' ∧ Chg (shotLeaves field) f f' := by
  obtain ⟨f1, h1, s1, c1, g1, l1⟩ := ensure_total hs (name := "sample_1") hs.entry (by decide)
  obtain ⟨f2, h2, s2, c2, g2, l2⟩ := ensure_total s1 (parent := pSample) (name := "geometry_1") g1
    (by decide)
  obtain ⟨f3, h3, s3, c3, g3, l3⟩ := ensure_total s2 (name := "data_1") s2.entry (by decide)
  obtain ⟨f4, h4, s4, c4, l4⟩ := ensureDetector_total s3
  have e4 := ((c1.trans c2).trans c3).trans c4
  have hg : ∀ p ∈ shotLeaves field, p ∉ groupPaths := fun p hp => shot_not_group hp
  have m1 : pGeom ++ [field] ∈ shotLeaves field := by simp [shotLeaves]
  have m2 : pData ++ [field] ∈ shotLeaves field := by simp [shotLeaves]
  have m3 : pDet ++ [field] ∈ shotLeaves field := by simp [shotLeaves]
  obtain ⟨f5, h5, s5, c5, l5⟩ := create_total s4 (p := pGeom ++ [field]) (hg _ m1)
    (by rw [e4 _ (hg _ m1) (by simp), hn _ m1]) (.dataset (.arr d) none)
  have e5 := e4.trans c5
  obtain ⟨f6, h6, s6, c6, l6⟩ := create_total s5 (p := pData ++ [field]) (hg _ m2)
    (by rw [e5 _ (hg _ m2) (by simp [pData, pGeom]), hn _ m2]) (.soft (pGeom ++ [field]))
  have e6 := e5.trans c6
  obtain ⟨f7, h7, s7, c7, l7⟩ := create_total s6 (p := pDet ++ [field]) (hg _ m3)
    (by rw [e6 _ (hg _ m3) (by simp [pData, pGeom, pDet]), hn _ m3]) (.soft (pGeom ++ [field]))
  refine ⟨f7, ?_, s7, (e6.trans c7).mono (by simp [shotLeaves])⟩
  rw [addShotInfo, except_bind_ok]
  refine ⟨f1, h1, ?_⟩
  rw [except_bind_ok]
  refine ⟨f2, h2, ?_⟩
  rw [except_bind_ok]
  refine ⟨f3, h3, ?_⟩
  rw [except_bind_ok]
  refine ⟨f4, h4, ?_⟩
  rw [except_bind_ok]
  refine ⟨f5, h5, ?_⟩
  rw [except_bind_ok]
  exact ⟨f6, h6, h7⟩

end Cdtools
