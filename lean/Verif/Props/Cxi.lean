/- Property theorems C16–C18: masks, data, translations, source and detector in cxi files.

In all round-trip theorems `f` is the file before the write (with arbitrary contents), `f'` the
file after it and `g` any later state of the file: `f'.Le g` says that `g` still contains what
`f'` contained. -/
import Verif.Lemmas.Cxi
import Mathlib.Tactic.NormNum
import Mathlib.Tactic.Ring
import Mathlib.Tactic.Positivity
import Mathlib.Tactic.IntervalCases

namespace Cdtools
set_option linter.unusedSectionVars false

/-! ### C16: masks -/

/-- **C16**: a mask written with `add_mask` is what `get_mask` returns, now and after any further
writes. -/
theorem mask_roundtrip (f f' g : H5File) (s : List ℕ) (m : List Bool)
    (h : addMask f s m = .ok f') (hg : f'.Le g) : getMask g = .ok (some (s, m)) := by
  obtain ⟨_, hi, hm⟩ := addMask_ok h
  have hm' := hg _ _ hm
  unfold getMask
  rw [has_mono hg hi, has_of_dataset hm', read_of_dataset hm']
  simp only [Bool.not_true, Bool.false_eq_true, if_false, if_true, List.map_map]
  congr 3
  conv_rhs => rw [← List.map_id m]
  refine List.map_congr_left fun b _ => ?_
  cases b <;> decide

/-- **C16**: for a stored integer mask, a pixel is reported good iff its value, as an unsigned
32-bit integer, is 0 or 0x1000. -/
theorem mask_good_pixels (g : H5File) (s : List ℕ) (vs : List ℕ) (hvs : ∀ v ∈ vs, v < 2 ^ 32)
    (a : Option Name) (hi : g.has pInstr = true)
    (h : g (pDet ++ ["mask"]) = some (.dataset (.ints s (vs.map (↑))) a)) :
    getMask g = .ok (some (s, vs.map fun v => decide (v = 0 ∨ v = 0x1000))) := by
  unfold getMask
  rw [hi, has_of_dataset h, read_of_dataset h]
  simp only [Bool.not_true, Bool.false_eq_true, if_false, if_true, List.map_map]
  congr 3
  refine List.map_congr_left fun v hv => ?_
  have := hvs v hv
  simp only [Function.comp, goodPixel]
  rw [Bool.eq_iff_iff]
  simp
  omega

/-- **C16**, beyond 32 bits. The documentation says that a pixel with any bit set is bad, unless exactly 0x1000 is set. For
a mask stored in wider integers only the low 32 bits count: the value `2 ^ 32 * k` is reported good for every `k`, and so is
`2 ^ 32 * k + 0x1000`; every other value is reported bad. -/
theorem mask_wide_pixels (g : H5File) (s : List ℕ) (vs : List ℤ) (a : Option Name) (hi : g.has pInstr = true)
    (h : g (pDet ++ ["mask"]) = some (.dataset (.ints s vs) a)) :
    ∃ good : List Bool, getMask g = .ok (some (s, good)) ∧ good.length = vs.length ∧
      ∀ (j : ℕ) (hj : j < vs.length) (hj' : j < good.length),
        (good[j] = true ↔ ∃ k : ℤ, vs[j] = 2 ^ 32 * k ∨ vs[j] = 2 ^ 32 * k + 0x1000) := by
  refine ⟨vs.map goodPixel, ?_, by simp, fun j hj hj' => ?_⟩
  · unfold getMask
    rw [hi, has_of_dataset h, read_of_dataset h]
    rfl
  · rw [List.getElem_map]
    simp only [goodPixel, Bool.or_eq_true, decide_eq_true_eq]
    constructor
    · rintro (h | h)
      · exact ⟨vs[j] / 2 ^ 32, .inl (by omega)⟩
      · exact ⟨vs[j] / 2 ^ 32, .inr (by omega)⟩
    · rintro ⟨k, h | h⟩
      · exact .inl (by omega)
      · exact .inr (by omega)

/-- **C16**: without a mask `get_mask` returns None, without an instrument it raises KeyError. -/
theorem mask_absent (g : H5File) :
    (g.has pInstr = true → g (pDet ++ ["mask"]) = none → getMask g = .ok none) ∧
    (g.has pInstr = false → getMask g = .error .keyError) := by
  constructor
  · intro hi h
    simp [getMask, hi, has_of_none h]
  · intro hi
    simp [getMask, hi]

/-- Non-vacuity: writing a mask into a fresh cxi file succeeds. -/
example : ∃ f', addMask createCxi [1, 2] [true, false] = .ok f' ∧
    getMask f' = .ok (some ([1, 2], [true, false])) := by
  have hs : Sane createCxi := ⟨by simp [createCxi, pEntry], by
    intro p hp
    simp only [groupPaths, List.mem_cons, List.not_mem_nil, or_false] at hp
    rcases hp with rfl | rfl | rfl | rfl | rfl | rfl | rfl <;>
      simp [createCxi, pEntry, pInstr, pDet, pSource, pData, pSample, pGeom]⟩
  obtain ⟨f', h, _⟩ := addMask_total hs [1, 2] [true, false] (by simp [createCxi, pDet, pEntry])
  exact ⟨f', h, mask_roundtrip _ _ _ _ _ h (H5File.Le.refl _)⟩

/-! ### C17: data, axes, translations, shot-to-shot info -/

theorem splitColon_ne_nil : ∀ s : Name, splitColon s ≠ []
  | [] => by simp [splitColon]
  | c :: cs => by
      rw [splitColon]
      split
      · simp
      · split <;> simp

theorem splitColon_plain : ∀ a : Name, ':' ∉ a → splitColon a = [a]
  | [], _ => rfl
  | c :: cs, h => by
      simp only [List.mem_cons, not_or] at h
      rw [splitColon, if_neg (fun e => h.1 e.symm), splitColon_plain cs h.2]

theorem splitColon_append : ∀ (a : Name), ':' ∉ a → ∀ rest : Name,
    splitColon (a ++ ':' :: rest) = a :: splitColon rest
  | [], _, rest => by simp [splitColon]
  | c :: cs, h, rest => by
      simp only [List.mem_cons, not_or] at h
      rw [List.cons_append, splitColon, if_neg (fun e => h.1 e.symm),
        splitColon_append cs h.2]

theorem split_join : ∀ ax : List Name, ax ≠ [] → (∀ a ∈ ax, ':' ∉ a) →
    splitColon (joinColon ax) = ax
  | [a], _, h => by simpa [joinColon] using splitColon_plain a (h a (by simp))
  | a :: b :: rest, _, h => by
      rw [joinColon, splitColon_append a (h a (by simp)),
        split_join (b :: rest) (by simp) (fun x hx => h x (by simp at hx ⊢; exact Or.inr hx))]

/-- What `get_data` finds where `add_data` wrote. -/
theorem getData_of {g : H5File} {d : Arr ℝ} {a : Option Name} (cut : Bool)
    (h1 : g (pDet ++ ["data"]) = some (.dataset (.arr d) a))
    (h2 : g (pData ++ ["data"]) = some (.soft (pDet ++ ["data"]))) :
    getData cut g = .ok (⟨d.shape, if cut then d.vals.map fun x => max x 0 else d.vals⟩,
      a.map fun s => (splitColon s).map stripLower) := by
  have hr := resolve_soft h2 h1
  have hh : g.has (pData ++ ["data"]) = true := by simp [H5File.has, hr]
  simp [getData, hh, hr]

/-- **C17**, data: patterns come back unchanged with `cut_zeros=False`, and with negative values
replaced by 0 (so unchanged if there are none) by default. The axes come back as a list if they
were a nonempty list of stripped lower case names without colons. -/
theorem data_roundtrip (f f' g : H5File) (d : Arr ℝ) (ax : Option (List Name))
    (hax : ∀ l, ax = some l → l ≠ [] ∧ ∀ a ∈ l, ':' ∉ a ∧ stripLower a = a)
    (h : addData f d ax = .ok f') (hg : f'.Le g) :
    getData false g = .ok (d, ax) ∧
    getData true g = .ok (⟨d.shape, d.vals.map fun x => max x 0⟩, ax) ∧
    ((∀ x ∈ d.vals, 0 ≤ x) → getData true g = .ok (d, ax)) := by
  obtain ⟨_, h1, h2⟩ := addData_ok h
  have e : (ax.map joinColon).map (fun s => (splitColon s).map stripLower) = ax := by
    cases ax with
    | none => rfl
    | some l =>
      obtain ⟨hne, hl⟩ := hax l rfl
      simp only [Option.map_some, Option.some.injEq]
      rw [split_join l hne (fun a ha => (hl a ha).1)]
      conv_rhs => rw [← List.map_id l]
      exact List.map_congr_left fun a ha => (hl a ha).2
  have k := fun cut => getData_of cut (hg _ _ h1) (hg _ _ h2)
  have t : getData true g = .ok (⟨d.shape, d.vals.map fun x => max x 0⟩, ax) := by
    rw [k true, e]; rfl
  refine ⟨by rw [k false, e]; rfl, t, fun hp => ?_⟩
  rw [t]
  have : (d.vals.map fun x => max x 0) = d.vals := by
    conv_rhs => rw [← List.map_id d.vals]
    exact List.map_congr_left fun x hx => max_eq_left (hp x hx)
  rw [this]

/-- **C17**, shot-to-shot info: an array comes back rounded to single precision. -/
theorem shot_info_roundtrip (f32 : ℝ → ℝ) (f f' g : H5File) (d : Arr ℝ) (field : String)
    (h : addShotInfo f d field = .ok f') (hg : f'.Le g) :
    getShotInfo f32 g field = .ok ⟨d.shape, d.vals.map f32⟩ := by
  obtain ⟨_, h1, h2, _⟩ := addShotInfo_ok h
  have hr := resolve_soft (hg _ _ h2) (hg _ _ h1)
  have hh : g.has (pData ++ [field]) = true := by simp [H5File.has, hr]
  simp [getShotInfo, hh, H5File.read, hr]

/-- **C17**, translations: `get_ptycho_translations` returns what `add_ptycho_translations` was
given, rounded to single precision (rounding is symmetric); on disk the sample motion, the
negative, is stored. -/
theorem translations_roundtrip (f32 : ℝ → ℝ) (hodd : ∀ x, f32 (-x) = -f32 x)
    (f f' g : H5File) (t : Arr ℝ) (h : addTranslations f t = .ok f') (hg : f'.Le g) :
    getTranslations f32 g = .ok ⟨t.shape, t.vals.map f32⟩ ∧
    ((∀ x ∈ t.vals, f32 x = x) → getTranslations f32 g = .ok t) ∧
    g (pGeom ++ ["translation"]) = some (.dataset (.arr ⟨t.shape, t.vals.map fun x => -x⟩) none) := by
  have h1 := shot_info_roundtrip f32 f f' g _ _ h hg
  have e : getTranslations f32 g = .ok ⟨t.shape, t.vals.map f32⟩ := by
    rw [getTranslations, h1]
    simp only [Except.map, negArr, List.map_map]
    congr 2
    exact List.map_congr_left fun x _ => by simp [Function.comp, hodd]
  refine ⟨e, fun hx => ?_, hg _ _ (addShotInfo_ok h).2.1⟩
  rw [e]
  have : t.vals.map f32 = t.vals := by
    conv_rhs => rw [← List.map_id t.vals]
    exact List.map_congr_left hx
  rw [this]

/-- A fresh cxi file. -/
theorem sane_createCxi : Sane createCxi := ⟨by simp [createCxi, pEntry], by
  intro p hp
  simp only [groupPaths, List.mem_cons, List.not_mem_nil, or_false] at hp
  rcases hp with rfl | rfl | rfl | rfl | rfl | rfl | rfl <;>
    simp [createCxi, pEntry, pInstr, pDet, pSource, pData, pSample, pGeom]⟩

/-- Non-vacuity: data with axes, then translations, into a fresh file. -/
example : ∃ f1 f2 : H5File, addData createCxi ⟨[1, 1, 1], [5]⟩
      (some ["translation".toList, "y".toList, "x".toList]) = .ok f1 ∧
    addTranslations f1 ⟨[1, 3], [1, -2, 0]⟩ = .ok f2 ∧
    getData true f2 = .ok (⟨[1, 1, 1], [5]⟩, some ["translation".toList, "y".toList, "x".toList]) ∧
    getTranslations id f2 = .ok ⟨[1, 3], [1, -2, 0]⟩ := by
  obtain ⟨f1, h1, s1, c1⟩ := addData_total sane_createCxi ⟨[1, 1, 1], [5]⟩
    (some ["translation".toList, "y".toList, "x".toList])
    (by simp [createCxi, pDet, pEntry]) (by simp [createCxi, pData, pEntry])
  obtain ⟨f2, h2, _⟩ := addShotInfo_total s1 (negArr ⟨[1, 3], [1, -2, 0]⟩) "translation" (by
    intro p hp
    have hp' : p ∉ [pDet ++ ["data"], pData ++ ["data"]] := by
      simp only [shotLeaves, List.mem_cons, List.not_mem_nil, or_false] at hp
      rcases hp with rfl | rfl | rfl <;> decide
    rw [c1 p (shot_not_group hp) hp']
    simp only [shotLeaves, List.mem_cons, List.not_mem_nil, or_false] at hp
    rcases hp with rfl | rfl | rfl <;> simp [createCxi, pGeom, pData, pDet, pEntry])
  refine ⟨f1, f2, h1, h2, ?_, ?_⟩
  · refine (data_roundtrip _ _ _ _ _ ?_ h1 (addShotInfo_ok h2).1).2.2 (by simp)
    intro l hl
    cases hl
    refine ⟨by simp, ?_⟩
    intro a ha
    simp only [List.mem_cons, List.not_mem_nil, or_false] at ha
    rcases ha with rfl | rfl | rfl <;> decide
  · exact (translations_roundtrip id (fun _ => rfl) _ _ _ _ h2 (H5File.Le.refl _)).2.1 (by simp)

/-! ### C18: source and detector -/

/-- **C18**, wavelength: what `get_wavelength` returns is the wavelength written by `add_source`,
rounded to single precision. -/
theorem wavelength_roundtrip (f32 : ℝ → ℝ) (hid : ∀ x, f32 (f32 x) = f32 x) (f f' g : H5File)
    (w : ℝ) (h : addSource f32 f w = .ok f') (hg : f'.Le g) :
    getWavelength f32 g = .ok (f32 w) := by
  obtain ⟨_, hi, hw, _⟩ := addSource_ok h
  have hw' := hg _ _ hw
  rw [getWavelength, has_mono hg hi, has_of_dataset hw', read_of_dataset hw']
  simp only [Bool.not_true, Bool.false_eq_true, if_false, if_true]
  rw [except_bind_ok]
  exact ⟨_, rfl, by simp [asScalar, hid]⟩

/-- **C18**, energy: a file that stores only the photon energy `E` (in J) gives wavelength
`hc / E`; a file without either (or without instrument) raises KeyError. -/
theorem wavelength_from_energy (f32 : ℝ → ℝ) (g : H5File) :
    (∀ E a, g.has pInstr = true → g (pSource ++ ["wavelength"]) = none →
      g (pSource ++ ["energy"]) = some (.dataset (.num E) a) →
      getWavelength f32 g = .ok (1.9864459e-25 / f32 E)) ∧
    (g (pSource ++ ["wavelength"]) = none → g (pSource ++ ["energy"]) = none →
      getWavelength f32 g = .error .keyError) ∧
    (g.has pInstr = false → getWavelength f32 g = .error .keyError) := by
  refine ⟨fun E a hi hw he => ?_, fun hw he => ?_, fun hi => ?_⟩
  · rw [getWavelength, hi, has_of_none hw, has_of_dataset he, read_of_dataset he]
    simp only [Bool.not_true, Bool.false_eq_true, if_false, if_true]
    rw [except_bind_ok]
    refine ⟨_, rfl, ?_⟩
    rw [except_bind_ok]
    exact ⟨f32 E, rfl, rfl⟩
  · rw [getWavelength, has_of_none hw, has_of_none he]
    split <;> simp
  · simp [getWavelength, hi]

/-- The energy that `add_source` stores gives back the wavelength (without rounding). -/
theorem source_energy_consistent (f f' : H5File) (w : ℝ)
    (h : addSource id f w = .ok f') :
    ∃ E, f' (pSource ++ ["energy"]) = some (.dataset (.num E) none) ∧ 1.9864459e-25 / E = w := by
  obtain ⟨_, _, _, he⟩ := addSource_ok h
  exact ⟨_, he, by simp only [id, hc]; rw [div_div_cancel₀ (by norm_num)]⟩

theorem matEntry_transpose23 (b : Arr ℝ) (i j : ℕ) (hi : i < 3) (hj : j < 2) :
    matEntry (transpose23 b) 2 i j = matEntry b 3 j i := by
  interval_cases i <;> interval_cases j <;> rfl

/-- Reading the geometry where `add_detector` wrote it. -/
theorem geometry_of {f32 : ℝ → ℝ} (hid : ∀ x, f32 (f32 x) = f32 x) {g : H5File} {dist : ℝ}
    {b : Arr ℝ} {c : Option (Arr ℝ)} (hb : b.shape = [3, 2])
    (hd : g.has pDet = true)
    (h1 : g (pDet ++ ["distance"]) = some (.dataset (.num (f32 dist)) none))
    (h2 : g (pDet ++ ["basis_vectors"]) = some (.dataset (.arr b) none))
    (h3 : ∀ c', c = some c' → g (pDet ++ ["corner_position"]) = some (.dataset (.arr c') none))
    (h4 : c = none → g (pDet ++ ["corner_position"]) = none) :
    getDetectorGeometry f32 g = .ok ⟨f32 dist, b, c⟩ := by
  have e1 : readBasis f32 g = .ok b := by
    simp [readBasis, has_of_dataset h2, read_of_dataset h2, columnBasis, hb]
  have e2 : tryScalar f32 g (pDet ++ ["distance"]) = some (f32 dist) := by
    simp [tryScalar, read_of_dataset h1, hid]
  have e3 : tryArr g (pDet ++ ["corner_position"]) = c := by
    cases c with
    | none => simp [tryArr, read_of_none (h4 rfl)]
    | some c' => simp [tryArr, read_of_dataset (h3 c' rfl)]
  simp [getDetectorGeometry, hd, e1, e2, e3, Except.bind, withDistance]

/-- **C18**, detector: a 3×2 basis (columns are the basis vectors), the distance (rounded to
single precision) and the corner position written by `add_detector` are read back; a basis given
as 2×3 rows comes back as the transposed 3×2 matrix. The corner is None when none was given and
the file has none. -/
theorem geometry_roundtrip (f32 : ℝ → ℝ) (hid : ∀ x, f32 (f32 x) = f32 x) (f f' g : H5File)
    (dist : ℝ) (b : Arr ℝ) (c : Option (Arr ℝ)) (hb : b.shape = [3, 2] ∨ b.shape = [2, 3])
    (h : addDetector f32 f dist b c = .ok f') (hg : f'.Le g)
    (hc : c = none → g (pDet ++ ["corner_position"]) = none) :
    ∃ b', getDetectorGeometry f32 g = .ok ⟨f32 dist, b', c⟩ ∧ b'.shape = [3, 2] ∧
      (b.shape = [3, 2] → b' = b) ∧
      (b.shape = [2, 3] → ∀ i < 3, ∀ j < 2, matEntry b' 2 i j = matEntry b 3 j i) := by
  obtain ⟨_, hd, h1, _, _, h2, h3⟩ := addDetector_ok h
  have hs : (columnBasis b).shape = [3, 2] := by
    unfold columnBasis
    rcases hb with hb | hb
    · simp [hb]
    · simp [hb, transpose23]
  refine ⟨columnBasis b, geometry_of hid hs (has_mono hg hd) (hg _ _ h1) (hg _ _ h2)
    (fun c' e => hg _ _ (h3 c' e)) hc, hs, fun e => by simp [columnBasis, e], fun e i hi j hj => ?_⟩
  rw [columnBasis, if_pos e]
  exact matEntry_transpose23 b i j hi hj

/-- **C18**, pixel sizes: they are the lengths of the basis vectors, and a file that has pixel
sizes but no basis vectors gives the (negative) y and x axes scaled by them, a missing one being
replaced by the other. -/
theorem geometry_from_pixel_sizes (f32 : ℝ → ℝ) (g : H5File) (x y : Option ℝ) (dist : ℝ)
    (hd : g.has pDet = true) (hb : g (pDet ++ ["basis_vectors"]) = none)
    (hx : g (pDet ++ ["x_pixel_size"]) = x.map fun v => .dataset (.num v) none)
    (hy : g (pDet ++ ["y_pixel_size"]) = y.map fun v => .dataset (.num v) none)
    (hdist : g (pDet ++ ["distance"]) = some (.dataset (.num dist) none))
    (hc : g (pDet ++ ["corner_position"]) = none) :
    (x = none ∧ y = none → getDetectorGeometry f32 g = .error .keyError) ∧
    (∀ px py, (x.or y).map f32 = some px → (y.or x).map f32 = some py →
      getDetectorGeometry f32 g =
        .ok ⟨f32 dist, ⟨[3, 2], [0, -px, -py, 0, 0, 0]⟩, none⟩) := by
  have ex : tryScalar f32 g (pDet ++ ["x_pixel_size"]) = x.map f32 := by
    cases x with
    | none => simp [tryScalar, read_of_none hx]
    | some v => simp [tryScalar, read_of_dataset hx]
  have ey : tryScalar f32 g (pDet ++ ["y_pixel_size"]) = y.map f32 := by
    cases y with
    | none => simp [tryScalar, read_of_none hy]
    | some v => simp [tryScalar, read_of_dataset hy]
  have ed : tryScalar f32 g (pDet ++ ["distance"]) = some (f32 dist) := by
    simp [tryScalar, read_of_dataset hdist]
  have ec : tryArr g (pDet ++ ["corner_position"]) = none := by
    simp [tryArr, read_of_none hc]
  have k : getDetectorGeometry f32 g = (basisFromPixels (x.map f32) (y.map f32)).bind fun b =>
      .ok ⟨f32 dist, b, none⟩ := by
    simp [getDetectorGeometry, hd, readBasis, has_of_none hb, ex, ey, ed, ec, withDistance]
  rw [k]
  refine ⟨?_, ?_⟩
  · rintro ⟨rfl, rfl⟩; rfl
  · intro px py hpx hpy
    rcases x with _ | x <;> rcases y with _ | y <;>
      simp only [Option.or, Option.map_some, Option.map_none, Option.some.injEq,
        reduceCtorEq] at hpx hpy <;> subst hpx <;> subst hpy <;> rfl

/-- The stored pixel sizes are the lengths of the basis vectors. -/
theorem pixel_sizes_stored (f32 : ℝ → ℝ) (f f' : H5File) (dist : ℝ) (b : Arr ℝ)
    (c : Option (Arr ℝ)) (hb : b.shape = [3, 2]) (h : addDetector f32 f dist b c = .ok f') :
    f' (pDet ++ ["x_pixel_size"]) = some (.dataset (.num (Real.sqrt
      (matEntry b 2 0 1 ^ 2 + matEntry b 2 1 1 ^ 2 + matEntry b 2 2 1 ^ 2))) none) ∧
    f' (pDet ++ ["y_pixel_size"]) = some (.dataset (.num (Real.sqrt
      (matEntry b 2 0 0 ^ 2 + matEntry b 2 1 0 ^ 2 + matEntry b 2 2 0 ^ 2))) none) := by
  obtain ⟨_, _, _, h1, h2, _, _⟩ := addDetector_ok h
  have e : columnBasis b = b := by simp [columnBasis, hb]
  rw [e] at h1 h2
  exact ⟨h1, h2⟩

/-- **C18**, no distance in the file: it is the distance of the corner from the origin along the
detector normal, i.e. the unique `t ≥ 0` with `|corner · n| = t |n|` for the cross product `n` of
the basis vectors; with neither distance nor corner KeyError is raised. -/
theorem distance_from_corner (f32 : ℝ → ℝ) (g : H5File) (b : Arr ℝ) (hb : b.shape = [3, 2])
    (hd : g.has pDet = true)
    (h1 : g (pDet ++ ["distance"]) = none)
    (h2 : g (pDet ++ ["basis_vectors"]) = some (.dataset (.arr b) none)) :
    (g (pDet ++ ["corner_position"]) = none → getDetectorGeometry f32 g = .error .keyError) ∧
    (∀ c0 c1 c2 n, g (pDet ++ ["corner_position"]) = some (.dataset (.arr ⟨[3], [c0, c1, c2]⟩) none) →
      n = cross3 (matEntry b 2 0 0, matEntry b 2 1 0, matEntry b 2 2 0)
        (matEntry b 2 0 1, matEntry b 2 1 1, matEntry b 2 2 1) → n ≠ 0 →
      ∃ t, getDetectorGeometry f32 g = .ok ⟨t, b, some ⟨[3], [c0, c1, c2]⟩⟩ ∧ 0 ≤ t ∧
        (c0 * n.1 + c1 * n.2.1 + c2 * n.2.2) ^ 2 =
          t ^ 2 * (n.1 ^ 2 + n.2.1 ^ 2 + n.2.2 ^ 2)) := by
  have e1 : readBasis f32 g = .ok b := by
    simp [readBasis, has_of_dataset h2, read_of_dataset h2, columnBasis, hb]
  have e2 : tryScalar f32 g (pDet ++ ["distance"]) = none := by
    simp [tryScalar, read_of_none h1]
  refine ⟨fun hc => ?_, ?_⟩
  · simp [getDetectorGeometry, hd, e1, e2, tryArr, read_of_none hc, Except.bind, withDistance]
  · rintro c0 c1 c2 ⟨n0, n1, n2⟩ hc hn hne
    refine ⟨distanceFromCorner b ⟨[3], [c0, c1, c2]⟩, ?_, abs_nonneg _, ?_⟩
    · simp [getDetectorGeometry, hd, e1, e2, tryArr, read_of_dataset hc, Except.bind,
        withDistance]
    · simp only [cross3, Prod.mk.injEq] at hn
      obtain ⟨r0, r1, r2⟩ := hn
      simp only [distanceFromCorner, sq_abs, ← r0, ← r1, ← r2]
      have hpos : 0 < n0 ^ 2 + n1 ^ 2 + n2 ^ 2 := by
        rcases lt_or_eq_of_le (show 0 ≤ n0 ^ 2 + n1 ^ 2 + n2 ^ 2 by positivity) with h | h
        · exact h
        · exfalso
          have a0 : n0 = 0 := by nlinarith [sq_nonneg n0, sq_nonneg n1, sq_nonneg n2]
          have a1 : n1 = 0 := by nlinarith [sq_nonneg n0, sq_nonneg n1, sq_nonneg n2]
          have a2 : n2 = 0 := by nlinarith [sq_nonneg n0, sq_nonneg n1, sq_nonneg n2]
          exact hne (by simp [a0, a1, a2])
      have hs := Real.sq_sqrt hpos.le
      have hs0 : Real.sqrt (n0 ^ 2 + n1 ^ 2 + n2 ^ 2) ≠ 0 := (Real.sqrt_pos.2 hpos).ne'
      generalize Real.sqrt (n0 ^ 2 + n1 ^ 2 + n2 ^ 2) = r at hs hs0 ⊢
      rw [← hs]
      field_simp
      simp
      ring

/-- Non-vacuity: source and detector in a fresh file. -/
example : ∃ f1 f2 : H5File, addSource id createCxi 1e-9 = .ok f1 ∧
    addDetector id f1 0.7 ⟨[3, 2], [0, -1, -1, 0, 0, 0]⟩ none = .ok f2 ∧
    getWavelength id f2 = .ok 1e-9 ∧
    getDetectorGeometry id f2 = .ok ⟨0.7, ⟨[3, 2], [0, -1, -1, 0, 0, 0]⟩, none⟩ := by
  obtain ⟨f1, h1, s1, c1⟩ := addSource_total (f32 := id) sane_createCxi 1e-9
    (by simp [createCxi, pSource, pEntry]) (by simp [createCxi, pSource, pEntry])
  obtain ⟨f2, h2, s2, c2, hn⟩ := addDetector_total (f32 := id) s1 0.7
    ⟨[3, 2], [0, -1, -1, 0, 0, 0]⟩ none (by
      intro p hp
      simp only [detectorLeaves, List.mem_cons, List.not_mem_nil, or_false] at hp
      rcases hp with rfl | rfl | rfl | rfl | rfl <;>
        (rw [c1 _ (by decide) (by decide)]; simp [createCxi, pDet, pEntry]))
  refine ⟨f1, f2, h1, h2, ?_, ?_⟩
  · exact wavelength_roundtrip id (fun _ => rfl) _ _ _ _ h1 (addDetector_ok h2).1
  · obtain ⟨b', e, _, hb, _⟩ := geometry_roundtrip id (fun _ => rfl) _ _ _ _ _ _ (Or.inl rfl) h2
      (H5File.Le.refl _) hn
    rw [e, hb rfl]; rfl

end Cdtools
