/-
C41 (windows lie inside the object) and C42 (the interaction models agree at integer translations).
-/
import Verif.Model.Interactions
import Verif.Props.ImageProc
import Mathlib.Tactic.Linarith
import Mathlib.Tactic.Ring

set_option linter.unusedSectionVars false
set_option linter.unusedSimpArgs false

namespace Cdtools
open Finset ZMod

variable {n m : ℕ} [NeZero n] [NeZero m]

/-! ### Slices and rounding -/

theorem sliceExtent_inside {N k : ℕ} {a : ℤ} (h0 : 0 ≤ a) (h1 : a + k ≤ N) :
    sliceExtent N a (a + k) = (a.toNat, k) := by
  unfold sliceExtent sliceBound
  rw [if_neg (by omega), if_neg (by omega), min_eq_left (by omega), min_eq_left (by omega)]
  ext <;> simp <;> omega

/-- A window inside the object is read without clipping or wrapping. -/
theorem objWindow_inside {obj : Img ℂ} {a b : ℤ} (ha : 0 ≤ a ∧ a + n ≤ obj.h)
    (hb : 0 ≤ b ∧ b + m ≤ obj.w) :
    objWindow n m obj a b = .ok fun i j => obj.px (a.toNat + i.val) (b.toNat + j.val) := by
  simp only [objWindow]
  rw [sliceExtent_inside ha.1 ha.2, sliceExtent_inside hb.1 hb.2]
  simp

theorem floor_le_int {x : ℝ} {k : ℤ} (h : x ≤ k) : ⌊x⌋ ≤ k := by
  have := Int.floor_le x
  exact_mod_cast this.trans h

theorem roundHalfEven_int (k : ℤ) : roundHalfEven (k : ℝ) = k := by
  simp [roundHalfEven]

theorem roundHalfEven_mem {x : ℝ} {l k : ℤ} (h0 : (l : ℝ) ≤ x) (h1 : x ≤ k) :
    l ≤ roundHalfEven x ∧ roundHalfEven x ≤ k := by
  have hl : l ≤ ⌊x⌋ := Int.le_floor.2 h0
  have hk := floor_le_int h1
  have hup : 0 < x - ⌊x⌋ → ⌊x⌋ + 1 ≤ k := by
    intro hpos
    by_contra hc
    have : (k : ℤ) ≤ ⌊x⌋ := by omega
    have : (k : ℝ) ≤ ⌊x⌋ := by exact_mod_cast this
    linarith
  unfold roundHalfEven
  split
  · exact ⟨hl, hk⟩
  · rename_i h
    have := hup (by linarith)
    split
    · exact ⟨by omega, this⟩
    · split
      · exact ⟨hl, hk⟩
      · exact ⟨by omega, this⟩

theorem foldl_min_le (l : List ℝ) (a : ℝ) : l.foldl min a ≤ a ∧ ∀ x ∈ l, l.foldl min a ≤ x := by
  induction l generalizing a with
  | nil => simp
  | cons b l ih =>
    obtain ⟨h1, h2⟩ := ih (min a b)
    simp only [List.foldl_cons]
    refine ⟨h1.trans (min_le_left _ _), fun x hx => ?_⟩
    rcases List.mem_cons.1 hx with rfl | hx
    · exact h1.trans (min_le_right _ _)
    · exact h2 x hx

theorem foldl_max_ge (l : List ℝ) (a : ℝ) : a ≤ l.foldl max a ∧ ∀ x ∈ l, x ≤ l.foldl max a := by
  induction l generalizing a with
  | nil => simp
  | cons b l ih =>
    obtain ⟨h1, h2⟩ := ih (max a b)
    simp only [List.foldl_cons]
    refine ⟨(le_max_left _ _).trans h1, fun x hx => ?_⟩
    rcases List.mem_cons.1 hx with rfl | hx
    · exact (le_max_right _ _).trans h1
    · exact h2 x hx

/-- On one axis, a translation of the scan relative to the minimum translation. -/
theorem setup_bounds (k : ℕ) (a : ℝ) (l : List ℝ) (padding : ℤ) (x : ℝ) (hx : x ∈ a :: l) :
    ((padding : ℤ) : ℝ) ≤ x - (objectSetup k a l padding).2 ∧
      x - (objectSetup k a l padding).2 ≤ (((objectSetup k a l padding).1 - k - padding : ℤ) : ℝ) := by
  have hmin : minList a l ≤ x := by
    rcases List.mem_cons.1 hx with rfl | hx
    · exact (foldl_min_le l x).1
    · exact (foldl_min_le l a).2 x hx
  have hmax : x ≤ maxList a l := by
    rcases List.mem_cons.1 hx with rfl | hx
    · exact (foldl_max_ge l x).1
    · exact (foldl_max_ge l a).2 x hx
  have hceil := Int.le_ceil (maxList a l - minList a l)
  simp only [objectSetup]
  push_cast
  constructor <;> linarith

/-! ### C41 -/

/-- What it means to read the object at rows `a …` and columns `b …` without leaving it. -/
structure ReadsInside (n m : ℕ) (obj : Img ℂ) (a b : ℤ) : Prop where
  row_lo : 0 ≤ a
  row_hi : a + n ≤ obj.h
  col_lo : 0 ≤ b
  col_hi : b + m ≤ obj.w

/-- **C41.** For every non-empty scan and every non-negative padding, on an object of the size
computed by `calc_object_setup`, every translation of the scan (relative to the minimum
translation it computes) makes `ptycho_2D_round`, `ptycho_2D_linear` (probe shifts) and
`ptycho_2D_sinc` read a window inside the object; none of them fails. -/
theorem windows_inside (obj : Img ℂ) (padding : ℕ) (tr0 : ℝ × ℝ) (trs : List (ℝ × ℝ))
    (hh : (obj.h : ℤ) = (objectSetup n tr0.1 (trs.map Prod.fst) padding).1)
    (hw : (obj.w : ℤ) = (objectSetup m tr0.2 (trs.map Prod.snd) padding).1)
    (tr : ℝ × ℝ) (htr : tr ∈ tr0 :: trs) (probe : Wave n m) :
    let t : ℝ × ℝ := (tr.1 - (objectSetup n tr0.1 (trs.map Prod.fst) padding).2,
      tr.2 - (objectSetup m tr0.2 (trs.map Prod.snd) padding).2)
    ReadsInside n m obj (roundHalfEven t.1) (roundHalfEven t.2) ∧
    ReadsInside n m obj ⌊t.1⌋ ⌊t.2⌋ ∧
    (roundExit probe obj t).toBool ∧ (linearExit true probe obj t).toBool ∧
    (∀ back, (sincExit back probe obj t).toBool) := by
  intro t
  have m1 : tr.1 ∈ tr0.1 :: trs.map Prod.fst := by
    rw [← List.map_cons]; exact List.mem_map_of_mem htr
  have m2 : tr.2 ∈ tr0.2 :: trs.map Prod.snd := by
    rw [← List.map_cons]; exact List.mem_map_of_mem htr
  obtain ⟨a1, a2⟩ := setup_bounds n tr0.1 (trs.map Prod.fst) padding tr.1 m1
  obtain ⟨b1, b2⟩ := setup_bounds m tr0.2 (trs.map Prod.snd) padding tr.2 m2
  rw [← hh] at a2
  rw [← hw] at b2
  change ((padding : ℤ) : ℝ) ≤ t.1 at a1
  change t.1 ≤ _ at a2
  change ((padding : ℤ) : ℝ) ≤ t.2 at b1
  change t.2 ≤ _ at b2
  clear_value t
  obtain ⟨r1, r2⟩ := roundHalfEven_mem a1 a2
  obtain ⟨r3, r4⟩ := roundHalfEven_mem b1 b2
  have f1 := Int.le_floor.2 a1
  have f2 := floor_le_int a2
  have f3 := Int.le_floor.2 b1
  have f4 := floor_le_int b2
  have hR : ReadsInside n m obj (roundHalfEven t.1) (roundHalfEven t.2) :=
    ⟨by omega, by omega, by omega, by omega⟩
  have hF : ReadsInside n m obj ⌊t.1⌋ ⌊t.2⌋ := ⟨by omega, by omega, by omega, by omega⟩
  have wR := objWindow_inside ⟨hR.1, hR.2⟩ ⟨hR.3, hR.4⟩
  have wF := objWindow_inside ⟨hF.1, hF.2⟩ ⟨hF.3, hF.4⟩
  refine ⟨hR, hF, ?_, ?_, fun back => ?_⟩
  · simp only [roundExit, wR]; rfl
  · simp only [linearExit, wF]; rfl
  · simp only [sincExit, wF]; rfl

/-- **C41**, object shifts (what holds): `ptycho_2D_linear(shift_probe=False)` reads one more row and
column; with a padding of at least one pixel these are inside the object too. Missing: padding 0
(`linear_object_shift_violated`). -/
theorem linear_object_shift_inside_partial (obj : Img ℂ) (padding : ℕ) (hp : 1 ≤ padding)
    (tr0 : ℝ × ℝ) (trs : List (ℝ × ℝ))
    (hh : (obj.h : ℤ) = (objectSetup n tr0.1 (trs.map Prod.fst) padding).1)
    (hw : (obj.w : ℤ) = (objectSetup m tr0.2 (trs.map Prod.snd) padding).1)
    (tr : ℝ × ℝ) (htr : tr ∈ tr0 :: trs) (probe : Wave n m) :
    (linearExit false probe obj (tr.1 - (objectSetup n tr0.1 (trs.map Prod.fst) padding).2,
      tr.2 - (objectSetup m tr0.2 (trs.map Prod.snd) padding).2)).toBool := by
  have m1 : tr.1 ∈ tr0.1 :: trs.map Prod.fst := by
    rw [← List.map_cons]; exact List.mem_map_of_mem htr
  have m2 : tr.2 ∈ tr0.2 :: trs.map Prod.snd := by
    rw [← List.map_cons]; exact List.mem_map_of_mem htr
  obtain ⟨a1, a2⟩ := setup_bounds n tr0.1 (trs.map Prod.fst) padding tr.1 m1
  obtain ⟨b1, b2⟩ := setup_bounds m tr0.2 (trs.map Prod.snd) padding tr.2 m2
  rw [← hh] at a2
  rw [← hw] at b2
  have f1 := Int.le_floor.2 a1
  have f2 := floor_le_int a2
  have f3 := Int.le_floor.2 b1
  have f4 := floor_le_int b2
  simp only [linearExit, Bool.false_eq_true, if_false]
  rw [objWindow_inside ⟨by omega, by omega⟩ ⟨by omega, by omega⟩,
    objWindow_inside ⟨by omega, by omega⟩ ⟨by omega, by omega⟩,
    objWindow_inside ⟨by omega, by omega⟩ ⟨by omega, by omega⟩,
    objWindow_inside ⟨by omega, by omega⟩ ⟨by omega, by omega⟩]
  rfl

/-- **C41 is violated** by `ptycho_2D_linear(shift_probe=False)` without padding: for the one-point scan
at the origin the object is as large as the probe and the call fails. -/
theorem linear_object_shift_violated :
    objectSetup 2 0 [] 0 = (2, 0) ∧
      ∀ (probe : Wave 2 2) (px : ℕ → ℕ → ℂ),
        linearExit false probe ⟨2, 2, px⟩ (0 - 0, 0 - 0) = .error "RuntimeError" := by
  constructor
  · simp [objectSetup, minList, maxList]
  · intro probe px
    simp only [linearExit, Bool.false_eq_true, if_false, sub_zero, Int.floor_zero]
    rw [objWindow_inside ⟨by norm_num, by norm_num⟩ ⟨by norm_num, by norm_num⟩]
    simp only [Except.bind, objWindow]
    rw [if_neg (by decide)]

/-- Non-vacuity: a two-point scan with padding 1; the object is 2 + 3 + 2 = 7 rows long. -/
example : (objectSetup 3 0.25 [1.5] 1).1 = 7 ∧ (objectSetup 3 0.25 [1.5] 1).2 = -0.75 := by
  have h1 : minList 0.25 [1.5] = 0.25 := by simp [minList]; norm_num
  have h2 : maxList 0.25 [1.5] = 1.5 := by simp [maxList]; norm_num
  simp only [objectSetup, h1, h2]
  have : ⌈(1.5 - 0.25 : ℝ)⌉ = 2 := by rw [Int.ceil_eq_iff]; norm_num
  rw [this]
  norm_num

/-! ### C42 -/

/-- **C42.** At an integer translation whose window lies inside the object, `ptycho_2D_round`,
`ptycho_2D_linear` shifting the probe, and `ptycho_2D_sinc` (with or without shifting the exit wave
back) all return the probe times the object window at that translation. -/
theorem integer_translations_agree (probe : Wave n m) (obj : Img ℂ) (a b : ℕ)
    (ha : a + n ≤ obj.h) (hb : b + m ≤ obj.w) :
    let expected : Wave n m := fun i j => probe i j * obj.px (a + i.val) (b + j.val)
    roundExit probe obj (a, b) = .ok expected ∧
    linearExit true probe obj (a, b) = .ok expected ∧
    (∀ back, sincExit back probe obj (a, b) = .ok expected) := by
  intro expected
  have hwin : objWindow n m obj (a : ℤ) (b : ℤ) =
      .ok fun i j => obj.px (a + i.val) (b + j.val) := by
    have := objWindow_inside (n := n) (m := m) (obj := obj) (a := a) (b := b)
      ⟨by omega, by omega⟩ ⟨by omega, by omega⟩
    simpa using this
  refine ⟨?_, ?_, fun back => ?_⟩
  · have h1 : roundHalfEven (a : ℝ) = a := by exact_mod_cast roundHalfEven_int (a : ℤ)
    have h2 : roundHalfEven (b : ℝ) = b := by exact_mod_cast roundHalfEven_int (b : ℤ)
    simp only [roundExit, h1, h2, hwin]
    rfl
  · simp only [linearExit, Int.floor_natCast, hwin, if_true, Int.cast_natCast, sub_self]
    simp [Except.map, expected]
  · have hmask : (phaseMask ((a : ℝ) - ((a : ℤ) : ℝ)) ((b : ℝ) - ((b : ℤ) : ℝ)) : Wave n m) =
        fun _ _ => 1 := by
      funext i j; simp [phaseMask]
    have hid : ∀ w : Wave n m, ifftshift2 (fftshift2 w) = w := by
      intro w; funext i j; simp [ifftshift2, fftshift2]
    have hround : ∀ w : Wave n m, ifft2 (ifftshift2 fun a b => fftshift2 (fft2 w) a b * 1) = w := by
      intro w
      have : (fun a b => fftshift2 (fft2 w) a b * 1) = fftshift2 (fft2 w) := by
        funext i j; simp
      rw [this, hid, ifft2_fft2]
    simp only [sincExit, Int.floor_natCast, hwin, hmask, map_one, hround]
    cases back <;> simp [Except.map, expected]

/-- **C42**, object shifts: `ptycho_2D_linear` shifting the object agrees too, when the extra row and
column it reads exist. -/
theorem integer_translations_agree_object_shift (probe : Wave n m) (obj : Img ℂ) (a b : ℕ)
    (ha : a + n + 1 ≤ obj.h) (hb : b + m + 1 ≤ obj.w) :
    linearExit false probe obj (a, b) =
      .ok fun i j => probe i j * obj.px (a + i.val) (b + j.val) := by
  simp only [linearExit, Int.floor_natCast, Bool.false_eq_true, if_false, Int.cast_natCast, sub_self]
  rw [objWindow_inside ⟨by omega, by omega⟩ ⟨by omega, by omega⟩,
    objWindow_inside ⟨by omega, by omega⟩ ⟨by omega, by omega⟩,
    objWindow_inside ⟨by omega, by omega⟩ ⟨by omega, by omega⟩,
    objWindow_inside ⟨by omega, by omega⟩ ⟨by omega, by omega⟩]
  simp [Except.map, Except.bind]

theorem mapM_ok_map {α β : Type} (f : α → Except String β) (g : α → β) (l : List α)
    (h : ∀ x ∈ l, f x = .ok (g x)) : l.mapM f = .ok (l.map g) := by
  induction l with
  | nil => rfl
  | cons a l ih =>
    rw [List.mapM_cons, h a (by simp), ih fun x hx => h x (by simp [hx])]
    rfl

/-- **C42**, exposure by exposure and mode by mode: on a stack of modes and a list of integer
translations the exit waves of `ptycho_2D_round` and `ptycho_2D_sinc` are the products, in order. -/
theorem integer_translations_agree_stack (modes : List (Wave n m)) (obj : Img ℂ)
    (trs : List (ℕ × ℕ)) (h : ∀ t ∈ trs, t.1 + n ≤ obj.h ∧ t.2 + m ≤ obj.w) :
    let real : List (ℝ × ℝ) := trs.map fun t => ((t.1 : ℝ), (t.2 : ℝ))
    let expected : List (List (Wave n m)) := trs.map fun t =>
      modes.map fun p => fun i j => p i j * obj.px (t.1 + i.val) (t.2 + j.val)
    exitWaves roundExit modes obj real = .ok expected ∧
    (∀ back, exitWaves (sincExit back) modes obj real = .ok expected) := by
  intro real expected
  have key : ∀ f : Wave n m → Img ℂ → ℝ × ℝ → Except String (Wave n m),
      (∀ p, ∀ t ∈ trs, f p obj ((t.1 : ℝ), (t.2 : ℝ)) =
        .ok fun i j => p i j * obj.px (t.1 + i.val) (t.2 + j.val)) →
      exitWaves f modes obj real = .ok expected := by
    intro f hf
    simp only [exitWaves, real, expected]
    rw [List.mapM_map]
    exact mapM_ok_map _ _ _ fun t ht => mapM_ok_map _ _ _ fun p _ => hf p t ht
  refine ⟨key _ fun p t ht => ?_, fun back => key _ fun p t ht => ?_⟩
  · exact (integer_translations_agree p obj t.1 t.2 (h t ht).1 (h t ht).2).1
  · exact (integer_translations_agree p obj t.1 t.2 (h t ht).1 (h t ht).2).2.2 back

/-- **C42**, between integers: `ptycho_2D_sinc` is exactly the probe, sinc-shifted by the fractional
part of the translation, times the window at its integer part (and, with `shift_back_ew`, shifted
back); `ptycho_2D_linear` is the bilinear interpolation between the probe and its copies rolled by
one pixel. -/
theorem subpixel_exit_waves (probe : Wave n m) (obj : Img ℂ) (tr : ℝ × ℝ)
    (h : ReadsInside n m obj ⌊tr.1⌋ ⌊tr.2⌋) :
    sincExit false probe obj tr = .ok (fun i j =>
      sincShift probe (Int.fract tr.1) (Int.fract tr.2) i j *
        obj.px (⌊tr.1⌋.toNat + i.val) (⌊tr.2⌋.toNat + j.val)) ∧
    sincExit true probe obj tr = .ok (sincShift (fun i j =>
      sincShift probe (Int.fract tr.1) (Int.fract tr.2) i j *
        obj.px (⌊tr.1⌋.toNat + i.val) (⌊tr.2⌋.toNat + j.val))
          (-Int.fract tr.1) (-Int.fract tr.2)) ∧
    linearExit true probe obj tr = .ok (fun i j =>
      ((1 - Int.fract tr.1 : ℝ) * (1 - Int.fract tr.2 : ℝ) * probe i j +
        (Int.fract tr.1 : ℝ) * (1 - Int.fract tr.2 : ℝ) * probe (i - 1) j +
        (1 - Int.fract tr.1 : ℝ) * (Int.fract tr.2 : ℝ) * probe i (j - 1) +
        (Int.fract tr.1 : ℝ) * (Int.fract tr.2 : ℝ) * probe (i - 1) (j - 1)) *
        obj.px (⌊tr.1⌋.toNat + i.val) (⌊tr.2⌋.toNat + j.val)) := by
  have hwin := objWindow_inside (n := n) (m := m) ⟨h.1, h.2⟩ ⟨h.3, h.4⟩
  have hconj : ∀ (s0 s1 : ℝ) (a : ZMod n) (b : ZMod m),
      (starRingEnd ℂ) (phaseMask s0 s1 a b) = phaseMask (-s0) (-s1) a b := by
    intro s0 s1 a b
    simp only [phaseMask]
    rw [← Complex.exp_conj]
    congr 1
    simp only [map_mul, map_sub, map_neg, map_div₀, Complex.conj_I, Complex.conj_ofReal, map_natCast,
      map_ofNat]
    push_cast
    ring
  refine ⟨?_, ?_, ?_⟩
  · simp only [sincExit, hwin, Except.map, Bool.false_eq_true, if_false]
    rfl
  · simp only [sincExit, hwin, Except.map, if_true, hconj]
    rfl
  · simp only [linearExit, hwin, Except.map, if_true]
    congr 1
    funext i j
    simp only [catRoll0, catRoll1, Int.fract]
    push_cast
    ring

/-- Non-vacuity: a 2 × 2 probe on a 4 × 5 object at `(2, 3)`. -/
example (probe : Wave 2 2) (px : ℕ → ℕ → ℂ) :
    roundExit probe ⟨4, 5, px⟩ ((2 : ℕ), (3 : ℕ)) =
      .ok fun i j => probe i j * px (2 + i.val) (3 + j.val) :=
  (integer_translations_agree probe ⟨4, 5, px⟩ 2 3 (by norm_num) (by norm_num)).1

end Cdtools
