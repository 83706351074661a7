/-
C77: the high-NA far-field propagator (`propagators.py:80-322`).
-/
import Verif.Model.HighNA
import Verif.Props.Geometry
import Verif.Props.PlaneWave
import Verif.Lemmas.FancyLinear

set_option linter.unusedSectionVars false

namespace Cdtools
open Finset

variable {n m : ℕ} [NeZero n] [NeZero m]

/-! ### Specification -/

/-- The wavevector of the light that reaches a pixel, which is at `R` from the sample. -/
noncomputable def wavevector (wl : ℝ) (R : Vec3) : Vec3 := fun c => 2 * Real.pi / wl * (R c / R.length)

/-- The wavevector of the light towards the middle of the detector. -/
noncomputable def centralWave (B : Matrix (Fin 3) (Fin 2) ℝ) (d wl : ℝ) : Vec3 := fun c =>
  2 * Real.pi / wl * (sampleToDetector B d c / d)

/-! ### Interpolation -/

theorem pixelOrZero_natCast (w : Wave n m) (i j : ℕ) (hi : i < n) (hj : j < m) :
    pixelOrZero w i j = w (i : ZMod n) (j : ZMod m) := by
  unfold pixelOrZero
  rw [if_pos ⟨by omega, by omega, by omega, by omega⟩]
  simp

/-- **C77** (interpolation): at the coordinates of a pixel, the interpolated value is the pixel. -/
theorem bilinear_pixel (w : Wave n m) (i j : ℕ) (hi : i < n) (hj : j < m) :
    bilinear w i j = w (i : ZMod n) (j : ZMod m) := by
  unfold bilinear
  simp only [Int.floor_natCast, Int.cast_natCast, sub_self]
  rw [pixelOrZero_natCast w i j hi hj]
  simp

/-- **C77** (interpolation): between two neighbouring pixels of a column it is the linear interpolation. -/
theorem bilinear_between (w : Wave n m) (i j : ℕ) (hi : i + 1 < n) (hj : j < m) (s : ℝ) (h0 : 0 ≤ s) (h1 : s < 1) :
    bilinear w (i + s) j = w (i : ZMod n) (j : ZMod m) * (1 - s) + w ((i + 1 : ℕ) : ZMod n) (j : ZMod m) * s := by
  have hf : ⌊(i : ℝ) + s⌋ = (i : ℤ) := by
    rw [Int.floor_eq_iff]; constructor <;> push_cast <;> linarith
  unfold bilinear
  simp only [Int.floor_natCast, Int.cast_natCast, hf, sub_self]
  have h2 : pixelOrZero w ((i : ℤ) + 1) j = w ((i + 1 : ℕ) : ZMod n) (j : ZMod m) := by
    have := pixelOrZero_natCast w (i + 1) j hi hj
    rw [← this]; push_cast; rfl
  rw [pixelOrZero_natCast w i j (by omega) hj, h2]
  push_cast
  ring

/-- **C77** (interpolation): anywhere between four pixels it is linear in each of the two coordinates. -/
theorem bilinear_cell (w : Wave n m) (i j : ℕ) (hi : i + 1 < n) (hj : j + 1 < m) (s r : ℝ) (h0 : 0 ≤ s) (h1 : s < 1)
    (h2 : 0 ≤ r) (h3 : r < 1) :
    bilinear w (i + s) (j + r) =
      (1 - r) * ((1 - s) * w (i : ZMod n) (j : ZMod m) + s * w ((i + 1 : ℕ) : ZMod n) (j : ZMod m)) +
      r * ((1 - s) * w (i : ZMod n) ((j + 1 : ℕ) : ZMod m) + s * w ((i + 1 : ℕ) : ZMod n) ((j + 1 : ℕ) : ZMod m)) := by
  have hf : ⌊(i : ℝ) + s⌋ = (i : ℤ) := by
    rw [Int.floor_eq_iff]; constructor <;> push_cast <;> linarith
  have hg : ⌊(j : ℝ) + r⌋ = (j : ℤ) := by
    rw [Int.floor_eq_iff]; constructor <;> push_cast <;> linarith
  unfold bilinear
  simp only [hf, hg, Int.cast_natCast, add_sub_cancel_left]
  have e : ∀ q : ℕ, (q : ℤ) + 1 = ((q + 1 : ℕ) : ℤ) := fun q => by push_cast; rfl
  rw [e i, e j, pixelOrZero_natCast w i j (by omega) (by omega), pixelOrZero_natCast w (i + 1) j hi (by omega),
    pixelOrZero_natCast w i (j + 1) (by omega) hj, pixelOrZero_natCast w (i + 1) (j + 1) hi hj]
  push_cast
  ring

/-- **C77** (band limit): pixels mapped outside the wavefield receive no light. -/
theorem bilinear_outside (w : Wave n m) (u v : ℝ) (h : u ≤ -1 ∨ (n : ℝ) ≤ u ∨ v ≤ -1 ∨ (m : ℝ) ≤ v) : bilinear w u v = 0 := by
  -- a weight that is not zero multiplies a pixel outside
  unfold bilinear
  simp only
  rcases h with h | h | h | h
  · rcases eq_or_lt_of_le h with h | h
    · have hf : ⌊u⌋ = -1 := by rw [h]; norm_num
      have hs : u - ((⌊u⌋ : ℤ) : ℝ) = 0 := by rw [hf, h]; norm_num
      have z : ∀ j, pixelOrZero w (⌊u⌋) j = 0 := fun j => by
        unfold pixelOrZero; rw [if_neg]; rintro ⟨h1, -⟩; omega
      rw [hs, z, z]; simp
    · have hf : ⌊u⌋ < -1 := by
        have := Int.floor_lt (z := -1) (a := u); rw [this]; push_cast; exact h
      have z : ∀ j, pixelOrZero w (⌊u⌋) j = 0 := fun j => by
        unfold pixelOrZero; rw [if_neg]; rintro ⟨h1, -⟩; omega
      have z' : ∀ j, pixelOrZero w (⌊u⌋ + 1) j = 0 := fun j => by
        unfold pixelOrZero; rw [if_neg]; rintro ⟨h1, -⟩; omega
      rw [z, z, z', z']; simp
  · have hf : (n : ℤ) ≤ ⌊u⌋ := by rw [Int.le_floor]; exact_mod_cast h
    have z : ∀ j, pixelOrZero w (⌊u⌋) j = 0 := fun j => by
      unfold pixelOrZero; rw [if_neg]; rintro ⟨h1, h2, -⟩; omega
    have z' : ∀ j, pixelOrZero w (⌊u⌋ + 1) j = 0 := fun j => by
      unfold pixelOrZero; rw [if_neg]; rintro ⟨h1, h2, -⟩; omega
    rw [z, z, z', z']; simp
  · rcases eq_or_lt_of_le h with h | h
    · have hf : ⌊v⌋ = -1 := by rw [h]; norm_num
      have hs : v - ((⌊v⌋ : ℤ) : ℝ) = 0 := by rw [hf, h]; norm_num
      have z : ∀ i, pixelOrZero w i (⌊v⌋) = 0 := fun i => by
        unfold pixelOrZero; rw [if_neg]; rintro ⟨_, _, h1, -⟩; omega
      rw [hs, z, z]; simp
    · have hf : ⌊v⌋ < -1 := by
        have := Int.floor_lt (z := -1) (a := v); rw [this]; push_cast; exact h
      have z : ∀ i, pixelOrZero w i (⌊v⌋) = 0 := fun i => by
        unfold pixelOrZero; rw [if_neg]; rintro ⟨_, _, h1, -⟩; omega
      have z' : ∀ i, pixelOrZero w i (⌊v⌋ + 1) = 0 := fun i => by
        unfold pixelOrZero; rw [if_neg]; rintro ⟨_, _, h1, -⟩; omega
      rw [z, z, z', z']; simp
  · have hf : (m : ℤ) ≤ ⌊v⌋ := by rw [Int.le_floor]; exact_mod_cast h
    have z : ∀ i, pixelOrZero w i (⌊v⌋) = 0 := fun i => by
      unfold pixelOrZero; rw [if_neg]; rintro ⟨_, _, h1, h2⟩; omega
    have z' : ∀ i, pixelOrZero w i (⌊v⌋ + 1) = 0 := fun i => by
      unfold pixelOrZero; rw [if_neg]; rintro ⟨_, _, h1, h2⟩; omega
    rw [z, z, z', z']; simp

theorem pixelOrZero_add (v w : Wave n m) (i j : ℤ) : pixelOrZero (v + w) i j = pixelOrZero v i j + pixelOrZero w i j := by
  unfold pixelOrZero; split_ifs <;> simp

theorem pixelOrZero_smul (c : ℂ) (w : Wave n m) (i j : ℤ) : pixelOrZero (c • w) i j = c * pixelOrZero w i j := by
  unfold pixelOrZero; split_ifs <;> simp

/-- **C77** (linearity): the propagator is linear in the wavefield. -/
theorem high_na_linear (kMap : ℕ → ℕ → ℝ × ℝ) (I : Option (ℕ → ℕ → ℝ)) :
    IsLinearMap ℂ fun (w : Wave n m) => highNAFarField kMap I w := by
  have hb : ∀ u v : ℝ, IsLinearMap ℂ fun w : Wave n m => bilinear w u v := fun u v =>
    ⟨fun x y => by simp only [bilinear, pixelOrZero_add]; ring,
     fun c x => by simp only [bilinear, pixelOrZero_smul, smul_eq_mul]; ring⟩
  have hf := isLinear_farField (n := n) (m := m)
  refine ⟨fun x y => ?_, fun c x => ?_⟩ <;> funext i j <;>
    cases I <;> simp only [highNAFarField, gridSample, hf.map_add, hf.map_smul, (hb _ _).map_add, (hb _ _).map_smul,
      Pi.add_apply, Pi.smul_apply, smul_eq_mul] <;> ring

/-! ### Geometry -/

theorem dot_cross_left (a b : Vec3) : a.dot (a.cross b) = 0 := by simp [Vec3.dot, Vec3.cross]; ring
theorem dot_cross_right (a b : Vec3) : b.dot (a.cross b) = 0 := by simp [Vec3.dot, Vec3.cross]; ring

/-- The detector basis spans a plane. -/
def Spans (B : Matrix (Fin 3) (Fin 2) ℝ) : Prop :=
  (basisCol B 0).dot (basisCol B 0) * (basisCol B 1).dot (basisCol B 1) -
    (basisCol B 0).dot (basisCol B 1) * (basisCol B 0).dot (basisCol B 1) ≠ 0

theorem cross_pos {B : Matrix (Fin 3) (Fin 2) ℝ} (hB : Spans B) :
    0 < ((basisCol B 0).cross (basisCol B 1)).dot ((basisCol B 0).cross (basisCol B 1)) := by
  refine lt_of_le_of_ne ?_ (by rw [dot_cross_self]; exact hB.symm)
  simp only [Vec3.dot]
  nlinarith [sq_nonneg (((basisCol B 0).cross (basisCol B 1)) 0), sq_nonneg (((basisCol B 0).cross (basisCol B 1)) 1),
    sq_nonneg (((basisCol B 0).cross (basisCol B 1)) 2)]

theorem sampleToDetector_dot_self {B : Matrix (Fin 3) (Fin 2) ℝ} (hB : Spans B) (d : ℝ) :
    (sampleToDetector B d).dot (sampleToDetector B d) = d ^ 2 := by
  have hp := cross_pos hB
  set v := (basisCol B 0).cross (basisCol B 1)
  set s := Real.sqrt (v.dot v) with hs
  have hs2 : s * s = v.dot v := Real.mul_self_sqrt hp.le
  have hs0 : s ≠ 0 := (Real.sqrt_pos.mpr hp).ne'
  have : (sampleToDetector B d).dot (sampleToDetector B d) = v.dot v * (d / s) ^ 2 := by
    have e : sampleToDetector B d = fun i => -(v i * (d / s)) := rfl
    rw [e]
    generalize d / s = c
    simp only [Vec3.dot]; ring
  rw [this, ← hs2]
  field_simp

theorem inDetector_dot_sampleToDetector (B : Matrix (Fin 3) (Fin 2) ℝ) (d : ℝ) (i j : ℕ) :
    (inDetector n m B i j).dot (sampleToDetector B d) = 0 := by
  set v := (basisCol B 0).cross (basisCol B 1) with hv
  have h0 := dot_cross_left (basisCol B 0) (basisCol B 1)
  have h1 := dot_cross_right (basisCol B 0) (basisCol B 1)
  rw [← hv] at h0 h1
  have : (inDetector n m B i j).dot (sampleToDetector B d) =
      -(d / Real.sqrt (v.dot v)) * (((i : ℝ) - ((n : ℝ) - 1) / 2) * (basisCol B 0).dot v +
        ((j : ℝ) - ((m : ℝ) - 1) / 2) * (basisCol B 1).dot v) := by
    have e : sampleToDetector B d = fun i => -(v i * (d / Real.sqrt (v.dot v))) := rfl
    rw [e]
    generalize d / Real.sqrt (v.dot v) = c
    simp only [Vec3.dot, inDetector, basisCol]; ring
  rw [this, h0, h1]; ring

/-- The distance of the pixels from the sample: Pythagoras without a lens, the distance of the detector with one. -/
theorem rayToPixel_length {B : Matrix (Fin 3) (Fin 2) ℝ} (hB : Spans B) (d : ℝ) (hd : 0 < d) (i j : ℕ) :
    (rayToPixel n m B d false i j).length = Real.sqrt ((inDetector n m B i j).dot (inDetector n m B i j) + d ^ 2) ∧
    ((inDetector n m B i j).dot (inDetector n m B i j) ≤ d ^ 2 → (rayToPixel n m B d true i j).length = d) := by
  set q := inDetector n m B i j with hq
  set s := sampleToDetector B d with hs
  have hss : s.dot s = d ^ 2 := sampleToDetector_dot_self hB d
  have hqs : q.dot s = 0 := inDetector_dot_sampleToDetector B d i j
  have lin : ∀ α : ℝ, Vec3.dot (fun c => q c + s c * α) (fun c => q c + s c * α) = q.dot q + 2 * α * q.dot s + α ^ 2 * s.dot s := by
    intro α; simp only [Vec3.dot]; ring
  constructor
  · have e : rayToPixel n m B d false i j = fun c => q c + s c * 1 := by
      unfold rayToPixel
      rw [if_neg (by decide)]
      funext c; rw [mul_one]
    unfold Vec3.length
    rw [e, lin, hqs, hss]
    congr 1; ring
  · intro hle
    have e : rayToPixel n m B d true i j = fun c => q c + s c * (Real.sqrt (d ^ 2 - q.dot q) / d) := by
      have : rayToPixel n m B d true i j = fun c => q c + s c / Real.sqrt (s.dot s) * Real.sqrt (s.dot s - q.dot q) := rfl
      rw [this, hss, Real.sqrt_sq hd.le]
      funext c; ring
    unfold Vec3.length
    rw [e, lin, hqs, hss, div_pow, Real.sq_sqrt (by linarith)]
    have : q.dot q + 2 * (Real.sqrt (d ^ 2 - q.dot q) / d) * 0 + (d ^ 2 - q.dot q) / d ^ 2 * d ^ 2 = d ^ 2 := by
      field_simp; ring
    rw [this, Real.sqrt_sq hd.le]

/-- **C77** (frequencies): for every sample basis (tilted or not) and with or without a lens, the far field shown at
detector pixel `(i, j)` is the one at the fractional pixel `(N-1)/2 + N f` along each axis, where `f` is the number of
cycles per sample pixel by which the light to that pixel differs from the light to the middle of the detector. -/
theorem high_na_frequency (sample B : Matrix (Fin 3) (Fin 2) ℝ) (d wl : ℝ) (lens : Bool) (w : Wave n m) (i j : ℕ) :
    let R := rayToPixel n m B d lens i j
    let f : Fin 2 → ℝ := fun c => (basisCol sample c).dot (fun x => wavevector wl R x - centralWave B d wl x) / (2 * Real.pi)
    highNAFarField (highNAMap n m sample B d wl lens) none w i j =
      bilinear (farField w) (((n : ℝ) - 1) / 2 + n * f 0) (((m : ℝ) - 1) / 2 + m * f 1) := by
  intro R f
  have hpi := Real.pi_ne_zero
  have key : ∀ c : Fin 2, Vec3.dot (fun x => 2 * sample x c / (2 * Real.pi))
      (fun x => 2 * Real.pi / wl * R x / R.length - 2 * Real.pi / wl * sampleToDetector B d x / d) = 2 * f c := by
    intro c
    simp only [f, Vec3.dot, basisCol, wavevector, centralWave]
    ring
  simp only [highNAFarField, highNAMap, gridSample]
  rw [key 1, key 0]
  congr 1 <;> ring

/-- The frequency of an untilted sample whose pixels are those of `exit_wave_geometry`. -/
theorem untilted_frequency {B : Matrix (Fin 3) (Fin 2) ℝ} (hB : Spans B)
    (d wl : ℝ) (os : ℕ) (hwl : 0 < wl) (hd : 0 < d) (lens : Bool) (i j : ℕ) (c : Fin 2) :
    (basisCol (exitWaveGeometry B ![n, m] wl d os) c).dot
      (fun x => wavevector wl (rayToPixel n m B d lens i j) x - centralWave B d wl x) / (2 * Real.pi) =
    d / (rayToPixel n m B d lens i j).length *
      (![((i : ℝ) - ((n : ℝ) - 1) / 2) / n, ((j : ℝ) - ((m : ℝ) - 1) / 2) / m] c) := by
  have hpi := Real.pi_ne_zero
  have hT : Transverse B ((col B 0).cross (col B 1)) := by
    unfold Transverse
    have : ((col B 0).cross (col B 1)).dot ((col B 0).cross (col B 1)) ≠ 0 := (cross_pos hB).ne'
    exact this
  have hs : ∀ x, (![n, m] : Fin 2 → ℕ) x ≠ 0 := by
    intro x; fin_cases x
    · exact NeZero.ne n
    · exact NeZero.ne m
  have hA := fun x => exit_wave_geometry_reciprocal B ![n, m] wl d os hT hs c x
  set A := basisCol (exitWaveGeometry B ![n, m] wl d os) c with hAdef
  have hAc : col (exitWaveGeometry B ![n, m] wl d os) c = A := rfl
  rw [hAc] at hA
  have hn : (n : ℝ) ≠ 0 := Nat.cast_ne_zero.mpr (NeZero.ne n)
  have hm : (m : ℝ) ≠ 0 := Nat.cast_ne_zero.mpr (NeZero.ne m)
  have hA0 : A.dot (basisCol B 0) = (if c = 0 then wl * d else 0) / n := by
    have := (hA 0).1
    have e : A.dot (fun x => ((![n, m] : Fin 2 → ℕ) 0 : ℝ) * col B 0 x) = n * A.dot (basisCol B 0) := by
      simp only [Vec3.dot, basisCol, col, Matrix.cons_val_zero]; ring
    rw [e] at this
    rw [← this]; field_simp
  have hA1 : A.dot (basisCol B 1) = (if c = 1 then wl * d else 0) / m := by
    have := (hA 1).1
    have e : A.dot (fun x => ((![n, m] : Fin 2 → ℕ) 1 : ℝ) * col B 1 x) = m * A.dot (basisCol B 1) := by
      simp only [Vec3.dot, basisCol, col, Matrix.cons_val_one, Matrix.cons_val_fin_one]; ring
    rw [e] at this
    rw [← this]; field_simp
  have hAv : A.dot (sampleToDetector B d) = 0 := by
    have := (hA 0).2
    set v := (col B 0).cross (col B 1) with hv
    have e : A.dot (sampleToDetector B d) = -(d / Real.sqrt (v.dot v)) * A.dot v := by
      have e' : sampleToDetector B d = fun i => -(v i * (d / Real.sqrt (v.dot v))) := rfl
      rw [e']
      generalize d / Real.sqrt (v.dot v) = z
      simp only [Vec3.dot]; ring
    rw [e, this, mul_zero]
  have hAq : A.dot (inDetector n m B i j) = ((i : ℝ) - ((n : ℝ) - 1) / 2) * A.dot (basisCol B 0) +
      ((j : ℝ) - ((m : ℝ) - 1) / 2) * A.dot (basisCol B 1) := by
    simp only [Vec3.dot, inDetector, basisCol]; ring
  have hAR : A.dot (rayToPixel n m B d lens i j) = A.dot (inDetector n m B i j) := by
    have lin : ∀ α : ℝ, A.dot (fun x => inDetector n m B i j x + sampleToDetector B d x * α) =
        A.dot (inDetector n m B i j) + α * A.dot (sampleToDetector B d) := by
      intro α; simp only [Vec3.dot]; ring
    cases lens
    · have e : rayToPixel n m B d false i j = fun x => inDetector n m B i j x + sampleToDetector B d x * 1 := by
        unfold rayToPixel; rw [if_neg (by decide)]; funext x; rw [mul_one]
      rw [e, lin, hAv]; ring
    · have e : rayToPixel n m B d true i j = fun x => inDetector n m B i j x + sampleToDetector B d x *
          (Real.sqrt ((sampleToDetector B d).dot (sampleToDetector B d) - (inDetector n m B i j).dot (inDetector n m B i j)) /
            Real.sqrt ((sampleToDetector B d).dot (sampleToDetector B d))) := by
        unfold rayToPixel; rw [if_pos rfl]; funext x; ring
      rw [e, lin, hAv]; ring
  have hexp : A.dot (fun x => wavevector wl (rayToPixel n m B d lens i j) x - centralWave B d wl x) =
      2 * Real.pi / wl * (A.dot (rayToPixel n m B d lens i j) / (rayToPixel n m B d lens i j).length -
        A.dot (sampleToDetector B d) / d) := by
    simp only [Vec3.dot, wavevector, centralWave]; ring
  rw [hexp, hAv, hAR, hAq, hA0, hA1]
  generalize (rayToPixel n m B d lens i j).length = L
  fin_cases c
  · simp only [Fin.zero_eta, if_true, Fin.reduceEq, if_false, Matrix.cons_val_zero, Fin.isValue, zero_ne_one]
    field_simp
    ring
  · simp only [Fin.mk_one, if_true, if_false, Matrix.cons_val_one, Matrix.cons_val_fin_one, Fin.isValue, one_ne_zero]
    field_simp
    ring

/-- **C77** (lens): with a lens and an untilted sample on the grid of `exit_wave_geometry`, the high-NA propagator is
exactly `far_field` and the intensity map is one everywhere. -/
theorem high_na_lens_untilted {B : Matrix (Fin 3) (Fin 2) ℝ} (hB : Spans B) (d wl : ℝ) (os : ℕ) (hwl : 0 < wl) (hd : 0 < d)
    (w : Wave n m) (i j : ℕ) (hi : i < n) (hj : j < m)
    (hin : (inDetector n m B i j).dot (inDetector n m B i j) ≤ d ^ 2) :
    highNAFarField (highNAMap n m (exitWaveGeometry B ![n, m] wl d os) B d wl true)
      (some (highNAIntensity n m B d wl true)) w i j = farField w (i : ZMod n) (j : ZMod m) := by
  have h := high_na_frequency (exitWaveGeometry B ![n, m] wl d os) B d wl true w i j
  simp only at h
  have hI : highNAIntensity n m B d wl true i j = 1 := by unfold highNAIntensity; rfl
  have e : highNAFarField (highNAMap n m (exitWaveGeometry B ![n, m] wl d os) B d wl true)
      (some (highNAIntensity n m B d wl true)) w i j =
      highNAFarField (highNAMap n m (exitWaveGeometry B ![n, m] wl d os) B d wl true) none w i j *
        ((highNAIntensity n m B d wl true i j : ℝ) : ℂ) := rfl
  rw [e, h, hI, untilted_frequency hB d wl os hwl hd true i j 0, untilted_frequency hB d wl os hwl hd true i j 1,
    (rayToPixel_length hB d hd i j).2 hin, div_self hd.ne']
  have hn : (n : ℝ) ≠ 0 := Nat.cast_ne_zero.mpr (NeZero.ne n)
  have hm : (m : ℝ) ≠ 0 := Nat.cast_ne_zero.mpr (NeZero.ne m)
  have e0 : ((n : ℝ) - 1) / 2 + n * (1 * (![((i : ℝ) - ((n : ℝ) - 1) / 2) / n, ((j : ℝ) - ((m : ℝ) - 1) / 2) / m] 0)) = i := by
    simp only [Matrix.cons_val_zero]; field_simp; ring
  have e1 : ((m : ℝ) - 1) / 2 + m * (1 * (![((i : ℝ) - ((n : ℝ) - 1) / 2) / n, ((j : ℝ) - ((m : ℝ) - 1) / 2) / m] 1)) = j := by
    simp only [Matrix.cons_val_one, Matrix.cons_val_fin_one]; field_simp; ring
  rw [e0, e1, bilinear_pixel _ i j hi hj]
  simp

/-- **C77** (flat detector): without a lens, the far field of an untilted sample is contracted towards the middle of the
detector by the cosine of the angle of each pixel. -/
theorem high_na_flat_untilted {B : Matrix (Fin 3) (Fin 2) ℝ} (hB : Spans B) (d wl : ℝ) (os : ℕ) (hwl : 0 < wl) (hd : 0 < d)
    (w : Wave n m) (i j : ℕ) :
    let cosine := d / Real.sqrt ((inDetector n m B i j).dot (inDetector n m B i j) + d ^ 2)
    highNAFarField (highNAMap n m (exitWaveGeometry B ![n, m] wl d os) B d wl false) none w i j =
      bilinear (farField w) (((n : ℝ) - 1) / 2 + cosine * ((i : ℝ) - ((n : ℝ) - 1) / 2))
        (((m : ℝ) - 1) / 2 + cosine * ((j : ℝ) - ((m : ℝ) - 1) / 2)) := by
  intro cosine
  have h := high_na_frequency (exitWaveGeometry B ![n, m] wl d os) B d wl false w i j
  simp only at h
  rw [h, untilted_frequency hB d wl os hwl hd false i j 0, untilted_frequency hB d wl os hwl hd false i j 1,
    (rayToPixel_length hB d hd i j).1]
  have hn : (n : ℝ) ≠ 0 := Nat.cast_ne_zero.mpr (NeZero.ne n)
  have hm : (m : ℝ) ≠ 0 := Nat.cast_ne_zero.mpr (NeZero.ne m)
  simp only [Matrix.cons_val_zero, Matrix.cons_val_one, Matrix.cons_val_fin_one]
  congr 1
  · change _ + (n : ℝ) * (cosine * _) = _
    field_simp
  · change _ + (m : ℝ) * (cosine * _) = _
    field_simp

/-! ### Intensities -/

/-- **C77** (intensity map): the map is the solid angle of a pixel relative to that of a pixel perpendicular to the beam at
the distance of the nearest pixel: `R_min² d / R³`, between 0 and 1. -/
theorem high_na_intensity {B : Matrix (Fin 3) (Fin 2) ℝ} (hB : Spans B) (d wl : ℝ) (hwl : 0 < wl) (hd : 0 < d) (i j : ℕ)
    (hi : i < n) (hj : j < m) :
    let R := fun i j => (rayToPixel n m B d false i j).length
    let nearest := ⨅ p : Fin n × Fin m, R p.1 p.2
    highNAIntensity n m B d wl false i j = nearest ^ 2 * d / R i j ^ 3 ∧
      0 < highNAIntensity n m B d wl false i j ∧ highNAIntensity n m B d wl false i j ≤ 1 := by
  intro R nearest
  have hR : ∀ i j, d ≤ R i j := by
    intro i j
    change d ≤ (rayToPixel n m B d false i j).length
    rw [(rayToPixel_length hB d hd i j).1]
    refine Real.le_sqrt_of_sq_le ?_
    have : 0 ≤ (inDetector n m B i j).dot (inDetector n m B i j) := by
      simp only [Vec3.dot]
      nlinarith [sq_nonneg (inDetector n m B i j 0), sq_nonneg (inDetector n m B i j 1), sq_nonneg (inDetector n m B i j 2)]
    linarith
  have hRpos : ∀ i j, 0 < R i j := fun i j => lt_of_lt_of_le hd (hR i j)
  haveI : Nonempty (Fin n × Fin m) := ⟨(⟨0, NeZero.pos n⟩, ⟨0, NeZero.pos m⟩)⟩
  have hnear : d ≤ nearest := le_ciInf fun p => hR p.1 p.2
  have hnear2 : nearest ≤ R i j := ciInf_le (f := fun p : Fin n × Fin m => R p.1 p.2)
    ⟨d, by rintro _ ⟨p, rfl⟩; exact hR p.1 p.2⟩ (⟨⟨i, hi⟩, ⟨j, hj⟩⟩ : Fin n × Fin m)
  have hk : (2 * Real.pi / wl) ≠ 0 := by have := Real.pi_pos; positivity
  have hdot : Vec3.dot (sampleToDetector B d) (rayToPixel n m B d false i j) = d ^ 2 := by
    have e : rayToPixel n m B d false i j = fun c => inDetector n m B i j c + sampleToDetector B d c := rfl
    have : Vec3.dot (sampleToDetector B d) (fun c => inDetector n m B i j c + sampleToDetector B d c) =
        (inDetector n m B i j).dot (sampleToDetector B d) + (sampleToDetector B d).dot (sampleToDetector B d) := by
      simp only [Vec3.dot]; ring
    rw [e, this, inDetector_dot_sampleToDetector, sampleToDetector_dot_self hB, zero_add]
  have hform : highNAIntensity n m B d wl false i j = nearest ^ 2 * d / R i j ^ 3 := by
    have e : highNAIntensity n m B d wl false i j = nearest ^ 2 *
        (Vec3.dot (fun c => sampleToDetector B d c / (2 * Real.pi / wl * d))
          (fun c => 2 * Real.pi / wl * rayToPixel n m B d false i j c / R i j) / R i j ^ 2) := by
      unfold highNAIntensity; rw [if_neg (by decide)]
    have e2 : Vec3.dot (fun c => sampleToDetector B d c / (2 * Real.pi / wl * d))
          (fun c => 2 * Real.pi / wl * rayToPixel n m B d false i j c / R i j) =
        Vec3.dot (sampleToDetector B d) (rayToPixel n m B d false i j) / (d * R i j) := by
      have := (hRpos i j).ne'
      generalize 2 * Real.pi / wl = k at hk
      simp only [Vec3.dot]
      field_simp
    rw [e, e2, hdot]
    have := (hRpos i j).ne'
    field_simp
  refine ⟨hform, ?_, ?_⟩
  · rw [hform]
    have := hRpos i j
    have : 0 < nearest := lt_of_lt_of_le hd hnear
    positivity
  · rw [hform, div_le_one (by have := hRpos i j; positivity)]
    have h0 : 0 < nearest := lt_of_lt_of_le hd hnear
    calc nearest ^ 2 * d ≤ R i j ^ 2 * R i j := by
          apply mul_le_mul (pow_le_pow_left₀ h0.le hnear2 2) (hR i j) hd.le (by positivity)
      _ = R i j ^ 3 := by ring

/-- **C77** (violated): the map multiplies the amplitudes, so that the detected intensities are corrected by its square. -/
theorem high_na_intensity_squared_violated (kMap : ℕ → ℕ → ℝ × ℝ) (I : ℕ → ℕ → ℝ) (w : Wave n m) (i j : ℕ) :
    ‖highNAFarField kMap (some I) w i j‖ ^ 2 = I i j ^ 2 * ‖highNAFarField kMap none w i j‖ ^ 2 := by
  have e : highNAFarField kMap (some I) w i j = highNAFarField kMap none w i j * ((I i j : ℝ) : ℂ) := rfl
  rw [e, norm_mul, mul_pow, Complex.norm_real, Real.norm_eq_abs, sq_abs, mul_comm]

/-- The detector of the counterexample: two pixels on top of each other. -/
def twoPixels : Matrix (Fin 3) (Fin 2) ℝ := !![0, -1; -1, 0; 0, 0]

theorem spans_twoPixels : Spans twoPixels := by
  unfold Spans; simp [Vec3.dot, basisCol, twoPixels]

/-- **C77** (violated): the map takes the middle of the detector, `(N-1)/2`, as zero frequency, while `far_field` has it at
pixel `N//2`. On a detector with two pixels, a uniform exit wave (which contains the zero frequency only, and which
`far_field` sends to one pixel) reaches both pixels. -/
theorem high_na_centre_violated (d wl : ℝ) (hd : 0 < d) (hwl : 0 < wl) :
    let w : Wave 2 1 := fun _ _ => 1
    farField w 0 0 = 0 ∧
      highNAFarField (highNAMap 2 1 (exitWaveGeometry twoPixels ![2, 1] wl d 1) twoPixels d wl false) none w 0 0 ≠ 0 := by
  intro w
  have hconst := (far_field_unitary (n := 2) (m := 1)).2.2.2.2.2
  have hf0 : farField w 0 0 = 0 := by
    unfold farField fftshift2 fft2 ifftshift2
    have e0 : (0 : ZMod 2) - ((2 / 2 : ℕ) : ZMod 2) = 1 := by decide
    rw [e0]
    have v1 : (1 : ZMod 2).val = 1 := rfl
    have s : ∀ f : ZMod 2 → ℂ, ∑ i, f i = f 0 + f 1 := fun f => Fin.sum_univ_two f
    have s1 : ∀ f : ZMod 1 → ℂ, ∑ i, f i = f 0 := fun f => Fin.sum_univ_one f
    have hv0 : (0 : ZMod 2).val = 0 := rfl
    have hz : ∀ l : ZMod 1, l.val = 0 := fun l => by have := ZMod.val_lt l; omega
    simp only [s, s1, v1, hv0, w, hz]
    have : Complex.exp (-(2 * Real.pi * Complex.I * (((1 : ℕ) : ℂ) * ((1 : ℕ) : ℂ)) / ((2 : ℕ) : ℂ))) = -1 := by
      rw [show -(2 * (Real.pi : ℂ) * Complex.I * (((1 : ℕ) : ℂ) * ((1 : ℕ) : ℂ)) / ((2 : ℕ) : ℂ)) = -(Real.pi * Complex.I) by
        push_cast; ring, Complex.exp_neg, Complex.exp_pi_mul_I]
      norm_num
    rw [this]; simp
  refine ⟨hf0, ?_⟩
  have hf1 : farField w 1 0 ≠ 0 := by
    intro h1
    have hp := (far_field_unitary (n := 2) (m := 1)).2.2.1 w
    have s : ∀ f : ZMod 2 → ℝ, ∑ i, f i = f 0 + f 1 := fun f => Fin.sum_univ_two f
    have s1 : ∀ f : ZMod 1 → ℝ, ∑ i, f i = f 0 := fun f => Fin.sum_univ_one f
    unfold power at hp
    simp only [s, s1, hf0, h1, w] at hp
    norm_num at hp
  have h := high_na_flat_untilted (n := 2) (m := 1) spans_twoPixels d wl 1 hwl hd w 0 0
  simp only at h
  rw [h]
  set q2 := (inDetector 2 1 twoPixels 0 0).dot (inDetector 2 1 twoPixels 0 0) with hq
  have hq2 : q2 = 1 / 4 := by
    rw [hq]; simp [inDetector, twoPixels, Vec3.dot]; norm_num
  have hlt : d / Real.sqrt (q2 + d ^ 2) < 1 := by
    rw [div_lt_one (by rw [hq2]; positivity)]
    refine Real.lt_sqrt_of_sq_lt ?_
    rw [hq2]; linarith
  have hpos : 0 < d / Real.sqrt (q2 + d ^ 2) := by rw [hq2]; positivity
  set g := d / Real.sqrt (q2 + d ^ 2)
  have e0 : (((2 : ℕ) : ℝ) - 1) / 2 + g * (((0 : ℕ) : ℝ) - (((2 : ℕ) : ℝ) - 1) / 2) = ((0 : ℕ) : ℝ) + (1 - g) / 2 := by
    push_cast; ring
  have e1 : (((1 : ℕ) : ℝ) - 1) / 2 + g * (((0 : ℕ) : ℝ) - (((1 : ℕ) : ℝ) - 1) / 2) = ((0 : ℕ) : ℝ) := by
    push_cast; ring
  rw [e0, e1, bilinear_between (farField w) 0 0 (by norm_num) (by norm_num) _ (by linarith) (by linarith)]
  have c0 : (((0 : ℕ) : ZMod 2)) = 0 := rfl
  have c1 : (((0 + 1 : ℕ) : ZMod 2)) = 1 := rfl
  have c2 : (((0 : ℕ) : ZMod 1)) = 0 := rfl
  rw [c0, c1, c2, hf0, zero_mul, zero_add]
  refine mul_ne_zero hf1 ?_
  have : (1 - g) / 2 ≠ 0 := by intro h; linarith
  exact_mod_cast this

/-- Non-vacuity of the lens theorem: a standard detector whose pixels are all closer to the middle than its distance. -/
example : Spans !![0, -1; -1, 0; 0, 0] ∧ ∀ i j : ℕ, i < 3 → j < 4 →
    (inDetector 3 4 !![0, -1; -1, 0; 0, 0] i j).dot (inDetector 3 4 !![0, -1; -1, 0; 0, 0] i j) ≤ (10 : ℝ) ^ 2 := by
  refine ⟨by unfold Spans; simp [Vec3.dot, basisCol], fun i j hi hj => ?_⟩
  simp only [inDetector, Vec3.dot]
  have e : ∀ c : Fin 2, (!![0, -1; -1, 0; 0, 0] : Matrix (Fin 3) (Fin 2) ℝ) 2 c = 0 := fun c => by fin_cases c <;> rfl
  interval_cases i <;> interval_cases j <;> simp only [e] <;> norm_num

end Cdtools
