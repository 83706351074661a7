/-
`generate_high_NA_k_intensity_map` and `high_NA_far_field`, `tools/propagators/propagators.py:80-322`.

Floats are real numbers. A stack of wavefields is processed wavefield by wavefield; the check of the number of
dimensions (IndexError unless 2, 3 or 4) is not modelled.
-/
import Verif.Model.Interactions

namespace Cdtools
open Finset

variable {n m : ℕ} [NeZero n] [NeZero m]

/-- A column of a basis. -/
def basisCol (B : Matrix (Fin 3) (Fin 2) ℝ) (c : Fin 2) : Vec3 := fun i => B i c

/-- `samp_det_vec`, `propagators.py:167-175`. -/
noncomputable def sampleToDetector (B : Matrix (Fin 3) (Fin 2) ℝ) (distance : ℝ) : Vec3 :=
  let v := (basisCol B 0).cross (basisCol B 1)
  fun i => -(v i * (distance / Real.sqrt (v.dot v)))

/-- The position of pixel `(i, j)` in the plane of the detector, from the middle of the detector,
`propagators.py:161-166,181,190`: `tensordot(det_basis, [Is, Js])`. -/
noncomputable def inDetector (n m : ℕ) (B : Matrix (Fin 3) (Fin 2) ℝ) (i j : ℕ) : Vec3 := fun c =>
  B c 0 * ((i : ℝ) - ((n : ℝ) - 1) / 2) + B c 1 * ((j : ℝ) - ((m : ℝ) - 1) / 2)

/-- `Rs`, `propagators.py:177-192`. Simplification: with a lens, the root is NaN in the code for pixels further from the
middle than the distance of the detector, here it is zero. -/
noncomputable def rayToPixel (n m : ℕ) (B : Matrix (Fin 3) (Fin 2) ℝ) (distance : ℝ) (lens : Bool) (i j : ℕ) : Vec3 :=
  let s := sampleToDetector B distance
  let q := inDetector n m B i j
  if lens then fun c => q c + s c / Real.sqrt (s.dot s) * Real.sqrt (s.dot s - q.dot q)
  else fun c => q c + s c

/-- `np.linalg.norm`. -/
noncomputable def Vec3.length (v : Vec3) : ℝ := Real.sqrt (v.dot v)

/-- `intensity_map`, `propagators.py:202-213`. -/
noncomputable def highNAIntensity (n m : ℕ) (B : Matrix (Fin 3) (Fin 2) ℝ) (distance wavelength : ℝ) (lens : Bool)
    (i j : ℕ) : ℝ :=
  let k0 := 2 * Real.pi / wavelength
  let R := rayToPixel n m B distance lens
  let K : Vec3 := fun c => k0 * R i j c / (R i j).length
  let cosine := Vec3.dot (fun c => sampleToDetector B distance c / (k0 * distance)) K
  let nearest := ⨅ p : Fin n × Fin m, (R p.1 p.2).length
  if lens then 1 else nearest ^ 2 * (cosine / (R i j).length ^ 2)

/-- `k_map[i, j]`, `propagators.py:194-240`: the coordinates along the second (index 0) and the first axis (index 1), in
the convention of `grid_sample`. -/
noncomputable def highNAMap (n m : ℕ) (sample B : Matrix (Fin 3) (Fin 2) ℝ) (distance wavelength : ℝ) (lens : Bool)
    (i j : ℕ) : ℝ × ℝ :=
  let k0 := 2 * Real.pi / wavelength
  let R := rayToPixel n m B distance lens i j
  let K : Vec3 := fun c => k0 * R c / R.length - k0 * sampleToDetector B distance c / distance
  (Vec3.dot (fun c => 2 * sample c 1 / (2 * Real.pi)) K, Vec3.dot (fun c => 2 * sample c 0 / (2 * Real.pi)) K)

/-- An entry of an array, zero outside of it (`padding_mode='zeros'`). -/
def pixelOrZero (w : Wave n m) (i j : ℤ) : ℂ :=
  if 0 ≤ i ∧ i < n ∧ 0 ≤ j ∧ j < m then w (i : ZMod n) (j : ZMod m) else 0

/-- Bilinear interpolation between the four surrounding pixels. -/
noncomputable def bilinear (w : Wave n m) (u v : ℝ) : ℂ :=
  let i := ⌊u⌋
  let j := ⌊v⌋
  let s := u - i
  let r := v - j
  pixelOrZero w i j * ((1 - s) * (1 - r) : ℝ) + pixelOrZero w (i + 1) j * (s * (1 - r) : ℝ) +
    pixelOrZero w i (j + 1) * ((1 - s) * r : ℝ) + pixelOrZero w (i + 1) (j + 1) * (s * r : ℝ)

/-- `torch.nn.functional.grid_sample(..., mode='bilinear', padding_mode='zeros', align_corners=False)` at one point of the
grid: `x` runs along the second axis and `y` along the first one, from the outer edge of the first pixel (-1) to the
outer edge of the last one (1). Applied to the real and the imaginary parts. -/
noncomputable def gridSample (w : Wave n m) (x y : ℝ) : ℂ :=
  bilinear w (((y + 1) * n - 1) / 2) (((x + 1) * m - 1) / 2)

/-- `high_NA_far_field`, `propagators.py:247-322`, of one wavefield, on the pixels of the detector. -/
noncomputable def highNAFarField (kMap : ℕ → ℕ → ℝ × ℝ) (intensity : Option (ℕ → ℕ → ℝ)) (w : Wave n m) (i j : ℕ) : ℂ :=
  let g := gridSample (farField w) (kMap i j).1 (kMap i j).2
  match intensity with
  | none => g
  | some I => g * (I i j : ℝ)

end Cdtools
