/-
`tools/image_processing/image_processing.py`.

Images are functions on `ZMod n × ZMod m` as in `Verif.Model.Fourier`; row index `i : ZMod n` has
the number `i.val`. Simplification: floats are real/complex numbers, so a division by zero is
represented explicitly where it can occur (`none`) and nothing overflows.
-/
import Verif.Model.Fourier

namespace Cdtools
open Finset

variable {n m : ℕ} [NeZero n] [NeZero m]

/-- `hann_window`, `image_processing.py:18-37`, entry `(x, y)` of the result for an `a × b`
image (`Xs` is divided by `shape[1] - 1` and `Ys` by `shape[0] - 1`, as in the code). -/
noncomputable def hannWindow (a b : ℕ) (im : ℕ → ℕ → ℝ) (x y : ℕ) : ℝ :=
  im x y * (Real.sin (Real.pi * x / (b - 1)) ^ 2 * Real.sin (Real.pi * y / (a - 1)) ^ 2)

/-- `centroid`, `image_processing.py:39-69`, of one image (`dims=2`). `none` when the divisor is
zero (the code then returns NaN or infinities). -/
noncomputable def centroid (im : ZMod n → ZMod m → ℝ) : Option (ℝ × ℝ) :=
  let divisor := ∑ i, ∑ j, im i j
  if divisor = 0 then none
  else some ((∑ i, ∑ j, (i.val : ℝ) * im i j) / divisor, (∑ i, ∑ j, (j.val : ℝ) * im i j) / divisor)

/-- `centroid_sq`, `image_processing.py:72-101`: of the square, or (with `comp`) of the squared
modulus. For a real image both are the square. -/
noncomputable def centroidSq (im : Wave n m) : Option (ℝ × ℝ) :=
  centroid fun i j => ‖im i j‖ ^ 2

/-- `sinc_subpixel_shift`, `image_processing.py:104-133`. -/
noncomputable def sincShift (w : Wave n m) (s0 s1 : ℝ) : Wave n m :=
  ifft2 (ifftshift2 fun a b => fftshift2 (fft2 w) a b *
    Complex.exp (Complex.I * (-(s0 : ℂ) * (2 * Real.pi * ((a.val : ℂ) - ((n / 2 : ℕ) : ℂ)) / n) -
      (s1 : ℂ) * (2 * Real.pi * ((b.val : ℂ) - ((m / 2 : ℕ) : ℂ)) / m))))

/-- `torch.argmax` over the first `N + 1` entries of a flattened tensor: the index of the first
maximal value. -/
noncomputable def argmax (f : ℕ → ℝ) : ℕ → ℕ
  | 0 => 0
  | N + 1 => if f (argmax f N) < f (N + 1) then N + 1 else argmax f N

/-- The normalized correlation `ifft2(cor_fft / abs(cor_fft))`, `image_processing.py:172-176` and
`233-237`. When a coefficient of `cor_fft` vanishes the quotient is NaN there and its transform is NaN
everywhere: `none`. -/
noncomputable def phaseCorrelation (im1 im2 : Wave n m) : Option (Wave n m) :=
  haveI := Classical.dec (∃ k l, fft2 im1 k l * (starRingEnd ℂ) (fft2 im2 k l) = 0)
  if ∃ k l, fft2 im1 k l * (starRingEnd ℂ) (fft2 im2 k l) = 0 then none
  else some (ifft2 fun k l => fft2 im1 k l * (starRingEnd ℂ) (fft2 im2 k l) /
    (‖fft2 im1 k l * (starRingEnd ℂ) (fft2 im2 k l)‖ : ℂ))

/-- `(cormax + sh_over_2) % sh - sh_over_2` on one axis, `image_processing.py:206-207,245-246`. -/
def wrapShift (sh : ℕ) (x : ℕ) : ℤ := ((x + sh / 2) % sh : ℕ) - (sh / 2 : ℕ)

/-- The position of the maximum of an `n × m` array, `image_processing.py:240-242`: `argmax` of the
flattened array, row `// m`, column `% m`. -/
noncomputable def argmax2 (f : ZMod n → ZMod m → ℝ) : ℕ × ℕ :=
  let p := argmax (fun q => f ((q / m : ℕ) : ZMod n) ((q % m : ℕ) : ZMod m)) (n * m - 1)
  (p / m, p % m)

/-- `find_pixel_shift`, `image_processing.py:214-246`. On an array of NaNs `argmax` returns 0. -/
noncomputable def findPixelShift (im1 im2 : Wave n m) : ℤ × ℤ :=
  match phaseCorrelation im1 im2 with
  | none => (wrapShift n 0, wrapShift m 0)
  | some cor =>
    let p := argmax2 fun i j => ‖cor i j‖
    (wrapShift n p.1, wrapShift m p.2)

/-- The window of the correlation around `search_around` as extracted by
`image_processing.py:181-188`: `roll(cor, 15 - search_around)[..., :30, :30]`. -/
def corWindow (cor : Wave n m) (s0 s1 : ℤ) : Wave 30 30 := fun a b =>
  cor (((a.val : ℤ) + s0 - 15 : ℤ) : ZMod n) (((b.val : ℤ) + s1 - 15 : ℤ) : ZMod m)

/-- Zero padding of the transformed window to `30 R × 30 R`, `image_processing.py:191-196`, after
the roll by `-15`. -/
noncomputable def padWindow (R : ℕ) (w : Wave 30 30) : Wave (R * 30) (R * 30) := fun k l =>
  let u0 : Wave (R * 30) (R * 30) := fun a b =>
    if a.val < 30 ∧ b.val < 30 then w ((a.val : ℕ) : ZMod 30) ((b.val : ℕ) : ZMod 30) else 0
  u0 (k + 15) (l + 15)

/-- `find_subpixel_shift`, `image_processing.py:136-211`, given the correlation, for images of at
least 30 pixels along each axis. -/
noncomputable def subpixelShift (R : ℕ) [NeZero R] (cor : Wave n m) (s0 s1 : ℤ) : ℝ × ℝ :=
  haveI : NeZero (R * 30) := ⟨Nat.mul_ne_zero (NeZero.ne R) (by norm_num)⟩
  let up := ifft2 (padWindow R (fftshift2 (fft2 (corWindow cor s0 s1))))
  let p := argmax2 fun i j => ‖up (i + ((15 * R : ℕ) : ZMod (R * 30)))
    (j + ((15 * R : ℕ) : ZMod (R * 30)))‖ ^ 2
  ((s0 : ℝ) + (wrapShift (R * 30) p.1 : ℝ) / R, (s1 : ℝ) + (wrapShift (R * 30) p.2 : ℝ) / R)

/-- `find_subpixel_shift`, `image_processing.py:136-211`, with resolution 1 on images with less than 30 pixels along an axis: the window is the `p × q`
part (`p = min(n,30)`) of the rolled correlation, and nothing is padded. -/
noncomputable def subpixelShiftOne (p q : ℕ) [NeZero p] [NeZero q] (cor : Wave n m) (s0 s1 : ℤ) : ℝ × ℝ :=
  let win : Wave p q := fun a b => cor (((a.val : ℤ) + s0 - 15 : ℤ) : ZMod n) (((b.val : ℤ) + s1 - 15 : ℤ) : ZMod m)
  let f := fftshift2 (fft2 win)
  let up : Wave p q := ifft2 fun k l => f (k + 15) (l + 15)
  let r := argmax2 fun i j => ‖up (i + 15) (j + 15)‖ ^ 2
  ((s0 : ℝ) + (wrapShift p r.1 : ℝ), (s1 : ℝ) + (wrapShift q r.2 : ℝ))

/-- `find_shift`, `image_processing.py:250-275`. When the correlation is NaN everywhere, both `argmax` calls
return 0 (the first NaN) and the result is the zero vector; an error when
the 30 × 30 slice of the `min(n,30) R × min(m,30) R` array is larger than the window it is
assigned from (`image_processing.py:194`). Simplification: images with at least two pixels along each
axis (a window of one row or column would be broadcast). -/
noncomputable def findShift (R : ℕ) [NeZero R] (im1 im2 : Wave n m) :
    Except String (ℝ × ℝ) :=
  if min 30 (min n 30 * R) = min n 30 ∧ min 30 (min m 30 * R) = min m 30 then
    match phaseCorrelation im1 im2 with
    | none =>
      let s := findPixelShift im1 im2
      .ok ((s.1 : ℝ) + (wrapShift (R * min n 30) 0 : ℝ) / R, (s.2 : ℝ) + (wrapShift (R * min m 30) 0 : ℝ) / R)
    | some cor =>
      let s := findPixelShift im1 im2
      if 30 ≤ n ∧ 30 ≤ m then .ok (subpixelShift R cor s.1 s.2) else
      haveI : NeZero (min n 30) := ⟨by have := NeZero.ne n; omega⟩
      haveI : NeZero (min m 30) := ⟨by have := NeZero.ne m; omega⟩
      .ok (subpixelShiftOne (min n 30) (min m 30) cor s.1 s.2)
  else .error "RuntimeError"

/-- The kernel after the optional `ifftshift`, `image_processing.py:306-307`. -/
noncomputable def shiftKernel (fftshiftKernel : Bool) (kernel : ZMod n → ℂ) : ZMod n → ℂ :=
  if fftshiftKernel then ifftshift kernel else kernel

/-- `convolve_1d(image, kernel, dim=0)`, `image_processing.py:278-321`: transpose, transform the
last axis, multiply, transform back, transpose. -/
noncomputable def convolve0 (shift : Bool) (image : Wave n m) (kernel : ZMod n → ℂ) : Wave n m :=
  let transIm : Wave m n := fun j i => image i j
  let transConv : Wave m n := fun j =>
    ifft fun k => fft (transIm j) k * fft (shiftKernel shift kernel) k
  fun i j => transConv j i

/-- `convolve_1d(image, kernel, dim=1)` (the transposition is then the identity). -/
noncomputable def convolve1 (shift : Bool) (image : Wave n m) (kernel : ZMod m → ℂ) : Wave n m :=
  fun i => ifft fun k => fft (image i) k * fft (shiftKernel shift kernel) k

/-- `fourier_upsample`, `image_processing.py:324-341`, with factor `u`. -/
noncomputable def fourierUpsample (u : ℕ) [NeZero u] (preserveMean : Bool) (im : Wave n m) :
    Wave (u * n) (u * m) :=
  haveI : NeZero (u * n) := ⟨Nat.mul_ne_zero (NeZero.ne u) (NeZero.ne n)⟩
  haveI : NeZero (u * m) := ⟨Nat.mul_ne_zero (NeZero.ne u) (NeZero.ne m)⟩
  let left0 := ((u - 1) * n) / 2
  let left1 := ((u - 1) * m) / 2
  inverseFarField fun a b =>
    (if left0 ≤ a.val ∧ a.val < left0 + n ∧ left1 ≤ b.val ∧ b.val < left1 + m then
      farField im ((a.val - left0 : ℕ) : ZMod n) ((b.val - left1 : ℕ) : ZMod m) else 0) *
      (if preserveMean then (u : ℂ) else 1)

/-- The image whose centroid `center` uses, `image_processing.py:400-404`. -/
noncomputable def toCenter (usePower : Bool) (ims : List (Wave n m)) : ZMod n → ZMod m → ℝ :=
  fun i j => (ims.map fun w => if usePower then ‖w i j‖ ^ 2 else ‖w i j‖).sum

/-- One iteration of `center`, `image_processing.py:399-412`. `none`: the centroid is NaN, and so is
everything after. -/
noncomputable def centerStep (usePower : Bool) (ims : List (Wave n m)) : Option (List (Wave n m)) :=
  (centroid (toCenter usePower ims)).map fun c =>
    ims.map fun w => sincShift w (-c.1 + n / 2) (-c.2 + m / 2)

/-- `center`, `image_processing.py:344-414`, on the list of images obtained by ravelling the leading
dimensions. -/
noncomputable def center (usePower : Bool) : ℕ → List (Wave n m) → Option (List (Wave n m))
  | 0, ims => some ims
  | k + 1, ims => (centerStep usePower ims).bind (center usePower k)

end Cdtools
