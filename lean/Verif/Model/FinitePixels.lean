/-
Model of `tools/measurements/measurements.py` with `simulate_finite_pixels=True` (43-61 and 110-130). One exposure at a
time: the code treats the exposures of a stack independently.
-/
import Verif.Model.Measurements
import Verif.Model.Fourier
import Verif.Model.Py
import Mathlib.Analysis.SpecialFunctions.Trigonometric.Sinc

namespace Cdtools
open Finset

variable {n m : ℕ} [NeZero n] [NeZero m]

instance instNeZeroSum : NeZero (n + m) := ⟨by have := NeZero.ne n; omega⟩

/-- `t.special.sinc(x)`: `sin(πx)/(πx)`. -/
noncomputable def tsinc (x : ℝ) : ℝ := Real.sinc (Real.pi * x)

/-- `t.nn.functional.pad(x, (pad1l, pad1r, pad2l, pad2r))`, `measurements.py:45-49,112-116`. The first pair of amounts,
computed from the number of rows, is for the last axis (the columns), and the other way round; so both axes get length
`n + m`. -/
noncomputable def padPixels (x : Wave n m) : Wave (n + m) (n + m) := fun a b =>
  if m / 2 ≤ a.val ∧ a.val < m / 2 + n ∧ n / 2 ≤ b.val ∧ b.val < n / 2 + m then
    x ((a.val - m / 2 : ℕ) : ZMod n) ((b.val - n / 2 : ℕ) : ZMod m) else 0

/-- `t.fft.ifftshift(x, dim=(-2,-2))`, `measurements.py:50,60,117,127`: the rows are rolled twice, the columns not at all. -/
def ifftshiftRowsTwice (x : Wave n m) : Wave n m := fun i j =>
  x (i + ((n / 2 : ℕ) : ZMod n) + ((n / 2 : ℕ) : ZMod n)) j

/-- `upsampled_field`, `measurements.py:44-50,111-117`. -/
noncomputable def upsampledField (w : Wave n m) : Wave (n + m) (n + m) :=
  fft2 (ifftshiftRowsTwice (padPixels (fftshift2 (ifft2 w))))

/-- `mask`, `measurements.py:54-59,121-126`: `xs = arange(N)` (whose maximum is `N - 1`), `(xs / max(xs)) * 2 - 1`. -/
noncomputable def pixelMask (a : ZMod n) (b : ZMod m) : ℝ :=
  tsinc ((a.val : ℝ) / ((n - 1 : ℕ) : ℝ) * 2 - 1) * tsinc ((b.val : ℝ) / ((m - 1 : ℕ) : ℝ) * 2 - 1)

/-- `blurred_intensity`, `measurements.py:52-60,119-127`. -/
noncomputable def blurredIntensity (upsampled : ZMod n → ZMod m → ℝ) : Wave n m :=
  fft2 (ifftshiftRowsTwice fun a b => (pixelMask a b : ℂ) * fftshift2 (ifft2 fun i j => (upsampled i j : ℂ)) a b)

/-- `blurred_intensity[...,::2,::2]`, `measurements.py:61,128`. -/
def everySecond (x : Wave n m) : Img ℂ := ⟨(n + 1) / 2, (m + 1) / 2, fun i j => x ((2 * i : ℕ) : ZMod n) ((2 * j : ℕ) : ZMod m)⟩

/-- The simulated intensity before it is read out, `measurements.py:110-128`, for a list of incoherent modes. -/
noncomputable def finitePixels (modes : List (Wave n m)) : Img ℂ :=
  everySecond (blurredIntensity fun i j => (modes.map fun w => ‖upsampledField w i j‖ ^ 2).sum)

/-- `incoherent_sum(..., simulate_finite_pixels=True)`, `measurements.py:110-148`. -/
noncomputable def finiteIncoherent (c : MeasSettings) (modes : List (Wave n m)) : Img ℝ :=
  readOut c ((finitePixels modes).map fun z => ‖z‖)

/-- `intensity(..., simulate_finite_pixels=True)`, `measurements.py:43-81`. The output stays complex; `avg_pool2d` and
`clamp` raise RuntimeError on complex tensors. -/
noncomputable def finiteIntensity (c : MeasSettings) (w : Wave n m) : Except PyExc (Img ℂ) :=
  if c.oversampling ≠ 1 ∨ c.saturation.isSome then .error .runtimeError
  else
    let out := match c.slice with
      | none => finitePixels [w]
      | some s => (finitePixels [w]).slice s
    .ok (out.map fun z => z + (c.epsilon : ℂ))

end Cdtools
