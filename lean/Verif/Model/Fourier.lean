/-
Discrete Fourier transforms as torch computes them, and `tools/propagators/propagators.py`.

An array of length `n ≥ 1` is a function on `ZMod n`, entry `i` being the value at `(i : ZMod n)`;
rolling an array is then translation of the argument. An `n × m` image is a function of two such
arguments. Simplification: floats are real/complex numbers.
-/
import Mathlib.Analysis.Complex.Basic
import Mathlib.Data.ZMod.Basic
import Mathlib.Analysis.SpecialFunctions.Exp
import Mathlib.Analysis.Complex.Trigonometric
import Mathlib.Analysis.SpecialFunctions.Trigonometric.Basic
import Mathlib.LinearAlgebra.Matrix.NonsingularInverse
import Mathlib.Analysis.SpecialFunctions.Pow.Complex

namespace Cdtools
open Finset

/-- An `n × m` complex image. -/
abbrev Wave (n m : ℕ) := ZMod n → ZMod m → ℂ

variable {n m : ℕ} [NeZero n] [NeZero m]

/-! ### torch.fft -/

/-- `torch.fft.fft(x)` on one axis: `X[k] = Σ_j x[j] exp(-2πi j k / n)`. -/
noncomputable def fft (x : ZMod n → ℂ) : ZMod n → ℂ := fun k =>
  ∑ j : ZMod n, Complex.exp (-(2 * Real.pi * Complex.I * (j.val * k.val) / n)) * x j

/-- `torch.fft.ifft(X)`: `x[j] = (1/n) Σ_k X[k] exp(2πi j k / n)`. -/
noncomputable def ifft (x : ZMod n → ℂ) : ZMod n → ℂ := fun j =>
  (∑ k : ZMod n, Complex.exp (2 * Real.pi * Complex.I * (j.val * k.val) / n) * x k) / n

/-- `torch.fft.fft2`: along both axes. -/
noncomputable def fft2 (w : Wave n m) : Wave n m := fun k l =>
  ∑ i : ZMod n, ∑ j : ZMod m, Complex.exp (-(2 * Real.pi * Complex.I * (i.val * k.val) / n)) *
    Complex.exp (-(2 * Real.pi * Complex.I * (j.val * l.val) / m)) * w i j

/-- `torch.fft.ifft2`. -/
noncomputable def ifft2 (w : Wave n m) : Wave n m := fun i j =>
  (∑ k : ZMod n, ∑ l : ZMod m, Complex.exp (2 * Real.pi * Complex.I * (i.val * k.val) / n) *
    Complex.exp (2 * Real.pi * Complex.I * (j.val * l.val) / m) * w k l) / (n * m)

/-- `torch.fft.fftshift` on one axis: roll by `n // 2`, so that entry 0 moves to `n // 2`. -/
def fftshift {α : Type} (x : ZMod n → α) : ZMod n → α := fun i => x (i - ((n / 2 : ℕ) : ZMod n))

/-- `torch.fft.ifftshift` on one axis: roll by `-(n // 2)`. -/
def ifftshift {α : Type} (x : ZMod n → α) : ZMod n → α := fun i => x (i + ((n / 2 : ℕ) : ZMod n))

/-- `fftshift(w, dim=(-1,-2))`. -/
def fftshift2 (w : Wave n m) : Wave n m := fun i j =>
  w (i - ((n / 2 : ℕ) : ZMod n)) (j - ((m / 2 : ℕ) : ZMod m))

/-- `ifftshift(w, dim=(-1,-2))`. -/
def ifftshift2 (w : Wave n m) : Wave n m := fun i j =>
  w (i + ((n / 2 : ℕ) : ZMod n)) (j + ((m / 2 : ℕ) : ZMod m))

/-! ### propagators.py -/

/-- `far_field`, `propagators.py:19-49` (`norm='ortho'` divides by the square root of the
number of pixels). -/
noncomputable def farField (w : Wave n m) : Wave n m :=
  fftshift2 fun k l => fft2 (ifftshift2 w) k l / Real.sqrt (n * m)

/-- `inverse_far_field`, `propagators.py:52-77` (`ifft2(norm='ortho')`: the unnormalized sum divided
by the square root of the number of pixels). -/
noncomputable def inverseFarField (w : Wave n m) : Wave n m :=
  fftshift2 fun i j => ifft2 (ifftshift2 w) i j * Real.sqrt (n * m)

/-- `near_field`, `propagators.py:607-630`. -/
noncomputable def nearField (p w : Wave n m) : Wave n m :=
  ifft2 fun k l => p k l * fft2 w k l

/-- `inverse_near_field`, `propagators.py:634-672`. -/
noncomputable def inverseNearField (p w : Wave n m) : Wave n m :=
  ifft2 fun k l => fft2 w k l * (starRingEnd ℂ) (p k l)

/-! ### Angular spectrum propagators -/

/-- A vector in space. -/
abbrev Vec3 := Fin 3 → ℝ

/-- Dot product. -/
def Vec3.dot (a b : Vec3) : ℝ := a 0 * b 0 + a 1 * b 1 + a 2 * b 2

/-- Cross product, `torch.cross`. -/
def Vec3.cross (a b : Vec3) : Vec3 :=
  ![a 1 * b 2 - a 2 * b 1, a 2 * b 0 - a 0 * b 2, a 0 * b 1 - a 1 * b 0]

/-- `a / torch.linalg.norm(a)`. -/
noncomputable def Vec3.unit (a : Vec3) : Vec3 := fun i => a i / Real.sqrt (a.dot a)

/-- `torch.fft.fftfreq(n)[k]`: `k/n` for `k < (n+1)/2`, `(k-n)/n` above. -/
noncomputable def fftfreq (n : ℕ) (k : ZMod n) : ℝ :=
  if 2 * k.val < n then (k.val : ℝ) / n else ((k.val : ℝ) - n) / n

/-- `torch.linalg.pinv(basis).transpose(0, 1)` for a 3×2 basis with independent columns: the dual
basis `B (Bᵀ B)⁻¹`, written out with the 2×2 inverse. -/
noncomputable def dualBasis (b1 b2 : Vec3) : Vec3 × Vec3 :=
  let d := b1.dot b1 * b2.dot b2 - b1.dot b2 * b1.dot b2
  (fun i => (b2.dot b2 * b1 i - b1.dot b2 * b2 i) / d,
   fun i => (b1.dot b1 * b2 i - b1.dot b2 * b1 i) / d)

/-- `torch.sign`. -/
noncomputable def sgn (x : ℝ) : ℝ := if 0 < x then 1 else if x < 0 then -1 else 0

/-- The square root of a real number as a complex one: `t.sqrt(t.complex(x, 0))`. -/
noncomputable def csqrt (x : ℝ) : ℂ :=
  if 0 ≤ x then (Real.sqrt x : ℂ) else Complex.I * (Real.sqrt (-x) : ℂ)

/-- The unit normal of the plane of the basis, oriented along the reference vector,
`propagators.py:505-521`. -/
noncomputable def perpDir (b1 b2 ref : Vec3) : Vec3 :=
  let perp0 := (b1.unit.cross b2.unit).unit
  fun i => perp0 i * sgn (perp0.dot ref)

/-- `K_0`, `propagators.py:526-534`. -/
noncomputable def refWave (wavelength : ℝ) (perp : Vec3) (prop : Option Vec3) : Vec3 :=
  match prop with
  | some p => fun i => 2 * Real.pi / wavelength * (p.unit i - perp i)
  | none => fun _ => 0

/-- `K_ip`, the in-plane wavevector, `propagators.py:485-496,526-532`. -/
noncomputable def inPlaneK (b1 b2 : Vec3) (wavelength : ℝ) (perp : Vec3) (prop : Option Vec3)
    (ki kj : ℝ) : Vec3 :=
  let dual := dualBasis b1 b2
  match prop with
  | some _ => fun i => dual.1 i * ki + dual.2 i * kj + (refWave wavelength perp prop i -
      perp.dot (refWave wavelength perp prop) * perp i)
  | none => fun i => dual.1 i * ki + dual.2 i * kj

/-- One entry of `generate_generalized_angular_spectrum_propagator`, `propagators.py:404-604`, at
the frequency `(ki, kj)` (in radians per pixel). `prop` is the propagation vector after
`propagate_along_offset` has been applied. -/
noncomputable def generalizedPropagator (b1 b2 : Vec3) (wavelength : ℝ) (offset : Vec3)
    (prop : Option Vec3) (ki kj : ℝ) : ℂ :=
  let k0 := 2 * Real.pi / wavelength
  let perp := perpDir b1 b2 (prop.getD offset)
  let K0 := refWave wavelength perp prop
  let Kip := inPlaneK b1 b2 wavelength perp prop ki kj
  let Koop : ℂ := -(Kip.dot Kip : ℝ) / (csqrt (k0 ^ 2 - Kip.dot Kip) + (k0 : ℝ))
  let phase : ℂ := ∑ i, (offset i : ℂ) * ((Kip i : ℂ) + perp i * Koop - K0 i)
  let phase := match prop with
    | some p => if p.dot offset < 0 then (starRingEnd ℂ) phase else phase
    | none => phase
  Complex.exp (Complex.I * phase)

/-- `generate_angular_spectrum_propagator`, `propagators.py:324-400`, without and with band
limit. -/
noncomputable def angularSpectrum (n m : ℕ) (s0 s1 wavelength z : ℝ) (bandlimit : Option ℝ)
    (k : ZMod n) (l : ZMod m) : ℂ :=
  let p := generalizedPropagator ![0, -s0, 0] ![-s1, 0, 0] wavelength ![0, 0, z] none
    (2 * Real.pi * fftfreq n k) (2 * Real.pi * fftfreq m l)
  let p := if z < 0 then (starRingEnd ℂ) p else p
  match bandlimit with
  | none => p
  | some b =>
    -- Rs = |K| relative to the largest frequency on each axis, (n-1)//2 / n cycles per pixel
    let r := Real.sqrt ((fftfreq n k / (((n - 1) / 2 : ℕ) / n)) ^ 2 +
      (fftfreq m l / (((m - 1) / 2 : ℕ) / m)) ^ 2)
    if r < b then p else 0

end Cdtools
