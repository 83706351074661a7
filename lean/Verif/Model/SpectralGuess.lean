/-
`RPI_spectral_init` (`tools/initializers/initializers.py:530-594`) for a probe of one mode, with the eigensolver of scipy as a parameter:
it returns eigenvalues and eigenvectors of the operator `A Y A_dagger`.
-/
import Verif.Model.Initializers

namespace Cdtools
open Finset

variable {n m : ℕ} [NeZero n] [NeZero m] {a b : ℕ} [NeZero a] [NeZero b]

/-- `np_pattern`, `initializers.py:563-569`. -/
noncomputable def specPattern (pattern : RealIm n m) (background mask : Option (RealIm n m)) : RealIm n m := fun k l =>
  let p := match background with | none => pattern k l | some B => pattern k l - B k l
  let q := match mask with | none => p | some M => p * M k l
  |q|

/-- `vec = A_dagger * (A * A_dagger * ones)`, `initializers.py:571-572`, for `a × b` objects. -/
noncomputable def specVec (a b : ℕ) [NeZero a] [NeZero b] (probe : Wave n m) : Wave n m :=
  spectralForward probe (spectralBackward probe (spectralForward probe (fun _ _ => 1 : Wave a b)) : Wave a b)

/-- `y(measured)`, `initializers.py:573-578`. -/
noncomputable def specY (a b : ℕ) [NeZero a] [NeZero b] (probe : Wave n m) (P : RealIm n m) (measured : Wave n m) : Wave n m := fun k l =>
  measured k l * (P k l : ℂ) / ((‖specVec a b probe k l‖ : ℝ) : ℂ)

/-- The operator `A * Y * A_dagger` of the eigenvalue problem, `initializers.py:580-581`. A zero of `vec` makes everything NaN. -/
noncomputable def specOp (probe : Wave n m) (P : RealIm n m) (z : Wave a b) : Wave a b :=
  spectralBackward probe (specY a b probe P (spectralForward probe z))

/-- The returned modes, `initializers.py:584-594`, from the eigenvalues and eigenvectors found. -/
noncomputable def specGuess {r : ℕ} (probe : Wave n m) (P : RealIm n m) (eigval : Fin r → ℂ) (z : Fin r → Wave a b) : Fin r → Wave a b := fun μ i j =>
  z μ i j * ((Real.sqrt ((∑ k, ∑ l, P k l) / ∑ k, ∑ l, ‖probe k l‖ ^ 2) : ℝ) * (eigval μ / ∑ ν, eigval ν ^ 2))

end Cdtools
