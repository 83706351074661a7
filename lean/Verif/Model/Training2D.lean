/-
Training of `Multislice2DPtycho`: its trainable parameters as points of a real vector space, and the closure of
`reconstructors/base.py:176-224` with its forward model. All parameters are trained.
-/
import Verif.Model.Training
import Verif.Model.Multislice2D

namespace Cdtools

variable {n m H W h w N r k : ℕ}

/-- The trainable parameters, `multislice_2d_ptycho.py:98-142`: probe and object (real and imaginary parts), background,
weights (per exposure or as matrices; a model uses one of the two) and translation offsets (if the model has them). The object
is a stack of slices; a model with a single image for all slices uses the first one. -/
abbrev Multi2DTheta (n m s H W h w N r k : ℕ) : Type :=
  (Fin k → Wave n m) × (Fin (s + 1) → Fin H → Fin W → ℂ) × (Fin h → Fin w → ℝ) × (Fin N → ℝ) ×
    (Fin N → Fin r → Fin k → ℂ) × (Fin N → Fin 2 → ℝ)

/-- The model with the values `θ` of its parameters. -/
def Multi2D.withTheta {s : ℕ} (M : Multi2D n m N k) (θ : Multi2DTheta n m s H W h w N r k) : Multi2D n m N k :=
  { M with
    probe := θ.1
    obj := match M.obj with
      | .inl _ => .inl (imgOf (θ.2.1 0))
      | .inr _ => .inr (List.ofFn fun i => imgOf (θ.2.1 i))
    background := imgOf θ.2.2.1
    weights := M.weights.map fun
      | .perShot _ => .perShot θ.2.2.2.1
      | .matrices _ _ => .matrices r fun i => Matrix.of (θ.2.2.2.2.1 i)
    offsets := M.offsets.map fun _ => θ.2.2.2.2.2 }

/-- Training of `Multislice2DPtycho`; the losses are chosen in `multislice_2d_ptycho.py:161-176`. -/
noncomputable def multi2DPhysics [NeZero n] [NeZero m] {s : ℕ} (M : Multi2D n m N k) (kind : LossKind)
    (mask : Option (Fin h × Fin w → Bool)) :
    Physics (Multi2DTheta n m s H W h w N r k) (Fin N × (Fin 3 → ℝ)) (Fin h × Fin w → ℝ) (Fin h × Fin w → ℝ) Unit :=
  shotPhysics (fun θ e => (M.withTheta θ).forward e.1 e.2) kind mask none

end Cdtools
