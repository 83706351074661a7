/-
Training of a `FancyPtycho` model: the trainable parameters of `models/fancy_ptycho.py:120-215` as one point of a real
vector space, and the closure of `reconstructors/base.py:176-224` with the forward model and the losses of
`FancyPtycho`. All parameters are trained (a parameter with `requires_grad = False` merely keeps its value).
-/
import Verif.Model.Reconstructor
import Verif.Model.FancyPtycho
import Verif.Model.ModelLoss

namespace Cdtools
open Finset

/-- The trainable parameters, `fancy_ptycho.py:120-215`, as a product of arrays: probe, object, background, weights (per
exposure or as matrices; a model uses one of the two), translation offsets and probe Fourier shifts (not used by a model
without them). Complex parameters are pairs of reals. -/
abbrev FancyTheta (n m H W h w N r k : ℕ) : Type :=
  (Fin k → Wave n m) × (Fin H → Fin W → ℂ) × (Fin h → Fin w → ℝ) × (Fin N → ℝ) × (Fin N → Fin r → Fin k → ℂ) ×
    (Fin N → Fin 2 → ℝ) × (Fin N → Fin 2 → ℝ)

variable {n m a b H W h w N r k : ℕ}

/-- An array of a fixed shape as an image. -/
def imgOf {α : Type} [Zero α] (f : Fin H → Fin W → α) : Img α :=
  ⟨H, W, fun i j => if h : i < H ∧ j < W then f ⟨i, h.1⟩ ⟨j, h.2⟩ else 0⟩

/-- The model with the values `θ` of its parameters (the optimizer writes the parameters in place). -/
def Fancy.withTheta (M : Fancy n m a b N k) (θ : FancyTheta n m H W h w N r k) : Fancy n m a b N k :=
  { M with
    probe := θ.1
    obj := imgOf θ.2.1
    background := imgOf θ.2.2.1
    weights := match M.weights with
      | .perShot _ => .perShot θ.2.2.2.1
      | .matrices _ _ => .matrices r fun i => Matrix.of (θ.2.2.2.2.1 i)
    offsets := M.offsets.map fun _ => θ.2.2.2.2.2.1
    fourierShifts := M.fourierShifts.map fun _ => θ.2.2.2.2.2.2 }

/-- The loss on the pairs (data, simulation) of a chunk, `fancy_ptycho.py:222-236` and `reconstructors/base.py:199-208`:
every loss is called with its sum and with the mask. -/
noncomputable def LossKind.chunk (kind : LossKind) (mask : Option (Fin h × Fin w → Bool)) :
    List ((Fin h × Fin w → ℝ) × (Fin h × Fin w → ℝ)) → ℝ :=
  match kind with
  | .amplitudeMse => Cdtools.amplitudeMse mask true
  | .intensityMse => Cdtools.intensityMse mask true
  | .poissonNll => Cdtools.poissonNll mask (1e-6) false

variable [NeZero n] [NeZero m] [NeZero a] [NeZero b]

/-- The simulated pattern of one exposure, `none` if the simulation raises or has another shape than the data. -/
noncomputable def Fancy.shotPixels (M : Fancy n m a b N k) (h w : ℕ) (e : Fin N × (Fin 3 → ℝ)) :
    Option (Fin h × Fin w → ℝ) :=
  match M.forward e.1 e.2 with
  | .ok Q => if Q.h = h ∧ Q.w = w then some (Q.pixels h w) else none
  | .error _ => none

/-- What `run_epoch` (`reconstructors/base.py:193-214`) sees of a `FancyPtycho` model: an input is the index and the
translation of an exposure. `FancyPtycho` has no regularizer. -/
noncomputable def fancyPhysics (M : Fancy n m a b N k) (kind : LossKind) (mask : Option (Fin h × Fin w → Bool)) :
    Physics (FancyTheta n m H W h w N r k) (Fin N × (Fin 3 → ℝ)) (Fin h × Fin w → ℝ) (Fin h × Fin w → ℝ) Unit where
  fault := fun θ inp _ => if ∀ e ∈ inp, ((M.withTheta θ).shotPixels h w e).isSome then none else some .runtimeError
  forward := fun θ inp => inp.map fun e => ((M.withTheta θ).shotPixels h w e).getD 0
  loss := fun pats sims => kind.chunk mask (pats.zip sims)
  regularizer := none

end Cdtools
