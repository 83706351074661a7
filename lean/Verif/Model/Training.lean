/-
Training of the models other than `FancyPtycho`: the trainable parameters of `SimplePtycho`, `RPI`, `MultislicePtycho` and
`Bragg2DPtycho` as points of real vector spaces, and the closure of `reconstructors/base.py:176-224` with their forward
models. All parameters are trained (a parameter with `requires_grad = False` merely keeps its value), except that the
weight matrix of `RPI` is trained on request.
-/
import Verif.Model.FancyTraining
import Verif.Model.RpiModel
import Verif.Model.Multislice
import Verif.Model.Bragg
import Verif.Model.Simple

namespace Cdtools
open Finset

variable {n m a b H W h w N r k l : ℕ}

/-- The simulated pattern of one exposure, `none` if the simulation raises or has another shape than the data. -/
noncomputable def simPixels {ε : Type} (h w : ℕ) : Except ε (Img ℝ) → Option (Fin h × Fin w → ℝ)
  | .ok Q => if Q.h = h ∧ Q.w = w then some (Q.pixels h w) else none
  | .error _ => none

/-- What `run_epoch` (`reconstructors/base.py:193-222`) sees of a model that simulates every exposure from its own input
`e` by `sim θ e`, with one of the three losses. -/
noncomputable def shotPhysics {Θ I R ε : Type} (sim : Θ → I → Except ε (Img ℝ)) (kind : LossKind)
    (mask : Option (Fin h × Fin w → Bool)) (reg : Option (R → Θ → ℝ)) :
    Physics Θ I (Fin h × Fin w → ℝ) (Fin h × Fin w → ℝ) R where
  fault := fun θ inp _ => if ∀ e ∈ inp, (simPixels h w (sim θ e)).isSome then none else some .runtimeError
  forward := fun θ inp => inp.map fun e => (simPixels h w (sim θ e)).getD 0
  loss := fun pats sims => kind.chunk mask (pats.zip sims)
  regularizer := reg

/-! ### SimplePtycho -/

/-- The trainable parameters, `simple_ptycho.py:42-43`: probe and object. -/
abbrev SimpleTheta (n m H W : ℕ) : Type := Wave n m × (Fin H → Fin W → ℂ)

/-- The model with the values `θ` of its parameters. -/
def Simple.withTheta (M : Simple n m) (θ : SimpleTheta n m H W) : Simple n m :=
  { M with probe := θ.1, obj := imgOf θ.2 }

/-- Training of `SimplePtycho`: the loss is the amplitude loss, `simple_ptycho.py:46`, and there is neither a mask nor a
regularizer. An input is the translation of an exposure (the index is not used). -/
noncomputable def simplePhysics [NeZero n] [NeZero m] (M : Simple n m) :
    Physics (SimpleTheta n m H W) (Fin 3 → ℝ) (Fin h × Fin w → ℝ) (Fin h × Fin w → ℝ) Unit :=
  shotPhysics (fun θ t => (M.withTheta θ).forward t) .amplitudeMse none none

/-! ### RPI -/

/-- The trainable parameters, `rpi.py:118-124`: the object and the weight matrix. -/
abbrev RpiTheta (a b k l : ℕ) : Type := (Fin l → Wave a b) × (Fin k → Fin k → ℂ)

/-- The model with the values `θ` of its parameters; without `weight_matrix` the weights keep their value. -/
def Rpi.withTheta (M : Rpi n m a b k l) (weightMatrix : Bool) (θ : RpiTheta a b k l) : Rpi n m a b k l :=
  { M with obj := θ.1, weights := if weightMatrix then Matrix.of θ.2 else M.weights }

/-- Training of `RPI`: every exposure is simulated alike, `rpi.py:487-551`. The loss is the one chosen in `__init__`,
`rpi.py:152-166`, which hides the method `loss` of `rpi.py:553-554`. Simplification: the IndexError of `regularizer` for too
few factors is not modelled here (see `rpi_regularizer`). -/
noncomputable def rpiPhysics [NeZero n] [NeZero m] [NeZero a] [NeZero b] (M : Rpi n m a b k (l + 1)) (weightMatrix : Bool)
    (kind : LossKind) (mask : Option (Fin h × Fin w → Bool)) :
    Physics (RpiTheta a b k (l + 1)) ℕ (Fin h × Fin w → ℝ) (Fin h × Fin w → ℝ) (List ℝ) :=
  shotPhysics (fun θ (_ : ℕ) => (M.withTheta weightMatrix θ).pattern) kind mask
    (some fun factors θ => ((M.withTheta weightMatrix θ).regularizer factors).toOption.getD 0)

/-! ### MultislicePtycho -/

/-- The trainable parameters, `multislice_ptycho.py:104-138`: probe, slices of the object, background, weights (per exposure
or as matrices; a model uses at most one of the two) and translation offsets (if the model has them). -/
abbrev MultisliceTheta (n m nz H W h w N r k : ℕ) : Type :=
  (Fin k → Wave n m) × (Fin nz → Fin H → Fin W → ℂ) × (Fin h → Fin w → ℝ) × (Fin N → ℝ) ×
    (Fin N → Fin r → Fin k → ℂ) × (Fin N → Fin 2 → ℝ)

/-- The model with the values `θ` of its parameters. -/
def Multislice.withTheta {nz : ℕ} (M : Multislice n m a b N k) (θ : MultisliceTheta n m nz H W h w N r k) :
    Multislice n m a b N k :=
  { M with
    probe := θ.1
    slices := List.ofFn fun s => imgOf (θ.2.1 s)
    background := imgOf θ.2.2.1
    weights := M.weights.map fun
      | .perShot _ => .perShot θ.2.2.2.1
      | .matrices _ _ => .matrices r fun i => Matrix.of (θ.2.2.2.2.1 i)
    offsets := M.offsets.map fun _ => θ.2.2.2.2.2 }

/-- Training of `MultislicePtycho`; the losses are chosen in `multislice_ptycho.py:170-184`. -/
noncomputable def multislicePhysics [NeZero n] [NeZero m] [NeZero a] [NeZero b] {nz : ℕ} (M : Multislice n m a b N k)
    (kind : LossKind) (mask : Option (Fin h × Fin w → Bool)) :
    Physics (MultisliceTheta n m nz H W h w N r k) (Fin N × (Fin 3 → ℝ)) (Fin h × Fin w → ℝ) (Fin h × Fin w → ℝ) Unit :=
  shotPhysics (fun θ e => (M.withTheta θ).forward e.1 e.2) kind mask none

/-! ### Bragg2DPtycho -/

/-- The trainable parameters, `bragg_2d_ptycho.py:153-194`: probe, object, background, weights and translation offsets. -/
abbrev BraggTheta (n m H W h w N k : ℕ) : Type :=
  (Fin k → Wave n m) × (Fin H → Fin W → ℂ) × (Fin h → Fin w → ℝ) × (Fin N → ℝ) × (Fin N → Fin 2 → ℝ)

/-- The model with the values `θ` of its parameters. -/
def Bragg.withTheta (M : Bragg n m a b N k) (θ : BraggTheta n m H W h w N k) : Bragg n m a b N k :=
  { M with
    probe := θ.1
    obj := imgOf θ.2.1
    background := imgOf θ.2.2.1
    weights := M.weights.map fun _ => θ.2.2.2.1
    offsets := M.offsets.map fun _ => θ.2.2.2.2 }

/-- Training of `Bragg2DPtycho`; the losses are chosen in `bragg_2d_ptycho.py:244-258`. -/
noncomputable def braggPhysics [NeZero n] [NeZero m] [NeZero a] [NeZero b] (M : Bragg n m a b N k)
    (kind : LossKind) (mask : Option (Fin h × Fin w → Bool)) :
    Physics (BraggTheta n m H W h w N k) (Fin N × (Fin 3 → ℝ)) (Fin h × Fin w → ℝ) (Fin h × Fin w → ℝ) Unit :=
  shotPhysics (fun θ e => (M.withTheta θ).forward e.1 e.2) kind mask none

end Cdtools
