/-
Reconstructions of any model with Adam and SGD step by step: `reconstructors/adam.py:51-66` and `sgd.py:51-68` (one parameter group per named
parameter of the model) and the minibatch loop `reconstructors/base.py:161-227`, for the models of `Model/Training`. The closure is that of
`shotPhysics`; that its value and gradient do not depend on the calculation width is C104. Every parameter has a gradient (`requires_grad = True`),
there is no regularizer.
-/
import Verif.Model.Training
import Verif.Model.FancySteps

namespace Cdtools
open Finset

variable {n m a b H W h w N r k l nz : ℕ}

/-- The real coordinates of the parameters of a model, and the parameter that each belongs to (`model.named_parameters()`, `adam.py:58-59`). -/
structure Coords (Θ ι : Type) where
  read : Θ → ι → ℝ
  write : (ι → ℝ) → Θ
  group : ι → String
  write_read : ∀ θ, write (read θ) = θ
  read_write : ∀ v, read (write v) = v

section Runs
variable {Θ I ι ε : Type} [DecidableEq ι]

/-- The loss of a minibatch, `reconstructors/base.py:187-215`. -/
noncomputable def shotTotal (sim : Θ → I → Except ε (Img ℝ)) (kind : LossKind) (mask : Option (Fin h × Fin w → Bool))
    (B : Minibatch I (Fin h × Fin w → ℝ)) (θ : Θ) : ℝ :=
  kind.chunk mask (B.patterns.zip (B.inputs.map fun e => (simPixels h w (sim θ e)).getD 0))

/-- A sequence of minibatches, each with the step of an optimizer, `reconstructors/base.py:161-227`; `none`: the simulation of an exposure
raises. -/
noncomputable def shotRun {σ : Type} (K : Coords Θ ι) (sim : Θ → I → Except ε (Img ℝ)) (kind : LossKind)
    (mask : Option (Fin h × Fin w → Bool)) :
    List (OptStep σ ι × Minibatch I (Fin h × Fin w → ℝ)) → σ × Θ → Option (σ × Θ)
  | [], s => some s
  | (step, B) :: rest, s =>
    if ∀ e ∈ B.inputs, (simPixels h w (sim s.2 e)).isSome then
      let u := step (gradOf (fun v => shotTotal sim kind mask B (K.write v)) (K.read s.2)) (s.1, K.read s.2)
      shotRun K sim kind mask rest (u.1, K.write u.2)
    else none

/-- Reconstruction with Adam. -/
noncomputable def shotAdam (K : Coords Θ ι) (sim : Θ → I → Except ε (Img ℝ)) (kind : LossKind) (mask : Option (Fin h × Fin w → Bool))
    (steps : List (AdamHyper × Minibatch I (Fin h × Fin w → ℝ))) (θ : Θ) : Option Θ :=
  (shotRun K sim kind mask (steps.map fun x => (adamUpdate x.1 K.group, x.2)) (AdamMemory.start, θ)).map Prod.snd

/-- Reconstruction with SGD. -/
noncomputable def shotSgd (K : Coords Θ ι) (sim : Θ → I → Except ε (Img ℝ)) (kind : LossKind) (mask : Option (Fin h × Fin w → Bool))
    (steps : List (SgdHyper × Minibatch I (Fin h × Fin w → ℝ))) (θ : Θ) : Option Θ :=
  (shotRun K sim kind mask (steps.map fun x => (sgdUpdate x.1 K.group, x.2)) (none, θ)).map Prod.snd

end Runs

/-! ### The models -/

/-- The parameters of `MultislicePtycho`, `multislice_ptycho.py:104-138`. -/
inductive MultisliceCoord (n m nz H W h w N r k : ℕ)
  | probe (j : Fin k) (x : ZMod n) (y : ZMod m) (im : Bool)
  | obj (s : Fin nz) (i : Fin H) (j : Fin W) (im : Bool)
  | background (i : Fin h) (j : Fin w)
  | weight (i : Fin N)
  | weights (i : Fin N) (q : Fin r) (j : Fin k) (im : Bool)
  | offset (i : Fin N) (c : Fin 2)
  deriving DecidableEq

/-- Reading and writing the parameters of `MultislicePtycho`. -/
def multisliceCoords : Coords (MultisliceTheta n m nz H W h w N r k) (MultisliceCoord n m nz H W h w N r k) where
  read θ := fun
    | .probe j x y im => part (θ.1 j x y) im
    | .obj s i j im => part (θ.2.1 s i j) im
    | .background i j => θ.2.2.1 i j
    | .weight i => θ.2.2.2.1 i
    | .weights i q j im => part (θ.2.2.2.2.1 i q j) im
    | .offset i c => θ.2.2.2.2.2 i c
  write v := (fun j x y => ⟨v (.probe j x y false), v (.probe j x y true)⟩, fun s i j => ⟨v (.obj s i j false), v (.obj s i j true)⟩,
    fun i j => v (.background i j), fun i => v (.weight i), fun i q j => ⟨v (.weights i q j false), v (.weights i q j true)⟩,
    fun i c => v (.offset i c))
  group
    | .probe .. => "probe"
    | .obj .. => "obj"
    | .background .. => "background"
    | .weight .. => "weights"
    | .weights .. => "weights"
    | .offset .. => "translation_offsets"
  write_read _ := rfl
  read_write v := by
    funext c
    cases c <;> first | rfl | (rename_i im; cases im <;> rfl)

/-- The parameters of `Bragg2DPtycho`, `bragg_2d_ptycho.py:153-194`. -/
inductive BraggCoord (n m H W h w N k : ℕ)
  | probe (j : Fin k) (x : ZMod n) (y : ZMod m) (im : Bool)
  | obj (i : Fin H) (j : Fin W) (im : Bool)
  | background (i : Fin h) (j : Fin w)
  | weight (i : Fin N)
  | offset (i : Fin N) (c : Fin 2)
  deriving DecidableEq

/-- Reading and writing the parameters of `Bragg2DPtycho`. -/
def braggCoords : Coords (BraggTheta n m H W h w N k) (BraggCoord n m H W h w N k) where
  read θ := fun
    | .probe j x y im => part (θ.1 j x y) im
    | .obj i j im => part (θ.2.1 i j) im
    | .background i j => θ.2.2.1 i j
    | .weight i => θ.2.2.2.1 i
    | .offset i c => θ.2.2.2.2 i c
  write v := (fun j x y => ⟨v (.probe j x y false), v (.probe j x y true)⟩, fun i j => ⟨v (.obj i j false), v (.obj i j true)⟩,
    fun i j => v (.background i j), fun i => v (.weight i), fun i c => v (.offset i c))
  group
    | .probe .. => "probe"
    | .obj .. => "obj"
    | .background .. => "background"
    | .weight .. => "weights"
    | .offset .. => "translation_offsets"
  write_read _ := rfl
  read_write v := by
    funext c
    cases c <;> first | rfl | (rename_i im; cases im <;> rfl)

/-- The parameters of `SimplePtycho`, `simple_ptycho.py:42-43`. -/
inductive SimpleCoord (n m H W : ℕ)
  | probe (x : ZMod n) (y : ZMod m) (im : Bool)
  | obj (i : Fin H) (j : Fin W) (im : Bool)
  deriving DecidableEq

/-- Reading and writing the parameters of `SimplePtycho`. -/
def simpleCoords : Coords (SimpleTheta n m H W) (SimpleCoord n m H W) where
  read θ := fun
    | .probe x y im => part (θ.1 x y) im
    | .obj i j im => part (θ.2 i j) im
  write v := (fun x y => ⟨v (.probe x y false), v (.probe x y true)⟩, fun i j => ⟨v (.obj i j false), v (.obj i j true)⟩)
  group
    | .probe .. => "probe"
    | .obj .. => "obj"
  write_read _ := rfl
  read_write v := by
    funext c
    cases c <;> first | rfl | (rename_i im; cases im <;> rfl)

/-- The parameters of `RPI`, `rpi.py:118-124`. -/
inductive RpiCoord (a b k l : ℕ)
  | obj (s : Fin l) (x : ZMod a) (y : ZMod b) (im : Bool)
  | weights (i j : Fin k) (im : Bool)
  deriving DecidableEq

/-- Reading and writing the parameters of `RPI`. -/
def rpiCoords : Coords (RpiTheta a b k l) (RpiCoord a b k l) where
  read θ := fun
    | .obj s x y im => part (θ.1 s x y) im
    | .weights i j im => part (θ.2 i j) im
  write v := (fun s x y => ⟨v (.obj s x y false), v (.obj s x y true)⟩, fun i j => ⟨v (.weights i j false), v (.weights i j true)⟩)
  group
    | .obj .. => "obj"
    | .weights .. => "weights"
  write_read _ := rfl
  read_write v := by
    funext c
    cases c <;> first | rfl | (rename_i im; cases im <;> rfl)

end Cdtools
