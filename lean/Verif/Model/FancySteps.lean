/-
Reconstructions of `FancyPtycho` with Adam and SGD step by step: `reconstructors/adam.py:51-66` and `sgd.py:51-68` (one parameter group per named
parameter of the model), the minibatch loop `reconstructors/base.py:161-227`. The closure is that of `Model/FancyTraining`; that its value and its
gradient do not depend on the calculation width is C100. Every parameter has a gradient (`requires_grad = True`).
-/
import Verif.Model.FancyTraining
import Verif.Model.Descent

namespace Cdtools
open Finset

variable {n m a b H W h w N r k : ℕ}

/-- The real coordinates of the parameters of `FancyPtycho` (`fancy_ptycho.py:140-187`): probe, object, background, weights, weight matrices,
translation offsets, probe Fourier shifts. The flag of a complex entry is `true` for the imaginary part. -/
abbrev FancyCoord (n m H W h w N r k : ℕ) : Type :=
  (Fin k × ZMod n × ZMod m × Bool) ⊕ (Fin H × Fin W × Bool) ⊕ (Fin h × Fin w) ⊕ Fin N ⊕ (Fin N × Fin r × Fin k × Bool) ⊕
    (Fin N × Fin 2) ⊕ (Fin N × Fin 2)

/-- Coordinates can be compared (they are tuples of indices). -/
instance : DecidableEq (FancyCoord n m H W h w N r k) :=
  @instDecidableEqSum _ _ inferInstance (@instDecidableEqSum _ _ inferInstance (@instDecidableEqSum _ _ inferInstance
    (@instDecidableEqSum _ _ inferInstance inferInstance)))

/-- There are finitely many coordinates. -/
instance [NeZero n] [NeZero m] : Fintype (FancyCoord n m H W h w N r k) :=
  @instFintypeSum _ _ inferInstance (@instFintypeSum _ _ inferInstance (@instFintypeSum _ _ inferInstance
    (@instFintypeSum _ _ inferInstance inferInstance)))

/-- Real or imaginary part. -/
def part (z : ℂ) (im : Bool) : ℝ := if im then z.im else z.re

/-- The coordinates of the parameters. -/
def fancyRead (θ : FancyTheta n m H W h w N r k) : FancyCoord n m H W h w N r k → ℝ
  | .inl (j, x, y, im) => part (θ.1 j x y) im
  | .inr (.inl (i, j, im)) => part (θ.2.1 i j) im
  | .inr (.inr (.inl (i, j))) => θ.2.2.1 i j
  | .inr (.inr (.inr (.inl i))) => θ.2.2.2.1 i
  | .inr (.inr (.inr (.inr (.inl (i, q, j, im))))) => part (θ.2.2.2.2.1 i q j) im
  | .inr (.inr (.inr (.inr (.inr (.inl (i, c)))))) => θ.2.2.2.2.2.1 i c
  | .inr (.inr (.inr (.inr (.inr (.inr (i, c)))))) => θ.2.2.2.2.2.2 i c

/-- The parameters with given coordinates. -/
def fancyWrite (v : FancyCoord n m H W h w N r k → ℝ) : FancyTheta n m H W h w N r k :=
  (fun j x y => ⟨v (.inl (j, x, y, false)), v (.inl (j, x, y, true))⟩,
    fun i j => ⟨v (.inr (.inl (i, j, false))), v (.inr (.inl (i, j, true)))⟩,
    fun i j => v (.inr (.inr (.inl (i, j)))),
    fun i => v (.inr (.inr (.inr (.inl i)))),
    fun i q j => ⟨v (.inr (.inr (.inr (.inr (.inl (i, q, j, false)))))), v (.inr (.inr (.inr (.inr (.inl (i, q, j, true))))))⟩,
    fun i c => v (.inr (.inr (.inr (.inr (.inr (.inl (i, c))))))),
    fun i c => v (.inr (.inr (.inr (.inr (.inr (.inr (i, c))))))))

/-- The name of the parameter that a coordinate belongs to, `fancy_ptycho.py:140-187`. -/
def fancyGroup : FancyCoord n m H W h w N r k → String
  | .inl _ => "probe"
  | .inr (.inl _) => "obj"
  | .inr (.inr (.inl _)) => "background"
  | .inr (.inr (.inr (.inl _))) => "weights"
  | .inr (.inr (.inr (.inr (.inl _)))) => "weights"
  | .inr (.inr (.inr (.inr (.inr (.inl _))))) => "translation_offsets"
  | .inr (.inr (.inr (.inr (.inr (.inr _))))) => "probe_fourier_shifts"

variable [NeZero n] [NeZero m] [NeZero a] [NeZero b]

/-- The loss of a minibatch, `reconstructors/base.py:187-215`. -/
noncomputable def fancyTotal (M : Fancy n m a b N k) (kind : LossKind) (mask : Option (Fin h × Fin w → Bool))
    (B : Minibatch (Fin N × (Fin 3 → ℝ)) (Fin h × Fin w → ℝ)) (θ : FancyTheta n m H W h w N r k) : ℝ :=
  kind.chunk mask (B.patterns.zip (B.inputs.map fun e => ((M.withTheta θ).shotPixels h w e).getD 0))

/-- What an optimizer does with a gradient: the new state and the new parameters. -/
abbrev OptStep (σ ι : Type) : Type := (ι → ℝ) → σ × (ι → ℝ) → σ × (ι → ℝ)

/-- A sequence of minibatches, each with the step of an optimizer, `reconstructors/base.py:161-227`; `none`: the simulation of an exposure
raises. -/
noncomputable def fancyRun {σ : Type} (M : Fancy n m a b N k) (kind : LossKind) (mask : Option (Fin h × Fin w → Bool)) :
    List (OptStep σ (FancyCoord n m H W h w N r k) × Minibatch (Fin N × (Fin 3 → ℝ)) (Fin h × Fin w → ℝ)) →
      σ × FancyTheta n m H W h w N r k → Option (σ × FancyTheta n m H W h w N r k)
  | [], s => some s
  | (step, B) :: rest, s =>
    if ∀ e ∈ B.inputs, ((M.withTheta s.2).shotPixels h w e).isSome then
      let u := step (gradOf (fun v => fancyTotal M kind mask B (fancyWrite v)) (fancyRead s.2)) (s.1, fancyRead s.2)
      fancyRun M kind mask rest (u.1, fancyWrite u.2)
    else none

/-- Reconstruction with Adam. -/
noncomputable def fancyAdam (M : Fancy n m a b N k) (kind : LossKind) (mask : Option (Fin h × Fin w → Bool))
    (steps : List (AdamHyper × Minibatch (Fin N × (Fin 3 → ℝ)) (Fin h × Fin w → ℝ))) (θ : FancyTheta n m H W h w N r k) :
    Option (FancyTheta n m H W h w N r k) :=
  (fancyRun M kind mask (steps.map fun x => (adamUpdate x.1 fancyGroup, x.2)) (AdamMemory.start, θ)).map Prod.snd

/-- Reconstruction with SGD. -/
noncomputable def fancySgd (M : Fancy n m a b N k) (kind : LossKind) (mask : Option (Fin h × Fin w → Bool))
    (steps : List (SgdHyper × Minibatch (Fin N × (Fin 3 → ℝ)) (Fin h × Fin w → ℝ))) (θ : FancyTheta n m H W h w N r k) :
    Option (FancyTheta n m H W h w N r k) :=
  (fancyRun M kind mask (steps.map fun x => (sgdUpdate x.1 fancyGroup, x.2)) (none, θ)).map Prod.snd

end Cdtools
