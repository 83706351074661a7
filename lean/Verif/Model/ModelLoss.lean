/-
The losses of a model during an epoch: `Reconstructor.run_epoch` (`reconstructors/base.py:161-231`) together with
`CDIModel.forward` and the loss and normalizer chosen in `FancyPtycho.__init__` (`models/fancy_ptycho.py:222-236`), as
one function of the data and of the state of the model at every minibatch.
-/
import Verif.Model.Losses
import Verif.Model.FancyPtycho
import Verif.Model.Image
import Verif.Model.Py

namespace Cdtools

/-- One exposure of a dataset: the inputs of `forward` and the measured pattern, `ptycho_2d_dataset.py:79-85`. -/
structure DataShot (I T : Type) where
  index : I
  translation : T
  pattern : Img ℝ

/-- A pattern of shape `h × w` as a function of the pixel. -/
def Img.pixels (h w : ℕ) (P : Img ℝ) : Fin h × Fin w → ℝ := fun p => P.px p.1 p.2

variable {I T N : Type}

/-- Simulation of a chunk and pairing with the data, `reconstructors/base.py:200-215`. Simplification: simulated patterns of
another shape than the data always raise RuntimeError (torch would accept some by broadcasting). -/
noncomputable def chunkPairs (h w : ℕ) (forward : I → T → Except String (Img ℝ)) (chunk : List (DataShot I T)) :
    Except String (List ((Fin h × Fin w → ℝ) × (Fin h × Fin w → ℝ))) :=
  (chunk.mapM fun e => forward e.index e.translation).bind fun sims =>
    if ∀ s ∈ sims, s.h = h ∧ s.w = w then
      .ok (List.zipWith (fun e s => (e.pattern.pixels h w, Img.pixels h w s)) chunk sims)
    else .error "RuntimeError"

/-- `total_loss` of the closure, `reconstructors/base.py:180-223`: the chunks of `calculation_width` exposures. -/
noncomputable def minibatchLoss (h w : ℕ) (loss : List ((Fin h × Fin w → ℝ) × (Fin h × Fin w → ℝ)) → ℝ)
    (forward : I → T → Except String (Img ℝ)) (width : ℕ) (batch : List (DataShot I T)) : Except String ℝ :=
  ((pyChunks batch.length width batch).mapM fun c => (chunkPairs h w forward c).map loss).map List.sum

/-- The loss that `run_epoch` records, `reconstructors/base.py:161-231`. A step is a minibatch together with the simulation
of the model in its state at that time (the parameters change from step to step). -/
noncomputable def recordedLoss (h w : ℕ) (acc : N → List (Fin h × Fin w → ℝ) → N) (norm : N → ℝ → N × ℝ) (n0 : N)
    (loss : List ((Fin h × Fin w → ℝ) × (Fin h × Fin w → ℝ)) → ℝ) (width : ℕ)
    (steps : List ((I → T → Except String (Img ℝ)) × List (DataShot I T))) : Except String (N × ℝ) :=
  (steps.mapM fun s => minibatchLoss h w loss s.1 width s.2).map fun ls =>
    norm (steps.foldl (fun n s => acc n (s.2.map fun e => e.pattern.pixels h w)) n0) ls.sum

/-- The recorded loss of a first epoch for the three choices, `fancy_ptycho.py:222-236`. -/
noncomputable def LossKind.recorded (kind : LossKind) (h w : ℕ) (mask : Option (Fin h × Fin w → Bool)) (width : ℕ)
    (steps : List ((I → T → Except String (Img ℝ)) × List (DataShot I T))) : Except String ℝ :=
  match kind with
  | .amplitudeMse => (recordedLoss h w (CountNorm.accumulate mask) CountNorm.normalize {} (Cdtools.amplitudeMse mask true) width steps).map (·.2)
  | .intensityMse => (recordedLoss h w (CountNorm.accumulate mask) CountNorm.normalize {} (Cdtools.intensityMse mask true) width steps).map (·.2)
  | .poissonNll => (recordedLoss h w (PoissonNorm.accumulate mask) PoissonNorm.normalize {} (Cdtools.poissonNll mask (1e-6) false) width steps).map (·.2)

end Cdtools
