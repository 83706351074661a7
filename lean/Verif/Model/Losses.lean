/-
Model of `tools/losses/losses.py`: the three losses and their normalizers.
A detector is a finite type `κ` of pixels, a pattern a function `κ → ℝ`, a batch a list of pairs
(measured pattern, simulated pattern); the mask, if any, is broadcast over the batch.
Simplifications: floats are reals; `masked_select` followed by a reduction is the reduction over
the selected pixels.
-/
import Mathlib.Analysis.SpecialFunctions.Log.Basic
import Mathlib.Analysis.SpecialFunctions.Pow.NNReal

namespace Cdtools
open Finset
variable {κ : Type} [Fintype κ]

/-- The pixels that `masked_select(mask)` keeps (all without a mask). -/
def selectedPixels (mask : Option (κ → Bool)) : Finset κ :=
  match mask with
  | none => univ
  | some m => univ.filter fun p => m p = true

/-- Sum of a per-pixel term over the batch. -/
def batchSum (mask : Option (κ → Bool)) (term : ℝ → ℝ → ℝ)
    (batch : List ((κ → ℝ) × (κ → ℝ))) : ℝ :=
  (batch.map fun x => ∑ p ∈ selectedPixels mask, term (x.1 p) (x.2 p)).sum

/-- Number of selected entries in a batch. -/
def batchCount (mask : Option (κ → Bool)) {α : Type} (batch : List α) : ℕ :=
  batch.length * (selectedPixels mask).card

/-- `amplitude_mse`, `losses.py:21-80` (`t.sqrt` of a non-negative number). -/
noncomputable def amplitudeMse (mask : Option (κ → Bool)) (useSum : Bool)
    (batch : List ((κ → ℝ) × (κ → ℝ))) : ℝ :=
  let s := batchSum mask (fun i s => (Real.sqrt s - Real.sqrt i) ^ 2) batch
  if useSum then s else s / batchCount mask batch

/-- `intensity_mse`, `losses.py:125-174`. -/
noncomputable def intensityMse (mask : Option (κ → Bool)) (useSum : Bool)
    (batch : List ((κ → ℝ) × (κ → ℝ))) : ℝ :=
  let s := batchSum mask (fun i s => (s - i) ^ 2) batch
  if useSum then s else s / batchCount mask batch

/-- `torch.xlogy(x, y)`: 0 where `x = 0`, else `x * log y`. -/
noncomputable def xlogy (x y : ℝ) : ℝ := if x = 0 then 0 else x * Real.log y

/-- `poisson_nll`, `losses.py:245-311`. -/
noncomputable def poissonNll (mask : Option (κ → Bool)) (eps : ℝ) (subtractMin : Bool)
    (batch : List ((κ → ℝ) × (κ → ℝ))) : ℝ :=
  let nll := batchSum mask (fun i s => s + eps - xlogy i (s + eps)) batch
  if subtractMin then nll - batchSum mask (fun i _ => i - xlogy i i) batch else nll

/-! ### Normalizers -/

/-- `AmplitudeMSENormalizer` and `IntensityMSENormalizer` (identical code),
`losses.py:82-122,178-242`. -/
structure CountNorm where
  firstPassComplete : Bool := false
  numPix : ℕ := 0

/-- `accumulate`, `losses.py:108-113,206-224`. -/
def CountNorm.accumulate (mask : Option (κ → Bool)) (n : CountNorm) (patterns : List (κ → ℝ)) :
    CountNorm :=
  if n.firstPassComplete then n
  else { n with numPix := n.numPix + batchCount mask patterns }

/-- `normalize_loss`, `losses.py:115-119,226-242`. -/
noncomputable def CountNorm.normalize (n : CountNorm) (loss : ℝ) : CountNorm × ℝ :=
  ({ n with firstPassComplete := true }, loss / n.numPix)

/-- `SimplePoissonNLLNormalizer`, `losses.py:314-397`; `normalization` is set at the end of the
first pass. -/
structure PoissonNorm where
  firstPassComplete : Bool := false
  sumNonzero : ℕ := 0
  offset : ℝ := 0
  normalization : ℝ := 0

open Classical in
/-- `accumulate`, `losses.py:352-376`: offset by `poisson_nll(patterns, patterns)` with its default
`eps = 1e-6`, and count pixels `>= 1`. -/
noncomputable def PoissonNorm.accumulate (mask : Option (κ → Bool)) (n : PoissonNorm)
    (patterns : List (κ → ℝ)) : PoissonNorm :=
  if n.firstPassComplete then n
  else { n with
    offset := n.offset + poissonNll mask (1e-6) false (patterns.map fun p => (p, p))
    sumNonzero := n.sumNonzero +
      (patterns.map fun p => ((selectedPixels mask).filter fun k => 1 ≤ p k).card).sum }

/-- `normalize_loss`, `losses.py:380-397`. -/
noncomputable def PoissonNorm.normalize (n : PoissonNorm) (loss : ℝ) : PoissonNorm × ℝ :=
  let n := if n.firstPassComplete then n
    else { n with normalization := 0.5 * n.sumNonzero, firstPassComplete := true }
  (n, (loss - n.offset) / n.normalization)

/-! ### An epoch, as far as losses are concerned -/

/-- One pass of `Reconstructor.run_epoch` (`reconstructors/base.py:161-231`) over the minibatches:
accumulate the normalizer, add the minibatch loss; at the end normalize. An aborted epoch stops
after accumulating some minibatches, without normalizing. -/
noncomputable def lossEpoch {N B : Type} (acc : N → B → N) (norm : N → ℝ → N × ℝ) (loss : B → ℝ)
    (n : N) (batches : List B) : N × ℝ :=
  norm (batches.foldl acc n) (batches.map loss).sum

/-- Several completed epochs in a row; the recorded losses. -/
noncomputable def lossEpochs {N B : Type} (acc : N → B → N) (norm : N → ℝ → N × ℝ)
    (n : N) : List ((B → ℝ) × List B) → N × List ℝ
  | [] => (n, [])
  | e :: es =>
    let r := lossEpoch acc norm e.1 n e.2
    let rs := lossEpochs acc norm r.1 es
    (rs.1, r.2 :: rs.2)

end Cdtools
