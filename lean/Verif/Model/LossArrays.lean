/-
The losses and their normalizers on whole arrays with torch's broadcasting: `tools/losses/losses.py`, and the part of
`reconstructors/base.py:161-215` that calls them. `Model/Losses.lean` models them on lists of patterns with a mask of the shape
of the detector; here measured and simulated patterns and the mask are arrays of any shape.

Floats are real numbers; a mean over no entries (NaN in the code) is 0 here.
-/
import Verif.Model.Losses
import Verif.Model.Batch
import Verif.Model.BatchOthers
import Verif.Model.Training

namespace Cdtools

variable {α : Type}

/-- The indices of an array of a given shape, in the order of the memory (row major). -/
def shapeIndices : List ℕ → List (List ℕ)
  | [] => [[]]
  | d :: s => (List.range d).flatMap fun x => (shapeIndices s).map (x :: ·)

/-- `t.sum(A)`. -/
def Tensor.total [AddMonoid α] (A : Tensor α) : α := ((shapeIndices A.shape).map A.get).sum

/-- `A.numel()`. -/
def Tensor.numel (A : Tensor α) : ℕ := A.shape.prod

/-- `t.mean(A)`. -/
noncomputable def Tensor.mean (A : Tensor ℝ) : ℝ := A.total / A.numel

/-- `A.masked_select(mask)`: a vector of the entries where the mask holds, after broadcasting both. -/
def Tensor.maskedSelect [Zero α] (A : Tensor α) (mask : Tensor Bool) : Except PyExc (Tensor α) :=
  match broadcastShapes A.shape mask.shape with
  | some s =>
    let l := ((shapeIndices s).filter mask.bget).map A.bget
    .ok ⟨[l.length], fun i => (l[i.headD 0]?).getD 0⟩
  | none => .error .runtimeError

/-- The measured and simulated entries that enter a loss: all, or those that the mask selects (`losses.py:58-80,163-174,293-302`). -/
def selectBoth (mask : Option (Tensor Bool)) (I S : Tensor ℝ) : Except PyExc (Tensor ℝ × Tensor ℝ) :=
  match mask with
  | none => .ok (I, S)
  | some m => (I.maskedSelect m).bind fun i => (S.maskedSelect m).map fun s => (i, s)

/-- `amplitude_mse`, `losses.py:57-80`. -/
noncomputable def amplitudeMseArray (mask : Option (Tensor Bool)) (useSum : Bool) (I S : Tensor ℝ) : Except PyExc ℝ :=
  (selectBoth mask I S).bind fun x =>
  ((x.2.map Real.sqrt).bop (fun s i => (s - i) ^ 2) (x.1.map Real.sqrt)).map fun d => if useSum then d.total else d.mean

/-- `intensity_mse`, `losses.py:162-174`. -/
noncomputable def intensityMseArray (mask : Option (Tensor Bool)) (useSum : Bool) (I S : Tensor ℝ) : Except PyExc ℝ :=
  (selectBoth mask I S).bind fun x =>
  (x.2.bop (fun s i => (s - i) ^ 2) x.1).map fun d => if useSum then d.total else d.mean

/-- `poisson_nll`, `losses.py:293-311`. (`t.nansum` in the masked branch is a sum: the entries are numbers.) -/
noncomputable def poissonNllArray (mask : Option (Tensor Bool)) (eps : ℝ) (subtractMin : Bool) (I S : Tensor ℝ) : Except PyExc ℝ :=
  (selectBoth mask I S).bind fun x =>
  (x.1.bop xlogy (x.2.map (· + eps))).bind fun lg =>
  ((x.2.map (· + eps)).bop (· - ·) lg).map fun d =>
  if subtractMin then d.total - (x.1.map fun i => i - xlogy i i).total else d.total

/-- The loss of a model on arrays, with its sum and the mask: `fancy_ptycho.py:222-236`, `reconstructors/base.py:203-211`. -/
noncomputable def LossKind.array (kind : LossKind) (mask : Option (Tensor Bool)) (I S : Tensor ℝ) : Except PyExc ℝ :=
  match kind with
  | .amplitudeMse => amplitudeMseArray mask true I S
  | .intensityMse => intensityMseArray mask true I S
  | .poissonNll => poissonNllArray mask (1e-6) false I S

/-- `accumulate` of the normalizers of the two mean square errors, `losses.py:108-113,206-224`. -/
def CountNorm.accumulateArray (mask : Option (Tensor Bool)) (n : CountNorm) (patterns : Tensor ℝ) : Except PyExc CountNorm :=
  if n.firstPassComplete then .ok n
  else match mask with
    | none => .ok { n with numPix := n.numPix + patterns.numel }
    | some m => (patterns.maskedSelect m).map fun x => { n with numPix := n.numPix + x.numel }

open Classical in
/-- `accumulate` of the normalizer of the Poisson likelihood, `losses.py:369-376`. -/
noncomputable def PoissonNorm.accumulateArray (mask : Option (Tensor Bool)) (n : PoissonNorm) (patterns : Tensor ℝ) :
    Except PyExc PoissonNorm :=
  if n.firstPassComplete then .ok n
  else (poissonNllArray mask (1e-6) false patterns patterns).bind fun off =>
    (selectBoth mask patterns patterns).map fun x =>
      { n with offset := n.offset + off, sumNonzero := n.sumNonzero + (x.1.map fun v => if 1 ≤ v then 1 else 0).total }

/-- `A[i:i + width]` for `0 ≤ i`, `0 ≤ width`. -/
def Tensor.rowsFrom (i width : ℕ) (A : Tensor α) : Tensor α :=
  ⟨(min (i + width) (A.shape.headD 0) - i) :: A.shape.tail, fun x => A.get ((x.headD 0 + i) :: x.tail)⟩

/-- The value of `closure()`, `reconstructors/base.py:184-215`: the minibatch in chunks of `width`, each simulated as a batch,
the losses added. `none`: no chunk at all. ValueError: `range` with step 0. -/
noncomputable def arrayClosure {I : Type} (forward : List I → Except PyExc (Tensor ℝ)) (kind : LossKind) (mask : Option (Tensor Bool))
    (width : ℕ) (inputs : List I) (patterns : Tensor ℝ) : Except PyExc (Option ℝ) :=
  if width = 0 then .error .valueError
  else (pyRange0 inputs.length width).foldlM (fun acc i =>
    (forward (pySlice inputs i (i + width))).bind fun sim =>
    (kind.array mask (patterns.rowsFrom i width) sim).map fun l => some (acc.getD 0 + l)) none

end Cdtools
