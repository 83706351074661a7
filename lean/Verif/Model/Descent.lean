/-
The updates of the parameters by the Adam and SGD reconstructors: `reconstructors/adam.py:51-146`, `reconstructors/sgd.py:51-163`, with
the update rules of `torch.optim.Adam` and `torch.optim.SGD` as contracts (their single-tensor implementations; the cdtools classes leave
`eps` and Adam's `weight_decay` at the defaults of torch).

Parameters are points of `ι → ℝ`: every real parameter, and the real and the imaginary part of every complex one (torch treats a complex
parameter as a pair of reals). `group i` is the name of the parameter that coordinate `i` belongs to.
-/
import Mathlib.Analysis.Calculus.Deriv.Basic
import Mathlib.Analysis.SpecialFunctions.Pow.NNReal
import Verif.Model.Loader

namespace Cdtools

variable {ι : Type} [Fintype ι] [DecidableEq ι]

/-- `loss.backward()`: the partial derivative for every coordinate (`reconstructors/base.py:212`). -/
noncomputable def gradOf (L : (ι → ℝ) → ℝ) (θ : ι → ℝ) : ι → ℝ := fun i => deriv (fun x => L (Function.update θ i x)) (θ i)

/-! ### Adam -/

/-- The hyperparameters of a call, `adam.py:107-146`; `eps` is a constant of torch (`1e-8`). -/
structure AdamHyper where
  lr : ℝ
  beta1 : ℝ
  beta2 : ℝ
  amsgrad : Bool
  factors : List (String × ℝ)
  eps : ℝ

/-- The state of `torch.optim.Adam`; `maxSq` is used with AMSGrad only (that the entry is missing if the first step was made without it, and
the step then raises, is C95). -/
structure AdamMemory (ι : Type) where
  step : ℕ
  avg : ι → ℝ
  avgSq : ι → ℝ
  maxSq : ι → ℝ

/-- The state before the first step. -/
def AdamMemory.start : AdamMemory ι := ⟨0, fun _ => 0, fun _ => 0, fun _ => 0⟩

/-- One `optimizer.step` of `torch.optim.Adam` with the gradient `g` at `θ`. -/
noncomputable def adamUpdate (hp : AdamHyper) (group : ι → String) (g : ι → ℝ) (s : AdamMemory ι × (ι → ℝ)) :
    AdamMemory ι × (ι → ℝ) :=
  let t := s.1.step + 1
  let avg := fun i => hp.beta1 * s.1.avg i + (1 - hp.beta1) * g i
  let avgSq := fun i => hp.beta2 * s.1.avgSq i + (1 - hp.beta2) * g i ^ 2
  let maxSq := fun i => if hp.amsgrad then max (s.1.maxSq i) (avgSq i) else s.1.maxSq i
  let denom := fun i => Real.sqrt (if hp.amsgrad then maxSq i else avgSq i) / Real.sqrt (1 - hp.beta2 ^ t) + hp.eps
  (⟨t, avg, avgSq, maxSq⟩, fun i => s.2 i - groupLr hp.factors hp.lr (group i) / (1 - hp.beta1 ^ t) * (avg i / denom i))

/-- A sequence of minibatches: the losses and the hyperparameters in force, one step each. -/
noncomputable def adamRun (group : ι → String) :
    List (AdamHyper × ((ι → ℝ) → ℝ)) → AdamMemory ι × (ι → ℝ) → AdamMemory ι × (ι → ℝ)
  | [], s => s
  | (hp, L) :: rest, s => adamRun group rest (adamUpdate hp group (gradOf L s.2) s)

/-! ### SGD -/

/-- The hyperparameters of a call, `sgd.py:117-163`. -/
structure SgdHyper where
  lr : ℝ
  momentum : ℝ
  dampening : ℝ
  weightDecay : ℝ
  nesterov : Bool
  factors : List (String × ℝ)

/-- The momentum buffer after a step. -/
def sgdBuffer (hp : SgdHyper) (d : ι → ℝ) : Option (ι → ℝ) → ι → ℝ
  | none => d
  | some b => fun i => hp.momentum * b i + (1 - hp.dampening) * d i

/-- One `optimizer.step` of `torch.optim.SGD` with the gradient `g` at `θ`; the state is the momentum buffer, if there is one. -/
noncomputable def sgdUpdate (hp : SgdHyper) (group : ι → String) (g : ι → ℝ) (s : Option (ι → ℝ) × (ι → ℝ)) :
    Option (ι → ℝ) × (ι → ℝ) :=
  let d := fun i => g i + hp.weightDecay * s.2 i
  let move := fun (d : ι → ℝ) i => s.2 i - groupLr hp.factors hp.lr (group i) * d i
  if hp.momentum = 0 then (s.1, move d)
  else
    let buf := sgdBuffer hp d s.1
    (some buf, move (if hp.nesterov then fun i => d i + hp.momentum * buf i else buf))

/-- A sequence of minibatches with SGD. -/
noncomputable def sgdRun (group : ι → String) :
    List (SgdHyper × ((ι → ℝ) → ℝ)) → Option (ι → ℝ) × (ι → ℝ) → Option (ι → ℝ) × (ι → ℝ)
  | [], s => s
  | (hp, L) :: rest, s => sgdRun group rest (sgdUpdate hp group (gradOf L s.2) s)

end Cdtools
