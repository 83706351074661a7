/- Specification vocabulary for the reconstructor properties. -/
import Verif.Model.Reconstructor

namespace Cdtools

variable {Θ I P S R : Type} [NormedAddCommGroup Θ] [NormedSpace ℝ Θ]

/-- The forward model treats exposures independently (one simulated pattern per input) and the
loss is a sum over exposures. `Props/Losses.lean` shows this for every loss of cdtools. -/
structure Physics.DataAdditive (ph : Physics Θ I P S R) : Prop where
  forward_append : ∀ θ a b, ph.forward θ (a ++ b) = ph.forward θ a ++ ph.forward θ b
  forward_length : ∀ θ a, (ph.forward θ a).length = a.length
  loss_append : ∀ p p' s s', p.length = s.length → p'.length = s'.length →
    ph.loss (p ++ p') (s ++ s') = ph.loss p s + ph.loss p' s'

/-- The loss of a whole minibatch computed in a single pass. -/
def Physics.fullLoss (ph : Physics Θ I P S R) (b : Minibatch I P) (θ : Θ) : ℝ :=
  ph.loss b.patterns (ph.forward θ b.inputs)

/-- The loss of a single exposure. -/
def Physics.oneLoss (ph : Physics Θ I P S R) (i : I) (p : P) (θ : Θ) : ℝ :=
  ph.loss [p] (ph.forward θ [i])

/-- A minibatch as a data loader produces it: non-empty, one pattern per input. -/
def Minibatch.WF (b : Minibatch I P) : Prop :=
  b.inputs ≠ [] ∧ b.inputs.length = b.patterns.length

/-- No chunk evaluation raises. -/
def Physics.FaultFree (ph : Physics Θ I P S R) : Prop :=
  ∀ θ inp pats, ph.fault θ inp pats = none

/-- Every exposure of the minibatch has a differentiable loss at `θ`. -/
def Physics.DiffAt (ph : Physics Θ I P S R) (b : Minibatch I P) (θ : Θ) : Prop :=
  ∀ e ∈ b.inputs.zip b.patterns, DifferentiableAt ℝ (ph.oneLoss e.1 e.2) θ

/-- Every way this optimizer program can finish returns `l`. -/
def OptProg.Returns {Θ Ω G : Type} (l : Option ℝ) : OptProg Θ Ω G → Prop
  | .ret _ _ l' => l' = l
  | .eval _ _ k => ∀ r, (k r).Returns l

/-- The optimizer's `step` returns the value of its first closure evaluation, made at the
parameters it was given (the behaviour of torch's Adam, SGD and L-BFGS). -/
def OptProg.ReportsFirst {Θ Ω G : Type} (θ : Θ) : OptProg Θ Ω G → Prop
  | .ret _ _ _ => False
  | .eval _ θ' k => θ' = θ ∧ ∀ r, (k r).Returns r.1

end Cdtools
