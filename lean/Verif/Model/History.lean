/-
Histories of use of one model object: the events that touch `loss_history`, `epoch` and
`training_history` of a `CDIModel` that does not use checkpoints.
-/
import Verif.Model.Threading

namespace Cdtools

section
variable {Θ I P S R : Type} [NormedAddCommGroup Θ] [NormedSpace ℝ Θ] {Ω N : Type}

/-- Arguments of one `run_epoch` call. -/
structure EpochArgs (Θ I P S R Ω N : Type) [NormedAddCommGroup Θ] [NormedSpace ℝ Θ] where
  env : Env Θ Ω N P
  ph : Physics Θ I P S R
  cw : ℤ
  reg : Option R
  dt : ℝ

/-- What can happen to a model between construction and saving. -/
inductive Event (Θ I P S R Ω N : Type) [NormedAddCommGroup Θ] [NormedSpace ℝ Θ] where
  /-- a new reconstructor (fresh optimizer state) is made for the model, `adam.py:51-68` -/
  | newOptimizer (o : Ω)
  /-- `optimize` of Adam or SGD announces its plan, `adam.py:227-234`, `sgd.py:237-246` -/
  | plan (msg : String)
  /-- `run_epoch` called in the calling thread (`thread=False` or directly), `base.py:333` -/
  | epoch (a : EpochArgs Θ I P S R Ω N) (loader : Option (List (Minibatch I P)))
  /-- an epoch in a worker thread under some schedule, `base.py:368-394` -/
  | threadedEpoch (a : EpochArgs Θ I P S R Ω N) (bs : List (Minibatch I P)) (sch : List Sched)

/-- The effect of an event. -/
noncomputable def Event.apply (s : RunState Θ Ω N) : Event Θ I P S R Ω N → RunState Θ Ω N
  | .newOptimizer o => { s with opt := o }
  | .plan msg => { s with trainingHistory := s.trainingHistory ++ msg }
  | .epoch a l => (runEpoch a.env a.ph a.cw a.reg a.dt l s).1
  | .threadedEpoch a bs sch => ((startEpoch a.env a.ph a.cw a.reg a.dt bs s).exec sch).shared

/-- A freshly constructed model, `models/base.py:71-73`. -/
def freshModel (θ : Θ) (o : Ω) (n : N) : RunState Θ Ω N where
  params := θ
  opt := o
  norm := n
  lossHistory := []
  epoch := 0
  trainingHistory := ""

/-- The state after a history of events. -/
noncomputable def runEvents (s : RunState Θ Ω N) (h : List (Event Θ I P S R Ω N)) :
    RunState Θ Ω N := h.foldl Event.apply s

end
end Cdtools
