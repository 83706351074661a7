/- Small specification vocabulary for checkpointed scripts (C10, C11). -/
import Verif.Model.Checkpoint

namespace Cdtools
variable {Θ V : Type}

/-- Is this statement `model.checkpoint()`? -/
def Cmd.isCheckpoint : Cmd Θ V → Bool
  | .checkpoint => true
  | _ => false

/-- Is this statement one epoch? -/
def Cmd.isEpoch : Cmd Θ V → Bool
  | .epoch _ _ => true
  | _ => false

/-- Number of checkpoint statements in a script. -/
def numCk (cs : List (Cmd Θ V)) : ℕ := cs.countP Cmd.isCheckpoint

/-- The model a script leaves when it is run from start to end without any checkpointing:
`use_checkpoints` is not called and the checkpoint statements are left out. -/
def uninterrupted (cs : List (Cmd Θ V)) (c0 : Core Θ) (v : V) : Core Θ :=
  (runScript (startJob c0 v none) (fun _ => none) (cs.filter fun c => !c.isCheckpoint)).2.1.core

/-- Every epoch runs with `thread=True`. -/
def AllThreaded (cs : List (Cmd Θ V)) : Prop :=
  ∀ t f, Cmd.epoch t f ∈ cs → t = true

/-- The effect of each epoch on the saved part of the model depends only on the saved part:
no momentum, no frozen loss normalizer, no hidden random state. -/
def Memoryless (cs : List (Cmd Θ V)) : Prop :=
  ∀ t f, Cmd.epoch t f ∈ cs → ∀ c v v', (f (c, v)).1 = (f (c, v')).1

/-- One launch of the script: the job number, the values of the in-memory state when the process
starts, and after how many statements the process is killed (large = not at all). -/
structure Launch (V : Type) where
  job : ℕ
  vol : V
  killedAfter : ℕ

/-- Run one launch on a disk. -/
def launch (cs : List (Cmd Θ V)) (c0 : Core Θ) (fs : Files Θ V) (l : Launch V) :
    Files Θ V × CkState Θ V × Option PyExc :=
  runScript (startJob c0 l.vol (some l.job)) fs (cs.take l.killedAfter)

/-- The disk after a history of launches. -/
def diskAfter (cs : List (Cmd Θ V)) (c0 : Core Θ) (fs : Files Θ V) : List (Launch V) → Files Θ V
  | [] => fs
  | l :: ls => diskAfter cs c0 (launch cs c0 fs l).1 ls

end Cdtools
