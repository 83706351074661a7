/-
Model of checkpointing (`models/base.py:333-400`) together with the skip branches of
`Reconstructor.optimize` (`reconstructors/base.py:325-331, 360-366`) and of the context
managers `save_on_exit` / `save_on_exception` (`models/base.py:282-330`).
-/
import Verif.Model.Py
import Mathlib.Data.Real.Basic

namespace Cdtools

/-- The part of a model that `save_results` stores (`models/base.py:189-202`): parameters and
buffers, loss history, epoch, training history. -/
structure Core (Θ : Type) where
  params : Θ
  lossHistory : List ℝ
  epoch : ℕ
  trainingHistory : String

/-- What a checkpoint file holds (`models/base.py:351-364`): the results, and the optimizer's
state dictionary if `self.current_optimizer` exists on the *model* and is not None. -/
structure CkFile (Θ V : Type) where
  core : Core Θ
  optimizerState : Option V

/-- The running program: the model (`core`), everything that lives only in memory (`vol`:
optimizer moments, the frozen loss normalizer, ...), the checkpoint bookkeeping of
`use_checkpoints` (`none` = never called), and the model attribute `current_optimizer`
(`none` = absent or None). `work` counts epochs actually computed (ghost). -/
structure CkState (Θ V : Type) where
  core : Core Θ
  vol : V
  ids : Option (ℕ × ℕ)
  modelOptimizer : Option V
  work : ℕ

/-- Statements of a reconstruction script. -/
inductive Cmd (Θ V : Type) where
  /-- `training_history += ...` when an optimizer announces its plan (`adam.py:227-234`) -/
  | plan (msg : String)
  /-- one iteration of an optimize generator; `f` is the computation `run_epoch` performs -/
  | epoch (thread : Bool) (f : Core Θ × V → Core Θ × V)
  /-- `model.checkpoint()` -/
  | checkpoint

/-- The checkpoint files on disk, by checkpoint id (`stem_<id>.pt`, `models/base.py:358-362`). -/
abbrev Files (Θ V : Type) := ℕ → Option (CkFile Θ V)

variable {Θ V : Type}

/-- `skip_computation`, `models/base.py:338-349`. -/
def CkState.skip (s : CkState Θ V) : Bool :=
  match s.ids with
  | some (cid, job) => cid != job
  | none => false

/-- `save_checkpoint`, `models/base.py:351-364`. -/
def CkState.saveFile (s : CkState Θ V) : CkFile Θ V := ⟨s.core, s.modelOptimizer⟩

/-- `load_checkpoint`, `models/base.py:368-387`; a missing file is FileNotFoundError (`other 2`),
a missing `optimizer_state_dict` entry is KeyError. -/
def CkState.loadFile (s : CkState Θ V) : Option (CkFile Θ V) → Except PyExc (CkState Θ V)
  | none => .error (.other 2)
  | some f =>
      match s.modelOptimizer with
      | none => .ok { s with core := f.core }
      | some _ =>
          match f.optimizerState with
          | none => .error .keyError
          | some v => .ok { s with core := f.core, vol := v, modelOptimizer := some v }

/-- One statement. `checkpoint` is `models/base.py:390-400`; the skip branches of the epoch
statement are `reconstructors/base.py:360-366` (threaded: `model.epoch` is advanced) and
`325-331` (not threaded: `self.epoch` does not exist on a Reconstructor, AttributeError).
`reconstructors/base.py:320` stores the optimizer on the reconstructor, so `modelOptimizer`
is not touched. -/
def Cmd.exec (s : CkState Θ V) (fs : Files Θ V) : Cmd Θ V →
    Files Θ V × Except PyExc (CkState Θ V)
  | .plan msg =>
      (fs, .ok { s with core := { s.core with
        trainingHistory := s.core.trainingHistory ++ msg } })
  | .epoch thread f =>
      if s.skip then
        if thread then (fs, .ok { s with core := { s.core with epoch := s.core.epoch + 1 } })
        else (fs, .error .attributeError)
      else
        let r := f (s.core, s.vol)
        (fs, .ok { s with core := r.1, vol := r.2, work := s.work + 1 })
  | .checkpoint =>
      match s.ids with
      | none => (fs, .error (.other 0))
      | some (cid, job) =>
          if cid = job then
            (fun i => if i = cid then some s.saveFile else fs i, .error .systemExit)
          else if cid + 1 = job then
            match s.loadFile (fs cid) with
            | .error e => (fs, .error e)
            | .ok s' => (fs, .ok { s' with ids := some (cid + 1, job) })
          else (fs, .ok { s with ids := some (cid + 1, job) })

/-- A whole script. -/
def runScript (s : CkState Θ V) (fs : Files Θ V) : List (Cmd Θ V) →
    Files Θ V × CkState Θ V × Option PyExc
  | [] => (fs, s, none)
  | c :: cs =>
      match c.exec s fs with
      | (fs', .error e) => (fs', s, some e)
      | (fs', .ok s') => runScript s' fs' cs

/-- The program state when a script starts: the model has just been built from the dataset;
with `job = some j` the script has called `use_checkpoints(j, stem)` (`models/base.py:333-336`). -/
def startJob (core : Core Θ) (v : V) (job : Option ℕ) : CkState Θ V :=
  ⟨core, v, job.map fun j => (0, j), none, 0⟩

/-! ### Saving on exit -/

/-- `save_to_h5(filename)`: given the current model state and the disk, either a new disk or an
exception (`models/base.py:205-215`). -/
abbrev SaveFn (σ δ : Type) := String → σ → δ → Except PyExc δ

/-- `save_on_exit`, `models/base.py:282-306`, around a body that transforms the model state and
ends normally or with any exception. -/
def saveOnExit {σ δ : Type} (save : SaveFn σ δ) (filename : String)
    (exceptionFilename : Option String) (body : σ → σ × Except PyExc Unit) (s : σ) (d : δ) :
    σ × δ × Except PyExc Unit :=
  match body s with
  | (s', .ok ()) =>
      match save filename s' d with
      | .ok d' => (s', d', .ok ())
      | .error e =>
          match save (exceptionFilename.getD filename) s' d with
          | .ok d' => (s', d', .error e)
          | .error e' => (s', d, .error e')
  | (s', .error e) =>
      match save (exceptionFilename.getD filename) s' d with
      | .ok d' => (s', d', .error e)
      | .error e' => (s', d, .error e')

/-- `save_on_exception`, `models/base.py:308-330`. -/
def saveOnException {σ δ : Type} (save : SaveFn σ δ) (filename : String)
    (body : σ → σ × Except PyExc Unit) (s : σ) (d : δ) : σ × δ × Except PyExc Unit :=
  match body s with
  | (s', .ok ()) => (s', d, .ok ())
  | (s', .error e) =>
      match save filename s' d with
      | .ok d' => (s', d', .error e)
      | .error e' => (s', d, .error e')

end Cdtools
