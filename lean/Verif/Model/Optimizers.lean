/-
Hyperparameters that change between calls of `optimize` on one reconstructor: `adjust_optimizer` and `optimize` of the Adam and LBFGS
reconstructors (`reconstructors/adam.py:107-250`, `reconstructors/lbfgs.py:51-136`), which keep one torch optimizer with its state.

Contracts of torch: `Adam` creates the state of a parameter in the first step, with the entry `max_exp_avg_sq` if `amsgrad` is set then,
and reads that entry (KeyError) in every step with `amsgrad`. `LBFGS` keeps `old_dirs` between steps, removes the oldest entry before adding
one iff their number *equals* `history_size`, and allocates the list `al` of `history_size` entries once; an index beyond it is an
IndexError, as is removing from an empty list.
-/
import Mathlib.Data.Real.Basic
import Verif.Model.Py

namespace Cdtools

/-! ### Adam -/

/-- State of one parameter with gradients: none before the first step, then whether it has `max_exp_avg_sq`. -/
abbrev AdamState := Option Bool

/-- One `optimizer.step` with `param_group['amsgrad']`. -/
def adamStep (amsgrad : Bool) : AdamState → Except PyExc AdamState
  | none => .ok (some amsgrad)
  | some has => if amsgrad && !has then .error .keyError else .ok (some has)

/-- The steps of one call. -/
def adamSteps (amsgrad : Bool) : ℕ → AdamState → Except PyExc AdamState
  | 0, s => .ok s
  | k + 1, s => (adamStep amsgrad s).bind (adamSteps amsgrad k)

/-- `optimize(…, amsgrad=…)` several times with the given numbers of steps; `adjust_optimizer` sets the flag first, `adam.py:139-141,219-224`. -/
def adamCalls : List (Bool × ℕ) → AdamState → Except PyExc AdamState
  | [], s => .ok s
  | c :: cs, s => (adamSteps c.1 c.2 s).bind (adamCalls cs)

/-! ### LBFGS -/

/-- The memory of `torch.optim.LBFGS`: `len(old_dirs)`, `len(al)` once allocated, and whether the first iteration is over. -/
structure LbfgsMemory where
  pairs : ℕ := 0
  al : Option ℕ := none
  started : Bool := false

/-- One iteration with `param_group['history_size'] = history`; `accepted`: the curvature condition holds and the pair is stored. -/
def LbfgsMemory.step (history : ℕ) (accepted : Bool) (s : LbfgsMemory) : Except PyExc LbfgsMemory :=
  if s.started then
    if accepted ∧ s.pairs = history ∧ s.pairs = 0 then .error .indexError
    else
      let pairs := if accepted then (if s.pairs = history then s.pairs else s.pairs + 1) else s.pairs
      let al := s.al.getD history
      if al < pairs then .error .indexError else .ok ⟨pairs, some al, true⟩
  else .ok ⟨0, s.al, true⟩

/-- The iterations of one call `optimize(…, history_size=history)`, `lbfgs.py:85-88,133-135`. -/
def LbfgsMemory.run (history : ℕ) : List Bool → LbfgsMemory → Except PyExc LbfgsMemory
  | [], s => .ok s
  | a :: as, s => (s.step history a).bind (LbfgsMemory.run history as)

/-- Several calls on one reconstructor. -/
def LbfgsMemory.calls : List (ℕ × List Bool) → LbfgsMemory → Except PyExc LbfgsMemory
  | [], s => .ok s
  | c :: cs, s => (s.run c.1 c.2).bind (LbfgsMemory.calls cs)

/-- `param_group` of the LBFGS reconstructor. -/
structure LbfgsGroup where
  lr : ℝ
  history : ℕ
  lineSearch : Option String

/-- `adjust_optimizer(lr, history_size, line_search_fn)` with its defaults, `lbfgs.py:67-88`. -/
noncomputable def lbfgsAdjust (lr : Option ℝ) (history : Option ℕ) (lineSearch : Option String) (groups : List LbfgsGroup) : List LbfgsGroup :=
  groups.map fun _ => ⟨lr.getD 0.005, history.getD 2, lineSearch⟩

end Cdtools
