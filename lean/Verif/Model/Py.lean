/-
Shared vocabulary for the model: Python exceptions as values, slices and ranges.
-/

namespace Cdtools

/-- The exception classes that the modelled code can raise (Python builtins).
`other` stands for every remaining subclass of `Exception`. -/
inductive PyExc where
  | valueError | keyError | attributeError | typeError | runtimeError
  | indexError | notImplementedError | zeroDivisionError
  | systemExit | keyboardInterrupt
  | other (code : Nat)
  deriving DecidableEq, Repr

/-- `isinstance(e, Exception)`: everything but the two `BaseException`-only classes.
Used for `except Exception as e` in `reconstructors/base.py:353`. -/
def PyExc.isException : PyExc → Bool
  | .systemExit => false
  | .keyboardInterrupt => false
  | _ => true

/-- Python `xs[i:j]` for `0 ≤ i`, `0 ≤ j` (used in `reconstructors/base.py:183-189`). -/
def pySlice {α : Type u} (xs : List α) (i j : Nat) : List α := (xs.take j).drop i

/-- Python `list(range(0, n, step))` for `step ≥ 1`. -/
def pyRange0 (n step : Nat) : List Nat :=
  (List.range ((n + step - 1) / step)).map (· * step)

/-- `[xs[i:i+w] for i in range(0, n, w)]`, the chunking comprehension of
`reconstructors/base.py:183-189` and `models/fancy_ptycho.py:sim_to_dataset`. -/
def pyChunks {α : Type u} (n w : Nat) (xs : List α) : List (List α) :=
  (pyRange0 n w).map fun i => pySlice xs i (i + w)

end Cdtools
