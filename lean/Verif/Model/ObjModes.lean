/-
`FancyPtycho` with several object modes (`n_obj_modes`, `models/fancy_ptycho.py:431-435`, and the case of a
three-dimensional object in `ptycho_2D_sinc`, `tools/interactions/interactions.py:444-495`), and the shapes in
`ptycho_2D_sinc_s_matrix` (`interactions.py:505-597`).
-/
import Verif.Model.FancyPtycho
import Verif.Model.RpiModel

namespace Cdtools
open Finset

variable {n m a b N k : ℕ} [NeZero n] [NeZero m] [NeZero a] [NeZero b]

/-- The object of `from_dataset`, `fancy_ptycho.py:430-435`: two-dimensional for `n_obj_modes = 1`, else a stack of the first
guess and constants 0.05. (`[x] * k` is empty for `k ≤ 0`.) -/
noncomputable def initialObjModes (first : Img ℂ) (nObjModes : ℤ) : Img ℂ ⊕ List (Img ℂ) :=
  if nObjModes ≠ 1 then .inr (first :: List.replicate (nObjModes - 1).toNat ⟨first.h, first.w, fun _ _ => (0.05 : ℂ)⟩)
  else .inl first

/-- The exit waves of one exposure with a stack of objects, `interactions.py:484-488`: the mode axes of the shifted probes
and of the selections are broadcast against each other. -/
def pairModes {α β : Type} (P : List α) (O : List β) : Except String (List (α × β)) :=
  if P.length = O.length then .ok (P.zip O)
  else match P, O with
    | [x], O => .ok (O.map fun y => (x, y))
    | P, [y] => .ok (P.map fun x => (x, y))
    | _, _ => .error "RuntimeError"

/-- `forward` of one exposure with a stack of object modes: `fancy_ptycho.py:544-672`, `interactions.py:444-495`. The
selections are made for all object modes at once; they have a common shape. Two-dimensional objects: `Fancy.forward`. -/
noncomputable def Fancy.forwardModes (M : Fancy n m a b N k) (objs : List (Img ℂ)) (idx : Fin N) (t : Fin 3 → ℝ) :
    Except String (Img ℝ) :=
  if M.simulateTranslation ∧ M.fourierShifts = none then .error "RuntimeError" else
  let tr := M.pixTrans idx t
  (objs.mapM fun o => objWindow a b ({ M with obj := o } : Fancy n m a b N k).transmission ⌊tr 0⌋ ⌊tr 1⌋).bind fun sels =>
  (pairModes (List.ofFn (shotProbes M.weights idx M.basisProbes)) sels).map fun pairs =>
    let modes : List (ℕ → ℕ → ℂ) := pairs.map fun q => fun x y => M.toDetector idx t q.2 q.1 x y
    measQuadratic { saturation := M.saturation, oversampling := M.oversampling } M.background M.qe (sumModes a b modes)

/-- The shape `ptycho_2D_sinc_s_matrix` returns for one translation, `interactions.py:541-597`, with a probe of `h × w` pixels
and an S-matrix of shape `s0 × s1 × …` large enough for all slices. Each pass of the loops adds, in place, an array of shape
`[h, w]` to a slice of shape `[h, w, 2]` of `output`; in-place operations raise RuntimeError unless the broadcast shape is that
of the target. -/
def sMatrixShape (shiftProbe : Bool) (h w s0 s1 : ℕ) : Except PyExc (List ℕ) :=
  if shiftProbe then
    let B := s0 / 2
    if s0 = 0 ∨ s1 = 0 ∨ broadcastShapes [h, w, 2] [h, w] = some [h, w, 2] then .ok [h + 2 * B, w + 2 * B, 2]
    else .error .runtimeError
  else .error .notImplementedError

end Cdtools
