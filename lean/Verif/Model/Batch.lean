/-
`FancyPtycho.forward` on a whole batch of exposures, operation by operation on arrays with torch's broadcasting:
`fancy_ptycho.py:544-672`, `interactions.py:392-502` (`ptycho_2D_sinc`) and `measurements.py:84-219`.

`Model/FancyPtycho.lean` models one exposure at a time; here the batch is one array with leading axes for the exposures and
the modes, and a single exposure (a number as index, a vector as translation) is treated as the code treats it.

Floats are real/complex numbers. Not modelled: `simulate_finite_pixels`, devices and dtypes.
-/
import Verif.Model.FancyPtycho
import Verif.Model.RpiModel

namespace Cdtools
open Finset

/-! ### Arrays -/

/-- An array: its shape and its entries. Entries outside of the shape mean nothing. -/
structure Tensor (α : Type) where
  shape : List ℕ
  get : List ℕ → α

variable {α β γ : Type}

/-- An entry of an array that is broadcast to more or longer axes. -/
def Tensor.bget (A : Tensor α) (i : List ℕ) : α :=
  A.get (List.zipWith (fun d x => if d = 1 then 0 else x) A.shape (i.drop (i.length - A.shape.length)))

/-- An elementwise operation with broadcasting; RuntimeError if the shapes do not fit. -/
def Tensor.bop (f : α → β → γ) (A : Tensor α) (B : Tensor β) : Except PyExc (Tensor γ) :=
  match broadcastShapes A.shape B.shape with
  | some s => .ok ⟨s, fun i => f (A.bget i) (B.bget i)⟩
  | none => .error .runtimeError

/-- An elementwise function. -/
def Tensor.map (f : α → β) (A : Tensor α) : Tensor β := ⟨A.shape, fun i => f (A.get i)⟩

/-- `A[..., None, :, :]` with `p` colons: a new axis of length one before the last `p`. -/
def Tensor.newAxis (p : ℕ) (A : Tensor α) : Tensor α :=
  ⟨A.shape.take (A.shape.length - p) ++ 1 :: A.shape.drop (A.shape.length - p), fun i => A.get (i.eraseIdx (i.length - 1 - p))⟩

/-- `t.sum(A, dim=-3)` for `p = 2`: the sum over the axis before the last `p`. -/
def Tensor.sumAxis [AddCommMonoid α] (p : ℕ) (A : Tensor α) : Tensor α :=
  let q := A.shape.length - 1 - p
  ⟨A.shape.eraseIdx q, fun i => ∑ x ∈ range (A.shape.getD q 0), A.get (i.take q ++ x :: i.drop q)⟩

/-- `A[0]`. -/
def Tensor.first (A : Tensor α) : Tensor α := ⟨A.shape.tail, fun i => A.get (0 :: i)⟩

/-- `t.stack`: RuntimeError for no arrays or unequal shapes. -/
def Tensor.stack (l : List (Tensor α)) : Except PyExc (Tensor α) :=
  match l with
  | [] => .error .runtimeError
  | A :: rest =>
    if ∀ B ∈ rest, B.shape = A.shape then
      .ok ⟨(A :: rest).length :: A.shape, fun i => (((A :: rest)[i.headD 0]?).getD A).get i.tail⟩
    else .error .runtimeError

/-- A function of images (`h × w` to `h' × w'`) applied to the last two axes. RuntimeError for images of another shape: the
only other shapes that occur have an axis of length zero, which `torch.fft` rejects. -/
def Tensor.planes (h w h' w' : ℕ) (F : (ℕ → ℕ → α) → ℕ → ℕ → β) (A : Tensor α) : Except PyExc (Tensor β) :=
  let q := A.shape.length - 2
  if A.shape.drop q = [h, w] then
    .ok ⟨A.shape.take q ++ [h', w'], fun i => F (fun u v => A.get (i.take q ++ [u, v])) (i.getD q 0) (i.getD (q + 1) 0)⟩
  else .error .runtimeError

/-- A map of wave fields as a map of images. -/
def onWave {n m a b : ℕ} (F : Wave n m → Wave a b) (f : ℕ → ℕ → ℂ) (x y : ℕ) : ℂ := F (fun u v => f u.val v.val) (x : ZMod a) (y : ZMod b)

/-- `A[..., p:p+a, q:q+b]`. -/
def Tensor.window (a b : ℕ) (p q : ℤ) (A : Tensor α) : Tensor α :=
  let r := A.shape.length - 2
  let s0 := sliceExtent (A.shape.getD r 0) p (p + a)
  let s1 := sliceExtent (A.shape.getD (r + 1) 0) q (q + b)
  ⟨A.shape.take r ++ [s0.2, s1.2], fun i => A.get (i.take r ++ [s0.1 + i.getD r 0, s1.1 + i.getD (r + 1) 0])⟩

/-- An image as an array. -/
def Img.tensor (I : Img α) : Tensor α := ⟨[I.h, I.w], fun i => I.px (i.getD 0 0) (i.getD 1 0)⟩

/-! ### ptycho_2D_sinc -/

variable {n m a b N k : ℕ} [NeZero n] [NeZero m] [NeZero a] [NeZero b]

/-- The shifted probe, `interactions.py:460-482`. -/
noncomputable def shiftWaves (multipleModes back : Bool) (masks probe : Tensor ℂ) (a b : ℕ) [NeZero a] [NeZero b] : Except PyExc (Tensor ℂ) :=
  (probe.planes a b a b (onWave fun w : Wave a b => fftshift2 (fft2 w))).bind fun fftProbe =>
  (fftProbe.bop (fun z w => z * (if back then (starRingEnd ℂ) w else w)) (if multipleModes then masks.newAxis 2 else masks)).bind fun shifted =>
  shifted.planes a b a b (onWave fun w : Wave a b => ifft2 (ifftshift2 w))

/-- `ptycho_2D_sinc` with `shift_probe=True`, `interactions.py:438-502`, for a probe array whose last axes are `a × b`, an
object of any number of axes and one translation or a stack of them. -/
noncomputable def sinc2D (a b : ℕ) [NeZero a] [NeZero b] (multipleModes shiftBack : Bool) (probe obj : Tensor ℂ) (trans : Tensor ℝ) :
    Except PyExc (Tensor ℂ) :=
  let single := decide (trans.shape.length = 1)
  let tr := if single then trans.newAxis 1 else trans
  let S := tr.shape.headD 0
  (Tensor.stack ((List.range S).map fun s => obj.window a b ⌊tr.get [s, 0]⌋ ⌊tr.get [s, 1]⌋)).bind fun selections =>
  let masks : Tensor ℂ := ⟨[S, a, b], fun i =>
    phaseMask (n := a) (m := b) (tr.get [i.getD 0 0, 0] - ⌊tr.get [i.getD 0 0, 0]⌋) (tr.get [i.getD 0 0, 1] - ⌊tr.get [i.getD 0 0, 1]⌋)
      (i.getD 1 0 : ZMod a) (i.getD 2 0 : ZMod b)⟩
  (shiftWaves multipleModes false masks probe a b).bind fun shifted =>
  (shifted.bop (· * ·) (if multipleModes ∧ selections.shape.length = 3 then selections.newAxis 2 else selections)).bind fun output =>
  (if shiftBack then shiftWaves multipleModes true masks output a b else .ok output).map fun output =>
  if single then output.first else output

/-! ### FancyPtycho.interaction -/

/-- The inputs of one exposure: its index and its translation. -/
abbrev BatchItem (N : ℕ) := Fin N × (Fin 3 → ℝ)

/-- The arguments of `forward`: the index and translation of one exposure, or lists of them. -/
inductive Batch (N : ℕ)
  | one (e : BatchItem N)
  | many (l : List (BatchItem N))

/-- A stored array indexed with `index`, or computed from every row of `translations`: the entries belong to the exposures. -/
def Batch.rows [Zero α] (tail : List ℕ) (f : BatchItem N → List ℕ → α) : Batch N → Tensor α
  | .one e => ⟨tail, f e⟩
  | .many l => ⟨l.length :: tail, fun i => ((l[i.headD 0]?).map fun e => f e i.tail).getD 0⟩

/-- Component 0 or 1 of a vector. -/
def comp2 (v : Fin 2 → α) (i : List ℕ) : α := if i.headD 0 = 0 then v 0 else v 1

/-- `prs`, `fancy_ptycho.py:567-586` and `multislice_ptycho.py:457-475`. Without weights, `t.ones(len(index))`, or, for a number
as index, the number 1, which cannot be indexed (TypeError). -/
noncomputable def batchProbesOf (basisProbes : Fin k → Wave n m) (W : Option (Weights N k)) (B : Batch N) : Except PyExc (Tensor ℂ) :=
  let basis : Tensor ℂ := ⟨[k, n, m], fun i => if h : i.getD 0 0 < k then basisProbes ⟨i.getD 0 0, h⟩ (i.getD 1 0 : ZMod n) (i.getD 2 0 : ZMod m) else 0⟩
  match W, B with
  | none, .one _ => .error .typeError
  | none, .many l => (((⟨[l.length], fun _ => 1⟩ : Tensor ℂ).newAxis 0).newAxis 0).newAxis 0 |>.bop (· * ·) basis
  | some (.perShot w), B => (((B.rows [] fun e _ => (w e.1 : ℂ)).newAxis 0).newAxis 0).newAxis 0 |>.bop (· * ·) basis
  | some (.matrices r V), B =>
    ((((B.rows [r, k] fun e i => if h : i.getD 0 0 < r ∧ i.getD 1 0 < k then V e.1 ⟨_, h.1⟩ ⟨_, h.2⟩ else 0).newAxis 0).newAxis 0).bop
      (· * ·) basis).map (Tensor.sumAxis 2)

/-- The probes of the exposures, `fancy_ptycho.py:562-586`. -/
noncomputable def Fancy.batchProbes (M : Fancy n m a b N k) (W : Option (Weights N k)) (B : Batch N) : Except PyExc (Tensor ℂ) :=
  batchProbesOf M.basisProbes W B

/-- `prs * probe_masks[...,None,:,:]`, `fancy_ptycho.py:603-607` and `multislice_ptycho.py:483-487`; `det_pix_trans[:,0,None,None]` is
IndexError for a single exposure. -/
noncomputable def rampWaves (oversampling : ℕ) (d : Tensor ℝ) (prs : Tensor ℂ) (n m : ℕ) : Except PyExc (Tensor ℂ) :=
  if d.shape.length = 1 then .error .indexError
  else
    let masks : Tensor ℂ := ⟨[d.shape.headD 0, n, m], fun i =>
      Complex.exp (Complex.I * (d.get [i.getD 0 0, 0] * (2 * Real.pi * ((((i.getD 1 0 : ℕ) : ZMod n).val : ℂ) / ((n : ℂ) - 1)) * oversampling) +
        d.get [i.getD 0 0, 1] * (2 * Real.pi * ((((i.getD 2 0 : ℕ) : ZMod m).val : ℂ) / ((m : ℂ) - 1)) * oversampling)))⟩
    prs.bop (· * ·) (masks.newAxis 2)

/-- The phase ramps, `fancy_ptycho.py:588-607`; the sum of `t.zeros_like(translations)` and the pixel translations (lines 594-602)
has no common shape. -/
noncomputable def Fancy.batchRamped (M : Fancy n m a b N k) (B : Batch N) (prs : Tensor ℂ) : Except PyExc (Tensor ℂ) :=
  if M.simulateTranslation ∨ M.fourierShifts.isSome then
    let shifts : Tensor ℝ := match M.fourierShifts with
      | some f => B.rows [2] fun e i => comp2 (f e.1) i
      | none => B.rows [3] fun _ _ => 0
    (if M.simulateTranslation then shifts.bop (· + ·) (B.rows [2] fun e i => comp2 (translationsToPixel M.detBasis M.normal e.2) i)
     else .ok shifts).bind fun d =>
    rampWaves M.oversampling d prs n m
  else .ok prs

/-- `interaction`, `fancy_ptycho.py:544-642`. `W` are the weights as they are stored (`None` allowed). -/
noncomputable def Fancy.batchInteraction (M : Fancy n m a b N k) (W : Option (Weights N k)) (B : Batch N) : Except PyExc (Tensor ℂ) :=
  (M.batchProbes W B).bind fun prs =>
  (M.batchRamped B prs).bind fun prs =>
  (prs.planes n m a b (onWave (padProbe (n := n) (m := m) a b))).bind fun prs =>
  (sinc2D a b true M.nearField prs M.transmission.tensor (B.rows [2] fun e i => comp2 (M.pixTrans e.1 e.2) i)).map fun ew =>
  ew.map fun z => (M.probeNorm : ℂ) * z

/-- The quantum efficiency, `measurements.py:205-208`. -/
noncomputable def efficiency (qe : Option (Img ℝ)) (raw : Tensor ℝ) : Except PyExc (Tensor ℝ) :=
  match qe with
  | none => .ok raw
  | some q => q.tensor.bop (· * ·) raw

/-- `quadratic_background` with `incoherent_sum`, `measurements.py:84-219`: the modes are summed, pixels are binned (pooling to
nothing is RuntimeError), epsilon, efficiency and background are applied. -/
noncomputable def batchMeasure (a b os : ℕ) (qe : Option (Img ℝ)) (background : Img ℝ) (saturation : Option ℝ) (w : Tensor ℂ) :
    Except PyExc (Tensor ℝ) :=
  let summed := (w.map fun z => ‖z‖ ^ 2).sumAxis 2
  (if os ≠ 1 then
    if a / os = 0 ∨ b / os = 0 then .error .runtimeError
    else summed.planes a b (a / os) (b / os) fun f => ((⟨a, b, f⟩ : Img ℝ).avgPool os).px
   else .ok summed).bind fun binned =>
  let raw := binned.map fun x => x + 1e-7
  (efficiency qe raw).bind fun raw =>
  (raw.bop (fun x b => x + b ^ 2) background.tensor).map fun out =>
  match saturation with
  | none => out
  | some s => out.map (clamp0 s)

/-- `measurement`, `fancy_ptycho.py:663-672`. -/
noncomputable def Fancy.batchMeasurement (M : Fancy n m a b N k) (w : Tensor ℂ) : Except PyExc (Tensor ℝ) :=
  batchMeasure a b M.oversampling M.qe M.background M.saturation w

/-- `forward` on a batch. -/
noncomputable def Fancy.batchForward (M : Fancy n m a b N k) (W : Option (Weights N k)) (B : Batch N) : Except PyExc (Tensor ℝ) :=
  (M.batchInteraction W B).bind fun ew =>
  (ew.planes a b a b (onWave M.propagate)).bind M.batchMeasurement

end Cdtools
