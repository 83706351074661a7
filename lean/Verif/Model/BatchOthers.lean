/-
`forward` of `MultislicePtycho`, `Bragg2DPtycho` and `SimplePtycho` on a whole batch of exposures or on a single one, operation
by operation on arrays: `multislice_ptycho.py:432-542`, `bragg_2d_ptycho.py:485-560`, `simple_ptycho.py:88-109`,
`interactions.py:255-292` (`ptycho_2D_round`).

Floats are real/complex numbers. Not modelled: `simulate_finite_pixels`, devices and dtypes.
-/
import Verif.Model.Batch
import Verif.Model.Multislice
import Verif.Model.Bragg
import Verif.Model.Simple

namespace Cdtools
open Finset

variable {n m a b N k : ℕ} [NeZero n] [NeZero m] [NeZero a] [NeZero b]

/-- `near_field`, `propagators.py:591-630`, of a stack of wave fields: `ifft2(propagator * fft2(wavefront))`. -/
noncomputable def nearFieldAll (a b : ℕ) [NeZero a] [NeZero b] (prop w : Tensor ℂ) : Except PyExc (Tensor ℂ) :=
  (w.planes a b a b (onWave fun u : Wave a b => fft2 u)).bind fun f =>
  (prop.bop (· * ·) f).bind fun g =>
  g.planes a b a b (onWave fun u : Wave a b => ifft2 u)

/-! ### MultislicePtycho -/

/-- The phase ramps, `multislice_ptycho.py:477-487`. -/
noncomputable def Multislice.batchRamped (M : Multislice n m a b N k) (B : Batch N) (prs : Tensor ℂ) : Except PyExc (Tensor ℂ) :=
  if M.simulateTranslation then
    rampWaves M.oversampling (B.rows [2] fun e i => comp2 (translationsToPixel M.detBasis M.normal e.2) i) prs n m
  else .ok prs

/-- The loop over the slices, `multislice_ptycho.py:512-522`. -/
noncomputable def Multislice.batchSlices (M : Multislice n m a b N k) (B : Batch N) (w : Tensor ℂ) : Except PyExc (Tensor ℂ) :=
  M.slices.foldlM (fun w o =>
    (sinc2D a b true false w (M.transmission o).tensor (B.rows [2] fun e i => comp2 (M.pixTrans e.1 e.2) i)).bind fun w =>
    nearFieldAll a b M.propagator.tensor w) w

/-- `interaction`, `multislice_ptycho.py:432-524`. -/
noncomputable def Multislice.batchInteraction (M : Multislice n m a b N k) (B : Batch N) : Except PyExc (Tensor ℂ) :=
  (batchProbesOf (fun j => M.realSpace (M.probe j)) M.weights B).bind fun prs =>
  (M.batchRamped B prs).bind fun prs =>
  (prs.planes n m a b (onWave (padProbe (n := n) (m := m) a b))).bind fun prs =>
  M.batchSlices B (prs.map fun z => (M.probeNorm : ℂ) * z)

/-- `forward`: `interaction`, `forward_propagator` and `measurement`, `multislice_ptycho.py:526-542`. -/
noncomputable def Multislice.batchForward (M : Multislice n m a b N k) (B : Batch N) : Except PyExc (Tensor ℝ) :=
  (M.batchInteraction B).bind fun ew =>
  (ew.planes a b a b (onWave fun w : Wave a b => farField w)).bind fun w =>
  batchMeasure a b M.oversampling none M.background M.saturation w

/-! ### Bragg2DPtycho -/

/-- `A[j]`. -/
def Tensor.row {α : Type} (A : Tensor α) (j : ℕ) : Tensor α := ⟨A.shape.tail, fun i => A.get (j :: i)⟩

/-- `A[j] = C`, for an array of the shape of `A[j]`. -/
def Tensor.setRow {α : Type} (A : Tensor α) (j : ℕ) (C : Tensor α) : Tensor α :=
  ⟨A.shape, fun i => if i.headD 0 = j then C.get i.tail else A.get i⟩

/-- The weights, the probe and the support, `bragg_2d_ptycho.py:496-497`; without weights TypeError. -/
noncomputable def Bragg.batchProbes (M : Bragg n m a b N k) (B : Batch N) : Except PyExc (Tensor ℂ) :=
  match M.weights with
  | none => .error .typeError
  | some W =>
    let probe : Tensor ℂ := ⟨[k, n, m], fun i => if h : i.getD 0 0 < k then M.probe ⟨i.getD 0 0, h⟩ (i.getD 1 0 : ZMod n) (i.getD 2 0 : ZMod m) else 0⟩
    let support : Tensor ℂ := ⟨[n, m], fun i => if M.support (i.getD 0 0 : ZMod n) (i.getD 1 0 : ZMod m) then 1 else 0⟩
    ((((B.rows [] fun e _ => (W e.1 : ℂ)).newAxis 0).newAxis 0).newAxis 0 |>.bop (· * ·) probe).bind fun p => p.bop (· * ·) support

/-- `props`, `bragg_2d_ptycho.py:486-491`: of shape `J × 1` (`interactions.py:218-224`), or 1 for a single exposure. -/
noncomputable def Bragg.batchDistances (M : Bragg n m a b N k) (B : Batch N) : Tensor ℝ :=
  match B with
  | .one e => ⟨[1], fun _ => M.distance e.2⟩
  | .many l => (Batch.many l).rows [1] fun e _ => M.distance e.2

/-- `prs[j] = near_field(prs[j], propagator)`, `bragg_2d_ptycho.py:513-518`; `props[j]` is IndexError where it has no such row. -/
noncomputable def Bragg.propagateRow (M : Bragg n m a b N k) (props : Tensor ℝ) (A : Tensor ℂ) (j : ℕ) : Except PyExc (Tensor ℂ) :=
  if props.shape.headD 0 ≤ j then .error .indexError
  else
    let d := (props.row j).get (if props.shape.length = 1 then [] else [0])
    (nearFieldAll n m ⟨[n, m], fun i => M.propagator d (i.getD 0 0 : ZMod n) (i.getD 1 0 : ZMod m)⟩ (A.row j)).map (A.setRow j)

/-- The propagation of the probes, `bragg_2d_ptycho.py:510-518`: the loop runs over the first axis of the probes. -/
noncomputable def Bragg.batchPropagated (M : Bragg n m a b N k) (B : Batch N) (prs : Tensor ℂ) : Except PyExc (Tensor ℂ) :=
  if M.propagateProbe then (List.range (prs.shape.headD 0)).foldlM (M.propagateRow (M.batchDistances B)) prs
  else .ok prs

/-- `interaction`, `bragg_2d_ptycho.py:485-534`. -/
noncomputable def Bragg.batchInteraction (M : Bragg n m a b N k) (B : Batch N) : Except PyExc (Tensor ℂ) :=
  (M.batchProbes B).bind fun prs =>
  (M.batchPropagated B prs).bind fun prs =>
  (prs.planes n m a b (onWave (padProbe (n := n) (m := m) a b))).bind fun prs =>
  (sinc2D a b true false prs M.obj.tensor (B.rows [2] fun e i => comp2 (M.pixTrans e.1 e.2) i)).map fun ew =>
  ew.map fun z => (M.probeNorm : ℂ) * z

/-- `forward`: `interaction`, `forward_propagator` (`high_NA_far_field` treats the wave fields of a stack one by one) and
`measurement`, `bragg_2d_ptycho.py:537-560`. -/
noncomputable def Bragg.batchForward (M : Bragg n m a b N k) (B : Batch N) : Except PyExc (Tensor ℝ) :=
  (M.batchInteraction B).bind fun ew =>
  (ew.planes a b a b fun f x y => M.toDetector (fun u v => f u.val v.val) x y).bind fun w =>
  batchMeasure a b M.oversampling none M.background M.saturation w

/-! ### SimplePtycho -/

/-- `ptycho_2D_round(probe, obj, translations)` with a single mode, `interactions.py:262-292`. -/
noncomputable def round2D (n m : ℕ) [NeZero n] [NeZero m] (probe obj : Tensor ℂ) (trans : Tensor ℝ) : Except PyExc (Tensor ℂ) :=
  let single := decide (trans.shape.length = 1)
  let tr := if single then trans.newAxis 1 else trans
  (Tensor.stack ((List.range (tr.shape.headD 0)).map fun s => obj.window n m (roundHalfEven (tr.get [s, 0])) (roundHalfEven (tr.get [s, 1])))).bind
    fun selections =>
  (probe.bop (· * ·) selections).map fun output =>
  if single then output.first else output

/-- `forward` on the translations of one exposure or of several, `simple_ptycho.py:88-109`; the index is not used. -/
noncomputable def Simple.batchForward (M : Simple n m) (B : Batch N) : Except PyExc (Tensor ℝ) :=
  (round2D n m ⟨[n, m], fun i => (M.probeNorm : ℂ) * M.probe (i.getD 0 0 : ZMod n) (i.getD 1 0 : ZMod m)⟩ M.obj.tensor
    (B.rows [2] fun e i => comp2 (M.pixTrans e.2) i)).bind fun ew =>
  (ew.planes n m n m (onWave fun w : Wave n m => farField w)).map fun w =>
  w.map fun z => ‖z‖ ^ 2 + 1e-7

end Cdtools
