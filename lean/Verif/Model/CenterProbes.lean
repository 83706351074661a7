/-
`center_probes` of `models/fancy_ptycho.py` and `models/multislice_ptycho.py`, and the per-exposure views of the light
field: `get_rhos` and the images of `plot_wavefront_variation`.
-/
import Verif.Model.ImageProc
import Verif.Model.FancyPtycho
import Verif.Model.Multislice
import Verif.Model.Analysis

namespace Cdtools
open Finset Matrix

variable {n m a b N k : ℕ} [NeZero n] [NeZero m] [NeZero a] [NeZero b]

/-- `center` on a stack of probes, `image_processing.py:344-414`; `none` for NaN. -/
noncomputable def centerStack (iterations : ℕ) (P : Fin k → Wave n m) : Option (Fin k → Wave n m) :=
  (center true iterations (List.ofFn P)).map fun l j => l.getD j fun _ _ => 0

/-- `FancyPtycho.center_probes`, `fancy_ptycho.py:753-786`. -/
noncomputable def Fancy.centerProbes (M : Fancy n m a b N k) (iterations : ℕ) : Option (Fancy n m a b N k) :=
  let prs : Fin k → Wave n m := fun j => if M.fourierProbe then inverseFarField (M.probe j) else M.probe j
  (centerStack iterations prs).map fun c =>
    { M with probe := fun j => if M.fourierProbe then farField (c j) else c j }

/-- `MultislicePtycho.center_probes`, `multislice_ptycho.py:634-643`: no regard to `fourier_probe`. -/
noncomputable def Multislice.centerProbes (M : Multislice n m a b N k) (iterations : ℕ) :
    Option (Multislice n m a b N k) :=
  (centerStack iterations M.probe).map fun c => { M with probe := c }

/-- `get_rhos`, `multislice_ptycho.py:623-632`: `swapaxes(Ws, 1, 2) @ Ws.conj()` for matrices, identity matrices for
numbers. -/
def getRhos (W : Weights N k) (idx : Fin N) : Matrix (Fin k) (Fin k) ℂ :=
  match W with
  | .perShot _ => 1
  | .matrices _ V => (V idx)ᵀ * (V idx).map star

/-- `prs` in `get_probes`, `fancy_ptycho.py:923-925` and `multislice_ptycho.py:731-733`: the weights of the exposure times
the basis probes, which stay in Fourier space if they are defined there. -/
noncomputable def Fancy.variationProbes {r : ℕ} (M : Fancy n m a b N k) (V : Fin N → Matrix (Fin r) (Fin k) ℂ)
    (idx : Fin N) : Fin r → Wave n m :=
  fun i x y => ∑ j, V idx i j * (M.probe j x y * (if M.support x y then 1 else 0))

/-- `get_probes`, `fancy_ptycho.py:926-934`, mode `amplitude`: the moduli of the orthogonalized probes. -/
noncomputable def Fancy.variationAmplitudes {r : ℕ} (la : LinAlg) (M : Fancy n m a b N k)
    (V : Fin N → Matrix (Fin r) (Fin k) ℂ) (idx : Fin N) : Fin (min r (n * m)) → ZMod n → ZMod m → ℝ :=
  fun i x y => ‖unflatten2 (orthogonalizeProbes la (flatten2 (M.variationProbes V idx))).1 i x y‖

/-- Mode `root_sum_intensity`, `fancy_ptycho.py:930-932`. -/
noncomputable def Fancy.variationRootSum {r : ℕ} (la : LinAlg) (M : Fancy n m a b N k)
    (V : Fin N → Matrix (Fin r) (Fin k) ℂ) (idx : Fin N) (x : ZMod n) (y : ZMod m) : ℝ :=
  ∑ i, M.variationAmplitudes la V idx i x y ^ 2

/-- Mode `phase`, `fancy_ptycho.py:933-934`. -/
noncomputable def Fancy.variationPhases {r : ℕ} (la : LinAlg) (M : Fancy n m a b N k)
    (V : Fin N → Matrix (Fin r) (Fin k) ℂ) (idx : Fin N) : Fin (min r (n * m)) → ZMod n → ZMod m → ℝ :=
  fun i x y => Complex.arg (unflatten2 (orthogonalizeProbes la (flatten2 (M.variationProbes V idx))).1 i x y)

/-- `values` of `plot_wavefront_variation` of `MultislicePtycho`, `multislice_ptycho.py:743-757`: the Gram matrix of the
basis probes without the support, `sum(tensordot(weights, probe_matrix) * weights.conj(), axis=2)` and the sum over the
modes of the real parts. -/
noncomputable def variationValues {r : ℕ} (P : Fin k → Wave n m) (V : Fin N → Matrix (Fin r) (Fin k) ℂ) (idx : Fin N) : ℝ :=
  let G : Fin k → Fin k → ℂ := fun u v => ∑ x, ∑ y, P u x y * (starRingEnd ℂ) (P v x y)
  ∑ i, (∑ v, (∑ u, V idx i u * G u v) * (starRingEnd ℂ) (V idx i v)).re

end Cdtools
