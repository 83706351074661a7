/-
`models/simple_ptycho.py` (`SimplePtycho`): construction from a dataset and the forward model for one exposure.

Floats are real/complex numbers. Not modelled: devices and dtypes, plotting. For results see `Model/ResultsIO.lean`.
-/
import Verif.Model.Initializers
import Verif.Model.Interactions
import Verif.Model.Measurements

namespace Cdtools
open Finset Matrix

/-- A `SimplePtycho` model with an `n × m` probe, `simple_ptycho.py:13-48`. -/
structure Simple (n m : ℕ) where
  probe : Wave n m
  probeNorm : ℝ
  obj : Img ℂ
  basis : Matrix (Fin 3) (Fin 2) ℝ
  minTranslation : Fin 2 → ℝ

variable {n m : ℕ} [NeZero n] [NeZero m]

/-- `SimplePtycho.__init__`, `simple_ptycho.py:13-48`: the probe is divided by its largest modulus. `none` for a probe guess
that vanishes everywhere, for which the code stores a probe of NaNs. -/
noncomputable def Simple.init (basis : Matrix (Fin 3) (Fin 2) ℝ) (guess : Wave n m) (obj : Img ℂ)
    (minTranslation : Fin 2 → ℝ) : Option (Simple n m) :=
  let norm := ⨆ p : ZMod n × ZMod m, ‖guess p.1 p.2‖
  if norm = 0 then none
  else some ⟨fun i j => guess i j / norm, norm, obj, basis, minTranslation⟩

/-- `pix_trans`, `simple_ptycho.py:90-93`: `translations_to_pixel` with its default surface normal. -/
noncomputable def Simple.pixTrans (M : Simple n m) (t : Fin 3 → ℝ) : Fin 2 → ℝ :=
  translationsToPixel M.basis ![0, 0, 1] t - M.minTranslation

/-- `forward` for one exposure: `interaction`, `forward_propagator` and `measurement`, `simple_ptycho.py:87-108`. -/
noncomputable def Simple.forward (M : Simple n m) (t : Fin 3 → ℝ) : Except String (Img ℝ) :=
  (roundExit (fun i j => (M.probeNorm : ℂ) * M.probe i j) M.obj (M.pixTrans t 0, M.pixTrans t 1)).map fun w =>
    measIntensity {} ⟨n, m, fun i j => farField w i j⟩

/-- `calc_object_setup` on axis `c` of the scan `t0 :: rest`, `simple_ptycho.py:67-74` (the default padding is 0). -/
noncomputable def simpleSetup (probe : ℕ) (basis : Matrix (Fin 3) (Fin 2) ℝ) (t0 : Fin 3 → ℝ) (rest : List (Fin 3 → ℝ))
    (c : Fin 2) : ℤ × ℝ :=
  objectSetup probe (translationsToPixel basis ![0, 0, 1] t0 c)
    (rest.map fun t => translationsToPixel basis ![0, 0, 1] t c) 0

/-- `SHARP_style_probe(dataset)` with its default arguments, `initializers.py:263-337`, as an `n × m` array; see
`simpleGuess_eq` for the connection with `sharpProbe`. -/
noncomputable def simpleGuess (mask : RealIm n m) (patterns : List (RealIm n m)) (background : Option (RealIm n m)) :
    Wave n m :=
  fun i j => sharpProbe 1 mask patterns background ((i.val : ℕ) : ZMod (1 * n)) ((j.val : ℕ) : ZMod (1 * m))

/-- `from_dataset`, `simple_ptycho.py:51-84`, given the exit wave basis of `exit_wave_geometry`. -/
noncomputable def simpleFromDataset (basis : Matrix (Fin 3) (Fin 2) ℝ) (t0 : Fin 3 → ℝ) (rest : List (Fin 3 → ℝ))
    (mask : RealIm n m) (patterns : List (RealIm n m)) (background : Option (RealIm n m)) : Option (Simple n m) :=
  Simple.init basis (simpleGuess mask patterns background)
    ⟨(simpleSetup n basis t0 rest 0).1.toNat, (simpleSetup m basis t0 rest 1).1.toNat, fun _ _ => 1⟩
    ![(simpleSetup n basis t0 rest 0).2, (simpleSetup m basis t0 rest 1).2]

end Cdtools
