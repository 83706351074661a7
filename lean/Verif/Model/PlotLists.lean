/-
What `inspect()` plots for each model: the plot lists `plot_panel_list` and `plot_list` of `FancyPtycho`
(`models/fancy_ptycho.py:997-1196`), `MultislicePtycho` (`models/multislice_ptycho.py:777-902`), `Multislice2DPtycho`
(`models/multislice_2d_ptycho.py:604-658`), `Bragg2DPtycho` (`models/bragg_2d_ptycho.py:620-705`), `RPI`
(`models/rpi.py:567-632`) and `SimplePtycho` (`models/simple_ptycho.py:113-134`): titles, places and conditions, and the images.
How the lists are walked through: `Model/Inspect`; where an image is drawn: `Model/Plotting`.

Not modelled: colormaps, labels, figure sizes; `plot_colorized` (`Model/Plotting.colorize`) and the scan position plots.
-/
import Verif.Model.Inspect
import Verif.Model.Multislice2D
import Verif.Model.Bragg
import Verif.Model.Simple
import Verif.Model.RpiModel

namespace Cdtools
open Finset

/-! ### Views of complex numbers -/

/-- The plot functions. -/
inductive View
  | amplitude
  | phase
  | real
  | imag

/-- `plot_func` of `plot_amplitude`, `plot_phase`, `plot_real` and `plot_imag`, `plotting.py:530,578,626,682`. -/
noncomputable def View.value : View → ℂ → ℝ
  | .amplitude, z => ‖z‖
  | .phase, z => z.arg
  | .real, z => z.re
  | .imag, z => z.im

/-! ### Titles, places and conditions -/

/-- An entry of a panel: title, subplot, and the value of its condition, if it has one. -/
structure PanelEntry where
  title : String
  slot : ℕ × ℕ
  condition : Option Bool

/-- The entry is drawn. -/
def PanelEntry.enabled (e : PanelEntry) : Bool := e.condition.getD true

/-- The panel 'Main Results' of `FancyPtycho`, `fancy_ptycho.py:998-1077`; `expo` is `exponentiate_obj`. -/
def fancyMain (expo : Bool) : List PanelEntry :=
  [⟨"Object Phase", (0, 0), some (!expo)⟩, ⟨"Object Amplitude", (1, 0), some (!expo)⟩,
   ⟨"Real Part of T", (0, 0), some expo⟩, ⟨"Imaginary Part of T", (1, 0), some expo⟩,
   ⟨"Probe Modes, Colorized", (0, 1), none⟩, ⟨"Probe Modes, Amplitude", (1, 1), none⟩]

/-- The panel 'Advanced Monitoring', `fancy_ptycho.py:1078-1129`. -/
def fancyAdvanced : List PanelEntry :=
  [⟨"Probe Modes, Fourier Colorized", (0, 0), none⟩, ⟨"Probe Modes, Fourier Amplitude", (1, 0), none⟩,
   ⟨"Illumination Intensity", (0, 1), none⟩, ⟨"Detector Background", (1, 1), none⟩,
   ⟨"Corrected Translations", (0, 2), none⟩, ⟨"Loss History", (1, 2), none⟩]

/-- The panel 'Unstable Probe Refinement Details', `fancy_ptycho.py:1130-1161`; `dim` is `len(self.weights.shape)`. -/
def fancyUnstable (dim : ℕ) : List PanelEntry :=
  [⟨"% of Power in Top Mode", (0, 0), some (decide (2 ≤ dim))⟩, ⟨"Mean Weight Matrix Amplitudes", (0, 1), some (decide (2 ≤ dim))⟩]

/-- The panel 'RPI Results', `rpi.py:567-632`. -/
def rpiPanel (expo : Bool) : List PanelEntry :=
  [⟨"Object Phase", (0, 0), some (!expo)⟩, ⟨"Real Part of T", (0, 0), some expo⟩,
   ⟨"Object Amplitude", (0, 1), some (!expo)⟩, ⟨"Imaginary Part of T", (0, 1), some expo⟩,
   ⟨"Root Sum Squared Amplitude of all Probes", (0, 2), none⟩]

/-- What the plot functions do when they are called, by number: without and with the dataset. -/
abbrev Outcomes := ℕ → Inspect.CallRes × Inspect.CallRes

/-- The entries of a panel for `inspect`; `first` is the number of the first one in `out`. -/
def toPlots (out : Outcomes) (first : ℕ) (l : List PanelEntry) : List Inspect.Plot :=
  l.zipIdx.map fun e => ⟨e.1.title, none, e.1.condition.map .value, (out (first + e.2)).1, (out (first + e.2)).2⟩

/-- `FancyPtycho.plot_panel_list`. -/
def fancyPanels (expo : Bool) (dim : ℕ) (out : Outcomes) : List Inspect.Panel :=
  [⟨"Main Results", some 1, none, toPlots out 0 (fancyMain expo)⟩,
   ⟨"Advanced Monitoring", some 2, none, toPlots out 6 fancyAdvanced⟩,
   ⟨"Unstable Probe Refinement Details", some 2, some (.value (decide (2 ≤ dim))), toPlots out 12 (fancyUnstable dim)⟩]

/-- `FancyPtycho.plot_list`, `fancy_ptycho.py:1164-1196`; `qe`: there is a quantum efficiency mask. -/
def fancyPlots (qe : Bool) (dim : ℕ) (out : Outcomes) : List Inspect.Plot :=
  [⟨"Quantum Efficiency Mask", some 2, some (.value qe), (out 14).1, (out 14).2⟩,
   ⟨"Per-Exposure Probe Intensity", some 3, some (.value (decide (2 ≤ dim))), (out 15).1, (out 15).2⟩,
   ⟨"Per-Exposure Probe Amplitudes", some 3, some (.value (decide (2 ≤ dim))), (out 16).1, (out 16).2⟩,
   ⟨"Per-Exposure Probe Phases", some 3, some (.value (decide (2 ≤ dim))), (out 17).1, (out 17).2⟩]

/-- `lambda self: len(self.weights.shape) >= 2`: AttributeError if `weights` is None. -/
def weightsCondition (dim : Option ℕ) : Inspect.CondRes :=
  match dim with
  | none => .raises .other
  | some d => .value (decide (2 ≤ d))

/-- The titles of `MultislicePtycho.plot_list` with their conditions, `multislice_ptycho.py:777-902`; `dim` is
`len(self.weights.shape)`, `none` if there are no weights. -/
def multisliceTitles (dim : Option ℕ) (expo : Bool) : List (String × Option Inspect.CondRes) :=
  [("", some (weightsCondition dim)), ("", some (weightsCondition dim)), ("", some (weightsCondition dim)),
   ("Basis Probe Fourier Space Amplitudes", none), ("Basis Probe Fourier Space Phases", none),
   ("Basis Probe Real Space Amplitudes", none), ("Basis Probe Real Space Phases", none),
   ("Average Weight Matrix Amplitudes", some (weightsCondition dim)), ("% of Power in Top Mode", some (weightsCondition dim)),
   ("Object Amplitude", some (.value (!expo))), ("Object (T) Imaginary Part", some (.value expo)),
   ("Object Phase", some (.value (!expo))), ("Object (T) Real Part", some (.value expo)),
   ("Object Product Amplitude", some (.value (!expo))), ("Object (T) Sum Imaginary Part", some (.value expo)),
   ("Object Product Phase", some (.value (!expo))), ("Object (T) Sum Real Part", some (.value expo)),
   ("Corrected Translations", none), ("Background", none)]

/-- `MultislicePtycho.plot_list`. -/
def multislicePlots (dim : Option ℕ) (expo : Bool) (out : Outcomes) : List Inspect.Plot :=
  (multisliceTitles dim expo).zipIdx.map fun e => ⟨e.1.1, none, e.1.2, (out e.2).1, (out e.2).2⟩

/-! ### Images -/

variable {n m a b N k : ℕ} [NeZero n] [NeZero m] [NeZero a] [NeZero b]

/-- 'Probe Modes, Real Space', `fancy_ptycho.py:1056-1057,1069-1070`. -/
noncomputable def Fancy.plotRealSpace (M : Fancy n m a b N k) (j : Fin k) : Wave n m :=
  if !M.fourierProbe then M.probe j else inverseFarField (M.probe j)

/-- 'Probe Modes, Fourier Space', `fancy_ptycho.py:1089-1090,1101-1102`. -/
noncomputable def Fancy.plotFourier (M : Fancy n m a b N k) (j : Fin k) : Wave n m :=
  if M.fourierProbe then M.probe j else farField (M.probe j)

/-- `obj_view_slice` of `FancyPtycho`, `fancy_ptycho.py:148-152`, applied to the object. -/
def viewObject (crop : ℤ) (o : Img ℂ) : Img ℂ :=
  if 0 < crop then
    let s0 := sliceExtent o.h crop (-crop)
    let s1 := sliceExtent o.w crop (-crop)
    ⟨s0.2, s1.2, fun i j => o.px (s0.1 + i) (s1.1 + j)⟩
  else o

/-- The number drawn in a pixel of an object plot. -/
noncomputable def Fancy.plotObject (M : Fancy n m a b N k) (crop : ℤ) (v : View) : Img ℝ := (viewObject crop M.obj).map v.value

/-- 'Detector Background', `fancy_ptycho.py:1116` and `multislice_ptycho.py:901`: `plot_amplitude(self.background**2)`. -/
noncomputable def plotBackground (background : Img ℝ) : Img ℝ := background.map fun x => ‖((x ^ 2 : ℝ) : ℂ)‖

/-- 'Mean Weight Matrix Amplitudes', `fancy_ptycho.py:1153-1158` (no entry is NaN). -/
noncomputable def meanWeights {r : ℕ} (V : Fin N → Matrix (Fin r) (Fin k) ℂ) (i : Fin r) (j : Fin k) : ℝ := (∑ s, ‖V s i j‖) / N

/-- 'Basis Probe Real Space …', `multislice_ptycho.py:811-812,818-819`. -/
noncomputable def Multislice.plotRealSpace (M : Multislice n m a b N k) (j : Fin k) : Wave n m :=
  if !M.fourierProbe then M.probe j else inverseFarField (M.probe j)

/-- 'Basis Probe Fourier Space …', `multislice_ptycho.py:801-802,806-807`. -/
noncomputable def Multislice.plotFourier (M : Multislice n m a b N k) (j : Fin k) : Wave n m :=
  if M.fourierProbe then M.probe j else inverseFarField (M.probe j)

/-- `t.prod(self.obj, dim=0)`, `multislice_ptycho.py:871,885`, at one pixel. -/
def Multislice.productAt (M : Multislice n m a b N k) (i j : ℕ) : ℂ := (M.slices.map fun o => o.px i j).prod

/-- `t.sum(self.obj, dim=0)`, `multislice_ptycho.py:878,892`, at one pixel. -/
def Multislice.sumAt (M : Multislice n m a b N k) (i j : ℕ) : ℂ := (M.slices.map fun o => o.px i j).sum

/-- 'Probe Fourier Space …' of `Multislice2DPtycho`, `multislice_2d_ptycho.py:605-608`. -/
noncomputable def Multi2D.plotFourier (M : Multi2D n m N k) (j : Fin k) : Wave n m :=
  if M.fourierProbe then M.probe j else inverseFarField (M.probe j)

/-- 'Probe Real Space …' of `Multislice2DPtycho`, `multislice_2d_ptycho.py:609-612`. -/
noncomputable def Multi2D.plotRealSpace (M : Multi2D n m N k) (j : Fin k) : Wave n m :=
  if !M.fourierProbe then M.probe j else inverseFarField (M.probe j)

/-- 'Basis Probe Fourier Space …' of `Bragg2DPtycho`, `bragg_2d_ptycho.py:621-624`. -/
noncomputable def Bragg.plotFourier (M : Bragg n m a b N k) (j : Fin k) : Wave n m := inverseFarField (M.probe j)

/-- 'Root Sum Squared Amplitude of all Probes', `rpi.py:619-629`. -/
noncomputable def Rpi.plotProbes {l : ℕ} (M : Rpi n m a b k l) (x : ZMod n) (y : ZMod m) : ℝ :=
  Real.sqrt (∑ i, ‖M.mixedProbes i x y‖ ^ 2)

end Cdtools
