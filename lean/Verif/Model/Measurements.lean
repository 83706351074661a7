/-
Model of `tools/measurements/measurements.py` with `simulate_finite_pixels=False`. One exposure at
a time: the code treats the exposures of a stack independently.
-/
import Verif.Model.Image
import Mathlib.Analysis.Complex.Basic

namespace Cdtools
open Finset

/-- A detector slice `np.s_[r0:r1, c0:c1]` with non-negative bounds. -/
structure DetSlice where
  r0 : ℕ
  r1 : ℕ
  c0 : ℕ
  c1 : ℕ

/-- `output[detector_slice]` (slices past the end are cut off, as in Python). -/
def Img.slice {α : Type} (s : DetSlice) (a : Img α) : Img α :=
  ⟨min s.r1 a.h - s.r0, min s.c1 a.w - s.c0, fun i j => a.px (s.r0 + i) (s.c0 + j)⟩

/-- Oversampling, `measurements.py:64-68,132-136`. -/
noncomputable def binPixels (n : ℕ) (a : Img ℝ) : Img ℝ := if n ≠ 1 then a.avgPool n else a

/-- The optional detector slice, `measurements.py:71-75,139-143`. -/
def cutSlice (s : Option DetSlice) (a : Img ℝ) : Img ℝ :=
  match s with
  | none => a
  | some s => a.slice s

/-- `t.clamp(x, 0, saturation)`. -/
noncomputable def clamp0 (sat x : ℝ) : ℝ := min (max x 0) sat

/-- Saturation, `measurements.py:78-81,145-148`. -/
noncomputable def saturate (sat : Option ℝ) (a : Img ℝ) : Img ℝ :=
  match sat with
  | none => a
  | some s => a.map (clamp0 s)

/-- The common settings. -/
structure MeasSettings where
  slice : Option DetSlice := none
  epsilon : ℝ := 1e-7
  saturation : Option ℝ := none
  oversampling : ℕ := 1

/-- From a simulated intensity to a measured one, `measurements.py:62-81,130-148`. -/
noncomputable def readOut (c : MeasSettings) (a : Img ℝ) : Img ℝ :=
  saturate c.saturation ((cutSlice c.slice (binPixels c.oversampling a)).map fun x => x + c.epsilon)

/-- `intensity`, `measurements.py:20-81`. -/
noncomputable def measIntensity (c : MeasSettings) (wave : Img ℂ) : Img ℝ :=
  readOut c (wave.map fun z => ‖z‖ ^ 2)

/-- `t.sum(t.abs(wavefields)**2, dim=-3)`, for modes on a common `h × w` grid. -/
noncomputable def sumModes (h w : ℕ) (modes : List (ℕ → ℕ → ℂ)) : Img ℝ :=
  ⟨h, w, fun i j => (modes.map fun ψ => ‖ψ i j‖ ^ 2).sum⟩

/-- `incoherent_sum`, `measurements.py:84-148`. -/
noncomputable def measIncoherent (c : MeasSettings) (h w : ℕ) (modes : List (ℕ → ℕ → ℂ)) : Img ℝ :=
  readOut c (sumModes h w modes)

/-- `quadratic_background`, `measurements.py:158-219`, around either measurement, given its
simulated intensity: the inner call leaves saturation to the end. -/
noncomputable def measQuadratic (c : MeasSettings) (background : Img ℝ) (qe : Option (Img ℝ))
    (a : Img ℝ) : Img ℝ :=
  let raw := readOut { c with saturation := none } a
  let out := match qe with
    | none => Img.zip (fun b x => x + b ^ 2) background raw
    | some q => Img.zip (fun b x => x + b ^ 2) background (Img.zip (fun q x => q * x) q raw)
  saturate c.saturation out

end Cdtools
