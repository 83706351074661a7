/-
Model of saving and loading datasets (`datasets/base.py:37-93,178-261`,
`datasets/ptycho_2d_dataset.py:132-215`).
-/
import Verif.Model.Cxi

namespace Cdtools

/-- The attributes of a `CDataset`, `base.py:37-93`. -/
structure CData (D : Type) where
  entryInfo : Option (List (String × MetaVal D))
  sampleInfo : Option (SampleInfo D)
  wavelength : Option ℝ
  geometry : Option DetGeometry
  mask : Option (List ℕ × List Bool)
  qeMask : Option (Arr ℝ)
  background : Option (Arr ℝ)

/-- The attributes of a `Ptycho2DDataset`. -/
structure PtychoData (D : Type) extends CData D where
  translations : Arr ℝ
  patterns : Arr ℝ
  axes : Option (List Name)
  intensities : Option (Arr ℝ)

/-- Do something if an attribute is not None. -/
def withSome {α : Type} (f : H5File) (o : Option α) (g : H5File → α → Except PyExc H5File) :
    Except PyExc H5File :=
  match o with
  | none => .ok f
  | some a => g f a

/-- `CDataset.to_cxi` on an open file, `base.py:241-261`. -/
noncomputable def CData.toCxi {D : Type} (f32 : ℝ → ℝ) (iso : D → String) (d : CData D)
    (f : H5File) : Except PyExc H5File := do
  let f ← withSome f d.entryInfo (addEntryInfo iso)
  let f ← withSome f d.sampleInfo (addSampleInfo iso)
  let f ← withSome f d.wavelength (addSource f32)
  let f ← withSome f d.geometry fun f g => addDetector f32 f g.distance g.basis g.corner
  let f ← withSome f d.mask fun f m => addMask f m.1 m.2
  let f ← withSome f d.qeMask addQeMask
  withSome f d.background addDark

/-- `CDataset.to_cxi(filename)`, `base.py:236-239`: the file is opened with `h5py.File(.., 'w')`. -/
noncomputable def CData.toCxiByName {D : Type} (f32 : ℝ → ℝ) (iso : D → String) (d : CData D) :
    Except PyExc H5File := d.toCxi f32 iso emptyH5

/-- `CDataset.from_cxi`, `base.py:178-220`. -/
noncomputable def CData.fromCxi {D : Type} (f32 : ℝ → ℝ) (parse : String → Option D) (f : H5File) :
    Except PyExc (CData D) := do
  let e ← getEntryInfo parse f
  let s ← getSampleInfo f32 f
  let w ← getWavelength f32 f
  let g ← getDetectorGeometry f32 f
  let m ← getMask f
  let q ← getQeMask f32 f
  let b ← getDark f
  .ok ⟨some e, s, some w, some g, m, q, b⟩

/-- `Ptycho2DDataset.to_cxi` on an open file, `ptycho_2d_dataset.py:207-215`. -/
noncomputable def PtychoData.toCxi {D : Type} (f32 : ℝ → ℝ) (iso : D → String) (d : PtychoData D)
    (f : H5File) : Except PyExc H5File := do
  let f ← d.toCData.toCxi f32 iso f
  let f ← addData f d.patterns d.axes
  let f ← addTranslations f d.translations
  withSome f d.intensities fun f a => addShotInfo f a "intensities"

/-- `Ptycho2DDataset.to_cxi(filename)`, `ptycho_2d_dataset.py:202-205`: uses `create_cxi`. -/
noncomputable def PtychoData.toCxiByName {D : Type} (f32 : ℝ → ℝ) (iso : D → String)
    (d : PtychoData D) : Except PyExc H5File := d.toCxi f32 iso createCxi

/-- `except KeyError: None`, `ptycho_2d_dataset.py:180-184`. -/
def orNoneOnKeyError {α : Type} : Except PyExc α → Except PyExc (Option α)
  | .ok a => .ok (some a)
  | .error .keyError => .ok none
  | .error e => .error e

/-- An all-true mask of the detector's shape. -/
def onesMask (patterns : Arr ℝ) : List ℕ × List Bool :=
  let s := patterns.shape.drop (patterns.shape.length - 2)
  (s, List.replicate (s.foldl (· * ·) 1) true)

/-- `Ptycho2DDataset.from_cxi`, `ptycho_2d_dataset.py:132-186` (`load_patterns=True`; the
conversion of 64-bit patterns to 32-bit is not modelled). -/
noncomputable def PtychoData.fromCxi {D : Type} (f32 : ℝ → ℝ) (parse : String → Option D)
    (cutZeros : Bool) (f : H5File) : Except PyExc (PtychoData D) := do
  let base ← CData.fromCxi f32 parse f
  let t ← getTranslations f32 f
  let pa ← getData cutZeros f
  let i ← orNoneOnKeyError (getShotInfo f32 f "intensities")
  .ok { base with
    mask := some (base.mask.getD (onesMask pa.1))
    translations := t, patterns := pa.1, axes := pa.2, intensities := i }

end Cdtools
