/- How `from_dataset` reads a `Ptycho2DDataset`: from attributes of the dataset to the inputs of `fancyFromDataset`. -/
import Verif.Model.PtychoDataset
import Verif.Model.FancyFromDataset

namespace Cdtools

/-- The entries of a dataset that `pad` and `downsample` do not touch and `from_dataset` reads: `wavelength`,
`detector_geometry['distance']`, `detector_geometry['corner']` and the third row of `sample_info['orientation']`
(`base.py:23-100`, `fancy_ptycho.py:273-277,368-383`). -/
structure ExperimentInfo where
  wavelength : ℝ
  distance : ℝ
  corner : Option (Fin 3 → ℝ)
  orientation : Option Vec3

/-- What `from_dataset` reads, `fancy_ptycho.py:273-289,398-402,487-493` and `initializers.py:303-322`, of a dataset of `N` exposures of
`n × m` pixels. A missing mask is one without masked pixels (the constructor of the dataset puts such a mask, `ptycho_2d_dataset.py:72-73`).
For other numbers of exposures or pixels the value is meaningless. -/
noncomputable def PDataset.toFancy (n m N : ℕ) (d : PDataset ExperimentInfo) : FancyData n m N where
  wavelength := d.info.wavelength
  distance := d.info.distance
  detBasis := Matrix.of fun i j => (d.basis.getD fun _ _ => 0) i.val j.val
  patterns := fun e x y => (d.patterns.getD e.val ⟨0, 0, fun _ _ => 0⟩).px x.val y.val
  translations := fun e => ![(d.translations.getD e.val (0, 0, 0)).1, (d.translations.getD e.val (0, 0, 0)).2.1,
    (d.translations.getD e.val (0, 0, 0)).2.2]
  mask := fun x y => match d.mask with
    | none => 1
    | some live => if live.px x.val y.val then 1 else 0
  background := d.background.map fun b x y => b.px x.val y.val
  intensities := d.intensities.map fun I e => I.getD e.val 0
  qe := d.qeMask.map fun q x y => q.px x.val y.val
  orientation := d.info.orientation

end Cdtools
