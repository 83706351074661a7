/-
Functions shared by the models: the detector geometry kept in buffers (`models/base.py:118-167`), saving the open figures
(`models/base.py:1021-1051`), the surface normal of `FancyPtycho.from_dataset` / `MultislicePtycho.from_dataset`
(`models/fancy_ptycho.py:368-383`, `models/multislice_ptycho.py:246-261`) and the values shown by `Ptycho2DDataset.inspect`
(`datasets/ptycho_2d_dataset.py:218-274`).
-/
import Mathlib.Analysis.SpecialFunctions.Log.Base
import Verif.Model.Bragg
import Verif.Model.Py

namespace Cdtools

/-! ### Detector geometry -/

/-- The entry of a key of a Python dictionary: missing, None, or a value. -/
inductive Entry (α : Type)
  | missing
  | none
  | value (x : α)

/-- A detector geometry dictionary; further keys are ignored. -/
structure GeomDict (α : Type) where
  basis : Entry α
  distance : Entry α
  corner : Entry α

/-- The buffers of a model. -/
structure GeomBuffers (α : Type) where
  basis : Option α := none
  distance : Option α := none
  corner : Option α := none

variable {α : Type}

/-- `if key in geometry and geometry[key] is not None: register_buffer(…)`, `base.py:137-146`. -/
def storeEntry (cast : α → α) (e : Entry α) (old : Option α) : Option α :=
  match e with
  | .value x => some (cast x)
  | _ => old

/-- `store_detector_geometry`, `base.py:118-146`; `cast` is the conversion to the data type. `as_tensor(None)` is a RuntimeError. -/
def storeGeometry (cast : α → α) (d : GeomDict α) (b : GeomBuffers α) : Except PyExc (GeomBuffers α) :=
  match d.basis with
  | .missing => .error .keyError
  | .none => .error .runtimeError
  | .value x => .ok ⟨some (cast x), storeEntry cast d.distance b.distance, storeEntry cast d.corner b.corner⟩

/-- `if hasattr(self, name): geometry[key] = …`. -/
def getEntry : Option α → Entry α
  | none => .missing
  | some x => .value x

/-- `get_detector_geometry`, `base.py:148-167`. -/
def getGeometry (b : GeomBuffers α) : GeomDict α := ⟨getEntry b.basis, getEntry b.distance, getEntry b.corner⟩

/-- Geometries stored one after the other in one model. -/
def storeGeometries (cast : α → α) : List (GeomDict α) → GeomBuffers α → Except PyExc (GeomBuffers α)
  | [], b => .ok b
  | d :: ds, b => (storeGeometry cast d b).bind (storeGeometries cast ds)

/-! ### Saving figures -/

/-- A figure for `save_figures`: the title of the plot list it was made for, the title of its first axes (if it has axes), its
attribute `_panel_label` (if it has one), and what it shows. -/
structure SavedFig (φ : Type) where
  plotTitle : String
  axesTitle : Option String
  panelLabel : Option String
  content : φ

variable {φ : Type}

/-- The label, `base.py:1046-1050`. An empty `_panel_label` counts as none. -/
def SavedFig.label (f : SavedFig φ) : String :=
  match f.panelLabel with
  | some l => if l = "" then f.axesTitle.getD "figure" else l
  | none => f.axesTitle.getD "figure"

/-- `save_figures(prefix, extension)`, `base.py:1042-1051`: `figs` is None if nothing was inspected; the directory is a map from names. -/
def saveFigures (pre ext : String) (figs : Option (List (SavedFig φ))) (dir : String → Option φ) : String → Option φ :=
  match figs with
  | none => dir
  | some fs => fs.foldl (fun dir f => fun name => if name = pre ++ f.label ++ ext then some f.content else dir name) dir

/-! ### Surface normal -/

/-- The surface normal in `from_dataset`, `fancy_ptycho.py:368-383`, `multislice_ptycho.py:246-261`: `orientation` is the third row of the
orientation in the sample information. An unknown mode changes nothing. -/
noncomputable def datasetNormal (mode : Option String) (orientation : Option Vec3) (detBasis : Matrix (Fin 3) (Fin 2) ℝ) : Except String Vec3 :=
  if mode = some "t" ∨ mode = some "transmission" then .ok ![0, 0, 1]
  else if mode = some "r" ∨ mode = some "reflection" then
    let c : Vec3 := Vec3.cross (fun i => detBasis i 0) (fun i => detBasis i 1)
    if c = 0 then .error "NaN"
    else
      let s : Vec3 := fun i => c i / Real.sqrt (c.dot c) + ![0, 0, 1] i
      if s = 0 then .error "NaN" else .ok fun i => s i / (-Real.sqrt (s.dot s))
  else .ok (orientation.getD ![0, 0, 1])

/-! ### Inspecting a dataset -/

/-- One assignment `values[i:i+10] = …`, `ptycho_2d_dataset.py:256-258`: the numbers of entries must agree, or there is one to broadcast. -/
def assignChunk (values : List ℝ) (i : ℕ) (new : List ℝ) : Except PyExc (List ℝ) :=
  let old := pySlice values i (i + 10)
  if new.length = old.length then .ok (values.take i ++ new ++ values.drop (i + 10))
  else match new with
    | [x] => .ok (values.take i ++ old.map (fun _ => x) ++ values.drop (i + 10))
    | _ => .error .valueError

/-- The loop of `ptycho_2d_dataset.py:253-258` over the given starts; `sums` are the sums of the masked patterns. -/
def nanomapLoop (sums : List ℝ) : List ℕ → List ℝ → Except PyExc (List ℝ)
  | [], values => .ok values
  | i :: is, values => (assignChunk values i (pySlice sums i (i + 10))).bind (nanomapLoop sums is)

/-- `nanomap_values` for `T` translations; without a mask `None * patterns` is a TypeError. -/
def nanomapValues {n m : ℕ} [NeZero n] [NeZero m] (T : ℕ) (mask : Option (ZMod n → ZMod m → Bool)) (patterns : List (ZMod n → ZMod m → ℝ)) :
    Except PyExc (List ℝ) :=
  match mask with
  | none => if T = 0 then .ok [] else .error .typeError
  | some M => nanomapLoop (patterns.map fun p => ∑ i, ∑ j, (if M i j then 1 else 0) * p i j) (pyRange0 T 10) (List.replicate T 1)

/-- The image of a pattern, `get_images`, `ptycho_2d_dataset.py:236-247`: `none` is the logarithm of 0 or less. -/
noncomputable def shownPixel (logarithmic : Bool) (offset : ℝ) (valid : Option Bool) (value : ℝ) : Option ℝ :=
  let x := value * (match valid with | none => 1 | some b => if b then 1 else 0)
  if logarithmic then (if 0 < x + offset then some (Real.logb 10 (x + offset)) else none) else some x

end Cdtools
