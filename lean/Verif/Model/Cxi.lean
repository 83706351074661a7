/-
Model of the .cxi readers and writers (`tools/data/data.py:54-870`).

An h5 file is a partial map from absolute paths to objects. Simplifications: soft links are
followed only in the last component of a path and only one level deep; what a failing writer
leaves in the file is not modelled; numbers are reals, with the casts to `np.float32` kept
as an arbitrary rounding function `f32`.
-/
import Verif.Model.NestedDict
import Mathlib.Analysis.SpecialFunctions.Sqrt

namespace Cdtools

/-- Absolute path in an h5 file. -/
abbrev Path := List String

/-- Contents of an h5 dataset. -/
inductive H5Val where
  | str (s : String)
  | num (x : ℝ)
  | arr (a : Arr ℝ)
  | ints (shape : List ℕ) (vals : List ℤ)

/-- An h5 object: group, dataset (with its optional `axes` attribute), soft link. -/
inductive H5Obj where
  | group
  | dataset (v : H5Val) (axes : Option Name)
  | soft (target : Path)

/-- An open h5 file. -/
abbrev H5File := Path → Option H5Obj

/-- Follow a final soft link. -/
def H5File.resolve (f : H5File) (p : Path) : Option H5Obj :=
  match f p with
  | some (.soft t) =>
      match f t with
      | some (.soft _) => none
      | o => o
  | o => o

/-- `p in f` (false for a dangling soft link). -/
def H5File.has (f : H5File) (p : Path) : Bool := (f.resolve p).isSome

/-- The dataset at a path; KeyError if there is none (reading a group as data is a TypeError). -/
def H5File.read (f : H5File) (p : Path) : Except PyExc H5Val :=
  match f.resolve p with
  | some (.dataset v _) => .ok v
  | some _ => .error .typeError
  | none => .error .keyError

/-- `create_dataset`, `create_group` and `group[name] = value`: refuse an existing name. -/
def H5File.create (f : H5File) (p : Path) (o : H5Obj) : Except PyExc H5File :=
  if (f p).isSome then .error .valueError
  else .ok fun q => if q = p then some o else f q

/-- `if name not in f: f[parent].create_group(name)`; KeyError if the parent is missing. -/
def H5File.ensure (f : H5File) (parent : Path) (name : String) : Except PyExc H5File :=
  if f.has (parent ++ [name]) then .ok f
  else if f.has parent then f.create (parent ++ [name]) .group
  else .error .keyError

/-! ### Paths -/

/-- Paths used by the cxi format. -/
def pEntry : Path := ["entry_1"]
@[inherit_doc pEntry] def pInstr : Path := ["entry_1", "instrument_1"]
@[inherit_doc pEntry] def pDet : Path := ["entry_1", "instrument_1", "detector_1"]
@[inherit_doc pEntry] def pSource : Path := ["entry_1", "instrument_1", "source_1"]
@[inherit_doc pEntry] def pData : Path := ["entry_1", "data_1"]
@[inherit_doc pEntry] def pSample : Path := ["entry_1", "sample_1"]
@[inherit_doc pEntry] def pGeom : Path := ["entry_1", "sample_1", "geometry_1"]

/-- `create_cxi`, `data.py:497-509`. -/
def createCxi : H5File := fun p =>
  if p = [] then some .group
  else if p = ["cxi_version"] then some (.dataset (.num 160) none)
  else if p = ["number_of_entries"] then some (.dataset (.num 1) none)
  else if p = pEntry then some .group
  else none

/-- `h5py.File(name, 'w')` without further setup. -/
def emptyH5 : H5File := fun p => if p = [] then some .group else none

/-- The two `if ... create_group` statements that open most writers, e.g. `data.py:622-627`. -/
def ensureDetector (f : H5File) : Except PyExc H5File := do
  let f ← f.ensure pEntry "instrument_1"
  f.ensure pInstr "detector_1"

/-! ### Source -/

/-- hc in J m as written in the code, `data.py:181,598`. -/
noncomputable def hc : ℝ := 1.9864459e-25

/-- `add_source`, `data.py:578-598`. -/
noncomputable def addSource (f32 : ℝ → ℝ) (f : H5File) (wavelength : ℝ) : Except PyExc H5File := do
  let f ← f.ensure pEntry "instrument_1"
  let f ← f.ensure pInstr "source_1"
  let f ← f.create (pSource ++ ["wavelength"]) (.dataset (.num (f32 wavelength)) none)
  f.create (pSource ++ ["energy"]) (.dataset (.num (f32 (hc / wavelength))) none)

/-- `np.float32(x)` of a scalar dataset. -/
def asScalar (f32 : ℝ → ℝ) : H5Val → Except PyExc ℝ
  | .num x => .ok (f32 x)
  | _ => .error .typeError

/-- `get_wavelength`, `data.py:164-186`. -/
noncomputable def getWavelength (f32 : ℝ → ℝ) (f : H5File) : Except PyExc ℝ :=
  if !f.has pInstr then .error .keyError
  else if f.has (pSource ++ ["wavelength"]) then do
    let v ← f.read (pSource ++ ["wavelength"])
    asScalar f32 v
  else if f.has (pSource ++ ["energy"]) then do
    let v ← f.read (pSource ++ ["energy"])
    let e ← asScalar f32 v
    .ok (hc / e)
  else .error .keyError

/-! ### Detector -/

/-- Entry `(i, j)` of a stored matrix with `c` columns. -/
noncomputable def matEntry (a : Arr ℝ) (c i j : ℕ) : ℝ := a.vals.getD (i * c + j) 0

/-- `.T` of a 2×3 matrix. -/
noncomputable def transpose23 (a : Arr ℝ) : Arr ℝ :=
  ⟨[3, 2], [matEntry a 3 0 0, matEntry a 3 1 0, matEntry a 3 0 1, matEntry a 3 1 1,
    matEntry a 3 0 2, matEntry a 3 1 2]⟩

/-- `if basis.shape == (2,3): basis = basis.T`. -/
noncomputable def columnBasis (a : Arr ℝ) : Arr ℝ := if a.shape = [2, 3] then transpose23 a else a

/-- Norm of column `j` of a 3×2 basis. -/
noncomputable def colNorm (a : Arr ℝ) (j : ℕ) : ℝ :=
  Real.sqrt (matEntry a 2 0 j ^ 2 + matEntry a 2 1 j ^ 2 + matEntry a 2 2 j ^ 2)

/-- `add_detector`, `data.py:602-641`. -/
noncomputable def addDetector (f32 : ℝ → ℝ) (f : H5File) (distance : ℝ) (basis : Arr ℝ)
    (corner : Option (Arr ℝ)) : Except PyExc H5File := do
  let f ← ensureDetector f
  let f ← f.create (pDet ++ ["distance"]) (.dataset (.num (f32 distance)) none)
  let basis := columnBasis basis
  let f ← f.create (pDet ++ ["x_pixel_size"]) (.dataset (.num (colNorm basis 1)) none)
  let f ← f.create (pDet ++ ["y_pixel_size"]) (.dataset (.num (colNorm basis 0)) none)
  let f ← f.create (pDet ++ ["basis_vectors"]) (.dataset (.arr basis) none)
  match corner with
  | none => .ok f
  | some c => f.create (pDet ++ ["corner_position"]) (.dataset (.arr c) none)

/-- `try: np.float32(d1[name]) except: None`, `data.py:233-240,251-254`. -/
def tryScalar (f32 : ℝ → ℝ) (f : H5File) (p : Path) : Option ℝ :=
  match f.read p with
  | .ok (.num x) => some (f32 x)
  | _ => none

/-- `try: d1['corner_position'][()] except: None`, `data.py:255-258`. -/
def tryArr (f : H5File) (p : Path) : Option (Arr ℝ) :=
  match f.read p with
  | .ok (.arr a) => some a
  | _ => none

/-- Distance from the corner position: `|corner · normal|` with the unit normal
`cross(basis[:,0], basis[:,1])`, `data.py:263-267`. -/
noncomputable def distanceFromCorner (basis corner : Arr ℝ) : ℝ :=
  let b := matEntry basis 2
  let n0 := b 1 0 * b 2 1 - b 2 0 * b 1 1
  let n1 := b 2 0 * b 0 1 - b 0 0 * b 2 1
  let n2 := b 0 0 * b 1 1 - b 1 0 * b 0 1
  let norm := Real.sqrt (n0 ^ 2 + n1 ^ 2 + n2 ^ 2)
  let c := fun i => corner.vals.getD i 0
  |c 0 * (n0 / norm) + c 1 * (n1 / norm) + c 2 * (n2 / norm)|

/-- The basis made of pixel sizes, `data.py:232-249`. -/
def basisFromPixels (x y : Option ℝ) : Except PyExc (Arr ℝ) :=
  match x, y with
  | some x, some y => .ok ⟨[3, 2], [0, -x, -y, 0, 0, 0]⟩
  | some x, none => .ok ⟨[3, 2], [0, -x, -x, 0, 0, 0]⟩
  | none, some y => .ok ⟨[3, 2], [0, -y, -y, 0, 0, 0]⟩
  | none, none => .error .keyError

/-- What `get_detector_geometry` returns. -/
structure DetGeometry where
  distance : ℝ
  basis : Arr ℝ
  corner : Option (Arr ℝ)

/-- The basis part of `get_detector_geometry`, `data.py:222-249`. -/
noncomputable def readBasis (f32 : ℝ → ℝ) (f : H5File) : Except PyExc (Arr ℝ) :=
  if f.has (pDet ++ ["basis_vectors"]) then
    match f.read (pDet ++ ["basis_vectors"]) with
    | .ok (.arr a) => .ok (columnBasis a)
    | .ok _ => .error .attributeError
    | .error e => .error e
  else
    basisFromPixels (tryScalar f32 f (pDet ++ ["x_pixel_size"]))
      (tryScalar f32 f (pDet ++ ["y_pixel_size"]))

/-- The end of `get_detector_geometry`, `data.py:251-269`. -/
noncomputable def withDistance (basis : Arr ℝ) (distance : Option ℝ) (corner : Option (Arr ℝ)) :
    Except PyExc DetGeometry :=
  match distance, corner with
  | some d, c => .ok ⟨d, basis, c⟩
  | none, some c => .ok ⟨distanceFromCorner basis c, basis, some c⟩
  | none, none => .error .keyError

/-- `get_detector_geometry`, `data.py:189-269`. -/
noncomputable def getDetectorGeometry (f32 : ℝ → ℝ) (f : H5File) : Except PyExc DetGeometry :=
  if f.has pDet then
    (readBasis f32 f).bind fun basis =>
      withDistance basis (tryScalar f32 f (pDet ++ ["distance"]))
        (tryArr f (pDet ++ ["corner_position"]))
  else .error .keyError

/-! ### Masks and darks -/

/-- `add_mask`, `data.py:644-673`. -/
def addMask (f : H5File) (shape : List ℕ) (mask : List Bool) : Except PyExc H5File := do
  let f ← ensureDetector f
  f.create (pDet ++ ["mask"])
    (.dataset (.ints shape (mask.map fun b => if b = false then 1 else 0)) none)

/-- `get_mask`, `data.py:272-302`: `astype(np.uint32)`, then equal to 0 or to 0x1000. -/
def goodPixel (v : ℤ) : Bool := v % 2 ^ 32 = 0 || v % 2 ^ 32 = 0x1000

@[inherit_doc goodPixel]
def getMask (f : H5File) : Except PyExc (Option (List ℕ × List Bool)) :=
  if !f.has pInstr then .error .keyError
  else if f.has (pDet ++ ["mask"]) then
    match f.read (pDet ++ ["mask"]) with
    | .ok (.ints s vs) => .ok (some (s, vs.map goodPixel))
    | .ok _ => .error .typeError
    | .error e => .error e
  else .ok none

/-- `add_qe_mask`, `data.py:676-712`, and `add_dark`, `data.py:715-735`: store an array under the
detector. -/
def addDetArr (name : String) (f : H5File) (a : Arr ℝ) : Except PyExc H5File := do
  let f ← ensureDetector f
  f.create (pDet ++ [name]) (.dataset (.arr a) none)

/-- `add_qe_mask`. -/
def addQeMask (f : H5File) (a : Arr ℝ) : Except PyExc H5File := addDetArr "qe_mask" f a

/-- `add_dark`. -/
def addDark (f : H5File) (a : Arr ℝ) : Except PyExc H5File := addDetArr "data_dark" f a

/-- Optional array under the detector: KeyError without instrument, None if absent. -/
def getDetArr (name : String) (f : H5File) : Except PyExc (Option (Arr ℝ)) :=
  if !f.has pInstr then .error .keyError
  else if f.has (pDet ++ [name]) then
    match f.read (pDet ++ [name]) with
    | .ok (.arr a) => .ok (some a)
    | .ok _ => .error .typeError
    | .error e => .error e
  else .ok none

/-- `get_qe_mask`, `data.py:305-338`. -/
def getQeMask (f32 : ℝ → ℝ) (f : H5File) : Except PyExc (Option (Arr ℝ)) := do
  let a ← getDetArr "qe_mask" f
  .ok (a.map fun a => ⟨a.shape, a.vals.map f32⟩)

/-- Mean of a stack over all but its last two axes; an image is returned unchanged. Simplification:
NaNs (which `nanmean` skips) are not modelled. -/
noncomputable def stackMean (a : Arr ℝ) : Arr ℝ :=
  if a.shape.length ≤ 2 then a
  else
    let tail := a.shape.drop (a.shape.length - 2)
    let n := tail.foldl (· * ·) 1
    let k := (a.shape.take (a.shape.length - 2)).foldl (· * ·) 1
    ⟨tail, (List.range n).map fun i =>
      ((List.range k).map fun j => a.vals.getD (j * n + i) 0).sum / k⟩

/-- `get_dark`, `data.py:341-371`. -/
noncomputable def getDark (f : H5File) : Except PyExc (Option (Arr ℝ)) := do
  let a ← getDetArr "data_dark" f
  .ok (a.map stackMean)

/-! ### Data and shot-to-shot information -/

/-- `':'.join(axes)`. -/
def joinColon : List Name → Name
  | [] => []
  | [a] => a
  | a :: b :: rest => a ++ ':' :: joinColon (b :: rest)

/-- `s.split(':')`. -/
def splitColon : Name → List Name
  | [] => [[]]
  | c :: cs =>
      if c = ':' then [] :: splitColon cs
      else match splitColon cs with
        | [] => [[c]]
        | w :: ws => (c :: w) :: ws

/-- `axis.strip().lower()`. -/
def stripLower (s : Name) : Name :=
  (((s.dropWhile Char.isWhitespace).reverse.dropWhile Char.isWhitespace).reverse).map Char.toLower

/-- `add_data`, `data.py:738-779` (axes as a list). -/
def addData (f : H5File) (data : Arr ℝ) (axes : Option (List Name)) : Except PyExc H5File := do
  let f ← f.ensure pEntry "data_1"
  let f ← ensureDetector f
  let f ← f.create (pDet ++ ["data"]) (.dataset (.arr data) (axes.map joinColon))
  f.create (pData ++ ["data"]) (.soft (pDet ++ ["data"]))

/-- `get_data`, `data.py:374-424`. -/
noncomputable def getData (cutZeros : Bool) (f : H5File) :
    Except PyExc (Arr ℝ × Option (List Name)) :=
  let pull := fun p =>
    match f.resolve p with
    | some (.dataset (.arr a) axes) =>
        .ok (⟨a.shape, if cutZeros then a.vals.map fun x => max x 0 else a.vals⟩,
          axes.map fun s => (splitColon s).map stripLower)
    | some _ => .error .typeError
    | none => .error .keyError
  if f.has (pData ++ ["data"]) then pull (pData ++ ["data"])
  else if f.has (pDet ++ ["data"]) then pull (pDet ++ ["data"])
  else .error .keyError

/-- `add_shot_to_shot_info`, `data.py:782-843`. -/
def addShotInfo (f : H5File) (data : Arr ℝ) (field : String) : Except PyExc H5File := do
  let f ← f.ensure pEntry "sample_1"
  let f ← f.ensure pSample "geometry_1"
  let f ← f.ensure pEntry "data_1"
  let f ← ensureDetector f
  let f ← f.create (pGeom ++ [field]) (.dataset (.arr data) none)
  let f ← f.create (pData ++ [field]) (.soft (pGeom ++ [field]))
  f.create (pDet ++ [field]) (.soft (pGeom ++ [field]))

/-- `get_shot_to_shot_info`, `data.py:427-467`. The third branch tests the detector group only;
a missing field is then a KeyError from the lookup. -/
def getShotInfo (f32 : ℝ → ℝ) (f : H5File) (field : String) : Except PyExc (Arr ℝ) :=
  let pull := fun p =>
    match f.read p with
    | .ok (.arr a) => .ok ⟨a.shape, a.vals.map f32⟩
    | .ok _ => .error .typeError
    | .error e => .error e
  if f.has (pData ++ [field]) then pull (pData ++ [field])
  else if f.has (pGeom ++ [field]) then pull (pGeom ++ [field])
  else if f.has pDet then pull (pDet ++ [field])
  else .error .keyError

/-- `-translations`. -/
def negArr (a : Arr ℝ) : Arr ℝ := ⟨a.shape, a.vals.map fun x => -x⟩

/-- `add_ptycho_translations`, `data.py:846-870`. -/
def addTranslations (f : H5File) (t : Arr ℝ) : Except PyExc H5File :=
  addShotInfo f (negArr t) "translation"

/-- `get_ptycho_translations`, `data.py:470-489`. -/
def getTranslations (f32 : ℝ → ℝ) (f : H5File) : Except PyExc (Arr ℝ) :=
  (getShotInfo f32 f "translation").map negArr

/-! ### Entry and sample metadata -/

/-- Metadata values: string, date, number, array, anything else (silently not stored). -/
inductive MetaVal (D : Type) where
  | str (s : String)
  | date (d : D)
  | num (x : ℝ)
  | arr (a : Arr ℝ)
  | other

/-- `np.bytes_(s)` encodes ASCII only (UnicodeEncodeError is a ValueError). -/
def toBytes (s : String) : Except PyExc H5Val :=
  if s.toList.all (fun c => c.toNat < 128) then .ok (.str s) else .error .valueError

/-- The dataset one metadata value becomes (`data.py:526-534, 565-575`); `none` for types that are
silently skipped. -/
def metaDataset {D : Type} (iso : D → String) : MetaVal D → Except PyExc (Option H5Val)
  | .str s => (toBytes s).map some
  | .date d => (toBytes (iso d)).map some
  | .num x => .ok (some (.num x))
  | .arr a => .ok (some (.arr a))
  | .other => .ok none

/-- Write metadata entries below a group, in dictionary order. -/
def addMeta {D : Type} (iso : D → String) (base : Path) :
    H5File → List (String × MetaVal D) → Except PyExc H5File
  | f, [] => .ok f
  | f, (k, v) :: rest => do
      match ← metaDataset iso v with
      | none => addMeta iso base f rest
      | some x => do
          let f ← if f.has base then f.create (base ++ [k]) (.dataset x none)
            else .error .keyError
          addMeta iso base f rest

/-- `add_entry_info`, `data.py:512-535`. -/
def addEntryInfo {D : Type} (iso : D → String) (f : H5File) (md : List (String × MetaVal D)) :
    Except PyExc H5File := addMeta iso pEntry f md

/-- The attributes `get_entry_info` looks for, `data.py:73-78`. -/
def entryAttrs : List String :=
  ["title", "experiment_identifier", "experiment_description", "program_name", "start_time",
    "end_time"]

/-- One attribute of `get_entry_info`, `data.py:79-90`: decoded, then parsed as a date if
possible; a dataset that is no string has no `decode` (AttributeError). -/
def readEntryAttr {D : Type} (parse : String → Option D) (f : H5File) (attr : String) :
    Except PyExc (Option (MetaVal D)) :=
  if f.has (pEntry ++ [attr]) then
    match f.read (pEntry ++ [attr]) with
    | .ok (.str s) =>
        match parse s with
        | some d => .ok (some (.date d))
        | none => .ok (some (.str s))
    | .ok _ => .error .attributeError
    | .error e => .error e
  else .ok none

/-- Collect the attributes that are present, in order. -/
def collectAttrs {V : Type} (rd : String → Except PyExc (Option V)) :
    List String → Except PyExc (List (String × V))
  | [] => .ok []
  | a :: as => do
      let v ← rd a
      let rest ← collectAttrs rd as
      .ok (match v with | some v => (a, v) :: rest | none => rest)

/-- `get_entry_info`, `data.py:54-95`. -/
def getEntryInfo {D : Type} (parse : String → Option D) (f : H5File) :
    Except PyExc (List (String × MetaVal D)) :=
  if !f.has pEntry then .error .keyError
  else do
    let l ← collectAttrs (readEntryAttr parse f) entryAttrs
    let pol ← collectAttrs (fun attr =>
      if f.has (pEntry ++ [attr]) then
        match f.read (pEntry ++ [attr]) with
        | .ok (.arr a) => .ok (some (MetaVal.arr a))
        | .ok _ => .error .typeError
        | .error e => .error e
      else .ok none) ["polarization_states"]
    .ok (l ++ pol)

/-- Cross product on coordinate triples. -/
def cross3 (a b : ℝ × ℝ × ℝ) : ℝ × ℝ × ℝ :=
  (a.2.1 * b.2.2 - a.2.2 * b.2.1, a.2.2 * b.1 - a.1 * b.2.2, a.1 * b.2.1 - a.2.1 * b.1)

/-- Scale to unit length. -/
noncomputable def unit3 (a : ℝ × ℝ × ℝ) : ℝ × ℝ × ℝ :=
  let n := Real.sqrt (a.1 ^ 2 + a.2.1 ^ 2 + a.2.2 ^ 2)
  (a.1 / n, a.2.1 / n, a.2.2 / n)

/-- `sample_info['orientation']`: the rows of a 3×3 matrix. -/
abbrev Orientation := (ℝ × ℝ × ℝ) × (ℝ × ℝ × ℝ) × (ℝ × ℝ × ℝ)

/-- Sample metadata: the plain entries and the orientation matrix. -/
structure SampleInfo (D : Type) where
  entries : List (String × MetaVal D)
  orientation : Option Orientation

/-- The orientation part of `add_sample_info`, `data.py:554-559`: the first two rows are stored. -/
def addOrientation (f : H5File) : Option Orientation → Except PyExc H5File
  | none => .ok f
  | some o => do
      let f ← f.ensure pSample "geometry_1"
      f.create (pGeom ++ ["orientation"]) (.dataset
        (.arr ⟨[6], [o.1.1, o.1.2.1, o.1.2.2, o.2.1.1, o.2.1.2.1, o.2.1.2.2]⟩) none)

/-- `add_sample_info`, `data.py:539-575`. -/
def addSampleInfo {D : Type} (iso : D → String) (f : H5File) (md : SampleInfo D) :
    Except PyExc H5File := do
  let f ← f.ensure pEntry "sample_1"
  let f ← addOrientation f md.orientation
  addMeta iso pSample f md.entries

/-- String fields of `get_sample_info`, `data.py:116-127`. -/
def readSampleStr {D : Type} (f : H5File) (attr : String) : Except PyExc (Option (MetaVal D)) :=
  if f.has (pSample ++ [attr]) then
    match f.read (pSample ++ [attr]) with
    | .ok (.str s) => .ok (some (.str s))
    | .ok _ => .error .typeError
    | .error e => .error e
  else .ok none

/-- Float fields of `get_sample_info`, `data.py:129-137`. -/
def readSampleNum {D : Type} (f32 : ℝ → ℝ) (f : H5File) (attr : String) :
    Except PyExc (Option (MetaVal D)) :=
  if f.has (pSample ++ [attr]) then
    match f.read (pSample ++ [attr]) with
    | .ok (.num x) => .ok (some (.num (f32 x)))
    | .ok _ => .error .typeError
    | .error e => .error e
  else .ok none

/-- `unit_cell` of `get_sample_info`, `data.py:139-140`. -/
def readSampleArr {D : Type} (f32 : ℝ → ℝ) (f : H5File) (attr : String) :
    Except PyExc (Option (MetaVal D)) :=
  if f.has (pSample ++ [attr]) then
    match f.read (pSample ++ [attr]) with
    | .ok (.arr a) => .ok (some (.arr ⟨a.shape, a.vals.map f32⟩))
    | .ok _ => .error .attributeError
    | .error e => .error e
  else .ok none

/-- Triple starting at position `i` of a stored vector. -/
noncomputable def triple (f32 : ℝ → ℝ) (a : Arr ℝ) (i : ℕ) : ℝ × ℝ × ℝ :=
  (f32 (a.vals.getD i 0), f32 (a.vals.getD (i + 1) 0), f32 (a.vals.getD (i + 2) 0))

/-- `geometry_1/orientation` of `get_sample_info`, `data.py:143-148`. -/
noncomputable def readOrientation (f32 : ℝ → ℝ) (f : H5File) : Option Orientation :=
  match tryArr f (pGeom ++ ["orientation"]) with
  | some a =>
      some (unit3 (triple f32 a 0), unit3 (triple f32 a 3),
        cross3 (unit3 (triple f32 a 0)) (unit3 (triple f32 a 3)))
  | none => none

/-- `geometry_1/surface_normal` of `get_sample_info`, `data.py:150-156`. -/
noncomputable def readSurfaceNormal (f32 : ℝ → ℝ) (f : H5File) : Option Orientation :=
  match tryArr f (pGeom ++ ["surface_normal"]) with
  | some a =>
      let z := triple f32 a 0
      let x := unit3 (cross3 (0, 1, 0) z)
      let y := unit3 (cross3 z x)
      some (x, y, z)
  | none => none

/-- `get_sample_info`, `data.py:98-161`; `none` is Python's None. A surface normal overrides an
orientation. -/
noncomputable def getSampleInfo {D : Type} (f32 : ℝ → ℝ) (f : H5File) :
    Except PyExc (Option (SampleInfo D)) :=
  if !f.has pSample then .ok none
  else do
    let s ← collectAttrs (readSampleStr f) ["name", "description", "unit_cell_group"]
    let n ← collectAttrs (readSampleNum f32 f)
      ["concentration", "mass", "temperature", "thickness", "unit_cell_volume"]
    let u ← collectAttrs (readSampleArr f32 f) ["unit_cell"]
    let r : SampleInfo D := ⟨s ++ n ++ u, (readSurfaceNormal f32 f).or (readOrientation f32 f)⟩
    .ok (if r.entries.isEmpty && r.orientation.isNone then none else some r)

end Cdtools
