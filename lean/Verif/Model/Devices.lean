/-
Devices and data types of a dataset: `CDataset.__init__`, `to`, `get_as`, `__getitem__` (`datasets/base.py:73-153`) and
`Ptycho2DDataset._load`, `to` (`datasets/ptycho_2d_dataset.py:87-126`).

A tensor is its device, its dtype and its entries; `cast` is the conversion of an entry to a dtype. `Tensor.to` changes what it is given.
-/
import Mathlib.Data.Real.Basic
import Verif.Model.Py

namespace Cdtools.Dev

/-- Data types, as far as they matter. -/
inductive DType
  | bool | int | float32 | float64
  deriving DecidableEq

/-- A tensor: a list of entries (exposures, for the data). -/
structure Ten (α : Type) where
  device : String
  dtype : DType
  data : List α

/-- The arguments of `Tensor.to`: device and dtype if given, and whether the dtype is a keyword argument. -/
structure Target where
  device : Option String
  dtype : Option DType
  keyword : Bool

variable {α : Type}

/-- `tensor.to(*args, **kwargs)`. -/
def Ten.to (cast : DType → α → α) (T : Target) (x : Ten α) : Ten α :=
  ⟨T.device.getD x.device, T.dtype.getD x.dtype, match T.dtype with | none => x.data | some d => x.data.map (cast d)⟩

/-- A dataset of ptychography. -/
structure DS (α : Type) where
  translations : Ten α
  patterns : Ten α
  mask : Ten α
  qeMask : Option (Ten α)
  background : Option (Ten α)
  intensities : Option (Ten α)
  getAs : Target

/-- The target after the constructor, `base.py:93`. -/
def initialTarget : Target := ⟨some "cpu", none, true⟩

/-- The arguments for the mask, `base.py:104-109`: a keyword `dtype` is removed. -/
def maskTarget (T : Target) : Target := if T.keyword then { T with dtype := none } else T

/-- `dataset.to(…)`, `base.py:96-116`, `ptycho_2d_dataset.py:116-126`. -/
def DS.to (cast : DType → α → α) (T : Target) (D : DS α) : DS α :=
  { D with
    mask := D.mask.to cast (maskTarget T)
    qeMask := D.qeMask.map (Ten.to cast T)
    background := D.background.map (Ten.to cast T)
    translations := D.translations.to cast T
    patterns := D.patterns.to cast T }

/-- `dataset.get_as(…)`, `base.py:119-134`. -/
def DS.get_as (T : Target) (D : DS α) : DS α := { D with getAs := T }

/-- The indices of an access: a Python number (or list), or a tensor. -/
inductive Index (α : Type)
  | python (ks : List ℕ)
  | tensor (ks : List ℕ) (index : Ten α)

/-- The positions asked for. -/
def Index.positions : Index α → List ℕ
  | .python ks => ks
  | .tensor ks _ => ks

/-- `dataset[index]`, `base.py:139-153`: inputs which have no `to` stay as they are. -/
def DS.getItem (cast : DType → α → α) (D : DS α) (i : Index α) : Except PyExc ((Index α × Ten α) × Ten α) :=
  if ∀ k ∈ i.positions, k < D.patterns.data.length ∧ k < D.translations.data.length then
    let pick := fun (x : Ten α) => Ten.to cast D.getAs { x with data := i.positions.filterMap fun k => x.data[k]? }
    let index := match i with
      | .python ks => .python ks
      | .tensor ks x => .tensor ks (Ten.to cast D.getAs x)
    .ok ((index, pick D.translations), pick D.patterns)
  else .error .indexError

/-- Uses of a dataset between construction and access. -/
inductive Op
  | to (T : Target)
  | getAs (T : Target)

/-- A history. -/
def DS.after (cast : DType → α → α) (D : DS α) (ops : List Op) : DS α :=
  ops.foldl (fun D o => match o with | .to T => D.to cast T | .getAs T => D.get_as T) D

/-! ### `Multislice2DPtycho.to` -/

/-- `Multislice2DPtycho.to`, `multislice_2d_ptycho.py:438-461`, on the detector geometry (a dictionary, for which `hasattr(…, 'distance')` is
false) and another tensor of the model; the function returns None. -/
def multi2DTo (cast : DType → α → α) (T : Target) (geometry other : Ten α) : (Ten α × Ten α) × Option Unit :=
  ((geometry, other.to cast T), none)

end Cdtools.Dev
