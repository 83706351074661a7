/-
Model of `datasets/ptycho_2d_dataset.py`: construction, indexing, splitting, padding,
downsampling and filtering of ptychography datasets. A stack of patterns is a list of images
(one per exposure).
-/
import Verif.Model.Image
import Verif.Model.Py

namespace Cdtools

/-! ### NaN masking -/

/-- A floating point number: NaN, a finite value, or an infinity. Simplification: finite sums do
not overflow and rounding is ignored. -/
inductive Fl where
  | nan
  | fin (x : ℝ)
  | inf (neg : Bool)

/-- `torch.isnan`. -/
def Fl.isNan : Fl → Bool
  | .nan => true
  | _ => false

/-- IEEE addition. -/
noncomputable def Fl.add : Fl → Fl → Fl
  | .nan, _ => .nan
  | _, .nan => .nan
  | .fin x, .fin y => .fin (x + y)
  | .inf s, .fin _ => .inf s
  | .fin _, .inf s => .inf s
  | .inf s, .inf s' => if s = s' then .inf s else .nan

/-- `torch.sum` of the values of one pixel over all exposures. -/
noncomputable def Fl.sum (l : List Fl) : Fl := l.foldl Fl.add (.fin 0)

/-- Shape of a stack: the detector shape given separately (a stack may be empty). -/
structure Stack (α : Type) where
  h : ℕ
  w : ℕ
  frames : List (ℕ → ℕ → α)

/-- The mask and patterns after `Ptycho2DDataset.__init__`, `ptycho_2d_dataset.py:65-71`: default
mask, clear where the sum over exposures is NaN, zero all NaNs. -/
noncomputable def maskNans (mask : Option (ℕ → ℕ → Bool)) (p : Stack Fl) :
    (ℕ → ℕ → Bool) × Stack Fl :=
  let m := mask.getD fun _ _ => true
  (fun i j => if (Fl.sum (p.frames.map fun q => q i j)).isNan then false else m i j,
   ⟨p.h, p.w, p.frames.map fun q i j => if (q i j).isNan then .fin 0 else q i j⟩)

/-- `np.maximum(x, 0)`: propagates NaN. -/
noncomputable def Fl.max0 : Fl → Fl
  | .nan => .nan
  | .fin x => .fin (max x 0)
  | .inf true => .fin 0
  | .inf false => .inf false

/-- The mask and patterns after `Ptycho2DDataset.from_cxi`, `ptycho_2d_dataset.py:158-180`, for a
file whose stored mask is `mask`. -/
noncomputable def loadMaskPatterns (cutZeros : Bool) (mask : Option (ℕ → ℕ → Bool))
    (p : Stack Fl) : (ℕ → ℕ → Bool) × Stack Fl :=
  (mask.getD fun _ _ => true,
   ⟨p.h, p.w, p.frames.map fun q i j => if cutZeros then (q i j).max0 else q i j⟩)

/-! ### The dataset -/

/-- A `Ptycho2DDataset` (`ptycho_2d_dataset.py:27-80`): `M` is the remaining metadata, `basis` the
entry `detector_geometry['basis']` as a 3×2 matrix (None if there is no geometry). -/
structure PDataset (M : Type) where
  translations : List (ℝ × ℝ × ℝ)
  patterns : List (Img ℝ)
  intensities : Option (List ℝ)
  mask : Option (Img Bool)
  qeMask : Option (Img ℝ)
  background : Option (Img ℝ)
  basis : Option (ℕ → ℕ → ℝ)
  info : M

variable {M : Type}

/-- `__len__`, `ptycho_2d_dataset.py:82-83`. -/
def PDataset.len (d : PDataset M) : ℕ := d.patterns.length

/-- `x[bools]` for a boolean index of the right length (IndexError otherwise). -/
def boolIndex {α : Type} (bs : List Bool) (xs : List α) : List α :=
  ((bs.zip xs).filter fun p => p.1).map fun p => p.2

/-- Apply a boolean index to the three per-exposure attributes
(`ptycho_2d_dataset.py:316-326,467-472`). -/
def PDataset.selectBool (d : PDataset M) (bs : List Bool) : PDataset M :=
  { d with
    translations := boolIndex bs d.translations
    patterns := boolIndex bs d.patterns
    intensities := d.intensities.map (boolIndex bs) }

/-! ### split -/

/-- `(random_selection * ceil(n / len))[:n]`, `ptycho_2d_dataset.py:307-314`; `sel` is the fixed
list in `random_selection.py` (5000 entries, its contents do not matter here). -/
def cutSelection (sel : List Bool) (n : ℕ) : List Bool :=
  ((List.replicate ((n + sel.length - 1) / sel.length) sel).flatten).take n

/-- `split`, `ptycho_2d_dataset.py:303-328`. -/
def PDataset.split (sel : List Bool) (d : PDataset M) : PDataset M × PDataset M :=
  let c := cutSelection sel d.len
  (d.selectBool c, d.selectBool (c.map not))

/-! ### pad -/

/-- The `to_pad` argument: an int, a pair or a 4-tuple. -/
inductive PadArg where
  | one (n : ℕ)
  | two (a b : ℕ)
  | four (l r t b : ℕ)

/-- Common format, `ptycho_2d_dataset.py:357-360`. -/
def PadArg.expand : PadArg → ℕ × ℕ × ℕ × ℕ
  | .one n => (n, n, n, n)
  | .two a b => (a, a, b, b)
  | .four l r t b => (l, r, t, b)

/-- `pad`, `ptycho_2d_dataset.py:331-372`. -/
def PDataset.pad (d : PDataset M) (arg : PadArg) (value : ℝ) (maskNew : Bool) : PDataset M :=
  let p := arg.expand
  { d with
    patterns := d.patterns.map (Img.pad p.1 p.2.1 p.2.2.1 p.2.2.2 value)
    mask := d.mask.map (Img.pad p.1 p.2.1 p.2.2.1 p.2.2.2 (if maskNew then false else true))
    background := d.background.map (Img.pad p.1 p.2.1 p.2.2.1 p.2.2.2 0) }

/-! ### downsample -/

/-- `mask * pattern`. -/
noncomputable def applyMask (m : Img Bool) (x : Img ℝ) : Img ℝ :=
  Img.zip (fun b v => if b then v else 0) m x

/-- `logical_not(max_pool2d(1 - mask))`. -/
def Img.allPool (f : ℕ) (m : Img Bool) : Img Bool := ((m.map not).anyPool f).map not

/-- The mask and the quantum efficiency mask after downsampling,
`ptycho_2d_dataset.py:414-432`; `None * tensor` is a TypeError. -/
noncomputable def downsampleMasks (f : ℕ) :
    Option (Img Bool) → Option (Img ℝ) → Except PyExc (Option (Img Bool) × Option (Img ℝ))
  | none, none => .ok (none, none)
  | some m, none => .ok (some (m.allPool f), none)
  | none, some _ => .error .typeError
  | some m, some q => .ok (some (m.anyPool f), some ((applyMask m q).avgPool f))

/-- The patterns after downsampling, `ptycho_2d_dataset.py:401-409`. -/
noncomputable def downsamplePatterns (f : ℕ) (m : Option (Img Bool)) (ps : List (Img ℝ)) :
    List (Img ℝ) :=
  match m with
  | some m => ps.map fun x => (applyMask m x).sumPool f
  | none => ps.map fun x => x.sumPool f

/-- `downsample`, `ptycho_2d_dataset.py:375-444`, for `1 ≤ factor` not exceeding the detector
shape (torch refuses others). Simplification: the state left behind by an error is not
modelled. -/
noncomputable def PDataset.downsample (d : PDataset M) (f : ℕ) : Except PyExc (PDataset M) :=
  (downsampleMasks f d.mask d.qeMask).bind fun mq =>
    match d.basis with
    | none => .error .typeError
    | some b => .ok { d with
        patterns := downsamplePatterns f d.mask d.patterns
        mask := mq.1
        qeMask := mq.2
        basis := some fun i j => b i j * f
        background := d.background.map (Img.sumPool f) }

/-! ### filters -/

/-- `remove_translations_mask`, `ptycho_2d_dataset.py:447-475`: the dataset afterwards and the
exception, if any. -/
def PDataset.removeMask (d : PDataset M) (bs : List Bool) : PDataset M × Option PyExc :=
  if bs.length ≠ d.translations.length then (d, some .valueError)
  else (d.selectBool (bs.map not), none)

/-- `sorted(pair)`. -/
noncomputable def sorted2 (a b : ℝ) : ℝ × ℝ := if a ≤ b then (a, b) else (b, a)

open Classical in
/-- `crop_translations`, `ptycho_2d_dataset.py:478-520`, with `roi = (r0, r1, r2, r3)`. -/
noncomputable def PDataset.crop (d : PDataset M) (r0 r1 r2 r3 : ℝ) : PDataset M × Option PyExc :=
  let xs := sorted2 r0 r1
  let ys := sorted2 r2 r3
  let inside := d.translations.map fun t =>
    decide (xs.1 ≤ t.1 ∧ t.1 ≤ xs.2 ∧ t.2.1 ≤ ys.2 ∧ ys.1 ≤ t.2.1)
  if inside.any id then d.removeMask (inside.map not) else (d, some .valueError)

/-! ### indexing -/

/-- An index: a Python int (possibly negative), a list of ints, or a slice `a:b` with
non-negative bounds. -/
inductive PyIndex where
  | int (i : ℤ)
  | list (l : List ℤ)
  | slice (a b : ℕ)

/-- Tensor lookup with a Python int: negative indices count from the end, others raise
IndexError. -/
def pyGet {α : Type} (xs : List α) (i : ℤ) : Except PyExc α :=
  if 0 ≤ i then (match xs[i.toNat]? with | some x => .ok x | none => .error .indexError)
  else if -(xs.length : ℤ) ≤ i then
    (match xs[(xs.length + i).toNat]? with | some x => .ok x | none => .error .indexError)
  else .error .indexError

/-- Tensor indexing; the result is a single entry (`inl`) or a stack (`inr`). -/
def pyIndex {α : Type} (xs : List α) : PyIndex → Except PyExc (α ⊕ List α)
  | .int i => (pyGet xs i).map .inl
  | .list l => (l.mapM (pyGet xs)).map .inr
  | .slice a b => .ok (.inr (pySlice xs a b))

/-- `__getitem__`, `base.py:139-153`, with `_load`, `ptycho_2d_dataset.py:86-113`. `conv` and
`convP` are the `.to(...)` of the last `get_as` on translations and patterns; the index itself is
a Python object and stays as it is. -/
def PDataset.getItem {T P : Type} (conv : ℝ × ℝ × ℝ → T) (convP : Img ℝ → P) (d : PDataset M)
    (i : PyIndex) : Except PyExc ((PyIndex × (T ⊕ List T)) × (P ⊕ List P)) :=
  (pyIndex d.translations i).bind fun t =>
    (pyIndex d.patterns i).map fun p =>
      ((i, t.map conv (List.map conv)), p.map convP (List.map convP))

end Cdtools
