/-
`models/rpi.py`: the randomized probe imaging model.

Simplifications: objects no larger than the probe (as in `Model/Interactions.lean`); the random phases and the result of
the spectral initialization are arbitrary; the zero of `t.log` (NaN) is not modelled, the theorems exclude it; plotting
is not modelled. Reals and complex numbers stand for floating point.
-/
import Verif.Model.FancyResults

namespace Cdtools
open Finset

/-! ### Broadcasting -/

/-- Two dimensions broadcast to one. -/
def bcDim (x y : ℕ) : Option ℕ := if x = y then some x else if x = 1 then some y else if y = 1 then some x else none

/-- Shapes with the last dimension first. -/
def bcRev : List ℕ → List ℕ → Option (List ℕ)
  | [], ys => some ys
  | xs, [] => some xs
  | x :: xs, y :: ys => match bcDim x y, bcRev xs ys with
    | some d, some r => some (d :: r)
    | _, _ => none

/-- The shape of an elementwise operation on arrays of two shapes; `none`: RuntimeError. -/
def broadcastShapes (xs ys : List ℕ) : Option (List ℕ) := (bcRev xs.reverse ys.reverse).map List.reverse

/-- A pixel of a broadcast image. -/
def Img.bget {α : Type} (a : Img α) (i j : ℕ) : α := a.px (if a.h = 1 then 0 else i) (if a.w = 1 then 0 else j)

/-- An elementwise operation on two images, with broadcasting. -/
def Img.bzip {α β γ : Type} (f : α → β → γ) (a : Img α) (b : Img β) : Except PyExc (Img γ) :=
  match bcDim a.h b.h, bcDim a.w b.w with
  | some h, some w => .ok ⟨h, w, fun i j => f (a.bget i j) (b.bget i j)⟩
  | _, _ => .error .runtimeError

/-! ### The forward model -/

/-- An `RPI` model with `k` probe modes on an `n × m` grid and `l` object modes on an `a × b` grid. `support` is stored as
an integer array, `background` is the square root of the background. -/
structure Rpi (n m a b k l : ℕ) where
  probe : Fin k → Wave n m
  weights : Matrix (Fin k) (Fin k) ℂ
  obj : Fin l → Wave a b
  support : ZMod a → ZMod b → ℤ
  exponentiate : Bool
  phaseOnly : Bool
  background : Img ℝ
  saturation : Option ℝ
  oversampling : ℕ

variable {n m a b k l : ℕ} [NeZero n] [NeZero m] [NeZero a] [NeZero b]

/-- `prs`, `rpi.py:494`. -/
def Rpi.mixedProbes (M : Rpi n m a b k l) (i : Fin k) : Wave n m := fun x y => ∑ j, M.weights i j * M.probe j x y

/-- `obj`, `rpi.py:496-502`. -/
noncomputable def Rpi.transmission (M : Rpi n m a b k l) (o : Fin l) : Wave a b := fun x y =>
  if M.exponentiate then
    if M.phaseOnly then Complex.exp (Complex.I * ((M.obj o x y).re : ℂ)) else Complex.exp (Complex.I * M.obj o x y)
  else M.obj o x y

/-- The exit waves of one exposure, `rpi.py:505-517`: for every probe mode in turn, every object mode. -/
noncomputable def Rpi.exitWaves (M : Rpi n m a b k l) : List (Wave n m) :=
  (List.ofFn fun i : Fin k => List.ofFn fun o : Fin l =>
    rpiInteraction (M.mixedProbes i) fun x y => (M.support x y : ℂ) * M.transmission o x y).flatten

/-- `measurement(forward_propagator(interaction(index)))` for one exposure, `rpi.py:487-555`, with
`quadratic_background` and `incoherent_sum` (`measurements.py:84-219`). -/
noncomputable def Rpi.pattern (M : Rpi n m a b k l) : Except PyExc (Img ℝ) :=
  let modes : List (ℕ → ℕ → ℂ) := M.exitWaves.map fun w => fun x y => farField w x y
  let raw := readOut { oversampling := M.oversampling } (sumModes n m modes)
  (Img.bzip (fun x b => x + b ^ 2) raw M.background).map (saturate M.saturation)

/-- The `index` argument of `forward`: a number, or a list or tensor of `N` of them. -/
inductive RpiIndex
  | one (i : ℕ)
  | many (is : List ℕ)

/-- The simulated data: a pattern, or a `1 × N` array of patterns (`output.unsqueeze(0).repeat(1, N, 1, 1, 1)`,
`rpi.py:523-529`, has two leading axes). -/
inductive RpiData
  | pattern (p : Img ℝ)
  | grid (p : List (List (Img ℝ)))

/-- `forward(index, *args)`. -/
noncomputable def Rpi.forward (M : Rpi n m a b k l) (index : RpiIndex) : Except PyExc RpiData :=
  M.pattern.map fun p => match index with
    | .one _ => .pattern p
    | .many is => .grid [is.map fun _ => p]

/-- The shape of the simulated data, for a background of any shape (`measurements.py:131-136,205-208`): pooling to nothing
and shapes that cannot be broadcast are RuntimeError. -/
def rpiSimShape (n m s : ℕ) (count : Option ℕ) (bgShape : List ℕ) : Except PyExc (List ℕ) :=
  if s ≠ 1 ∧ (n / s = 0 ∨ m / s = 0) then .error .runtimeError
  else
    let raw := match count with
      | none => [n / s, m / s]
      | some N => [1, N, n / s, m / s]
    match broadcastShapes raw bgShape with
    | some sh => .ok sh
    | none => .error .runtimeError

/-- `regularizer`, `rpi.py:561-566`; a missing second factor is IndexError when there are several object modes. -/
noncomputable def Rpi.regularizer (M : Rpi n m a b k (l + 1)) (factors : List ℝ) : Except PyExc ℝ :=
  let modePow (o : Fin (l + 1)) : ℝ := ∑ x, ∑ y, ‖M.obj o x y‖ ^ 2
  match factors with
  | [] => .error .indexError
  | f0 :: rest =>
    if l = 0 then .ok (f0 * modePow 0)
    else match rest with
      | [] => .error .indexError
      | f1 :: _ => .ok (f0 * modePow 0 + f1 * ∑ o : Fin l, modePow o.succ)

/-! ### Construction -/

/-- The basis of the object grid, `rpi.py:85-88`. -/
noncomputable def rpiObjBasis (n m a b : ℕ) (probeBasis : Matrix (Fin 3) (Fin 2) ℝ) : Matrix (Fin 3) (Fin 2) ℝ :=
  Matrix.of fun i j => probeBasis i j * (![(m : ℝ) / b, (n : ℝ) / a] j)

/-- `self.background` when none is given, `rpi.py:128-130`: one value on the grid of the probe. -/
noncomputable def rpiDefaultBackground (n m : ℕ) : Img ℝ := ⟨n, m, fun _ _ => 1e-6⟩

/-- The initializations. -/
inductive RpiInit | random | uniform | spectral
  deriving DecidableEq

/-- `init_obj`, `rpi.py:375-400`: the choice. `pattern`: whether a pattern was supplied. -/
def rpiInitOf (name : List Char) (pattern : Bool) : Except PyExc RpiInit :=
  let s := normalizeName name
  if s = "random".toList then .ok .random
  else if s = "uniform".toList then .ok .uniform
  else if s = "spectral".toList then (if pattern then .ok .spectral else .error .keyError)
  else .error .keyError

/-- The initial guess, `rpi.py:424-484`: `u` are the random numbers in `[0, 1)`, `spec` the spectral solution. -/
noncomputable def rpiGuess (i : RpiInit) (u : Fin l → ZMod a → ZMod b → ℝ) (spec : Fin l → Wave a b) : Fin l → Wave a b :=
  match i with
  | .random => fun o x y => Complex.exp (2 * Complex.I * Real.pi * u o x y)
  | .uniform => fun _ _ _ => 1
  | .spectral => spec

/-- The object stored by `from_dataset` and `from_calibration`, `rpi.py:289-296,365-371`. -/
noncomputable def rpiStore (exponentiate phaseOnly : Bool) (guess : Fin l → Wave a b) : Fin l → Wave a b := fun o x y =>
  let z := if exponentiate then -Complex.I * Complex.log (guess o x y) else guess o x y
  if phaseOnly then (z.re : ℂ) else z

/-- The low-resolution probe amplitude used for the support, `rpi.py:253-261`: the centre of the spectrum of the root sum
squared amplitude of the probe modes, cut out by `[pad0l:-pad0r, pad1l:-pad1r]`. A pad of zero makes the slice empty,
and `t.max` of nothing is RuntimeError. For objects no larger than the probe. -/
noncomputable def rpiLowRes (a b : ℕ) [NeZero a] [NeZero b] (probe : Fin k → Wave n m) :
    Except PyExc (ZMod a → ZMod b → ℝ) :=
  let amp : Wave n m := fun x y => (Real.sqrt (∑ i, ‖probe i x y‖ ^ 2) : ℂ)
  let p0 := (n - a) / 2
  let p1 := (m - b) / 2
  if n - a - p0 = 0 ∨ m - b - p1 = 0 then .error .runtimeError
  else
    let cut : Wave a b := fun x y => farField amp ((p0 + x.val : ℕ) : ZMod n) ((p1 + y.val : ℕ) : ZMod m)
    .ok fun x y => ‖inverseFarField cut x y‖

/-- The largest value of an image. -/
noncomputable def imgMax (f : ZMod a → ZMod b → ℝ) : ℝ :=
  (univ : Finset (ZMod a × ZMod b)).sup' univ_nonempty fun p => f p.1 p.2

/-- `scipy.ndimage.binary_dilation` with the default structuring element: a pixel and its four neighbours, without
wrapping around. -/
def dilate (s : ZMod a → ZMod b → Prop) (x : ZMod a) (y : ZMod b) : Prop :=
  s x y ∨ (∃ x' : ZMod a, (x'.val + 1 = x.val ∨ x.val + 1 = x'.val) ∧ s x' y) ∨
    ∃ y' : ZMod b, (y'.val + 1 = y.val ∨ y.val + 1 = y'.val) ∧ s x y'

/-- `obj_support`, `rpi.py:263-264`. -/
noncomputable def rpiSupport (threshold : ℝ) (lowRes : ZMod a → ZMod b → ℝ) : ZMod a → ZMod b → Prop :=
  dilate fun x y => lowRes x y > imgMax lowRes * threshold

/-- `det_geo['basis'] = wavelength / probe_basis`, `rpi.py:346-348`: elementwise; `none` for a division by zero
(infinity). -/
noncomputable def calibrationDetBasis (wavelength : ℝ) (probeBasis : Matrix (Fin 3) (Fin 2) ℝ) :
    Fin 3 → Fin 2 → Option ℝ := fun i j =>
  if probeBasis i j = 0 then none else some (wavelength / probeBasis i j)

/-- The shapes of the background and of the mask in `from_calibration`, `rpi.py:327-336`: defaults have the shape of the
whole probe stack. -/
def calibrationShape (k n m : ℕ) (given : Option (List ℕ)) : List ℕ := given.getD [k, n, m]

/-- `patterns.masked_select(mask)`: how many values are selected by a mask of ones, in the losses and normalizers
(`losses.py:72-80`); RuntimeError if the shapes cannot be broadcast. -/
def maskedCount (patternShape maskShape : List ℕ) : Except PyExc ℕ :=
  match broadcastShapes patternShape maskShape with
  | some sh => .ok (sh.foldl (· * ·) 1)
  | none => .error .runtimeError

/-! ### Saving and loading -/

namespace RpiIO
open Cdtools.FancyIO (ParamArr)

/-- The entries of the state dictionary of an `RPI` model. -/
inductive Key
  | wavelength | detBasis | detDistance | detCorner | probeBasis | objBasis | saturation | mask | probe
  | exponentiateObj | phaseOnly | obj | weights | background | objSupport | oversampling | propagationDistance | propDir
  deriving DecidableEq

/-- A state dictionary. -/
abbrev StateDict (D : Type) := Key → Option (ParamArr D)

/-- What the constructor does to values: casts, computed bases, defaults. -/
structure Ctor (D : Type) where
  T : Key → ParamArr D → D
  dflt : Key → ParamArr D
  objBasis : ParamArr D → ParamArr D → ParamArr D → D
  eye : ℕ → D

variable {D : Type}

/-- A registered entry. -/
def Ctor.entry (C : Ctor D) (key : Key) (x : ParamArr D) : ParamArr D := ⟨x.shape, C.T key x⟩

/-- `obj_guess[None, :, :]` for two-dimensional objects, `rpi.py:116-118`. -/
def withModes (shape : List ℕ) : List ℕ := if shape.length = 2 then 1 :: shape else shape

/-- `RPI.__init__`, `rpi.py:41-170`: the state dictionary. `args key` is the argument for the entry; missing required
arguments are TypeError, probes without a mode axis are not modelled. -/
def Ctor.init (C : Ctor D) (args : Key → Option (ParamArr D)) : Except PyExc (StateDict D) :=
  match args .wavelength, args .detBasis, args .probeBasis, args .probe, args .obj with
  | some wl, some db, some pb, some pr, some o =>
    .ok fun
      | .wavelength => some (C.entry .wavelength wl)
      | .detBasis => some (C.entry .detBasis db)
      | .detDistance => (args .detDistance).map (C.entry .detDistance)
      | .detCorner => (args .detCorner).map (C.entry .detCorner)
      | .probeBasis => some (C.entry .probeBasis pb)
      | .objBasis => some ⟨pb.shape, C.objBasis pb pr o⟩
      | .saturation => (args .saturation).map (C.entry .saturation)
      | .mask => (args .mask).map (C.entry .mask)
      | .probe => some (C.entry .probe pr)
      | .exponentiateObj => some (C.entry .exponentiateObj ((args .exponentiateObj).getD (C.dflt .exponentiateObj)))
      | .phaseOnly => some (C.entry .phaseOnly ((args .phaseOnly).getD (C.dflt .phaseOnly)))
      | .obj => some ⟨withModes o.shape, C.T .obj o⟩
      | .weights => some ⟨[pr.shape.headD 0, pr.shape.headD 0], C.eye (pr.shape.headD 0)⟩
      | .background => some (match args .background with
          | some bg => C.entry .background bg
          | none => ⟨pr.shape.tail, (C.dflt .background).data⟩)
      | .objSupport => some (match args .objSupport with
          | some s => C.entry .objSupport s
          | none => ⟨(withModes o.shape).tail, (C.dflt .objSupport).data⟩)
      | .oversampling => some (C.entry .oversampling ((args .oversampling).getD (C.dflt .oversampling)))
      | .propagationDistance =>
        some (C.entry .propagationDistance ((args .propagationDistance).getD (C.dflt .propagationDistance)))
      | .propDir => some (C.dflt .propDir)
  | _, _, _, _, _ => .error .typeError

/-- A model: the state dictionary, whether the weights are optimized, the loss, the history. -/
structure RpiModel (D : Type) where
  sd : StateDict D
  trainWeights : Bool
  loss : LossKind
  lossHistory : List ℝ
  epoch : ℕ
  trainingHistory : String

/-- The results dictionary, the part that is read back. -/
structure Results (D : Type) where
  stateDict : StateDict D
  lossFunction : List Char
  lossHistory : List ℝ
  epoch : ℕ
  trainingHistory : String

/-- `save_results`, `rpi.py:660-690`. -/
def saveResults (M : RpiModel D) : Results D :=
  ⟨M.sd, lossFunctionName M.loss, M.lossHistory, M.epoch, M.trainingHistory⟩

/-- The constructor arguments of `from_results_dict`, `rpi.py:634-655`: no support, weight matrix or propagation
distance. -/
def resultArgs (sd : StateDict D) : Key → Option (ParamArr D)
  | .objSupport => none
  | .propagationDistance => none
  | .objBasis => none
  | .weights => none
  | .propDir => none
  | key => sd key

/-- All keys. -/
def allKeys : List Key :=
  [.wavelength, .detBasis, .detDistance, .detCorner, .probeBasis, .objBasis, .saturation, .mask, .probe,
   .exponentiateObj, .phaseOnly, .obj, .weights, .background, .objSupport, .oversampling, .propagationDistance, .propDir]

/-- `load_state_dict(sd, strict=False)`. -/
def loadParams (model sd : StateDict D) : Except PyExc (StateDict D) :=
  if allKeys.all fun key => match model key, sd key with
    | some x, some y => x.shape = y.shape
    | _, _ => true
  then .ok fun key => match model key, sd key with
    | some _, some y => some y
    | some x, none => some x
    | none, _ => none
  else .error .runtimeError

/-- `from_results_dict`, `rpi.py:633-657`, with `_load_results_dict`. -/
def fromResultsDict (C : Ctor D) (r : Results D) : Except PyExc (RpiModel D) :=
  match C.init (resultArgs r.stateDict), lossOf r.lossFunction with
  | .error e, _ => .error e
  | .ok _, .error e => .error e
  | .ok s, .ok l =>
    match loadParams s r.stateDict with
    | .error e => .error e
    | .ok s' => .ok ⟨s', false, l, r.lossHistory, r.epoch, r.trainingHistory⟩

end RpiIO

end Cdtools
