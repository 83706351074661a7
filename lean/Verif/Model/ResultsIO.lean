/-
`save_results` and `from_results_dict` of `MultislicePtycho` (`models/multislice_ptycho.py:15-187,905-983`),
`Bragg2DPtycho` (`models/bragg_2d_ptycho.py:60-263,708-782`) and `SimplePtycho` (`models/simple_ptycho.py:13-48,136-188`),
with `CDIModel.save_results` and `_load_results_dict` (`models/base.py:169-236`), at the level of which entries the state
dictionary has, their shapes, and where their values come from.

The constructors of the three models differ only in the entries they register, so that the constructor is defined once,
over a description of the entries. The numerical values that a constructor computes (casts, normalizations, maps,
propagators) are an arbitrary function of its arguments.
-/
import Verif.Model.FancyResults

namespace Cdtools.ResultsIO
open FancyIO (ParamArr)

/-- How a constructor fills an entry of the state dictionary. -/
inductive Source (K : Type)
  /-- A required argument; leaving it out raises the exception. -/
  | required (e : PyExc)
  /-- An argument with a default. -/
  | withDefault
  /-- Not registered if the argument is None. -/
  | optional
  /-- The argument, or (if None) another argument. -/
  | orCopy (k : K)
  /-- Computed from another argument, with the shape `f`. -/
  | derived (k : K) (f : List ℕ → List ℕ)
  /-- The argument, or (if None) computed from another one with the shape `f`. -/
  | orDerived (k : K) (f : List ℕ → List ℕ)
  /-- Computed from another argument if the flag is set, otherwise not registered. -/
  | derivedIf (flag k : K) (f : List ℕ → List ℕ)

/-- The entries of a model class. -/
structure Class (K : Type) where
  /-- All entries, in the order in which missing arguments are noticed. -/
  keys : List K
  source : K → Source K
  /-- The arguments that `from_results_dict` passes on from the state dictionary. -/
  passed : K → Bool
  /-- Entries in which the number of modes may change after construction. -/
  flexible : K → Bool
  /-- The exception raised by `save_results`, given whether there is a dataset and which entries there are. -/
  saveError : Bool → (K → Bool) → Option PyExc
  /-- Whether `from_results_dict` passes on the name of the loss function. -/
  passesLoss : Bool

/-- A state dictionary: the registered entries. -/
abbrev StateDict (K D : Type) := K → Option (ParamArr D)

/-- What the constructor does to the values: `value key args` is the value stored under `key`; `dflt` are the default
arguments; `truth` is Python's `bool`. -/
structure Ctor (K D : Type) where
  value : K → (K → Option (ParamArr D)) → D
  dflt : K → ParamArr D
  truth : ParamArr D → Bool

variable {K D V : Type}

/-- The entry registered under `k`: its shape according to the source, its value computed by the constructor. -/
def Ctor.entry (C : Ctor K D) (cls : Class K) (args : K → Option (ParamArr D)) (k : K) : Option (ParamArr D) :=
  let store (shape : List ℕ) : ParamArr D := ⟨shape, C.value k args⟩
  match cls.source k with
  | .required _ => (args k).map fun a => store a.shape
  | .withDefault => some (store ((args k).getD (C.dflt k)).shape)
  | .optional => (args k).map fun a => store a.shape
  | .orCopy k' => ((args k).orElse fun _ => args k').map fun a => store a.shape
  | .derived k' f => (args k').map fun a => store (f a.shape)
  | .orDerived k' f =>
    match args k with
    | some a => some (store a.shape)
    | none => (args k').map fun a => store (f a.shape)
  | .derivedIf flag k' f =>
    if C.truth ((args flag).getD (C.dflt flag)) then (args k').map fun a => store (f a.shape) else none

/-- The exception for a missing required argument. -/
def Class.missing (cls : Class K) (args : K → Option (ParamArr D)) (k : K) : Option PyExc :=
  match cls.source k, args k with
  | .required e, none => some e
  | _, _ => none

/-- The constructor: the first missing required argument raises its exception. -/
def Ctor.init (C : Ctor K D) (cls : Class K) (args : K → Option (ParamArr D)) : Except PyExc (StateDict K D) :=
  match cls.keys.findSome? (cls.missing args) with
  | some e => .error e
  | none => .ok (C.entry cls args)

/-- A model: its state dictionary, its loss and its history. `view` stands for what is not in the state dictionary
(units, view crop, plotting options). -/
structure Model (K D V : Type) where
  sd : StateDict K D
  loss : LossKind
  lossHistory : List ℝ
  epoch : ℕ
  trainingHistory : String
  view : V

/-- The results dictionary, the part that is read back. -/
structure Results (K D : Type) where
  stateDict : StateDict K D
  lossFunction : List Char
  lossHistory : List ℝ
  epoch : ℕ
  trainingHistory : String

/-- `save_results(dataset)`. -/
def saveResults (cls : Class K) (dataset : Bool) (M : Model K D V) : Except PyExc (Results K D) :=
  match cls.saveError dataset fun k => (M.sd k).isSome with
  | some e => .error e
  | none => .ok ⟨M.sd, lossFunctionName M.loss, M.lossHistory, M.epoch, M.trainingHistory⟩

/-- `load_state_dict(sd, strict=False)`: entries that the model has are overwritten, different shapes are a RuntimeError,
other entries are ignored. -/
def loadParams (cls : Class K) (model sd : StateDict K D) : Except PyExc (StateDict K D) :=
  if cls.keys.all fun k => match model k, sd k with
    | some a, some b => a.shape = b.shape
    | _, _ => true
  then .ok fun k => match model k, sd k with
    | some _, some b => some b
    | some a, none => some a
    | none, _ => none
  else .error .runtimeError

/-- `from_results_dict`. -/
def fromResultsDict (cls : Class K) (C : Ctor K D) (view : V) (r : Results K D) : Except PyExc (Model K D V) :=
  match C.init cls fun k => if cls.passed k then r.stateDict k else none with
  | .error e => .error e
  | .ok s =>
    match if cls.passesLoss then lossOf r.lossFunction else .ok .amplitudeMse with
    | .error e => .error e
    | .ok l =>
      match loadParams cls s r.stateDict with
      | .error e => .error e
      | .ok s' => .ok ⟨s', l, r.lossHistory, r.epoch, r.trainingHistory, view⟩

/-! ### MultislicePtycho -/

/-- The entries of a `MultislicePtycho` model. -/
inductive MKey
  | wavelength | detBasis | objBasis | probe | obj | interslicePropagator | background | detDistance | detCorner
  | minTranslation | exponentiateObj | probeBasis | surfaceNormal | saturation | fourierProbe | mask | probeNorm | weights
  | translationOffsets | translationScale | probeSupport | oversampling | simulateProbeTranslation | iPhase | jPhase
  | simulateFinitePixels | originalTranslations
  deriving DecidableEq

/-- `MultislicePtycho.__init__`, `multislice_ptycho.py:15-187`. -/
def mSource : MKey → Source MKey
  | .wavelength | .detBasis | .objBasis | .probe | .obj | .interslicePropagator => .required .typeError
  | .background => .required .notImplementedError
  | .detDistance | .detCorner | .saturation | .mask | .weights | .translationOffsets | .originalTranslations => .optional
  | .minTranslation | .exponentiateObj | .surfaceNormal | .fourierProbe | .translationScale | .oversampling
  | .simulateProbeTranslation | .simulateFinitePixels => .withDefault
  | .probeBasis => .orCopy .objBasis
  | .probeNorm => .derived .probe fun _ => []
  | .probeSupport => .orDerived .probe List.tail
  | .iPhase | .jPhase => .derivedIf .simulateProbeTranslation .probe FancyIO.lastTwo

/-- `MultislicePtycho`: `from_results_dict`, `multislice_ptycho.py:905-940`, and `save_results`, 943-983. -/
def multisliceClass : Class MKey where
  keys := [.wavelength, .detBasis, .objBasis, .probe, .obj, .interslicePropagator, .background, .detDistance, .detCorner,
    .minTranslation, .exponentiateObj, .probeBasis, .surfaceNormal, .saturation, .fourierProbe, .mask, .probeNorm, .weights,
    .translationOffsets, .translationScale, .probeSupport, .oversampling, .simulateProbeTranslation, .iPhase, .jPhase,
    .simulateFinitePixels, .originalTranslations]
  source := mSource
  passed
    | .probeNorm | .probeSupport | .iPhase | .jPhase => false
    | _ => true
  flexible
    | .probe | .weights => true
    | _ => false
  saveError dataset has :=
    if ¬ dataset ∧ ¬ has .originalTranslations then some .valueError
    else if ¬ has .weights then some .attributeError else none
  passesLoss := true

/-! ### Bragg2DPtycho -/

/-- The entries of a `Bragg2DPtycho` model. -/
inductive BKey
  | wavelength | detBasis | objBasis | probe | obj | background | detDistance | detCorner
  | minTranslation | medianPropagation | probeBasis | surfaceNormal | saturation | mask | probeNorm | probeSupport | weights
  | translationOffsets | translationScale | oversampling | propagateProbe | correctTilt | kMap | intensityMap | propDir
  | universalPropagator | originalTranslations
  deriving DecidableEq

/-- `Bragg2DPtycho.__init__`, `bragg_2d_ptycho.py:60-263`. The maps of the tilt correction have the shape of the
background (simplification: times the oversampling). -/
def bSource : BKey → Source BKey
  | .wavelength | .detBasis | .objBasis | .probe | .obj => .required .typeError
  | .background => .required .notImplementedError
  | .detDistance | .detCorner | .saturation | .mask | .weights | .translationOffsets | .originalTranslations => .optional
  | .minTranslation | .medianPropagation | .translationScale | .oversampling | .propagateProbe | .correctTilt => .withDefault
  | .probeBasis => .orCopy .objBasis
  | .surfaceNormal => .derived .objBasis fun _ => [3]
  | .probeNorm => .derived .probe fun _ => []
  | .probeSupport => .orDerived .probe List.tail
  | .kMap => .derivedIf .correctTilt .background (· ++ [2])
  | .intensityMap => .derivedIf .correctTilt .background id
  | .propDir => .derived .wavelength fun _ => [3]
  | .universalPropagator => .derived .probe FancyIO.lastTwo

/-- `Bragg2DPtycho`: `from_results_dict`, `bragg_2d_ptycho.py:708-740`, and `save_results`, 743-782. -/
def braggClass : Class BKey where
  keys := [.wavelength, .detBasis, .objBasis, .probe, .obj, .background, .detDistance, .detCorner,
    .minTranslation, .medianPropagation, .probeBasis, .surfaceNormal, .saturation, .mask, .probeNorm, .probeSupport, .weights,
    .translationOffsets, .translationScale, .oversampling, .propagateProbe, .correctTilt, .kMap, .intensityMap, .propDir,
    .universalPropagator, .originalTranslations]
  source := bSource
  passed
    | .surfaceNormal | .probeNorm | .probeSupport | .kMap | .intensityMap | .propDir | .universalPropagator => false
    | _ => true
  flexible
    | .probe => true
    | _ => false
  saveError dataset has :=
    if ¬ dataset ∧ ¬ has .originalTranslations then some .valueError
    else if ¬ has .weights then some .attributeError else none
  passesLoss := true

/-! ### SimplePtycho -/

/-- The entries of a `SimplePtycho` model. -/
inductive SKey
  | wavelength | probeBasis | probe | obj | minTranslation | probeNorm
  deriving DecidableEq

/-- `SimplePtycho.__init__`, `simple_ptycho.py:13-48`. -/
def sSource : SKey → Source SKey
  | .wavelength | .probeBasis | .probe | .obj => .required .typeError
  | .minTranslation => .withDefault
  | .probeNorm => .derived .probe fun _ => []

/-- `SimplePtycho`: `save_results`, `simple_ptycho.py:136-156`, and `from_results_dict`, 158-188, which does not read the
loss. -/
def simpleClass : Class SKey where
  keys := [.wavelength, .probeBasis, .probe, .obj, .minTranslation, .probeNorm]
  source := sSource
  passed
    | .probeNorm => false
    | _ => true
  flexible
    | .probe => true
    | _ => false
  saveError _ _ := none
  passesLoss := false

end Cdtools.ResultsIO
