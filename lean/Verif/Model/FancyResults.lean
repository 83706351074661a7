/-
`FancyPtycho.__init__` (`models/fancy_ptycho.py:16-240`), `save_results` (1199-1234) and
`from_results_dict` (1238-1302), `CDIModel.save_results` and `_load_results_dict`
(`models/base.py:169-236`), at the level of which entries the state dictionary has, their shapes, and where
their values come from.

The numerical values that the constructor computes (casts, normalization of the probe, phase ramps) are an
arbitrary function `T`; `fancyInit` in `Model/FancyPtycho.lean` has them for the probe and the offsets.
-/
import Verif.Model.FancyPtycho

namespace Cdtools.FancyIO

/-- The entries of the state dictionary of a `FancyPtycho` model (the names of its parameters and buffers). -/
inductive Key
  | wavelength | detBasis | detDistance | detCorner | minTranslation | objBasis | probeBasis | surfaceNormal
  | saturation | fourierProbe | exponentiateObj | phaseOnly | nearField | asp | invAsp | mask | qeMask
  | probeNorm | probe | obj | background | weights | translationOffsets | probeFourierShifts
  | translationScale | probeSupport | oversampling | simulateProbeTranslation | iPhase | jPhase
  | simulateFinitePixels | originalTranslations
  deriving DecidableEq

/-- An array: its shape and its content. -/
structure ParamArr (D : Type) where
  shape : List ℕ
  data : D

/-- A state dictionary: the registered entries. -/
abbrev StateDict (D : Type) := Key → Option (ParamArr D)

/-- What the constructor does to the values: `T key a` for the value stored under `key`, computed from the
argument `a` (a cast; a division for the probe and the offsets); `dflt` for the default arguments; `truth` is
Python's `bool`. -/
structure Ctor (D : Type) where
  T : Key → ParamArr D → D
  dflt : Key → ParamArr D
  truth : ParamArr D → Bool

variable {D : Type}

/-- A registered entry: the value computed from an argument, with its shape. -/
def Ctor.entry (C : Ctor D) (key : Key) (a : ParamArr D) : ParamArr D := ⟨a.shape, C.T key a⟩

/-- The last two dimensions. -/
def lastTwo (shape : List ℕ) : List ℕ := shape.drop (shape.length - 2)

/-- `FancyPtycho.__init__`. `args key` is the argument that goes into the entry `key`, `none` if it is None or
left out (`args .originalTranslations` is `translations`). Missing required arguments are TypeError, a
missing background NotImplementedError (line 158); probe Fourier shifts without translation offsets are
`t.as_tensor(None)` (line 188). The shape of `probe_fourier_shifts` is that of the translation offsets. -/
def Ctor.init (C : Ctor D) (args : Key → Option (ParamArr D)) : Except PyExc (StateDict D) :=
  match args .wavelength, args .detBasis, args .objBasis, args .probe, args .obj with
  | some wl, some db, some ob, some pr, some o =>
    match args .background with
    | none => .error .notImplementedError
    | some bg =>
      if (args .probeFourierShifts).isSome ∧ args .translationOffsets = none then .error .typeError
      else
        let withDefault (k : Key) : Option (ParamArr D) := some (C.entry k ((args k).getD (C.dflt k)))
        let optional (k : Key) : Option (ParamArr D) := (args k).map (C.entry k)
        let ramps := C.truth ((args .simulateProbeTranslation).getD (C.dflt .simulateProbeTranslation)) ||
          (args .probeFourierShifts).isSome
        .ok fun
          | .wavelength => some (C.entry .wavelength wl)
          | .detBasis => some (C.entry .detBasis db)
          | .objBasis => some (C.entry .objBasis ob)
          | .probeBasis => some (C.entry .probeBasis ((args .probeBasis).getD ob))
          | .probe => some (C.entry .probe pr)
          | .probeNorm => some ⟨[], C.T .probeNorm pr⟩
          | .obj => some (C.entry .obj o)
          | .background => some (C.entry .background bg)
          | .probeSupport =>
            some (match args .probeSupport with
              | some s => C.entry .probeSupport s
              | none => ⟨pr.shape.tail, C.T .probeSupport pr⟩)
          | .iPhase => if ramps then some ⟨lastTwo pr.shape, C.T .iPhase pr⟩ else none
          | .jPhase => if ramps then some ⟨lastTwo pr.shape, C.T .jPhase pr⟩ else none
          | .probeFourierShifts =>
            if (args .probeFourierShifts).isSome then (args .translationOffsets).map (C.entry .probeFourierShifts)
            else none
          | .minTranslation => withDefault .minTranslation
          | .surfaceNormal => withDefault .surfaceNormal
          | .fourierProbe => withDefault .fourierProbe
          | .exponentiateObj => withDefault .exponentiateObj
          | .phaseOnly => withDefault .phaseOnly
          | .nearField => withDefault .nearField
          | .translationScale => withDefault .translationScale
          | .oversampling => withDefault .oversampling
          | .simulateProbeTranslation => withDefault .simulateProbeTranslation
          | .simulateFinitePixels => withDefault .simulateFinitePixels
          | .detDistance => optional .detDistance
          | .detCorner => optional .detCorner
          | .saturation => optional .saturation
          | .asp => optional .asp
          | .invAsp => optional .invAsp
          | .mask => optional .mask
          | .qeMask => optional .qeMask
          | .weights => optional .weights
          | .translationOffsets => optional .translationOffsets
          | .originalTranslations => optional .originalTranslations
  | _, _, _, _, _ => .error .typeError

/-- A model: its state dictionary, its loss and its history. `view` stands for what is not in the state
dictionary (units, view crop, plotting options). -/
structure FancyModel (D V : Type) where
  sd : StateDict D
  loss : LossKind
  lossHistory : List ℝ
  epoch : ℕ
  trainingHistory : String
  view : V

/-- The results dictionary, the part that is read back. -/
structure Results (D : Type) where
  stateDict : StateDict D
  lossFunction : List Char
  lossHistory : List ℝ
  epoch : ℕ
  trainingHistory : String

/-- `save_results(dataset)`, `fancy_ptycho.py:1199-1234`: `corrected_translations` needs a dataset or stored
translations (ValueError), the weights are detached without a check (AttributeError). -/
def saveResults {V : Type} (dataset : Bool) (M : FancyModel D V) : Except PyExc (Results D) :=
  if ¬ dataset ∧ M.sd .originalTranslations = none then .error .valueError
  else if M.sd .weights = none then .error .attributeError
  else .ok ⟨M.sd, lossFunctionName M.loss, M.lossHistory, M.epoch, M.trainingHistory⟩

/-- The constructor arguments of `from_results_dict`, `fancy_ptycho.py:1267-1300`: the probe norm, the probe
support and the phase ramps are not passed. -/
def resultArgs (sd : StateDict D) : Key → Option (ParamArr D)
  | .probeNorm => none
  | .probeSupport => none
  | .iPhase => none
  | .jPhase => none
  | k => sd k

/-- `load_state_dict(sd, strict=False)`: entries that the model has are overwritten, different shapes are a
RuntimeError, other entries are ignored. -/
def loadParams [DecidableEq Key] (model sd : StateDict D) (keys : List Key) : Except PyExc (StateDict D) :=
  if keys.all fun k => match model k, sd k with
    | some a, some b => a.shape = b.shape
    | _, _ => true
  then .ok fun k => match model k, sd k with
    | some _, some b => some b
    | some a, none => some a
    | none, _ => none
  else .error .runtimeError

/-- All keys. -/
def allKeys : List Key :=
  [.wavelength, .detBasis, .detDistance, .detCorner, .minTranslation, .objBasis, .probeBasis, .surfaceNormal,
   .saturation, .fourierProbe, .exponentiateObj, .phaseOnly, .nearField, .asp, .invAsp, .mask, .qeMask,
   .probeNorm, .probe, .obj, .background, .weights, .translationOffsets, .probeFourierShifts,
   .translationScale, .probeSupport, .oversampling, .simulateProbeTranslation, .iPhase, .jPhase,
   .simulateFinitePixels, .originalTranslations]

/-- `from_results_dict`, `fancy_ptycho.py:1238-1302`, with `_load_results_dict`, `models/base.py:218-236`. The
arguments of the class method give the new `view`. (An unknown loss name is KeyError.) -/
def fromResultsDict {V : Type} (C : Ctor D) (view : V) (r : Results D) : Except PyExc (FancyModel D V) :=
  match C.init (resultArgs r.stateDict), lossOf r.lossFunction with
  | .error e, _ => .error e
  | .ok _, .error e => .error e
  | .ok s, .ok l =>
    match loadParams s r.stateDict allKeys with
    | .error e => .error e
    | .ok s' => .ok ⟨s', l, r.lossHistory, r.epoch, r.trainingHistory, view⟩

end Cdtools.FancyIO
