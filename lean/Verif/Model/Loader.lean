/-
Model of dataset selection and data-loader construction (`reconstructors/base.py:60-103`,
`adam.py:149-254`, `sgd.py:166-255`, `lbfgs.py:90-143`, `models/base.py:402-616`), and of the
learning-rate bookkeeping (`adam.py:51-146`, `sgd.py:51-163`).
-/
import Verif.Model.Py
import Mathlib.Data.Real.Basic

namespace Cdtools

/-! ### Which exposures, in which minibatches -/

/-- The `subset` argument of a reconstructor: absent, an int, or a list of ints. -/
inductive SubsetArg where
  | none
  | one (i : ℕ)
  | many (l : List ℕ)

/-- `Reconstructor.__init__`, `base.py:70-77`, with `td.Subset`: the dataset that will be used,
as the list of indices into the original dataset of `n` exposures. -/
def selectIndices (n : ℕ) : SubsetArg → List ℕ
  | .none => List.range n
  | .one i => [i]
  | .many l => l

/-- `td.DataLoader` iterated once: the sampler visits positions `order` of the selected dataset
(`range(len)` without shuffling, an arbitrary permutation of it with shuffling) and groups
them into consecutive batches of `bs`, keeping a short last batch (`drop_last=False`). -/
def loaderBatches (bs : ℕ) (order : List ℕ) : List (List ℕ) := pyChunks order.length bs order

/-- The exposures of one epoch: `dataset[subset[position]]` for each position of each batch. -/
def epochBatches {E : Type} (data : List E) (sel : List ℕ) (bs : ℕ) (order : List ℕ) :
    List (List (Option E)) :=
  (loaderBatches bs order).map fun b => b.map fun pos => sel[pos]?.bind fun i => data[i]?

/-! ### Argument plumbing -/

/-- A constructed `td.DataLoader`. -/
structure LoaderCfg where
  batch : ℕ
  shuffle : Bool
  deriving DecidableEq, Repr

/-- `setup_dataloader`, `base.py:84-103`. `batch_size=None` reaches `td.Dataloader`, a name that
does not exist (AttributeError). torch rejects non-positive batch sizes (ValueError). -/
def setupDataloader (batch : Option ℤ) (shuffle : Bool) : Except PyExc LoaderCfg :=
  match batch with
  | some b => if b ≤ 0 then .error .valueError else .ok ⟨b.toNat, shuffle⟩
  | none => .error .attributeError

/-- The loader part of `Reconstructor.optimize`, `base.py:313-316` (custom loader, if any, used
as is). -/
def baseOptimizeLoader (batch : Option ℤ) (custom : Option LoaderCfg) (shuffle : Bool) :
    Except PyExc LoaderCfg :=
  match custom with
  | none => setupDataloader batch shuffle
  | some c => .ok c

/-- `AdamReconstructor.optimize`, `adam.py:149-163,246-254`: forwards all three. Omitted arguments
take their defaults (15, None, True). -/
def adamOptimizeLoader (batch : Option ℤ := some 15) (custom : Option LoaderCfg := none)
    (shuffle : Bool := true) : Except PyExc LoaderCfg :=
  baseOptimizeLoader batch custom shuffle

/-- `SGDReconstructor.optimize`, `sgd.py:166-180,249-255`: `shuffle` is accepted but not passed on,
so the base class default `shuffle=True` is used. -/
def sgdOptimizeLoader (batch : Option ℤ := some 15) (_shuffle : Bool := true) :
    Except PyExc LoaderCfg :=
  baseOptimizeLoader batch none true

/-- `LBFGSReconstructor.optimize`, `lbfgs.py:138-143`: one batch with the whole dataset. -/
def lbfgsOptimizeLoader (len : ℕ) : Except PyExc LoaderCfg :=
  baseOptimizeLoader (some len) none true

/-- `CDIModel.Adam_optimize`, `models/base.py:402-478`. -/
def modelAdamLoader (batch : Option ℤ := some 15) : Except PyExc LoaderCfg :=
  adamOptimizeLoader batch none true

/-- `CDIModel.SGD_optimize`, `models/base.py:542-616`: the default batch size is `None`. -/
def modelSgdLoader (batch : Option ℤ := none) : Except PyExc LoaderCfg :=
  sgdOptimizeLoader batch true

/-- `CDIModel.LBFGS_optimize`, `models/base.py:480-540`. -/
def modelLbfgsLoader (len : ℕ) : Except PyExc LoaderCfg := lbfgsOptimizeLoader len

/-- `td.DataLoader`'s sampler: `RandomSampler` visits the permutation `perm` it has drawn,
`SequentialSampler` visits `range(len)`. -/
def samplerOrder (shuffle : Bool) (perm : List ℕ) (len : ℕ) : List ℕ :=
  if shuffle then perm else List.range len

/-- One epoch over a dataset with a configured loader (`base.py:70-77,94-103,173`). -/
def loaderEpoch {E : Type} (cfg : LoaderCfg) (data : List E) (arg : SubsetArg)
    (perm : List ℕ) : List (List (Option E)) :=
  let sel := selectIndices data.length arg
  epochBatches data sel cfg.batch (samplerOrder cfg.shuffle perm sel.length)

/-! ### Learning rates -/

/-- One torch param group as built in `adam.py:60-62` / `sgd.py:60-62`. Simplification: only the
name and learning rate are kept. -/
structure ParamGroup where
  name : String
  lr : ℝ

/-- A reconstructor with per-parameter groups: `self.optimizer.param_groups`,
`self.lr_factors`, and the keys named in the last warning. -/
structure LrState where
  groups : List ParamGroup
  factors : List (String × ℝ)
  warned : List String

/-- `_set_lr_factors`, `adam.py:71-93`, `sgd.py:76-98`: replace the dictionary, warn about keys
that are no parameter. -/
def setLrFactors (s : LrState) (f : List (String × ℝ)) : LrState :=
  { s with factors := f,
           warned := (f.map (·.1)).filter fun k => !(s.groups.map (·.name)).contains k }

/-- The learning rate given to a group, `adam.py:142-146`, `sgd.py:159-163`. -/
noncomputable def groupLr (factors : List (String × ℝ)) (lr : ℝ) (name : String) : ℝ :=
  match factors.lookup name with
  | some f => lr * f
  | none => lr

/-- `adjust_optimizer`, `adam.py:107-146`, `sgd.py:112-163`. -/
noncomputable def adjustOptimizer (s : LrState) (lr : ℝ) (f : Option (List (String × ℝ))) :
    LrState :=
  let s1 := match f with
    | some f => setLrFactors s f
    | none => s
  { s1 with groups := s1.groups.map fun g => { g with lr := groupLr s1.factors lr g.name } }

/-- `AdamReconstructor.__init__`/`SGDReconstructor.__init__`, `adam.py:51-68`: one group per named
parameter with torch's default learning rate. -/
noncomputable def initReconstructor (names : List String) (defaultLr : ℝ)
    (f : List (String × ℝ)) : LrState :=
  setLrFactors ⟨names.map fun n => ⟨n, defaultLr⟩, [], []⟩ f

/-- What changes learning rates during use: `adjust_optimizer`/`optimize` (which calls it first,
`adam.py:219-224`), and a scheduler step multiplying all rates (ReduceLROnPlateau). -/
inductive LrOp where
  | adjust (lr : ℝ) (f : Option (List (String × ℝ)))
  | reduce (factor : ℝ)

/-- Effect of an operation. -/
noncomputable def LrOp.apply (s : LrState) : LrOp → LrState
  | .adjust lr f => adjustOptimizer s lr f
  | .reduce c => { s with groups := s.groups.map fun g => { g with lr := g.lr * c } }

end Cdtools
