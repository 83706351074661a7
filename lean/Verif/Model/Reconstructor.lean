/-
Model of `reconstructors/base.py` (run_epoch, the non-threaded optimize loop) and of
`report`/bookkeeping in `models/base.py`.

Simplifications, stated once:
* `autograd` is exact differentiation: `loss.backward()` adds the Fréchet derivative of
  the chunk's loss with respect to all parameters to the gradient; `zero_grad` resets it.
* All parameters together are one point of a real normed space `Θ` (complex parameters are
  viewed as pairs of reals).
* An optimizer's `step(closure)` is an arbitrary finite program that evaluates the closure
  at points of its choice (`OptProg`): this covers Adam, SGD and L-BFGS with line search.
* wall-clock time is an input (`dt`), message formatting is an arbitrary function (`fmt`).
-/
import Verif.Model.Py
import Mathlib.Analysis.Calculus.FDeriv.Add

namespace Cdtools

/-- Everything `run_epoch` obtains from the model object: the forward model, the loss
(with the model's mask already applied, `reconstructors/base.py:199-208`), and the optional
regularizer (`base.py:218-222`, `hasattr(self.model, 'regularizer')`). `fault θ inp pats` is the
exception that evaluating a chunk raises, if any (out of memory, a bug in a user's model, ...). -/
structure Physics (Θ I P S R : Type) where
  fault : Θ → List I → List P → Option PyExc
  forward : Θ → List I → List S
  loss : List P → List S → ℝ
  regularizer : Option (R → Θ → ℝ)

/-- A minibatch as delivered by the data loader (`base.py:164`): the per-exposure inputs
and the patterns, two parallel sequences. -/
structure Minibatch (I P : Type) where
  inputs : List I
  patterns : List P

section
variable {Θ I P S R : Type} [NormedAddCommGroup Θ] [NormedSpace ℝ Θ]

/-- The loss of one chunk as a function of the parameters (`base.py:199-208`). -/
def Physics.chunkLoss (ph : Physics Θ I P S R) (inp : List I) (pats : List P) (θ : Θ) : ℝ :=
  ph.loss pats (ph.forward θ inp)

/-- `total_loss += x` starting from the Python integer 0 (`none`), `base.py:191,214`. -/
def addLoss (acc : Option ℝ) (x : ℝ) : Option ℝ := some (acc.getD 0 + x)

/-- The loop over chunks, `base.py:193-214`: accumulates loss and gradient, and stops at the
first chunk whose evaluation raises. -/
noncomputable def Physics.accumChunks (ph : Physics Θ I P S R) (θ : Θ) :
    List (List I × List P) → Option ℝ × (Θ →L[ℝ] ℝ) →
      Except PyExc (Option ℝ × (Θ →L[ℝ] ℝ))
  | [], acc => .ok acc
  | (inp, pats) :: rest, acc =>
      match ph.fault θ inp pats with
      | some e => .error e
      | none =>
        ph.accumChunks θ rest
          (addLoss acc.1 (ph.chunkLoss inp pats θ),
           acc.2 + fderiv ℝ (ph.chunkLoss inp pats) θ)

/-- `input_chunks`/`pattern_chunks` zipped, `base.py:183-189,193`. Both comprehensions range
over `range(0, len(inputs[0]), calculation_width)`. A width of 0 is `range`'s ValueError; a
negative width gives an empty range. -/
def minibatchChunks (cw : ℤ) (b : Minibatch I P) : Except PyExc (List (List I × List P)) :=
  if cw = 0 then .error .valueError
  else if cw < 0 then .ok []
  else .ok ((pyChunks b.inputs.length cw.toNat b.inputs).zip
            (pyChunks b.inputs.length cw.toNat b.patterns))

/-- The gradient contribution of the regularizer, `base.py:218-222`. -/
noncomputable def Physics.regGrad (ph : Physics Θ I P S R) (reg : Option R) (θ : Θ) :
    Θ →L[ℝ] ℝ :=
  match reg, ph.regularizer with
  | some r, some f => fderiv ℝ (f r) θ
  | _, _ => 0

/-- `closure()`, `base.py:176-224`, at parameters `θ`: the returned `total_loss` (`none` is
the untouched Python integer 0) and the gradient left on the parameters. -/
noncomputable def Physics.closure (ph : Physics Θ I P S R) (cw : ℤ) (reg : Option R)
    (b : Minibatch I P) (θ : Θ) : Except PyExc (Option ℝ × (Θ →L[ℝ] ℝ)) :=
  match minibatchChunks cw b with
  | .error e => .error e
  | .ok cs =>
      match ph.accumChunks θ cs (none, 0) with
      | .error e => .error e
      | .ok r => .ok (r.1, r.2 + ph.regGrad reg θ)

/-- An optimizer's `step`: a finite program that may evaluate the closure at chosen
parameter values (setting the parameters to `θ` first) and finally returns the new optimizer
state, the new parameters and the value `step` returns. -/
inductive OptProg (Θ Ω G : Type) where
  | ret (o : Ω) (θ : Θ) (l : Option ℝ)
  | eval (o : Ω) (θ : Θ) (k : Option ℝ × G → OptProg Θ Ω G)

/-- Running `optimizer.step(closure)`; an exception in the closure propagates and leaves the
parameters where the closure was being evaluated. -/
def OptProg.run {Ω G : Type} (cl : Θ → Except PyExc (Option ℝ × G)) :
    OptProg Θ Ω G → (Ω × Θ) × Except PyExc (Option ℝ)
  | .ret o θ l => ((o, θ), .ok l)
  | .eval o θ k =>
      match cl θ with
      | .error e => ((o, θ), .error e)
      | .ok r => (k r).run cl

/-- The parts of the world `run_epoch` reads but does not compute: the optimizer's `step`, the
scheduler's `step` (acting on the optimizer state; `none` = `self.scheduler is None`), the
loss normalizer (`none` = absent or `None`, `base.py:165-172,229-231`), the string formatting
of `report` (`models/base.py:627-635`). -/
structure Env (Θ Ω N P : Type) [NormedAddCommGroup Θ] [NormedSpace ℝ Θ] where
  step : Ω → Θ → OptProg Θ Ω (Θ →L[ℝ] ℝ)
  scheduler : Option (Ω → ℝ → Ω)
  accumulate : N → List P → N
  normalize : N → ℝ → N × ℝ
  hasNormalizer : Bool
  fmt : ℕ → ℝ → ℝ → String

/-- The mutable state `run_epoch` touches. -/
structure RunState (Θ Ω N : Type) where
  params : Θ
  opt : Ω
  norm : N
  lossHistory : List ℝ
  epoch : ℕ
  trainingHistory : String

variable {Ω N : Type}

/-- The minibatch loop, `base.py:164-227`. `acc` is the running `loss`, `none` being the
Python integer 0. `optimizer.step(closure)` returning the integer 0 has no `.detach`. -/
noncomputable def runBatches (env : Env Θ Ω N P) (ph : Physics Θ I P S R) (cw : ℤ)
    (reg : Option R) : List (Minibatch I P) → RunState Θ Ω N → Option ℝ →
      RunState Θ Ω N × Except PyExc (Option ℝ)
  | [], s, acc => (s, .ok acc)
  | b :: bs, s, acc =>
      let s1 := if env.hasNormalizer then { s with norm := env.accumulate s.norm b.patterns }
                else s
      match (env.step s1.opt s1.params).run (ph.closure cw reg b) with
      | ((o, θ), .error e) => ({ s1 with opt := o, params := θ }, .error e)
      | ((o, θ), .ok none) => ({ s1 with opt := o, params := θ }, .error .attributeError)
      | ((o, θ), .ok (some l)) =>
          runBatches env ph cw reg bs { s1 with opt := o, params := θ } (addLoss acc l)

/-- The end of `run_epoch`, `base.py:229-244`, together with `report`
(`models/base.py:619-635`; `latest_iteration_time` has just been set, so the first branch is
taken). -/
def finishEpoch (env : Env Θ Ω N P) (dt : ℝ) (s : RunState Θ Ω N) (l : ℝ) :
    RunState Θ Ω N × ℝ :=
  let (n, l) := if env.hasNormalizer then env.normalize s.norm l else (s.norm, l)
  let o := match env.scheduler with
    | some f => f s.opt l
    | none => s.opt
  let hist := s.lossHistory ++ [l]
  ({ s with norm := n, opt := o, lossHistory := hist, epoch := hist.length,
            trainingHistory := s.trainingHistory ++ (env.fmt hist.length dt l ++ "\n") }, l)

/-- `run_epoch` without a stop event, `base.py:116-244`. `loader = none` is
`self.data_loader is None`. An empty loader leaves `loss` the Python integer 0, whose `.cpu()`
(or division in the normalizer) raises. -/
noncomputable def runEpoch (env : Env Θ Ω N P) (ph : Physics Θ I P S R) (cw : ℤ)
    (reg : Option R) (dt : ℝ) (loader : Option (List (Minibatch I P)))
    (s : RunState Θ Ω N) : RunState Θ Ω N × Except PyExc ℝ :=
  match loader with
  | none => (s, .error .runtimeError)
  | some bs =>
      match runBatches env ph cw reg bs s none with
      | (s', .error e) => (s', .error e)
      | (s', .ok none) => (s', .error .attributeError)
      | (s', .ok (some l)) =>
          let r := finishEpoch env dt s' l
          (r.1, .ok r.2)

/-- The `thread=False` generator on a model that is not skipping, `base.py:322-336`: the
caller asks for at most `k` values of a generator over the given epochs (one loader pass and
one duration per epoch). Returns the state, the yielded values and the exception that
ended the generator, if any. -/
noncomputable def optimizeSeq (env : Env Θ Ω N P) (ph : Physics Θ I P S R) (cw : ℤ)
    (reg : Option R) : ℕ → List (ℝ × List (Minibatch I P)) → RunState Θ Ω N →
      RunState Θ Ω N × List ℝ × Option PyExc
  | 0, _, s => (s, [], none)
  | _ + 1, [], s => (s, [], none)
  | k + 1, (dt, bs) :: rest, s =>
      match runEpoch env ph cw reg dt (some bs) s with
      | (s', .error e) => (s', [], some e)
      | (s', .ok l) =>
          let r := optimizeSeq env ph cw reg k rest s'
          (r.1, l :: r.2.1, r.2.2)

end

end Cdtools
