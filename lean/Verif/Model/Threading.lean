/-
Model of the threaded branch of `Reconstructor.optimize` (`reconstructors/base.py:338-394`)
and of `run_epoch` as executed by the worker thread, at the granularity of chunks.

The epoch the worker executes is unfolded into its sequence of actions; between any two of
them the main thread may act (poll, be interrupted, join, read the queue).
-/
import Verif.Model.Reconstructor

namespace Cdtools

/-- One action of the worker: the stop-event check (`base.py:195-196`), the computation
of one chunk (`base.py:199-214`), or an update of the shared model/optimizer state. -/
inductive Act (σ : Type) where
  | check
  | compute
  | set (s : σ)

section
variable {Θ I P S R : Type} [NormedAddCommGroup Θ] [NormedSpace ℝ Θ] {Ω N : Type}

/-- The actions of the chunk loop, `base.py:193-214`. -/
def Physics.chunkActs (ph : Physics Θ I P S R) (σ : Type) (θ : Θ) :
    List (List I × List P) → List (Act σ)
  | [] => []
  | (inp, pats) :: rest =>
      match ph.fault θ inp pats with
      | some _ => [.check, .compute]
      | none => .check :: .compute :: ph.chunkActs σ θ rest

/-- The actions of one evaluation of the closure, `base.py:176-224`. -/
def Physics.closureActs (ph : Physics Θ I P S R) (σ : Type) (cw : ℤ) (b : Minibatch I P)
    (θ : Θ) : List (Act σ) :=
  match minibatchChunks cw b with
  | .error _ => []
  | .ok cs => ph.chunkActs σ θ cs

/-- The actions of `optimizer.step(closure)`, `base.py:227`. -/
noncomputable def OptProg.acts (ph : Physics Θ I P S R) (cw : ℤ) (reg : Option R)
    (b : Minibatch I P) (s : RunState Θ Ω N) :
    OptProg Θ Ω (Θ →L[ℝ] ℝ) → List (Act (RunState Θ Ω N))
  | .ret o θ _ => [.set { s with opt := o, params := θ }]
  | .eval o θ k =>
      .set { s with opt := o, params := θ } ::
        (ph.closureActs (RunState Θ Ω N) cw b θ ++
          match ph.closure cw reg b θ with
          | .error _ => []
          | .ok r => (k r).acts ph cw reg b s)

/-- The actions of the minibatch loop, `base.py:164-227`. -/
noncomputable def batchesActs (env : Env Θ Ω N P) (ph : Physics Θ I P S R) (cw : ℤ)
    (reg : Option R) : List (Minibatch I P) → RunState Θ Ω N →
      List (Act (RunState Θ Ω N))
  | [], _ => []
  | b :: bs, s =>
      let s1 := if env.hasNormalizer then { s with norm := env.accumulate s.norm b.patterns }
                else s
      .set s1 :: ((env.step s1.opt s1.params).acts ph cw reg b s1 ++
        match (env.step s1.opt s1.params).run (ph.closure cw reg b) with
        | ((o, θ), .ok (some _)) =>
            batchesActs env ph cw reg bs { s1 with opt := o, params := θ }
        | _ => [])

/-- The actions of a whole epoch, `base.py:116-244`; the last one is the bookkeeping. -/
noncomputable def epochActs (env : Env Θ Ω N P) (ph : Physics Θ I P S R) (cw : ℤ)
    (reg : Option R) (dt : ℝ) (bs : List (Minibatch I P)) (s : RunState Θ Ω N) :
    List (Act (RunState Θ Ω N)) :=
  batchesActs env ph cw reg bs s ++
    match runBatches env ph cw reg bs s none with
    | (s', .ok (some l)) => [.set (finishEpoch env dt s' l).1]
    | _ => []

end

/-! ### The two threads -/

/-- What ends up in `result_queue` (`base.py:344-356`). -/
inductive QItem where
  | value (l : ℝ)
  | exc (e : PyExc)

/-- Control state of the main thread within one iteration of `base.py:359-394`. -/
inductive MainPc where
  /-- in the `while calc.is_alive()` loop, lines 373-379 -/
  | polling
  /-- in `calc.join()` after a KeyboardInterrupt, line 385 -/
  | joining
  /-- at `result_queue.get()`, line 388 -/
  | getting
  /-- `yield res`, line 394 -/
  | yielded (l : ℝ)
  /-- `raise`, lines 386 and 392 -/
  | raised (e : PyExc)

/-- State of the pair of threads during one epoch. `todo` are the worker's remaining
actions, `result` is how its epoch will end; `computes` counts chunk computations performed
(ghost), `sinceStop` those performed after the stop event was set (ghost). -/
structure TState (σ : Type) where
  shared : σ
  alive : Bool
  todo : List (Act σ)
  result : Except PyExc ℝ
  stop : Bool
  queue : List QItem
  pc : MainPc
  computes : ℕ
  sinceStop : ℕ

/-- The scheduler's choices. -/
inductive Sched where
  | worker
  | main
  | interrupt
  deriving DecidableEq

/-- One scheduling decision; a decision that is not enabled leaves the state unchanged. -/
def TState.step {σ : Type} (t : TState σ) : Sched → TState σ
  | .worker =>
      if t.alive then
        match t.todo with
        | .check :: rest =>
            -- `if stop_event.is_set(): exit()`: SystemExit is not an `Exception`, nothing is put
            if t.stop then { t with alive := false, todo := [] }
            else { t with todo := rest }
        | .compute :: rest =>
            { t with todo := rest, computes := t.computes + 1,
                     sinceStop := if t.stop then t.sinceStop + 1 else t.sinceStop }
        | .set s :: rest => { t with todo := rest, shared := s }
        | [] =>
            match t.result with
            | .ok l => { t with alive := false, queue := t.queue ++ [.value l] }
            | .error e =>
                if e.isException then { t with alive := false, queue := t.queue ++ [.exc e] }
                else { t with alive := false }
      else t
  | .main =>
      match t.pc with
      | .polling => if t.alive then t else { t with pc := .getting }
      | .joining => if t.alive then t else { t with pc := .raised .keyboardInterrupt }
      | .getting =>
          match t.queue with
          | [] => t
          | .value l :: q => { t with queue := q, pc := .yielded l }
          | .exc e :: q => { t with queue := q, pc := .raised e }
      | .yielded _ => t
      | .raised _ => t
  | .interrupt =>
      match t.pc with
      | .polling => { t with stop := true, pc := .joining }
      | _ => t

/-- A whole schedule. -/
def TState.exec {σ : Type} (t : TState σ) (sch : List Sched) : TState σ := sch.foldl TState.step t

/-- The iteration has ended for the caller. -/
def MainPc.finished : MainPc → Bool
  | .yielded _ => true
  | .raised _ => true
  | _ => false

section
variable {Θ I P S R : Type} [NormedAddCommGroup Θ] [NormedSpace ℝ Θ] {Ω N : Type}

/-- The state right after `calc.start()`, `base.py:368-372`: queue empty, stop event clear. -/
noncomputable def startEpoch (env : Env Θ Ω N P) (ph : Physics Θ I P S R) (cw : ℤ)
    (reg : Option R) (dt : ℝ) (bs : List (Minibatch I P)) (s : RunState Θ Ω N) :
    TState (RunState Θ Ω N) where
  shared := s
  alive := true
  todo := epochActs env ph cw reg dt bs s
  result := (runEpoch env ph cw reg dt (some bs) s).2
  stop := false
  queue := []
  pc := .polling
  computes := 0
  sinceStop := 0

/-- How a threaded generator run ended: exhausted or abandoned by the caller, with an exception,
or still waiting when the schedule given for an epoch ran out. -/
inductive GenEnd where
  | returned
  | exception (e : PyExc)
  | waiting

/-- The `thread=True` generator on a model that is not skipping, `base.py:359-394`: the caller
asks for at most `k` values; each epoch comes with its own schedule of the two threads. -/
noncomputable def optimizeThreaded (env : Env Θ Ω N P) (ph : Physics Θ I P S R) (cw : ℤ)
    (reg : Option R) : ℕ → List ((ℝ × List (Minibatch I P)) × List Sched) → RunState Θ Ω N →
      RunState Θ Ω N × List ℝ × GenEnd
  | 0, _, s => (s, [], .returned)
  | _ + 1, [], s => (s, [], .returned)
  | k + 1, ((dt, bs), sch) :: rest, s =>
      let t := (startEpoch env ph cw reg dt bs s).exec sch
      match t.pc with
      | .yielded l =>
          let r := optimizeThreaded env ph cw reg k rest t.shared
          (r.1, l :: r.2.1, r.2.2)
      | .raised e => (t.shared, [], .exception e)
      | _ => (t.shared, [], .waiting)

end

end Cdtools
