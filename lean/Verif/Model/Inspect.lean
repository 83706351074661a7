/-
`CDIModel.inspect` and its two renderers, `models/base.py:642-960`, with the parts of matplotlib they
rely on: the table of open figures by title and the per-canvas registry of event callbacks.

What is abstract: the plot functions and conditions of a plot list are user code; every `inspect` call
comes with the outcomes they produce during that call (`Plot`, `Panel`). A plot function that returns
has drawn and registered some callbacks; one that raises has registered none (in
`tools/plotting/plotting.py:475-483` the registration is the last statement). Not modelled: figure
sizes, window raising, `plt.draw`, `plt.pause` and the grid of subfigures.
-/
import Mathlib.Order.WithBot
import Mathlib.Algebra.Order.Ring.Rat

namespace Cdtools.Inspect

/-- The exceptions the code distinguishes. -/
inductive Err | keyboardInterrupt | other
  deriving DecidableEq

/-- The result of `condition(self)`, with the fallback `condition(self, dataset)` that is evaluated when
the first call raises `TypeError` (`base.py:790-797`, `871-877`, `924-931`). -/
inductive CondRes
  | value (b : Bool)
  | typeError (second : Except Err Bool)
  | raises (e : Err)

/-- The result of calling a plot function: it drew and registered `cids` event callbacks, or raised. -/
inductive CallRes
  | drew (cids : ℕ)
  | typeError
  | raises (e : Err)

/-- An entry of `plot_list`, or of `plots` in a panel. `first` is the outcome of `plot_func(self, fig)`,
`second` that of `plot_func(self, fig, dataset)`. -/
structure Plot where
  title : String
  level : Option ℚ
  condition : Option CondRes
  first : CallRes
  second : CallRes

/-- An entry of `plot_panel_list`. -/
structure Panel where
  title : String
  level : Option ℚ
  condition : Option CondRes
  plots : List Plot

/-- `if condition is not None: try: if not condition(self): continue ...`: whether to go on. -/
def evalCond : Option CondRes → Except Err Bool
  | none => .ok true
  | some (.value b) => .ok b
  | some (.typeError r) => r
  | some (.raises e) => .error e

/-- A figure: the callback ids registered on its canvas, the next id the registry hands out, the
attribute `_cdtools_render_cids`, and the attribute `my_callbacks` of `plot_image`. -/
structure Fig where
  cids : List ℕ
  next : ℕ
  renderCids : List ℕ
  mine : List ℕ

/-- A new figure has `base` callbacks (toolbar, key bindings; depends on the backend). -/
def Fig.fresh (base : ℕ) : Fig := { cids := List.range base, next := base, renderCids := [], mine := [] }

/-- `mpl_disconnect`: unknown ids are ignored. -/
def Fig.disconnect (f : Fig) (ids : List ℕ) : Fig := { f with cids := f.cids.filter (· ∉ ids) }

/-- `k` calls of `mpl_connect`. -/
def Fig.connect (f : Fig) (k : ℕ) : Fig :=
  { f with cids := f.cids ++ (List.range k).map (f.next + ·), next := f.next + k }

/-- A plot function that draws on a whole figure: `tools/plotting/plotting.py:475-483` disconnects the
callbacks remembered in `fig.my_callbacks` and registers new ones, if there are any sliders. -/
def Fig.draw (f : Fig) (k : ℕ) : Fig :=
  if k = 0 then f
  else
    let g := f.disconnect f.mine
    { g.connect k with mine := (List.range k).map (g.next + ·) }

/-- A plot function that draws on a new subfigure of the figure: `my_callbacks` is an attribute of the
subfigure, so nothing is disconnected. -/
def Fig.drawSub (f : Fig) (k : ℕ) : Fig := f.connect k

/-- The state: the open figures, `last_inspected_time`, `figs` (by title). -/
structure State where
  open_ : String → Option Fig
  last : Option ℚ
  figs : List String

/-- What one call of a plot function did, for the record: the figure it drew on and the plot. -/
abbrev Trace := List (String × Plot)

/-- Parameters of the model instance and of the call. -/
structure Call where
  base : ℕ
  plotLevel : WithTop ℚ
  dataset : Bool
  replotAll : Bool

def setFig (s : State) (t : String) (f : Fig) : State :=
  { s with open_ := fun u => if u = t then some f else s.open_ u }

/-- `plot.get('plot_level', 1) > self.plot_level`: the plot is not skipped. -/
def levelOk (c : Call) (l : Option ℚ) : Prop := ((l.getD 1 : ℚ) : WithTop ℚ) ≤ c.plotLevel

instance (c : Call) (l : Option ℚ) : Decidable (levelOk c l) := by unfold levelOk; infer_instance

/-- `self.last_inspected_time is not None and not replot_all and not plt.fignum_exists(title)`: skip. -/
def isClosed (c : Call) (s : State) (title : String) : Bool :=
  s.last.isSome && !c.replotAll && (s.open_ title).isNone

/-- `plt.figure(title)`: the open figure of that title, or a new one. -/
def getFig (c : Call) (s : State) (title : String) : Fig := (s.open_ title).getD (Fig.fresh c.base)

/-- The `try` block `base.py:814-834` of a standalone figure: only `KeyboardInterrupt` gets out. The
result is the figure and whether a plot function drew. -/
def tryDraw (c : Call) (p : Plot) (f : Fig) : Fig × Except Err Bool :=
  match p.first with
  | .drew k => (f.draw k, .ok true)
  | .raises .keyboardInterrupt => (f, .error .keyboardInterrupt)
  | .raises .other => (f, .ok false)
  | .typeError =>
    if c.dataset then
      match p.second with
      | .drew k => (f.draw k, .ok true)
      | .raises .keyboardInterrupt => (f, .error .keyboardInterrupt)
      | _ => (f, .ok false)
    else (f, .ok false)

/-- `_inspect_individual_figures`, `base.py:756-838`. Returns the state, the rendered figures, the record
of drawn plots and the exception, if any. -/
def individual (c : Call) : List Plot → State → State × List String × Trace × Option Err
  | [], s => (s, [], [], none)
  | p :: ps, s =>
    if ¬ levelOk c p.level then individual c ps s
    else match evalCond p.condition with
      | .error e => (s, [], [], some e)
      | .ok false => individual c ps s
      | .ok true =>
        if isClosed c s p.title then individual c ps s
        else
          let r := tryDraw c p (getFig c s p.title)
          let s' := setFig s p.title r.1
          match r.2 with
          | .error e => (s', [], [], some e)
          | .ok drew =>
            let rest := individual c ps s'
            (rest.1, p.title :: rest.2.1, (if drew then [(p.title, p)] else []) ++ rest.2.2.1, rest.2.2.2)

/-- The `try` block `base.py:935-952` of a subplot: exceptions of the first call get out, except
`TypeError`; of the second call only `KeyboardInterrupt`. -/
def tryDrawSub (c : Call) (p : Plot) (f : Fig) : Fig × Except Err Bool :=
  match p.first with
  | .drew k => (f.drawSub k, .ok true)
  | .raises e => (f, .error e)
  | .typeError =>
    if c.dataset then
      match p.second with
      | .drew k => (f.drawSub k, .ok true)
      | .raises .keyboardInterrupt => (f, .error .keyboardInterrupt)
      | _ => (f, .ok false)
    else (f, .ok false)

/-- The loop over `panel_def['plots']`, `base.py:922-952`. -/
def subplots (c : Call) (title : String) : List Plot → Fig → Fig × Trace × Option Err
  | [], f => (f, [], none)
  | p :: ps, f =>
    match evalCond p.condition with
    | .error e => (f, [], some e)
    | .ok false => subplots c title ps f
    | .ok true =>
      let r := tryDrawSub c p f
      match r.2 with
      | .error e => (r.1, [], some e)
      | .ok drew =>
        let rest := subplots c title ps r.1
        (rest.1, (if drew then [(title, p)] else []) ++ rest.2.1, rest.2.2)

/-- `base.py:900-956`: disconnect the callbacks of the last rendering, clear, draw, and remember the new
callbacks; if a subplot raises, the attribute is not updated. -/
def renderPanel (c : Call) (title : String) (plots : List Plot) (f : Fig) : Fig × Trace × Option Err :=
  let f1 := f.disconnect f.renderCids
  let r := subplots c title plots f1
  match r.2.2 with
  | some e => (r.1, r.2.1, some e)
  | none => ({ r.1 with renderCids := r.1.cids.filter (· ∉ f1.cids) }, r.2.1, none)

/-- The loop of `_inspect_panel`, `base.py:864-960`; the caller reverses the list. -/
def panels (c : Call) : List Panel → State → State × List String × Trace × Option Err
  | [], s => (s, [], [], none)
  | p :: ps, s =>
    if ¬ levelOk c p.level then panels c ps s
    else match evalCond p.condition with
      | .error e => (s, [], [], some e)
      | .ok false => panels c ps s
      | .ok true =>
        if isClosed c s p.title then panels c ps s
        else
          let r := renderPanel c p.title p.plots (getFig c s p.title)
          let s' := setFig s p.title r.1
          match r.2.2 with
          | some e => (s', [], r.2.1, some e)
          | none =>
            let rest := panels c ps s'
            (rest.1, p.title :: rest.2.1, r.2.1 ++ rest.2.2.1, rest.2.2.2)

/-- The flattening of the panels, `base.py:693-701`. -/
def flatten (ps : List Panel) : List Plot :=
  ps.flatMap fun p => p.plots.map fun q => { q with level := some (p.level.getD 1) }

/-- The early return `base.py:675-678`. -/
def skipNow (s : State) (minInterval : Option ℚ) (now : ℚ) : Bool :=
  match minInterval, s.last with
  | some d, some t => decide (now - t < d)
  | _, _ => false

/-- `inspect`, `base.py:642-716`. `now` is the time of the first call of `time.time()`, `done` that of
the last one. -/
def inspect (c : Call) (panelMode : Bool) (minInterval : Option ℚ) (now done : ℚ) (pp : List Panel)
    (pl : List Plot) (s : State) : State × Trace × Option Err :=
  if skipNow s minInterval now then (s, [], none)
  else if panelMode then
    let a := panels c pp.reverse s
    match a.2.2.2 with
    | some e => (a.1, a.2.2.1, some e)
    | none =>
      let b := individual c pl a.1
      match b.2.2.2 with
      | some e => (b.1, a.2.2.1 ++ b.2.2.1, some e)
      | none => ({ b.1 with figs := a.2.1 ++ b.2.1, last := some done }, a.2.2.1 ++ b.2.2.1, none)
  else
    let b := individual c (flatten pp ++ pl) s
    match b.2.2.2 with
    | some e => (b.1, b.2.2.1, some e)
    | none => ({ b.1 with figs := b.2.1, last := some done }, b.2.2.1, none)

/-- What can happen to a figure: the user closes a window, or the user's own code registers a callback on
an open figure, or `inspect` is called. -/
inductive Event
  | close (title : String)
  | connect (title : String)
  | inspect (c : Call) (panelMode : Bool) (minInterval : Option ℚ) (now done : ℚ) (pp : List Panel)
      (pl : List Plot)

def step (s : State) : Event → State
  | .close t => { s with open_ := fun u => if u = t then none else s.open_ u }
  | .connect t => match s.open_ t with
    | some f => setFig s t (f.connect 1)
    | none => s
  | .inspect c pm mi now done pp pl => (inspect c pm mi now done pp pl s).1

def initial : State := { open_ := fun _ => none, last := none, figs := [] }

end Cdtools.Inspect
