/-
Browsing: the keyboard and slider navigation of `plot_image` (`tools/plotting/plotting.py:116-485`), of
`plot_nanomap_with_images` (`plotting.py:993-1285`), which `Ptycho2DDataset.inspect` uses, and of `CDIModel.compare`
(`models/base.py:1054-1161`).

Images are abstract: what is modelled is which image of which stack is on display. Not modelled: axes, colorbars and
sizes; events come from inside the figure's axes.
-/
import Mathlib.Data.List.Basic
import Verif.Model.RpiModel

namespace Cdtools.Browse

/-! ### plot_image -/

/-- A stack of images handed to `plot_image`: an identifier and `im.shape[:-2]`. -/
structure Stack (α : Type) where
  im : α
  shape : List ℕ

/-- `slider_axis_map`, `plotting.py:223-226`: the axes with more than one entry. -/
def sliderAxes (shape : List ℕ) : List ℕ := (List.range shape.length).filter fun i => 1 < shape.getD i 0

/-- The loop over `reversed(slider_axis_map)`, `plotting.py:457-470`, on the pairs (length, index) of the axes, last axis
first; axes without a slider are not in the map. -/
def bump (carry : ℤ) : List (ℕ × ℕ) → List ℕ
  | [] => []
  | (len, i) :: rest =>
    if len ≤ 1 then i :: bump carry rest
    else if (i : ℤ) + carry < 0 then (len - 1) :: bump (-1) rest
    else if (i : ℤ) + carry ≥ len then 0 :: bump 1 rest
    else ((i : ℤ) + carry).toNat :: rest.map Prod.snd

/-- `new_idx` after a key press. -/
def odometer (dir : ℤ) (shape idx : List ℕ) : List ℕ := (bump dir (shape.zip idx).reverse).reverse

/-- A slider: its axis, its largest value and the value it shows. -/
structure Slider where
  axis : ℕ
  top : ℕ
  val : ℕ

/-- The attributes of the figure: `plot_idx`, the image on display (`_current_im`), `_sliders`, `_updating`, the image
stack of `_make_plot` and that of the registered `on_action`. -/
structure Fig (α : Type) where
  idx : Option (List ℕ)
  shown : Option (α × List ℕ)
  sliders : List Slider
  updating : Bool
  current : Option (Stack α)
  keys : Option (Stack α)

variable {α : Type}

/-- A new figure. -/
def Fig.new : Fig α := ⟨none, none, [], false, none, none⟩

/-- `im[tuple(idx)]` for a tuple of the right length: IndexError if an index is out of bounds. -/
def inBounds (shape idx : List ℕ) : Bool := idx.length = shape.length && (idx.zip shape).all fun p => p.1 < p.2

/-- `fig._sliders[j].set_val(...)` for every axis with a slider, `plotting.py:251-254`; `false`: IndexError, there are not
enough sliders. -/
def setSliders (idx : List ℕ) : List ℕ → List Slider → List Slider × Bool
  | [], ss => (ss, true)
  | _ :: _, [] => ([], false)
  | a :: as, s :: ss =>
    let r := setSliders idx as ss
    ({ s with val := idx.getD a 0 } :: r.1, r.2)

/-- `make_plot`, `plotting.py:229-433`; `false`: IndexError. -/
def makePlot (s : Stack α) (idx : List ℕ) (f : Fig α) : Fig α × Bool :=
  let f := { f with current := some s, idx := some idx }
  if inBounds s.shape idx then
    match f.shown with
    | some _ =>
      let r := setSliders idx (sliderAxes s.shape) f.sliders
      ({ f with shown := some (s.im, idx), sliders := r.1, updating := !r.2 }, r.2)
    | none =>
      ({ f with
          shown := some (s.im, idx)
          sliders := (sliderAxes s.shape).map fun a => ⟨a, s.shape.getD a 0 - 1, idx.getD a 0⟩ }, true)
  else (f, false)

/-- `plot_image(im, fig)`, `plotting.py:434-485`: the index is kept if the new stack has as many axes. -/
def plotImage (s : Stack α) (f : Fig α) : Fig α × Bool :=
  let start := match f.idx with
    | some i => if i.length = s.shape.length then i else List.replicate s.shape.length 0
    | none => List.replicate s.shape.length 0
  let r := makePlot s start f
  if r.2 then ({ r.1 with keys := if sliderAxes s.shape = [] then r.1.keys else some s }, true) else r

/-- What can happen: `plot_image` is called again, a key is pressed, the user moves slider `j`. -/
inductive Event (α : Type)
  | draw (s : Stack α)
  | up
  | down
  | slide (j v : ℕ)

/-- `on_action`, `plotting.py:439-473`. -/
def press (dir : ℤ) (f : Fig α) : Fig α × Bool :=
  match f.keys, f.idx with
  | some s, some i => if f.sliders = [] then (f, true) else makePlot s (odometer dir s.shape i) f
  | _, _ => (f, true)

/-- The callback of a slider, `plotting.py:412-421`; the widget confines its values to its range. -/
def slide (j v : ℕ) (f : Fig α) : Fig α × Bool :=
  match f.sliders[j]?, f.current, f.idx with
  | some s, some st, some i =>
    let v := min v s.top
    let f := { f with sliders := f.sliders.set j { s with val := v } }
    if f.updating then (f, true) else makePlot st (i.set s.axis v) f
  | _, _, _ => (f, true)

/-- One event; `false`: an exception. -/
def step (f : Fig α) : Event α → Fig α × Bool
  | .draw s => plotImage s f
  | .up => press (-1) f
  | .down => press 1 f
  | .slide j v => slide j v f

/-- A history: the final figure and whether no event raised. -/
def run (f : Fig α) : List (Event α) → Fig α × Bool
  | [] => (f, true)
  | e :: es =>
    let r := step f e
    let q := run r.1 es
    (q.1, r.2 && q.2)

/-! ### plot_nanomap_with_images -/

/-- The state of the browser: the value of the slider and `axes[1].image_idx`. -/
structure Nano where
  idx : ℕ
  im : ℕ
  deriving DecidableEq

/-- Events of the nanomap: a key or a mouse button over the image or elsewhere, the scroll wheel, a click on a point, a
move of the slider. -/
inductive NanoEvent
  | left (overImage : Bool)
  | right (overImage : Bool)
  | scrollUp (overImage : Bool)
  | scrollDown (overImage : Bool)
  | pick (i : ℕ)
  | slide (v : ℕ)

/-- `on_action`, `on_pick` and the slider, `plotting.py:1217-1269`, for `N` positions with stacks of `K` images (`K = none`:
plain images). The scroll wheel has the buttons `up` and `down`, which are compared with `left` and `right`. -/
def nanoStep (N : ℕ) (K : Option ℕ) (s : Nano) : NanoEvent → Nano
  | .left over => match K, over with
    | some k, true => { s with im := (((s.im : ℤ) - 1) % k).toNat }
    | _, _ => { s with idx := (((s.idx : ℤ) - 1) % N).toNat }
  | .right over => match K, over with
    | some k, true => { s with im := (s.im + 1) % k }
    | _, _ => { s with idx := (s.idx + 1) % N }
  | .scrollUp _ => s
  | .scrollDown _ => s
  | .pick i => { s with idx := i }
  | .slide v => { s with idx := min v (N - 1) }

/-! ### compare -/

/-- The keys (or the scroll wheel) of `compare`, and its slider. -/
inductive CompareEvent
  | up
  | down
  | other
  | slide (v : ℕ)

/-- `update(idx)`, `models/base.py:1086-1088`, of a dataset with `N` exposures: `int(idx) % len(dataset)`. -/
def compareUpdate (N : ℕ) (i : ℤ) : ℕ := (i % N).toNat

/-- `on_action`, `models/base.py:1144-1156`: the slider is then set to the new index, which updates once more. -/
def compareStep (N : ℕ) (idx : ℕ) : CompareEvent → ℕ
  | .up => compareUpdate N (compareUpdate N ((idx : ℤ) - 1))
  | .down => compareUpdate N (compareUpdate N ((idx : ℤ) + 1))
  | .other => compareUpdate N idx
  | .slide v => compareUpdate N (min v (N - 1) : ℕ)

/-- The three images, `models/base.py:1092-1135`, of one pixel, without the logarithm: simulated, measured and difference. -/
def comparePixel (sim meas mask : ℝ) : ℝ × ℝ × ℝ := (sim, meas * mask, (sim - meas) * mask)

/-- The shape of `sim_data` when it is displayed, `models/base.py:1093-1097`: the first axis is removed from arrays with more
than two. -/
def compareShape (sim : List ℕ) : List ℕ := if sim.length > 2 then sim.tail else sim

end Cdtools.Browse
