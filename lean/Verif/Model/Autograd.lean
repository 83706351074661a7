/-
Simulated data and automatic differentiation: what `sim_to_dataset` of the four ptychography models hands to a dataset,
and what training on that dataset does to the simulating model. A tensor is its value and its history: the forward
passes that `backward` would walk through. Walking a pass adds a gradient to the parameters of the model that ran it and
frees the tensors the pass had saved, so that it cannot be walked again (torch's default, `retain_graph=False`, which is
what every `backward()` in cdtools uses).
-/
import Verif.Model.FancyPtycho

namespace Cdtools

/-- A tensor: its value, and the forward passes (by number) in its history. -/
structure ATensor (α : Type) where
  value : α
  history : List ℕ

/-- The state of automatic differentiation: how many passes were run and by which model each, which passes are freed,
and how many times a gradient was added to each model's parameters. -/
structure Autograd where
  passes : ℕ := 0
  owner : ℕ → ℕ := fun _ => 0
  freed : ℕ → Bool := fun _ => false
  walks : ℕ → ℕ := fun _ => 0

/-- Running a forward pass of model `id` (`models/base.py:98-108`): the result has the new pass as its history if some
parameter of the model is trainable, and no history otherwise. -/
def Autograd.pass {α : Type} (id : ℕ) (trainable : Bool) (value : α) (s : Autograd) : ATensor α × Autograd :=
  if trainable then
    (⟨value, [s.passes]⟩, { s with passes := s.passes + 1, owner := Function.update s.owner s.passes id })
  else (⟨value, []⟩, s)

/-- `loss.backward()`, `reconstructors/base.py:212`, on a loss with the given history: RuntimeError ("Trying to backward
through the graph a second time") if a pass in the history has been freed; nothing is changed then. -/
def Autograd.backward (history : List ℕ) (s : Autograd) : Except PyExc Autograd :=
  if history.any s.freed then .error .runtimeError
  else .ok { s with
    freed := fun p => s.freed p || history.contains p
    walks := fun id => s.walks id + (history.dedup.filter fun p => s.owner p == id).length }

/-- The forward passes of a list of chunks, run in order. -/
def Autograd.passesOf {I T P : Type} (forward : I → T → Except String P) (id : ℕ) (trainable : Bool) :
    List (List I × List T) → Autograd → Except String (List (ATensor (List P)) × Autograd)
  | [], s => .ok ([], s)
  | c :: cs, s => do
    let v ← forwardBatch forward c.1 c.2
    let (x, s) := s.pass id trainable v
    let (xs, s) ← Autograd.passesOf forward id trainable cs s
    return (x :: xs, s)

/-- `tensor.detach()`: the value without its history. -/
def ATensor.detach {α : Type} (x : ATensor α) : ATensor α := { x with history := [] }

/-- `t.cat`: all values and all histories. -/
def catTensors {P : Type} (xs : List (ATensor (List P))) : ATensor (List P) :=
  ⟨(xs.map (·.value)).flatten, (xs.map (·.history)).flatten⟩

/-- The patterns in the dataset made by `FancyPtycho.sim_to_dataset` (`fancy_ptycho.py:699-727`) and
`MultislicePtycho.sim_to_dataset` (`multislice_ptycho.py:570-600`): every chunk is simulated and detached, then the
chunks are concatenated. `Ptycho2DDataset.__init__` keeps the tensor (`t.as_tensor`, `ptycho_2d_dataset.py:70`). -/
def simChunked {I T P : Type} (forward : I → T → Except String P) (id : ℕ) (trainable : Bool) (indices : List I)
    (translations : List T) (width : Option ℤ) (s : Autograd) : Except String (ATensor (List P) × Autograd) :=
  let w := width.getD indices.length
  if w = 0 then .error "ValueError"
  else if w < 0 then .error "RuntimeError"
  else if indices = [] then .error "RuntimeError"
  else do
    let (xs, s) ← Autograd.passesOf forward id trainable
      ((pyChunks indices.length w.toNat indices).zip (pyChunks indices.length w.toNat translations)) s
    return (catTensors (xs.map ATensor.detach), s)

/-- The patterns in the dataset made by `Bragg2DPtycho.sim_to_dataset` (`bragg_2d_ptycho.py:562-596`) and
`Multislice2DPtycho.sim_to_dataset` (`multislice_2d_ptycho.py:463-498`): one forward pass, not detached. -/
def simWhole {I T P : Type} (forward : I → T → Except String P) (id : ℕ) (trainable : Bool) (indices : List I)
    (translations : List T) (s : Autograd) : Except String (ATensor (List P) × Autograd) := do
  let v ← forwardBatch forward indices translations
  return s.pass id trainable v

/-- Training model `id` on a dataset (`reconstructors/base.py:193-214`) as far as automatic differentiation is concerned:
every chunk of every minibatch is indexed out of the patterns (which keeps their history), simulated in a new pass, and
`backward` walks the histories of both. The list says which chunks there are, by the numbers of their exposures. -/
def Autograd.train {P : Type} (id : ℕ) (patterns : ATensor (List P)) :
    List (List ℕ) → Autograd → Except PyExc Autograd
  | [], s => .ok s
  | c :: cs, s =>
    let chunk : ATensor (List (Option P)) := ⟨c.map fun i => patterns.value[i]?, patterns.history⟩
    let (sim, s) := s.pass id true chunk.value
    (s.backward (sim.history ++ chunk.history)).bind fun s => Autograd.train id patterns cs s

end Cdtools
