/-
**C103**: data simulated by `sim_to_dataset` can be used like measured data.
-/
import Verif.Model.Autograd
import Verif.Props.SimDataset

set_option linter.unusedSectionVars false

namespace Cdtools

/-- Passes that have not been run are not freed. -/
def Autograd.Fresh (s : Autograd) : Prop := ∀ p, s.passes ≤ p → s.freed p = false

theorem Autograd.pass_fresh {α : Type} (id : ℕ) (t : Bool) (v : α) (s : Autograd) (h : s.Fresh) :
    (s.pass id t v).2.Fresh ∧ (s.pass id t v).1.value = v ∧ (s.pass id t v).2.walks = s.walks ∧
      (s.pass id t v).2.freed = s.freed := by
  unfold Autograd.pass
  split
  · refine ⟨fun p hp => h p ?_, rfl, rfl, rfl⟩
    simp only at hp; omega
  · exact ⟨h, rfl, rfl, rfl⟩

theorem Autograd.passesOf_spec {I T P : Type} (forward : I → T → Except String P) (id : ℕ) (t : Bool) :
    ∀ (cs : List (List I × List T)) (s : Autograd), s.Fresh →
      match Autograd.passesOf forward id t cs s with
      | .ok (xs, s') => cs.mapM (fun c => forwardBatch forward c.1 c.2) = .ok (xs.map (·.value)) ∧ s'.Fresh ∧
          s'.walks = s.walks ∧ s'.freed = s.freed
      | .error e => cs.mapM (fun c => forwardBatch forward c.1 c.2) = .error e
  | [], s, h => by
    simp only [Autograd.passesOf]
    exact ⟨rfl, h, by trivial, by trivial⟩
  | c :: cs, s, h => by
    simp only [Autograd.passesOf, List.mapM_cons]
    rcases hv : forwardBatch forward c.1 c.2 with e | v
    · rfl
    · obtain ⟨h1, h2, h3, h4⟩ := Autograd.pass_fresh id t v s h
      have ih := Autograd.passesOf_spec forward id t cs (s.pass id t v).2 h1
      rcases hr : Autograd.passesOf forward id t cs (s.pass id t v).2 with e | ⟨xs, s'⟩
      · rw [hr] at ih
        simp only at ih
        simp only [bind, Except.bind, hr, ih]
      · rw [hr] at ih
        simp only at ih
        simp only [bind, Except.bind, hr, ih.1, pure, Except.pure, List.map_cons, h2]
        exact ⟨trivial, ih.2.1, ih.2.2.1.trans h3, ih.2.2.2.trans h4⟩

/-- Training on patterns without a history: it never raises, and only the trained model gets gradients, one for every
chunk. -/
theorem Autograd.train_detached {P : Type} (id : ℕ) (v : List P) :
    ∀ (cs : List (List ℕ)) (s : Autograd), s.Fresh →
      ∃ s', Autograd.train id ⟨v, []⟩ cs s = .ok s' ∧ s'.Fresh ∧ s'.walks id = s.walks id + cs.length ∧
        ∀ j, j ≠ id → s'.walks j = s.walks j
  | [], s, h => ⟨s, rfl, h, rfl, fun _ _ => rfl⟩
  | c :: cs, s, h => by
    have hf := h s.passes le_rfl
    simp only [Autograd.train, Autograd.pass, if_true, List.append_nil, Autograd.backward, List.any_cons, hf,
      List.any_nil, Bool.or_false, Bool.false_eq_true, if_false, Except.bind]
    obtain ⟨s', h1, h2, h3, h4⟩ := Autograd.train_detached id v cs
      { passes := s.passes + 1, owner := Function.update s.owner s.passes id
        freed := fun p => s.freed p || [s.passes].contains p
        walks := fun j => s.walks j +
          (([s.passes] : List ℕ).dedup.filter fun p => Function.update s.owner s.passes id p == j).length } (by
        intro p hp
        simp only at hp ⊢
        have : p ≠ s.passes := by omega
        simp [h p (by omega), this])
    refine ⟨s', h1, h2, ?_, fun j hj => ?_⟩
    · rw [h3]; simp; omega
    · rw [h4 j hj]; simp [Ne.symm hj]

/-- **C103** (`FancyPtycho`, `MultislicePtycho`): whatever the exposures, the calculation width and whether the model is
trainable, `sim_to_dataset` gives the same patterns, or raises the same exception, as simulating without automatic
differentiation; and on the simulated data any model - another one or the simulating one - can be trained for any number
of chunks: automatic differentiation never raises, and only the trained model gets gradients, exactly one for each
chunk. -/
theorem simulated_data_is_data {I T P : Type} (forward : I → T → Except String P) (id : ℕ) (trainable : Bool)
    (indices : List I) (translations : List T) (width : Option ℤ) (s : Autograd) (hs : s.Fresh) :
    (∀ e, simChunked forward id trainable indices translations width s = .error e ↔
      simPatterns forward indices translations width = .error e) ∧
    ∀ x s', simChunked forward id trainable indices translations width s = .ok (x, s') →
      simPatterns forward indices translations width = .ok x.value ∧ s'.walks = s.walks ∧
      ∀ (trained : ℕ) (chunks : List (List ℕ)), ∃ s'', Autograd.train trained x chunks s' = .ok s'' ∧
        s''.walks trained = s.walks trained + chunks.length ∧ ∀ j, j ≠ trained → s''.walks j = s.walks j := by
  unfold simChunked simPatterns
  simp only
  split
  · refine ⟨fun e => Iff.rfl.trans (by simp), fun x s' h => by simp at h⟩
  split
  · refine ⟨fun e => Iff.rfl.trans (by simp), fun x s' h => by simp at h⟩
  split
  · refine ⟨fun e => Iff.rfl.trans (by simp), fun x s' h => by simp at h⟩
  generalize (pyChunks indices.length (width.getD indices.length).toNat indices).zip
    (pyChunks indices.length (width.getD indices.length).toNat translations) = cs
  have hp := Autograd.passesOf_spec forward id trainable cs s hs
  rcases hr : Autograd.passesOf forward id trainable cs s with e | ⟨xs, s1⟩
  · rw [hr] at hp
    simp only at hp
    simp [hp, bind, Except.bind, Except.map]
  · rw [hr] at hp
    simp only at hp
    obtain ⟨h1, h2, h3, h4⟩ := hp
    simp only [h1, bind, Except.bind, Except.map, pure, Except.pure]
    refine ⟨fun e => by simp, ?_⟩
    rintro x s' h
    simp only [Except.ok.injEq, Prod.mk.injEq] at h
    obtain ⟨rfl, rfl⟩ := h
    have hv : (catTensors (xs.map ATensor.detach)) = ⟨(xs.map (·.value)).flatten, []⟩ := by
      unfold catTensors
      congr 1
      · rw [List.map_map]; rfl
      · rw [List.map_map]
        have : ((fun x : ATensor (List P) => x.history) ∘ ATensor.detach) = fun _ => [] := rfl
        rw [this]
        induction xs <;> simp_all
    refine ⟨by rw [hv], h3, fun trained chunks => ?_⟩
    rw [hv]
    obtain ⟨s'', g1, _, g3, g4⟩ := Autograd.train_detached trained (xs.map (·.value)).flatten chunks s1 h2
    exact ⟨s'', g1, by rw [g3, h3], fun j hj => by rw [g4 j hj, h3]⟩

/-- **C103** (`Bragg2DPtycho`, `Multislice2DPtycho`, what holds): the patterns are the simulations of the exposures, in
order; and if no parameter of the simulating model is trainable they can be used as data. Missing: models with trainable
parameters, which every newly built model has (`simulated_data_attached_violated`). -/
theorem simulated_data_whole_partial {I T P : Type} (forward : I → T → Except String P) (id : ℕ) (trainable : Bool)
    (indices : List I) (translations : List T) (s : Autograd) (hs : s.Fresh) :
    (∀ e, simWhole forward id trainable indices translations s = .error e ↔
      forwardBatch forward indices translations = .error e) ∧
    ∀ x s', simWhole forward id trainable indices translations s = .ok (x, s') →
      forwardBatch forward indices translations = .ok x.value ∧ s'.walks = s.walks ∧
      (trainable = false → ∀ (trained : ℕ) (chunks : List (List ℕ)), ∃ s'', Autograd.train trained x chunks s' = .ok s'' ∧
        s''.walks trained = s.walks trained + chunks.length ∧ ∀ j, j ≠ trained → s''.walks j = s.walks j) := by
  unfold simWhole
  rcases hv : forwardBatch forward indices translations with e | v
  · simp [bind, Except.bind]
  · simp only [bind, Except.bind, pure, Except.pure]
    refine ⟨fun e => by simp, fun x s' h => ?_⟩
    simp only [Except.ok.injEq] at h
    have hx : x = (s.pass id trainable v).1 := by rw [h]
    have hs' : s' = (s.pass id trainable v).2 := by rw [h]
    obtain ⟨h1, h2, h3, _⟩ := Autograd.pass_fresh id trainable v s hs
    refine ⟨by rw [hx, h2], by rw [hs', h3], ?_⟩
    rintro rfl trained chunks
    rw [hx, hs']
    obtain ⟨s'', g1, _, g3, g4⟩ := Autograd.train_detached trained v chunks s hs
    exact ⟨s'', g1, g3, g4⟩

/-- **C103 is violated** by `Bragg2DPtycho` and `Multislice2DPtycho`: if the simulating model has a trainable parameter,
the patterns it simulates stay connected to it. The first chunk of any training on them adds a gradient to the
simulating model - which nothing will ever clear if it is not the trained model, and which falsifies the gradient of
training if it is -, and the second chunk raises RuntimeError, so no training with more than one chunk is possible. -/
theorem simulated_data_attached_violated {I T P : Type} (forward : I → T → Except String P) (id : ℕ)
    (indices : List I) (translations : List T) (s : Autograd) (hs : s.Fresh) (x : ATensor (List P)) (s' : Autograd)
    (h : simWhole forward id true indices translations s = .ok (x, s')) (trained : ℕ) (c : List ℕ) :
    (∃ s'', Autograd.train trained x [c] s' = .ok s'' ∧
      s''.walks id = s.walks id + (if trained = id then 2 else 1)) ∧
    ∀ c' cs, Autograd.train trained x (c :: c' :: cs) s' = .error .runtimeError := by
  unfold simWhole at h
  rcases hv : forwardBatch forward indices translations with e | v
  · simp [hv, bind, Except.bind] at h
  · simp only [hv, bind, Except.bind, pure, Except.pure, Except.ok.injEq, Autograd.pass, if_true, Prod.mk.injEq] at h
    obtain ⟨rfl, rfl⟩ := h
    have h0 := hs s.passes le_rfl
    have h1 := hs (s.passes + 1) (by omega)
    have hd : ([s.passes + 1, s.passes] : List ℕ).dedup = [s.passes + 1, s.passes] :=
      List.Nodup.dedup (by simp)
    constructor
    · simp only [Autograd.train, Autograd.pass, if_true, Autograd.backward, List.singleton_append, List.any_cons,
        List.any_nil, h0, h1, Bool.or_false, Bool.false_eq_true, if_false, Except.bind, hd]
      refine ⟨_, rfl, ?_⟩
      simp only [List.filter_cons, List.filter_nil]
      by_cases ht : trained = id
      · simp [ht, Function.update]
      · simp [ht, Function.update]
    · intro c' cs
      simp only [Autograd.train, Autograd.pass, if_true, Autograd.backward, List.singleton_append, List.any_cons,
        List.any_nil, h0, h1, Bool.or_false, Bool.false_eq_true, if_false, Except.bind]
      simp

/-- The state at the start of a program meets the hypothesis, and both kinds of simulation succeed on two exposures. -/
example : (({} : Autograd)).Fresh ∧
    (∃ x s', simChunked (fun (i : ℕ) (t : ℕ) => .ok (i + t)) 7 true [0, 1] [5, 6] (some 1) {} = .ok (x, s') ∧
      x.value = [5, 7] ∧ x.history = [] ∧ s'.passes = 2) ∧
    ∃ x s', simWhole (fun (i : ℕ) (t : ℕ) => .ok (i + t)) 7 true [0, 1] [5, 6] {} = .ok (x, s') ∧
      x.value = [5, 7] ∧ x.history = [0] := by
  refine ⟨fun _ _ => rfl, ⟨_, _, rfl, ?_⟩, ⟨_, _, rfl, ?_⟩⟩
  · simp [catTensors, ATensor.detach]
  · simp

end Cdtools
