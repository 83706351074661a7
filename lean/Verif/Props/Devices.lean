/-
C94 (devices and data types of a dataset) and C95 (hyperparameters that change between calls).
-/
import Mathlib.Tactic.Linarith
import Verif.Model.Devices
import Verif.Model.Optimizers

set_option linter.unusedSectionVars false

namespace Cdtools.Dev

variable {α : Type}

/-! ### Specification -/

/-- The target of the last `get_as` in a history, or the one before. -/
def lastGetAs (start : Target) : List Op → Target
  | [] => start
  | .to _ :: ops => lastGetAs start ops
  | .getAs T :: ops => lastGetAs T ops

/-- The device of the last `to` which names one. -/
def lastDevice (start : String) : List Op → String
  | [] => start
  | .to T :: ops => lastDevice (T.device.getD start) ops
  | .getAs _ :: ops => lastDevice start ops

/-- No data type is ever asked for. -/
def NoDtype (ops : List Op) : Prop := ∀ o ∈ ops, match o with | .to T => T.dtype = none | .getAs T => T.dtype = none

theorem after_cons (cast : DType → α → α) (D : DS α) (o : Op) (ops : List Op) :
    D.after cast (o :: ops) = ((match o with | .to T => D.to cast T | .getAs T => D.get_as T) : DS α).after cast ops := rfl

theorem after_getAs (cast : DType → α → α) (ops : List Op) : ∀ D : DS α, (D.after cast ops).getAs = lastGetAs D.getAs ops := by
  induction ops with
  | nil => intro D; rfl
  | cons o ops ih =>
    intro D
    rw [after_cons, ih]
    cases o <;> rfl

theorem after_device (cast : DType → α → α) (ops : List Op) : ∀ D : DS α,
    (D.after cast ops).patterns.device = lastDevice D.patterns.device ops ∧
    (D.after cast ops).translations.device = lastDevice D.translations.device ops ∧
    (D.after cast ops).patterns.data.length = D.patterns.data.length ∧
    (D.after cast ops).translations.data.length = D.translations.data.length := by
  induction ops with
  | nil => intro D; exact ⟨rfl, rfl, rfl, rfl⟩
  | cons o ops ih =>
    intro D
    rw [after_cons]
    have hlen : ∀ (T : Target) (x : Ten α), (x.to cast T).data.length = x.data.length := by
      intro T x
      unfold Ten.to
      cases T.dtype <;> simp
    cases o with
    | «to» T =>
      obtain ⟨h1, h2, h3, h4⟩ := ih (D.to cast T)
      exact ⟨h1, h2, h3.trans (hlen T _), h4.trans (hlen T _)⟩
    | getAs T => exact ih (D.get_as T)

/-- **C94** (place of the data): after any history of `to` and `get_as` on a new dataset, an access within the data succeeds, and pattern and
translation arrive on the device of the last `get_as`, or where the data are if that named none. -/
theorem dataset_item_device (cast : DType → α → α) (D : DS α) (ops : List Op) (i : Index α)
    (hi : ∀ k ∈ i.positions, k < D.patterns.data.length ∧ k < D.translations.data.length) :
    ∃ ix tr pat, (D.after cast ops).getItem cast i = .ok ((ix, tr), pat) ∧
      pat.device = (lastGetAs D.getAs ops).device.getD (lastDevice D.patterns.device ops) ∧
      tr.device = (lastGetAs D.getAs ops).device.getD (lastDevice D.translations.device ops) := by
  obtain ⟨h1, h2, h3, h4⟩ := after_device cast ops D
  unfold DS.getItem
  rw [h3, h4, if_pos hi]
  refine ⟨_, _, _, rfl, ?_, ?_⟩
  · simp only [Ten.to, after_getAs, h1]
  · simp only [Ten.to, after_getAs, h2]

theorem after_values (cast : DType → α → α) (ops : List Op) (h : NoDtype ops) : ∀ D : DS α,
    (D.after cast ops).patterns.data = D.patterns.data ∧ (D.after cast ops).patterns.dtype = D.patterns.dtype ∧
    (D.after cast ops).translations.data = D.translations.data ∧ (D.after cast ops).translations.dtype = D.translations.dtype := by
  induction ops with
  | nil => intro D; exact ⟨rfl, rfl, rfl, rfl⟩
  | cons o ops ih =>
    intro D
    have h' : NoDtype ops := fun o ho => h o (List.mem_cons_of_mem _ ho)
    have ho := h o List.mem_cons_self
    rw [after_cons]
    cases o with
    | «to» T =>
      dsimp only at ho
      obtain ⟨h1, h2, h3, h4⟩ := ih h' (D.to cast T)
      refine ⟨h1.trans ?_, h2.trans ?_, h3.trans ?_, h4.trans ?_⟩ <;> simp [DS.to, Ten.to, ho]
    | getAs T => exact ih h' (D.get_as T)

theorem lastGetAs_dtype (ops : List Op) (h : NoDtype ops) : ∀ T : Target, T.dtype = none → (lastGetAs T ops).dtype = none := by
  induction ops with
  | nil => intro T hT; exact hT
  | cons o ops ih =>
    intro T hT
    have h' : NoDtype ops := fun o ho => h o (List.mem_cons_of_mem _ ho)
    have ho := h o List.mem_cons_self
    cases o with
    | «to» _ => exact ih h' T hT
    | getAs T' => exact ih h' T' ho

/-- **C94** (values): if no data type is asked for, moving data between devices, however often, changes no value: every access gives the
patterns and translations of the dataset at the positions asked for, in order, with their data types. -/
theorem dataset_item_values (cast : DType → α → α) (D : DS α) (hD : D.getAs.dtype = none) (ops : List Op) (h : NoDtype ops) (i : Index α)
    (hi : ∀ k ∈ i.positions, k < D.patterns.data.length ∧ k < D.translations.data.length) :
    ∃ ix tr pat, (D.after cast ops).getItem cast i = .ok ((ix, tr), pat) ∧ ix.positions = i.positions ∧
      pat.dtype = D.patterns.dtype ∧ pat.data.map some = i.positions.map (fun k => D.patterns.data[k]?) ∧
      tr.dtype = D.translations.dtype ∧ tr.data.map some = i.positions.map fun k => D.translations.data[k]? := by
  obtain ⟨-, -, h3, h4⟩ := after_device cast ops D
  obtain ⟨v1, v2, v3, v4⟩ := after_values cast ops h D
  have hg := lastGetAs_dtype ops h D.getAs hD
  unfold DS.getItem
  rw [h3, h4, if_pos hi]
  have hpick : ∀ (l : List α) (ks : List ℕ), (∀ k ∈ ks, k < l.length) → (ks.filterMap fun k => l[k]?).map some = ks.map fun k => l[k]? := by
    intro l ks
    induction ks with
    | nil => intro _; rfl
    | cons k ks ih =>
      intro hk
      have hk0 := hk k List.mem_cons_self
      rw [List.filterMap_cons, List.getElem?_eq_getElem hk0]
      dsimp only
      rw [List.map_cons, List.map_cons, ih fun k' h' => hk k' (List.mem_cons_of_mem _ h'), List.getElem?_eq_getElem hk0]
  refine ⟨_, _, _, rfl, ?_, ?_, ?_, ?_, ?_⟩
  · cases i <;> rfl
  · simp only [Ten.to, after_getAs, hg, Option.getD_none, v2]
  · simp only [Ten.to, after_getAs, hg, v1]
    exact hpick _ _ fun k hk => (hi k hk).1
  · simp only [Ten.to, after_getAs, hg, Option.getD_none, v4]
  · simp only [Ten.to, after_getAs, hg, v3]
    exact hpick _ _ fun k hk => (hi k hk).2

/-- **C94** (mask): as long as data types are keyword arguments, the mask stays boolean with its values, whatever happens. -/
theorem dataset_mask_bool (cast : DType → α → α) (ops : List Op)
    (h : ∀ o ∈ ops, match o with | .to T => T.dtype = none ∨ T.keyword = true | .getAs _ => True) : ∀ D : DS α,
    (D.after cast ops).mask.dtype = D.mask.dtype ∧ (D.after cast ops).mask.data = D.mask.data := by
  induction ops with
  | nil => intro D; exact ⟨rfl, rfl⟩
  | cons o ops ih =>
    intro D
    have ho := h o List.mem_cons_self
    have ih' := ih fun o ho => h o (List.mem_cons_of_mem _ ho)
    rw [after_cons]
    cases o with
    | «to» T =>
      dsimp only at ho
      obtain ⟨h1, h2⟩ := ih' (D.to cast T)
      have hm : (maskTarget T).dtype = none := by
        unfold maskTarget
        rcases ho with e | e
        · split <;> simp [e]
        · rw [if_pos e]
      refine ⟨h1.trans ?_, h2.trans ?_⟩ <;> simp [DS.to, Ten.to, hm]
    | getAs T => exact ih' (D.get_as T)

/-- **C94** (all data move): after any history the mask, the quantum efficiency mask and the background, if the dataset has them, are on the device
of the last `to` which names one, like patterns and translations (`dataset_item_device`); none gets lost or appears. -/
theorem dataset_moves_all (cast : DType → α → α) (ops : List Op) : ∀ D : DS α,
    (D.after cast ops).mask.device = lastDevice D.mask.device ops ∧
    (D.after cast ops).qeMask.map (·.device) = D.qeMask.map (fun x => lastDevice x.device ops) ∧
    (D.after cast ops).background.map (·.device) = D.background.map (fun x => lastDevice x.device ops) := by
  induction ops with
  | nil => intro D; exact ⟨rfl, rfl, rfl⟩
  | cons o ops ih =>
    intro D
    rw [after_cons]
    cases o with
    | «to» T =>
      obtain ⟨h1, h2, h3⟩ := ih (D.to cast T)
      refine ⟨h1.trans ?_, h2.trans ?_, h3.trans ?_⟩
      · show lastDevice ((maskTarget T).device.getD _) ops = lastDevice (T.device.getD _) ops
        unfold maskTarget
        split <;> rfl
      · show (D.qeMask.map (Ten.to cast T)).map _ = _
        rw [Option.map_map]; rfl
      · show (D.background.map (Ten.to cast T)).map _ = _
        rw [Option.map_map]; rfl
    | getAs T => exact ih (D.get_as T)

/-- **C94** (violated): the data type as positional argument (`dataset.to(torch.float32)`) also converts the mask, which must be boolean. -/
theorem dataset_mask_violated (cast : DType → α → α) (D : DS α) (dev : Option String) (d : DType) :
    (D.to cast ⟨dev, some d, false⟩).mask.dtype = d ∧ (D.to cast ⟨dev, some d, false⟩).mask.data = D.mask.data.map (cast d) := ⟨rfl, rfl⟩

/-- **C94** (violated): after `dataset.to(device)` the accesses to a new dataset still give data on the CPU, whatever the device and however often it is moved;
the measured intensities of the exposures are not moved. -/
theorem dataset_to_violated (cast : DType → α → α) (D : DS α) (hD : D.getAs = initialTarget) (Ts : List Target) (i : Index α)
    (hi : ∀ k ∈ i.positions, k < D.patterns.data.length ∧ k < D.translations.data.length) :
    (∃ ix tr pat, (D.after cast (Ts.map .to)).getItem cast i = .ok ((ix, tr), pat) ∧ pat.device = "cpu" ∧ tr.device = "cpu") ∧
      (D.after cast (Ts.map .to)).intensities = D.intensities := by
  have hl : ∀ (Ts : List Target) (T : Target), lastGetAs T (Ts.map .to) = T := by
    intro Ts
    induction Ts with
    | nil => intro T; rfl
    | cons x xs ih => intro T; exact ih T
  constructor
  · obtain ⟨ix, tr, pat, h1, h2, h3⟩ := dataset_item_device cast D (Ts.map .to) i hi
    rw [hl, hD] at h2 h3
    exact ⟨ix, tr, pat, h1, h2, h3⟩
  · clear hD hi
    revert D
    induction Ts with
    | nil => intro D; rfl
    | cons x xs ih => intro D; rw [List.map_cons, after_cons]; exact ih _

/-- **C94** (violated): with a data type in `get_as`, an index given as tensor arrives in this type, unlike a Python index. -/
theorem dataset_index_violated (cast : DType → α → α) (D : DS α) (T : Target) (d : DType) (hT : T.dtype = some d) (ks : List ℕ) (x : Ten α)
    (hi : ∀ k ∈ ks, k < D.patterns.data.length ∧ k < D.translations.data.length) :
    (∃ ks' x' tr pat, (D.get_as T).getItem cast (.tensor ks x) = .ok ((.tensor ks' x', tr), pat) ∧ x'.dtype = d) ∧
    (∃ tr pat, (D.get_as T).getItem cast (.python ks) = .ok ((.python ks, tr), pat)) := by
  constructor
  · refine ⟨ks, Ten.to cast T x, ?_⟩
    unfold DS.getItem
    rw [if_pos (by exact hi)]
    exact ⟨_, _, rfl, by simp [Ten.to, hT]⟩
  · unfold DS.getItem
    rw [if_pos (by exact hi)]
    exact ⟨_, _, rfl⟩

/-- **C94** (violated): `Multislice2DPtycho.to` returns None instead of the model and leaves the detector geometry where it is. -/
theorem multi2D_to_violated (cast : DType → α → α) (T : Target) (geometry other : Ten α) :
    (multi2DTo cast T geometry other).2 = none ∧ (multi2DTo cast T geometry other).1.1.device = geometry.device ∧
      (multi2DTo cast T geometry other).1.2 = other.to cast T := ⟨rfl, rfl, rfl⟩

/-- A dataset, and a history that moves it: the access gets data on "cuda" in the end. -/
example : lastGetAs initialTarget [.to ⟨some "cuda", none, false⟩, .getAs ⟨some "cuda", none, false⟩] = ⟨some "cuda", none, false⟩ ∧
    NoDtype [.to ⟨some "cuda", none, false⟩, .getAs ⟨some "cuda", none, false⟩] := by
  refine ⟨rfl, fun o ho => ?_⟩
  simp only [List.mem_cons, List.not_mem_nil, or_false] at ho
  rcases ho with rfl | rfl <;> rfl

end Cdtools.Dev

namespace Cdtools

/-! ### C95 -/

theorem adamSteps_some (a : Bool) (k : ℕ) (has : Bool) :
    adamSteps a k (some has) = if k ≠ 0 ∧ a = true ∧ has = false then .error .keyError else .ok (some has) := by
  induction k with
  | zero => rfl
  | succ k ih =>
    rw [adamSteps, adamStep]
    cases a <;> cases has <;> simp [Except.bind] <;> simpa using ih

theorem adamCalls_some (cs : List (Bool × ℕ)) (has : Bool) :
    adamCalls cs (some has) = .ok (some has) ∨ adamCalls cs (some has) = .error .keyError := by
  induction cs with
  | nil => exact Or.inl rfl
  | cons c cs ih =>
    rw [adamCalls, adamSteps_some]
    split
    · exact Or.inr rfl
    · exact ih

theorem adamCalls_ok_iff (cs : List (Bool × ℕ)) (has : Bool) :
    adamCalls cs (some has) = .ok (some has) ↔ has = true ∨ ∀ c ∈ cs, c.2 ≠ 0 → c.1 = false := by
  induction cs with
  | nil => simp [adamCalls]
  | cons c cs ih =>
    rw [adamCalls, adamSteps_some]
    cases has with
    | true =>
      rw [if_neg (by simp)]
      show adamCalls cs (some true) = _ ↔ _
      rw [ih]
      simp
    | false =>
      by_cases h : c.2 ≠ 0 ∧ c.1 = true
      · rw [if_pos ⟨h.1, h.2, rfl⟩]
        simp only [Except.bind, reduceCtorEq, Bool.false_eq_true, false_or, List.mem_cons, forall_eq_or_imp, false_iff, not_and]
        intro e
        have := e h.1
        rw [h.2] at this
        cases this
      · rw [if_neg (fun e => h ⟨e.1, e.2.1⟩)]
        simp only [Except.bind]
        rw [ih]
        simp only [Bool.false_eq_true, false_or, List.mem_cons, forall_eq_or_imp]
        constructor
        · intro e
          refine ⟨fun h0 => ?_, e⟩
          cases hc : c.1 with
          | false => rfl
          | true => exact absurd ⟨h0, hc⟩ h
        · exact fun e => e.2

/-- **C95** (Adam): a sequence of `optimize` calls on one reconstructor, each making at least one step, runs if the first has `amsgrad` or none has. -/
theorem adam_calls_succeed (first : Bool × ℕ) (h0 : first.2 ≠ 0) (cs : List (Bool × ℕ))
    (h : first.1 = true ∨ ∀ c ∈ cs, c.1 = false) : ∃ s, adamCalls (first :: cs) none = .ok s := by
  obtain ⟨a, k⟩ := first
  obtain ⟨k, rfl⟩ := Nat.exists_eq_succ_of_ne_zero h0
  have h1 : adamSteps a (k + 1) none = .ok (some a) := by
    rw [adamSteps, adamStep]
    show adamSteps a k (some a) = _
    rw [adamSteps_some, if_neg]
    cases a <;> simp
  refine ⟨some a, ?_⟩
  rw [adamCalls, h1]
  show adamCalls cs (some a) = _
  rw [adamCalls_ok_iff]
  rcases h with h | h
  · exact Or.inl h
  · exact Or.inr fun c hc _ => h c hc

/-- **C95** (violated, Adam): after steps without `amsgrad`, a later call with `amsgrad=True` fails with a KeyError, whatever happens
between. -/
theorem adam_amsgrad_violated (k : ℕ) (hk : k ≠ 0) (between : List (Bool × ℕ)) (j : ℕ) (hj : j ≠ 0)
    (after : List (Bool × ℕ)) : adamCalls ((false, k) :: (between ++ (true, j) :: after)) none = .error .keyError := by
  obtain ⟨k, rfl⟩ := Nat.exists_eq_succ_of_ne_zero hk
  have h1 : adamSteps false (k + 1) none = .ok (some false) := by
    rw [adamSteps, adamStep]
    show adamSteps false k (some false) = _
    rw [adamSteps_some, if_neg (by simp)]
  rw [adamCalls, h1]
  show adamCalls (between ++ (true, j) :: after) (some false) = _
  rcases adamCalls_some (between ++ (true, j) :: after) false with h | h
  · rw [adamCalls_ok_iff] at h
    rcases h with h | h
    · cases h
    · have := h (true, j) (by simp) hj
      cases this
  · exact h

/-- What holds of the memory between iterations with one history size. -/
def LbfgsMemory.Good (h : ℕ) (s : LbfgsMemory) : Prop := s.pairs ≤ h ∧ (s.al = none ∨ s.al = some h) ∧ (s.started = false → s.pairs = 0)

theorem lbfgs_step_good (h : ℕ) (hh : 0 < h) (a : Bool) (s : LbfgsMemory) (hs : s.Good h) :
    ∃ s', s.step h a = .ok s' ∧ s'.Good h ∧ s'.started = true ∧
      (s'.pairs = if s.started ∧ a then min h (s.pairs + 1) else s.pairs) ∧ (s.started = true → s'.al = some h) := by
  obtain ⟨h1, h2, h3⟩ := hs
  unfold LbfgsMemory.step
  cases hst : s.started with
  | false =>
    rw [if_neg (by simp)]
    refine ⟨_, rfl, ⟨Nat.zero_le _, h2, by simp⟩, rfl, ?_, by simp⟩
    simp [h3 hst]
  | true =>
    rw [if_pos rfl, if_neg (by rintro ⟨-, e1, e2⟩; omega)]
    have hal : s.al.getD h = h := by rcases h2 with e | e <;> rw [e] <;> rfl
    dsimp only
    rw [hal]
    have hp : (if a = true then if s.pairs = h then s.pairs else s.pairs + 1 else s.pairs) = if true = true ∧ a = true then min h (s.pairs + 1) else s.pairs := by
      cases a
      · simp
      · simp only [if_true, and_self]
        split <;> omega
    have hle : (if a = true then if s.pairs = h then s.pairs else s.pairs + 1 else s.pairs) ≤ h := by
      split
      · split <;> omega
      · exact h1
    rw [if_neg (not_lt.2 hle)]
    exact ⟨_, rfl, ⟨hle, Or.inr rfl, by simp⟩, rfl, hp, fun _ => rfl⟩

/-- **C95** (LBFGS): with one history size of at least 1 in all calls, every iteration works and the memory never exceeds it, whatever pairs are stored. -/
theorem lbfgs_calls_succeed (h : ℕ) (hh : 0 < h) (cs : List (List Bool)) :
    ∃ s, LbfgsMemory.calls (cs.map fun c => (h, c)) {} = .ok s ∧ s.pairs ≤ h := by
  have run : ∀ (c : List Bool) (s : LbfgsMemory), s.Good h → ∃ s', s.run h c = .ok s' ∧ s'.Good h := by
    intro c
    induction c with
    | nil => intro s hs; exact ⟨s, rfl, hs⟩
    | cons a as ih =>
      intro s hs
      obtain ⟨s1, e1, g1, -, -, -⟩ := lbfgs_step_good h hh a s hs
      obtain ⟨s2, e2, g2⟩ := ih s1 g1
      exact ⟨s2, by rw [LbfgsMemory.run, e1]; exact e2, g2⟩
  have calls : ∀ (cs : List (List Bool)) (s : LbfgsMemory), s.Good h → ∃ s', s.calls (cs.map fun c => (h, c)) = .ok s' ∧ s'.Good h := by
    intro cs
    induction cs with
    | nil => intro s hs; exact ⟨s, rfl, hs⟩
    | cons c cs ih =>
      intro s hs
      obtain ⟨s1, e1, g1⟩ := run c s hs
      obtain ⟨s2, e2, g2⟩ := ih s1 g1
      exact ⟨s2, by rw [List.map_cons, LbfgsMemory.calls, e1]; exact e2, g2⟩
  obtain ⟨s, e, g⟩ := calls cs {} ⟨Nat.zero_le _, Or.inl rfl, fun _ => rfl⟩
  exact ⟨s, e, g.1⟩

/-- **C95** (violated, LBFGS): once the memory is full, any other history size in a later call makes the next stored pair fail with an IndexError:
a first call with `k ≥ h` stored pairs after its first iteration, then a call with `h' ≠ h`. -/
theorem lbfgs_history_violated (h h' : ℕ) (hh : 0 < h) (hne : h' ≠ h) (first : Bool) (k : ℕ) (hk : h ≤ k) (rest : List Bool)
    (more : List (ℕ × List Bool)) :
    LbfgsMemory.calls ((h, first :: List.replicate k true) :: (h', true :: rest) :: more) {} = .error .indexError := by
  have run : ∀ (k : ℕ) (s : LbfgsMemory), s.Good h → s.started = true → 0 < k →
      ∃ s', s.run h (List.replicate k true) = .ok s' ∧ s'.started = true ∧ s'.pairs = min h (s.pairs + k) ∧ s'.al = some h := by
    intro k
    induction k with
    | zero => intro s _ _ h0; omega
    | succ k ih =>
      intro s hs hst _
      obtain ⟨s1, e1, g1, st1, p1, al1⟩ := lbfgs_step_good h hh true s hs
      rw [if_pos ⟨hst, rfl⟩] at p1
      have al1 := al1 hst
      rw [List.replicate_succ, LbfgsMemory.run, e1]
      show ∃ s', s1.run h (List.replicate k true) = .ok s' ∧ _
      rcases Nat.eq_zero_or_pos k with rfl | hk
      · exact ⟨s1, rfl, st1, p1, al1⟩
      · obtain ⟨s2, e2, st2, p2, al2⟩ := ih s1 g1 st1 hk
        exact ⟨s2, e2, st2, by rw [p2, p1]; omega, al2⟩
  have s0 : ({} : LbfgsMemory).step h first = .ok ⟨0, none, true⟩ := rfl
  obtain ⟨s, e, st, p, al⟩ := run k ⟨0, none, true⟩ ⟨Nat.zero_le _, Or.inl rfl, fun _ => rfl⟩ rfl (by omega)
  have hp : s.pairs = h := by rw [p]; simp only [Nat.zero_add]; omega
  have e' : ({} : LbfgsMemory).run h (first :: List.replicate k true) = .ok s := by
    rw [LbfgsMemory.run, s0]; exact e
  have hstep : s.step h' true = .error .indexError := by
    unfold LbfgsMemory.step
    rw [if_pos st, if_neg (by rintro ⟨-, e1, -⟩; exact hne (e1.symm.trans hp))]
    dsimp only
    simp [hp, al, Ne.symm hne]
  rw [LbfgsMemory.calls, e']
  show s.calls _ = _
  rw [LbfgsMemory.calls, LbfgsMemory.run, hstep]
  rfl

/-- **C95** (LBFGS settings): after any calls, all parameter groups have the settings of the last `adjust_optimizer`, with the documented
defaults for what it leaves out, whatever was set before. -/
theorem lbfgs_settings_last (calls : List (Option ℝ × Option ℕ × Option String)) (lr : Option ℝ) (history : Option ℕ) (ls : Option String)
    (groups : List LbfgsGroup) :
    ∀ g ∈ lbfgsAdjust lr history ls (calls.foldl (fun gs c => lbfgsAdjust c.1 c.2.1 c.2.2 gs) groups),
      g.lr = lr.getD 0.005 ∧ g.history = history.getD 2 ∧ g.lineSearch = ls := by
  intro g hg
  unfold lbfgsAdjust at hg
  obtain ⟨_, -, rfl⟩ := List.mem_map.1 hg
  exact ⟨rfl, rfl, rfl⟩

example : ∃ s, LbfgsMemory.calls [(2, [true, true, true]), (2, [true])] {} = .ok s ∧ s.pairs = 2 := ⟨_, rfl, rfl⟩

end Cdtools
