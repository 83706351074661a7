/-
**C76**, **C79**, **C80** (results): reloading the saved results of multislice, Bragg and simple ptychography models.
-/
import Verif.Model.ResultsIO
import Verif.Props.FancyResults

set_option linter.unusedSectionVars false

namespace Cdtools.ResultsIO
open FancyIO (ParamArr)

variable {K D V : Type}

/-! ### Specification -/

/-- The key from which an entry is computed, with the shape function. -/
def Source.from? : Source K → Option (K × (List ℕ → List ℕ))
  | .derived k f => some (k, f)
  | .orDerived k f => some (k, f)
  | .derivedIf _ k f => some (k, f)
  | _ => none

/-- A state that a model can have: it was built by the constructor from some arguments, and since then the values of its
entries, and the number of modes in the flexible ones, may have changed (optimization, `tidy_probes`, direct assignment);
the settings did not. -/
structure Reachable (cls : Class K) (C : Ctor K D) (sd : StateDict K D) : Prop where
  built : ∃ args s0, C.init cls args = .ok s0 ∧
    (∀ k, (sd k).isSome = (s0 k).isSome) ∧
    (∀ k, cls.flexible k = false → (sd k).map (·.shape) = (s0 k).map (·.shape)) ∧
    (∀ k k' f, (cls.source k).from? = some (k', f) → ∀ p q, s0 k' = some p → sd k' = some q → f q.shape = f p.shape) ∧
    (∀ k flag k' f, cls.source k = .derivedIf flag k' f → ∀ p q, s0 flag = some p → sd flag = some q →
      C.truth q = C.truth p)

/-- Entries that are not passed on, but could be given to the constructor, have the shape of their default. -/
def Fits (cls : Class K) (sd : StateDict K D) : Prop :=
  ∀ k k' f, cls.source k = .orDerived k' f → cls.passed k = false →
    ∀ s p, sd k = some s → sd k' = some p → s.shape = f p.shape

/-- Casting a flag does not change its truth value. -/
def FlagsCast (cls : Class K) (C : Ctor K D) : Prop :=
  ∀ k flag k' f, cls.source k = .derivedIf flag k' f → ∀ args a, C.entry cls args flag = some a →
    C.truth a = C.truth ((args flag).getD (C.dflt flag))

/-- What is true of the three classes: all keys are listed; required, defaulted and optional arguments are passed on;
entries computed from another entry are computed from a required one; computed entries are not flexible; flags have a
default. -/
structure WellFormed (cls : Class K) : Prop where
  complete : ∀ k, k ∈ cls.keys
  passes : ∀ k, (cls.source k).from? = none → cls.passed k = true
  base : ∀ k k' f, (cls.source k).from? = some (k', f) → (∃ e, cls.source k' = .required e) ∧ cls.flexible k = false ∧
    cls.passed k = false
  copy : ∀ k k', cls.source k = .orCopy k' → ∃ e, cls.source k' = .required e
  flag : ∀ k g k' f, cls.source k = .derivedIf g k' f → cls.source g = .withDefault

/-! ### Proofs -/

theorem init_ok {cls : Class K} (hwf : WellFormed cls) {C : Ctor K D} {args : K → Option (ParamArr D)} {s : StateDict K D} :
    C.init cls args = .ok s ↔ s = C.entry cls args ∧ ∀ k e, cls.source k = .required e → (args k).isSome = true := by
  unfold Ctor.init
  constructor
  · intro h
    split at h
    · cases h
    · rename_i hn
      refine ⟨(Except.ok.inj h).symm, fun k e hk => ?_⟩
      have := List.findSome?_eq_none_iff.mp hn k (hwf.complete k)
      cases ha : args k with
      | some a => rfl
      | none => unfold Class.missing at this; rw [hk, ha] at this; cases this
  · rintro ⟨rfl, h⟩
    have : cls.keys.findSome? (cls.missing args) = none := by
      rw [List.findSome?_eq_none_iff]
      intro k _
      unfold Class.missing
      split
      · rename_i e hk ha
        have := h k e hk
        rw [ha] at this; cases this
      · rfl
    rw [this]

theorem entry_required {cls : Class K} {C : Ctor K D} {args : K → Option (ParamArr D)} {k : K} {e : PyExc}
    (h : cls.source k = .required e) : (C.entry cls args k).map (·.shape) = (args k).map (·.shape) := by
  unfold Ctor.entry
  simp only [h]
  cases args k <;> rfl

theorem load_same {cls : Class K} {s sd : StateDict K D} (h : ∀ k, (s k).map (·.shape) = (sd k).map (·.shape)) :
    loadParams cls s sd = .ok sd := by
  unfold loadParams
  rw [if_pos]
  · congr 1
    funext k
    have := h k
    rcases hs : s k with _ | a <;> rcases hd : sd k with _ | b <;> simp_all
  · rw [List.all_eq_true]
    intro k _
    have := h k
    rcases hs : s k with _ | a <;> rcases hd : sd k with _ | b <;> simp_all

theorem isSome_shape {a b : Option (ParamArr D)} (h : a.map (·.shape) = b.map (·.shape)) : a.isSome = b.isSome := by
  cases a <;> cases b <;> simp_all

/-- Reloading, for any class described by its sources: for every reachable model whose support fits, whenever
`save_results` succeeds, `from_results_dict` rebuilds a model with the same parameters and buffers (all of them, and no
others), the same loss history, epoch and training history, and the same loss (if it is passed on). -/
theorem round_trip (cls : Class K) (hwf : WellFormed cls) (C : Ctor K D) (hflag : FlagsCast cls C) (M : Model K D V)
    (hr : Reachable cls C M.sd) (hs : Fits cls M.sd) (dataset : Bool) (r : Results K D)
    (h : saveResults cls dataset M = .ok r) (view : V) :
    fromResultsDict cls C view r =
      .ok { M with view := view, loss := if cls.passesLoss then M.loss else .amplitudeMse } := by
  unfold saveResults at h
  split at h
  · cases h
  simp only [Except.ok.injEq] at h
  subst h
  obtain ⟨args, s0, h0, hsome, hshape, hbase, htruth⟩ := hr.built
  obtain ⟨rfl, hreq⟩ := (init_ok hwf).mp h0
  set s0 := C.entry cls args with hs0
  set args' : K → Option (ParamArr D) := fun k => if cls.passed k then M.sd k else none with hargs'
  -- required entries
  have reqSome : ∀ k e, cls.source k = .required e → (M.sd k).isSome = true := by
    intro k e hk
    rw [hsome, isSome_shape (entry_required (C := C) (args := args) hk)]
    exact hreq k e hk
  have passedBase : ∀ k, (cls.source k).from? = none → args' k = M.sd k := by
    intro k hk; simp only [hargs', hwf.passes k hk, if_true]
  have reqPassed : ∀ k e, cls.source k = .required e → args' k = M.sd k := by
    intro k e hk; exact passedBase k (by rw [hk]; rfl)
  have hinit : C.init cls args' = .ok (C.entry cls args') := by
    refine (init_ok hwf).mpr ⟨rfl, fun k e hk => ?_⟩
    rw [reqPassed k e hk]; exact reqSome k e hk
  have hsh : ∀ k, (C.entry cls args' k).map (·.shape) = (M.sd k).map (·.shape) := by
    intro k
    -- an entry computed from a required one
    have comp : ∀ k' f, (cls.source k).from? = some (k', f) →
        ∃ p q, args k' = some p ∧ M.sd k' = some q ∧ args' k' = some q ∧ f q.shape = f p.shape := by
      intro k' f hk
      obtain ⟨⟨e, he⟩, _⟩ := hwf.base k k' f hk
      obtain ⟨q, hq⟩ := Option.isSome_iff_exists.mp (reqSome k' e he)
      obtain ⟨p, hp⟩ := Option.isSome_iff_exists.mp (hreq k' e he)
      have hp0 : s0 k' = some ⟨p.shape, C.value k' args⟩ := by
        rw [hs0]; unfold Ctor.entry; simp only [he, hp, Option.map_some]
      have hf : f q.shape = f p.shape := hbase k k' f hk ⟨p.shape, C.value k' args⟩ q hp0 hq
      exact ⟨p, q, hp, hq, by rw [reqPassed k' e he, hq], hf⟩
    cases hk : cls.source k with
    | required e =>
      rw [entry_required hk, reqPassed k e hk]
    | withDefault =>
      have hp : args' k = M.sd k := passedBase k (by rw [hk]; rfl)
      have hin : (M.sd k).isSome = true := by
        rw [hsome, hs0]; unfold Ctor.entry; simp only [hk]; rfl
      obtain ⟨v, hv⟩ := Option.isSome_iff_exists.mp hin
      unfold Ctor.entry
      simp only [hk, hp, hv, Option.getD_some, Option.map_some]
    | optional =>
      have hp : args' k = M.sd k := passedBase k (by rw [hk]; rfl)
      unfold Ctor.entry
      simp only [hk, hp]
      cases M.sd k <;> rfl
    | orCopy k' =>
      obtain ⟨e, he⟩ := hwf.copy k k' hk
      have hp : args' k = M.sd k := passedBase k (by rw [hk]; rfl)
      obtain ⟨a', ha'⟩ := Option.isSome_iff_exists.mp (hreq k' e he)
      have hin : (M.sd k).isSome = true := by
        rw [hsome, hs0]; unfold Ctor.entry; simp only [hk, ha']
        cases args k <;> rfl
      obtain ⟨v, hv⟩ := Option.isSome_iff_exists.mp hin
      unfold Ctor.entry
      simp only [hk, hp, hv]; rfl
    | derived k' f =>
      have hfr : (cls.source k).from? = some (k', f) := by rw [hk]; rfl
      obtain ⟨p, q, hp, hq, hq', hf⟩ := comp k' f hfr
      rw [hshape k (hwf.base k k' f hfr).2.1, hs0]
      unfold Ctor.entry
      simp only [hk, hp, hq', Option.map_some, hf]
    | orDerived k' f =>
      have hfr : (cls.source k).from? = some (k', f) := by rw [hk]; rfl
      obtain ⟨p, q, hp, hq, hq', hf⟩ := comp k' f hfr
      have hnp := (hwf.base k k' f hfr).2.2
      have hn : args' k = none := by simp [hargs', hnp]
      have hin : (M.sd k).isSome = true := by
        rw [hsome, hs0]; unfold Ctor.entry; simp only [hk, hp]
        cases args k <;> rfl
      obtain ⟨v, hv⟩ := Option.isSome_iff_exists.mp hin
      have := hs k k' f hk hnp v q hv hq
      unfold Ctor.entry
      simp only [hk, hn, hq', hv, Option.map_some, this]
    | derivedIf g k' f =>
      have hfr : (cls.source k).from? = some (k', f) := by rw [hk]; rfl
      obtain ⟨p, q, hp, hq, hq', hf⟩ := comp k' f hfr
      have hg := hwf.flag k g k' f hk
      have hgp : args' g = M.sd g := passedBase g (by rw [hg]; rfl)
      obtain ⟨vg, hvg⟩ : ∃ v, s0 g = some v := by
        rw [hs0]; unfold Ctor.entry; simp only [hg]; exact ⟨_, rfl⟩
      have hin : (M.sd g).isSome = true := by rw [hsome, hvg]; rfl
      obtain ⟨wg, hwg⟩ := Option.isSome_iff_exists.mp hin
      have ht : C.truth wg = C.truth ((args g).getD (C.dflt g)) := by
        rw [htruth k g k' f hk vg wg hvg hwg]
        exact hflag k g k' f hk args vg hvg
      rw [hshape k (hwf.base k k' f hfr).2.1, hs0]
      unfold Ctor.entry
      simp only [hk, hp, hq', hgp, hwg, Option.getD_some, ht]
      split_ifs
      · simp only [Option.map_some, hf]
      · rfl
  unfold fromResultsDict
  simp only [← hargs', hinit, load_same hsh]
  cases hl : cls.passesLoss
  · rfl
  · simp only [if_true, FancyIO.lossOf_name]

/-- An entry given to the constructor with another shape than its default, and not passed on, makes the results
unloadable. -/
theorem misfit_unloadable (cls : Class K) (hwf : WellFormed cls) (C : Ctor K D) (M : Model K D V) (dataset : Bool)
    (r : Results K D) (h : saveResults cls dataset M = .ok r) (k k' : K) (f : List ℕ → List ℕ)
    (hk : cls.source k = .orDerived k' f) (s p : ParamArr D) (hs : M.sd k = some s) (hp : M.sd k' = some p)
    (hne : s.shape ≠ f p.shape) (view : V) : ∃ e, fromResultsDict cls C view r = .error e := by
  unfold saveResults at h
  split at h
  · cases h
  simp only [Except.ok.injEq] at h
  subst h
  have hfr : (cls.source k).from? = some (k', f) := by rw [hk]; rfl
  obtain ⟨⟨e', he'⟩, _, hnp⟩ := hwf.base k k' f hfr
  have hp' : cls.passed k' = true := hwf.passes k' (by rw [he']; rfl)
  unfold fromResultsDict
  simp only
  split
  · exact ⟨_, rfl⟩
  · rename_i s1 hi
    split
    · exact ⟨_, rfl⟩
    · obtain ⟨rfl, -⟩ := (init_ok hwf).mp hi
      have hbad : ∃ e, loadParams cls (C.entry cls fun k => if cls.passed k = true then M.sd k else none) M.sd = .error e := by
        unfold loadParams
        rw [if_neg]
        · exact ⟨_, rfl⟩
        · intro hall
          have := List.all_eq_true.mp hall k (hwf.complete k)
          unfold Ctor.entry at this
          simp only [hk, hnp, hp', hp, hs, if_true, Option.map_some] at this
          exact hne (of_decide_eq_true this).symm
      obtain ⟨e, he⟩ := hbad
      rw [he]; exact ⟨e, rfl⟩

/-! ### The three classes -/

theorem multislice_wf : WellFormed multisliceClass where
  complete := by intro k; cases k <;> decide
  passes := by intro k; cases k <;> simp [multisliceClass, mSource, Source.from?]
  base := by
    intro k k' f
    cases k <;> simp [multisliceClass, mSource, Source.from?] <;> rintro rfl - <;> exact ⟨_, rfl⟩
  copy := by
    intro k k'
    cases k <;> simp [multisliceClass, mSource] <;> rintro rfl <;> exact ⟨_, rfl⟩
  flag := by
    intro k g k' f
    cases k <;> simp [multisliceClass, mSource] <;> rintro rfl - - <;> rfl

theorem bragg_wf : WellFormed braggClass where
  complete := by intro k; cases k <;> decide
  passes := by intro k; cases k <;> simp [braggClass, bSource, Source.from?]
  base := by
    intro k k' f
    cases k <;> simp [braggClass, bSource, Source.from?] <;> rintro rfl - <;> exact ⟨_, rfl⟩
  copy := by
    intro k k'
    cases k <;> simp [braggClass, bSource] <;> rintro rfl <;> exact ⟨_, rfl⟩
  flag := by
    intro k g k' f
    cases k <;> simp [braggClass, bSource] <;> rintro rfl - - <;> rfl

theorem simple_wf : WellFormed simpleClass where
  complete := by intro k; cases k <;> decide
  passes := by intro k; cases k <;> simp [simpleClass, sSource, Source.from?]
  base := by
    intro k k' f
    cases k <;> simp [simpleClass, sSource, Source.from?] <;> rintro rfl - <;> exact ⟨_, rfl⟩
  copy := by
    intro k k'
    cases k <;> simp [simpleClass, sSource]
  flag := by
    intro k g k' f
    cases k <;> simp [simpleClass, sSource]

/-- **C76** (results): for every reachable `MultislicePtycho` model whose probe support has the shape of a probe mode,
whenever `save_results` succeeds, `from_results_dict` rebuilds a model with the same parameters and buffers, loss and
histories. -/
theorem multislice_results_round_trip (C : Ctor MKey D)
    (hflag : ∀ args a, C.entry multisliceClass args .simulateProbeTranslation = some a →
      C.truth a = C.truth ((args .simulateProbeTranslation).getD (C.dflt .simulateProbeTranslation)))
    (M : Model MKey D V) (hr : Reachable multisliceClass C M.sd)
    (hs : ∀ s p, M.sd .probeSupport = some s → M.sd .probe = some p → s.shape = p.shape.tail) (dataset : Bool)
    (r : Results MKey D) (h : saveResults multisliceClass dataset M = .ok r) (view : V) :
    fromResultsDict multisliceClass C view r = .ok { M with view := view } := by
  refine round_trip _ multislice_wf C ?_ M hr ?_ dataset r h view
  · intro k g k' f hk
    have : g = .simulateProbeTranslation := by cases k <;> simp [multisliceClass, mSource] at hk <;> exact hk.1.symm
    subst this; exact hflag
  · intro k k' f hk _ s p
    have : k = .probeSupport ∧ k' = .probe ∧ f = List.tail := by
      cases k <;> simp [multisliceClass, mSource] at hk
      exact ⟨rfl, hk.1.symm, hk.2.symm⟩
    obtain ⟨rfl, rfl, rfl⟩ := this
    exact hs s p

/-- **C76** (violated): `save_results` needs weights, which the constructor does not require, and a dataset or stored
translations. -/
theorem multislice_save_succeeds_iff (dataset : Bool) (M : Model MKey D V) :
    (∃ r, saveResults multisliceClass dataset M = .ok r) ↔
      M.sd .weights ≠ none ∧ (dataset = true ∨ M.sd .originalTranslations ≠ none) := by
  unfold saveResults multisliceClass
  cases dataset <;> rcases h1 : M.sd .weights with _ | w <;> rcases h2 : M.sd .originalTranslations with _ | o <;> simp [h1, h2]

/-- **C76** (violated): a support of another shape than the probe modes (it only has to broadcast) cannot be reloaded. -/
theorem multislice_support_violated (C : Ctor MKey D) (M : Model MKey D V) (dataset : Bool) (r : Results MKey D)
    (h : saveResults multisliceClass dataset M = .ok r) (s p : ParamArr D) (hs : M.sd .probeSupport = some s)
    (hp : M.sd .probe = some p) (hne : s.shape ≠ p.shape.tail) (view : V) :
    ∃ e, fromResultsDict multisliceClass C view r = .error e :=
  misfit_unloadable _ multislice_wf C M dataset r h .probeSupport .probe List.tail rfl s p hs hp hne view

/-- **C76** (background): no `MultislicePtycho` model can be built without a background. -/
theorem multislice_background_violated (C : Ctor MKey D) (args : MKey → Option (ParamArr D))
    (hreq : ∀ k, mSource k = .required .typeError → (args k).isSome = true) (hb : args .background = none) :
    C.init multisliceClass args = .error .notImplementedError := by
  have g : ∀ k, mSource k = .required .typeError → ∃ a, args k = some a :=
    fun k hk => Option.isSome_iff_exists.mp (hreq k hk)
  obtain ⟨a1, h1⟩ := g .wavelength rfl
  obtain ⟨a2, h2⟩ := g .detBasis rfl
  obtain ⟨a3, h3⟩ := g .objBasis rfl
  obtain ⟨a4, h4⟩ := g .probe rfl
  obtain ⟨a5, h5⟩ := g .obj rfl
  obtain ⟨a6, h6⟩ := g .interslicePropagator rfl
  unfold Ctor.init multisliceClass
  simp [List.findSome?, Class.missing, mSource, h1, h2, h3, h4, h5, h6, hb]

/-- **C79** (results): the same for `Bragg2DPtycho`, including the maps of the tilt correction (also those of a lens) and
the propagator. -/
theorem bragg_results_round_trip (C : Ctor BKey D)
    (hflag : ∀ args a, C.entry braggClass args .correctTilt = some a →
      C.truth a = C.truth ((args .correctTilt).getD (C.dflt .correctTilt)))
    (M : Model BKey D V) (hr : Reachable braggClass C M.sd)
    (hs : ∀ s p, M.sd .probeSupport = some s → M.sd .probe = some p → s.shape = p.shape.tail) (dataset : Bool)
    (r : Results BKey D) (h : saveResults braggClass dataset M = .ok r) (view : V) :
    fromResultsDict braggClass C view r = .ok { M with view := view } := by
  refine round_trip _ bragg_wf C ?_ M hr ?_ dataset r h view
  · intro k g k' f hk
    have : g = .correctTilt := by cases k <;> simp [braggClass, bSource] at hk <;> exact hk.1.symm
    subst this; exact hflag
  · intro k k' f hk _ s p
    have : k = .probeSupport ∧ k' = .probe ∧ f = List.tail := by
      cases k <;> simp [braggClass, bSource] at hk
      exact ⟨rfl, hk.1.symm, hk.2.symm⟩
    obtain ⟨rfl, rfl, rfl⟩ := this
    exact hs s p

/-- **C79** (violated): the conditions for saving a Bragg model. -/
theorem bragg_save_succeeds_iff (dataset : Bool) (M : Model BKey D V) :
    (∃ r, saveResults braggClass dataset M = .ok r) ↔
      M.sd .weights ≠ none ∧ (dataset = true ∨ M.sd .originalTranslations ≠ none) := by
  unfold saveResults braggClass
  cases dataset <;> rcases h1 : M.sd .weights with _ | w <;> rcases h2 : M.sd .originalTranslations with _ | o <;> simp [h1, h2]

/-- **C79** (violated): a support of another shape than the probe modes cannot be reloaded. -/
theorem bragg_support_violated (C : Ctor BKey D) (M : Model BKey D V) (dataset : Bool) (r : Results BKey D)
    (h : saveResults braggClass dataset M = .ok r) (s p : ParamArr D) (hs : M.sd .probeSupport = some s)
    (hp : M.sd .probe = some p) (hne : s.shape ≠ p.shape.tail) (view : V) :
    ∃ e, fromResultsDict braggClass C view r = .error e :=
  misfit_unloadable _ bragg_wf C M dataset r h .probeSupport .probe List.tail rfl s p hs hp hne view

/-- **C80** (results): every reachable `SimplePtycho` model can be saved, and reloading restores all of it except the
loss, which is always the amplitude mean square error (the loss the constructor sets). -/
theorem simple_results_round_trip (C : Ctor SKey D) (M : Model SKey D V) (hr : Reachable simpleClass C M.sd) (dataset : Bool)
    (view : V) : ∃ r, saveResults simpleClass dataset M = .ok r ∧
      fromResultsDict simpleClass C view r = .ok { M with view := view, loss := .amplitudeMse } := by
  refine ⟨_, rfl, ?_⟩
  refine (round_trip _ simple_wf C ?_ M hr ?_ dataset _ rfl view).trans rfl
  · intro k g k' f hk
    cases k <;> simp [simpleClass, sSource] at hk
  · intro k k' f hk
    cases k <;> simp [simpleClass, sSource] at hk

/-- Replacing the probe by any other array, also one with another number of modes, gives again a reachable `SimplePtycho` model; so
the round trip covers it. -/
theorem simple_reachable_reprobe (C : Ctor SKey D) (sd : StateDict SKey D) (hr : Reachable simpleClass C sd) (p : ParamArr D) :
    Reachable simpleClass C fun k => match k with
      | .probe => some p
      | k => sd k := by
  obtain ⟨args, s0, h0, h1, h2, h3, h4⟩ := hr.built
  have hprobe : (s0 .probe).isSome = true := by
    obtain ⟨rfl, hreq⟩ := (init_ok simple_wf).1 h0
    have := hreq .probe _ rfl
    simpa [Ctor.entry, simpleClass, sSource] using this
  refine ⟨args, s0, h0, ?_, ?_, ?_, ?_⟩
  · intro k
    cases k <;> first | exact h1 _ | (rw [hprobe]; rfl)
  · intro k hk
    cases k <;> first | exact h2 _ hk | (exfalso; revert hk; decide)
  · intro k k' f hk a b ha hb
    cases k <;> simp [simpleClass, sSource, Source.from?] at hk
    obtain ⟨rfl, rfl⟩ := hk
    rfl
  · intro k g k' f hk
    cases k <;> simp [simpleClass, sSource] at hk

/-- Non-vacuity: freshly built models are reachable. -/
example : ∃ (C : Ctor MKey Bool) (M : Model MKey Bool Unit), Reachable multisliceClass C M.sd ∧
    (∀ args a, C.entry multisliceClass args .simulateProbeTranslation = some a →
      C.truth a = C.truth ((args .simulateProbeTranslation).getD (C.dflt .simulateProbeTranslation))) ∧
    (∀ s p, M.sd .probeSupport = some s → M.sd .probe = some p → s.shape = p.shape.tail) ∧
    M.sd .iPhase ≠ none ∧ ∃ r, saveResults multisliceClass false M = .ok r := by
  let C : Ctor MKey Bool := ⟨fun k args => match k with
    | .simulateProbeTranslation => ((args .simulateProbeTranslation).getD ⟨[], false⟩).data
    | _ => true, fun _ => ⟨[], false⟩, fun a => a.data⟩
  let args : MKey → Option (ParamArr Bool) := fun
    | .probe => some ⟨[2, 4, 4], true⟩
    | .probeSupport => some ⟨[4, 4], true⟩
    | .weights => some ⟨[7], true⟩
    | _ => some ⟨[3], true⟩
  have h0 : C.init multisliceClass args = .ok (C.entry multisliceClass args) := rfl
  refine ⟨C, ⟨C.entry multisliceClass args, .amplitudeMse, [], 0, "", ()⟩,
    ⟨args, _, h0, fun _ => rfl, fun _ _ => rfl, ?_, ?_⟩, ?_, ?_, ?_, ?_⟩
  · intro k k' f _ p q hp hq
    have : p = q := Option.some.inj (hp.symm.trans hq)
    rw [this]
  · intro k g k' f _ p q hp hq
    have : p = q := Option.some.inj (hp.symm.trans hq)
    rw [this]
  · intro args a ha
    have := Option.some.inj ha
    rw [← this]
  · intro s p hs hp
    have h1 := Option.some.inj hs
    have h2 := Option.some.inj hp
    rw [← h1, ← h2]; rfl
  · intro h; cases h
  · exact ⟨_, rfl⟩

example : ∃ (C : Ctor SKey Unit) (M : Model SKey Unit Unit), Reachable simpleClass C M.sd := by
  let C : Ctor SKey Unit := ⟨fun _ _ => (), fun _ => ⟨[2], ()⟩, fun _ => true⟩
  let args : SKey → Option (ParamArr Unit) := fun _ => some ⟨[4, 4], ()⟩
  have h0 : C.init simpleClass args = .ok (C.entry simpleClass args) := rfl
  refine ⟨C, ⟨C.entry simpleClass args, .amplitudeMse, [], 0, "", ()⟩,
    ⟨args, _, h0, fun _ => rfl, fun _ _ => rfl, ?_, ?_⟩⟩
  · intro k k' f _ p q hp hq
    have : p = q := Option.some.inj (hp.symm.trans hq)
    rw [this]
  · intro k g k' f _ p q hp hq
    have : p = q := Option.some.inj (hp.symm.trans hq)
    rw [this]

end Cdtools.ResultsIO
