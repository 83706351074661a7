/-
**C54**: the results of a `FancyPtycho` model can be reloaded into an identical model.
-/
import Verif.Model.FancyResults
import Mathlib.Tactic

set_option linter.unusedSectionVars false

namespace Cdtools.FancyIO

variable {D V : Type}

/-! ### Specification -/

/-- A state that a model can have: it was built by the constructor from some arguments, and since then the
values of its entries, and the number of modes in the probe and the weights, may have changed (optimization,
`tidy_probes`, direct assignment of tensors of the same shape); the settings did not. -/
structure Reachable (C : Ctor D) (sd : StateDict D) : Prop where
  built : ∃ args s0, C.init args = .ok s0 ∧
    (∀ k, (sd k).isSome = (s0 k).isSome) ∧
    (∀ k, k ≠ .probe → k ≠ .weights → (sd k).map (·.shape) = (s0 k).map (·.shape)) ∧
    (∀ p q, s0 .probe = some p → sd .probe = some q → q.shape.tail = p.shape.tail ∧ lastTwo q.shape = lastTwo p.shape) ∧
    (∀ p q, s0 .simulateProbeTranslation = some p → sd .simulateProbeTranslation = some q → C.truth q = C.truth p)

/-- The probe support has the shape of one probe mode. -/
def SupportFits (sd : StateDict D) : Prop :=
  ∀ s p, sd .probeSupport = some s → sd .probe = some p → s.shape = p.shape.tail

/-- Casting a flag does not change its truth value. -/
def FlagsCast (C : Ctor D) : Prop :=
  ∀ a, C.truth (C.entry .simulateProbeTranslation a) = C.truth a

/-! ### Proofs -/

theorem lossOf_name (l : LossKind) : lossOf (lossFunctionName l) = .ok l := by
  cases l <;> decide

theorem mem_allKeys (k : Key) : k ∈ allKeys := by cases k <;> decide

theorem init_required {C : Ctor D} {args : Key → Option (ParamArr D)} {s : StateDict D} (h : C.init args = .ok s) :
    ∃ wl db ob pr o bg, args .wavelength = some wl ∧ args .detBasis = some db ∧ args .objBasis = some ob ∧
      args .probe = some pr ∧ args .obj = some o ∧ args .background = some bg ∧
      ¬((args .probeFourierShifts).isSome ∧ args .translationOffsets = none) := by
  unfold Ctor.init at h
  split at h
  · rename_i wl db ob pr o h1 h2 h3 h4 h5
    split at h
    · cases h
    · rename_i bg hb
      by_cases hc : (args .probeFourierShifts).isSome = true ∧ args .translationOffsets = none
      · rw [if_pos hc] at h; cases h
      exact ⟨wl, db, ob, pr, o, bg, h1, h2, h3, h4, h5, hb, hc⟩
  · cases h

/-- **C54** (incomplete results): after loading, every parameter that the results contain has the value of the results, and every parameter they lack has
the value it got from the constructor; the model has exactly the parameters the constructor gives it. -/
theorem results_missing_parameters {V : Type} (C : Ctor D) (view : V) (r : Results D) (M : FancyModel D V) (h : fromResultsDict C view r = .ok M)
    (s : StateDict D) (hs : C.init (resultArgs r.stateDict) = .ok s) (k : Key) :
    (s k = none → M.sd k = none) ∧ ∀ a, s k = some a → M.sd k = some ((r.stateDict k).getD a) := by
  unfold fromResultsDict at h
  rw [hs] at h
  cases hl : lossOf r.lossFunction with
  | error e => rw [hl] at h; cases h
  | ok l =>
    rw [hl] at h
    simp only at h
    unfold loadParams at h
    split at h
    · cases h
    · rename_i s' hs'
      split_ifs at hs'
      have e := (Except.ok.inj h).symm
      have e2 := (Except.ok.inj hs').symm
      have e3 : M.sd k = s' k := by rw [e]
      rw [e3, e2]
      refine ⟨fun h0 => ?_, fun a h0 => ?_⟩
      · simp only [h0]
      · simp only [h0]
        cases r.stateDict k <;> rfl

theorem load_same {s sd : StateDict D} (h : ∀ k, (s k).map (·.shape) = (sd k).map (·.shape)) :
    loadParams s sd allKeys = .ok sd := by
  unfold loadParams
  rw [if_pos]
  · congr 1
    funext k
    have := h k
    rcases hs : s k with _ | a <;> rcases hd : sd k with _ | b <;> simp_all
  · rw [List.all_eq_true]
    intro k _
    have := h k
    rcases hs : s k with _ | a <;> rcases hd : sd k with _ | b <;> simp_all

/-- **C54** (reloading): for every reachable model whose probe support has the shape of a probe mode, whenever
`save_results` succeeds, `from_results_dict` rebuilds a model with the same parameters and buffers (all of
them, and no others), the same loss, loss history, epoch and training history. -/
theorem results_round_trip (C : Ctor D) (hflag : FlagsCast C) (M : FancyModel D V) (hr : Reachable C M.sd)
    (hs : SupportFits M.sd) (dataset : Bool) (r : Results D) (h : saveResults dataset M = .ok r) (view : V) :
    fromResultsDict C view r = .ok { M with view := view } := by
  unfold saveResults at h
  split_ifs at h
  simp only [Except.ok.injEq] at h
  subst h
  obtain ⟨args, s0, h0, hsome, hshape, hprobe, htruth⟩ := hr.built
  obtain ⟨wl, db, ob, pr, o, bg, a1, a2, a3, a4, a5, a6, a7⟩ := init_required h0
  unfold Ctor.init at h0
  rw [a1, a2, a3, a4, a5, a6] at h0
  simp only at h0
  rw [if_neg a7] at h0
  simp only [Except.ok.injEq] at h0
  -- the registered entries
  have get : ∀ k, (s0 k).isSome = true → ∃ v, M.sd k = some v := fun k hk =>
    Option.isSome_iff_exists.1 (by rw [hsome, hk])
  obtain ⟨v1, e1⟩ := get .wavelength (by rw [← h0]; rfl)
  obtain ⟨v2, e2⟩ := get .detBasis (by rw [← h0]; rfl)
  obtain ⟨v3, e3⟩ := get .objBasis (by rw [← h0]; rfl)
  obtain ⟨v4, e4⟩ := get .probe (by rw [← h0]; rfl)
  obtain ⟨v5, e5⟩ := get .obj (by rw [← h0]; rfl)
  obtain ⟨v6, e6⟩ := get .background (by rw [← h0]; rfl)
  have hshifts : ¬((M.sd .probeFourierShifts).isSome = true ∧ M.sd .translationOffsets = none) := by
    rintro ⟨hA, hB⟩
    rw [hsome] at hA
    have hB' : (s0 .translationOffsets).isSome = false := by rw [← hsome, hB]; rfl
    rw [← h0] at hA hB'
    simp only [Option.isSome_map] at hB'
    simp only at hA
    by_cases hc : (args .probeFourierShifts).isSome = true
    · rw [if_pos hc, Option.isSome_map] at hA
      rw [hA] at hB'; cases hB'
    · rw [if_neg hc] at hA; cases hA
  have hs1 : ∃ s1, C.init (resultArgs M.sd) = .ok s1 ∧ ∀ k, (s1 k).map (·.shape) = (M.sd k).map (·.shape) := by
    unfold Ctor.init
    have r1 : resultArgs M.sd .wavelength = some v1 := e1
    have r2 : resultArgs M.sd .detBasis = some v2 := e2
    have r3 : resultArgs M.sd .objBasis = some v3 := e3
    have r4 : resultArgs M.sd .probe = some v4 := e4
    have r5 : resultArgs M.sd .obj = some v5 := e5
    have r6 : resultArgs M.sd .background = some v6 := e6
    rw [r1, r2, r3, r4, r5, r6]
    simp only
    have hshifts' : ¬((resultArgs M.sd .probeFourierShifts).isSome = true ∧
      resultArgs M.sd .translationOffsets = none) := hshifts
    rw [if_neg hshifts']
    refine ⟨_, rfl, ?_⟩
    have hdef : ∀ k, (s0 k).isSome = true → ((some (C.entry k ((M.sd k).getD (C.dflt k)))).map (·.shape) =
        (M.sd k).map (·.shape)) := by
      intro k hk
      obtain ⟨v, hv⟩ := get k hk
      rw [hv]; rfl
    have hopt : ∀ k, ((M.sd k).map (C.entry k)).map (·.shape) = (M.sd k).map (·.shape) := by
      intro k; rw [Option.map_map]; rfl
    have hp4 := hprobe (C.entry .probe pr) v4 (by rw [← h0]) e4
    -- the phase ramps
    obtain ⟨vs, hvs⟩ := get .simulateProbeTranslation (by rw [← h0]; rfl)
    have htr := htruth _ vs (by rw [← h0]) hvs
    rw [hflag] at htr
    have hoff : (M.sd .translationOffsets).isSome = (args .translationOffsets).isSome := by
      rw [hsome, ← h0]; simp only [Option.isSome_map]
    have hsh : (M.sd .probeFourierShifts).isSome = (args .probeFourierShifts).isSome := by
      rw [hsome, ← h0]
      simp only
      split_ifs with hc
      · rw [Option.isSome_map, hc]
        by_contra hn
        exact a7 ⟨hc, by simpa using hn⟩
      · simp only [Bool.not_eq_true] at hc; rw [hc]; rfl
    have hramp : (C.truth ((M.sd .simulateProbeTranslation).getD (C.dflt .simulateProbeTranslation)) ||
        (M.sd .probeFourierShifts).isSome) =
        (C.truth ((args .simulateProbeTranslation).getD (C.dflt .simulateProbeTranslation)) ||
        (args .probeFourierShifts).isSome) := by
      rw [hvs, hsh, Option.getD_some, htr]
    intro k
    cases k with
    | wavelength => rw [e1]; rfl
    | detBasis => rw [e2]; rfl
    | objBasis => rw [e3]; rfl
    | probe => rw [e4]; rfl
    | obj => rw [e5]; rfl
    | background => rw [e6]; rfl
    | probeBasis =>
      obtain ⟨v, hv⟩ := get .probeBasis (by rw [← h0]; rfl)
      have : resultArgs M.sd .probeBasis = some v := hv
      rw [hv]; simp only [this]; rfl
    | probeNorm =>
      rw [hshape .probeNorm (by decide) (by decide), ← h0]; rfl
    | probeSupport =>
      obtain ⟨v, hv⟩ := get .probeSupport (by rw [← h0]; rfl)
      rw [hv]
      have := hs v v4 hv e4
      simp only [Option.map_some, this]
      rfl
    | iPhase =>
      rw [hshape .iPhase (by decide) (by decide), ← h0]
      simp only [resultArgs, hramp]
      split_ifs
      · simp only [Option.map_some, hp4.2]; rfl
      · rfl
    | jPhase =>
      rw [hshape .jPhase (by decide) (by decide), ← h0]
      simp only [resultArgs, hramp]
      split_ifs
      · simp only [Option.map_some, hp4.2]; rfl
      · rfl
    | probeFourierShifts =>
      rw [hshape .probeFourierShifts (by decide) (by decide), ← h0]
      simp only [resultArgs, hsh]
      split_ifs with hc
      · have ho := hshape .translationOffsets (by decide) (by decide)
        rw [← h0] at ho
        simp only [Option.map_map] at ho ⊢
        exact ho
      · rfl
    | minTranslation => exact hdef _ (by rw [← h0]; rfl)
    | surfaceNormal => exact hdef _ (by rw [← h0]; rfl)
    | fourierProbe => exact hdef _ (by rw [← h0]; rfl)
    | exponentiateObj => exact hdef _ (by rw [← h0]; rfl)
    | phaseOnly => exact hdef _ (by rw [← h0]; rfl)
    | nearField => exact hdef _ (by rw [← h0]; rfl)
    | translationScale => exact hdef _ (by rw [← h0]; rfl)
    | oversampling => exact hdef _ (by rw [← h0]; rfl)
    | simulateProbeTranslation => exact hdef _ (by rw [← h0]; rfl)
    | simulateFinitePixels => exact hdef _ (by rw [← h0]; rfl)
    | detDistance => exact hopt _
    | detCorner => exact hopt _
    | saturation => exact hopt _
    | asp => exact hopt _
    | invAsp => exact hopt _
    | mask => exact hopt _
    | qeMask => exact hopt _
    | weights => exact hopt _
    | translationOffsets => exact hopt _
    | originalTranslations => exact hopt _
  obtain ⟨s1, hi, hk⟩ := hs1
  unfold fromResultsDict
  simp only [hi, lossOf_name, load_same hk]

/-- **C54** (violated): a model without weights cannot be saved, and neither can one without stored
translations unless a dataset is given; every other model can. -/
theorem save_results_succeeds_iff (dataset : Bool) (M : FancyModel D V) :
    (∃ r, saveResults dataset M = .ok r) ↔
      M.sd .weights ≠ none ∧ (dataset = true ∨ M.sd .originalTranslations ≠ none) := by
  unfold saveResults
  split_ifs with h1 h2
  · simp only [reduceCtorEq, exists_false, false_iff, not_and, not_or]
    intro _
    exact ⟨h1.1, not_not.2 h1.2⟩
  · simp [h2]
  · simp only [Except.ok.injEq, exists_eq', true_iff]
    refine ⟨h2, ?_⟩
    by_contra hn
    simp only [not_or, ne_eq, not_not] at hn
    exact h1 hn

/-- **C54** (violated): constructor arguments that are accepted although the model can never be saved. -/
theorem unsaveable_model_violated (C : Ctor D) (args : Key → Option (ParamArr D)) (s : StateDict D)
    (h : C.init args = .ok s) (hw : args .weights = none) (M : FancyModel D V) (hM : M.sd = s) (dataset : Bool) :
    ∃ e, saveResults dataset M = .error e := by
  have hs : M.sd .weights = none := by
    rw [hM]
    obtain ⟨wl, db, ob, pr, o, bg, a1, a2, a3, a4, a5, a6, a7⟩ := init_required h
    unfold Ctor.init at h
    rw [a1, a2, a3, a4, a5, a6] at h
    simp only at h
    rw [if_neg a7] at h
    simp only [Except.ok.injEq] at h
    rw [← h]
    simp only [hw, Option.map_none]
  rcases he : saveResults dataset M with e | r
  · exact ⟨e, rfl⟩
  · exact absurd ((save_results_succeeds_iff dataset M).1 ⟨r, he⟩).1 (by rw [hs]; simp)

/-- **C54** (violated): a probe support that broadcasts against the probe without having its shape is
accepted and saved, but the results cannot be reloaded. -/
theorem broadcast_support_violated (C : Ctor D) (M : FancyModel D V) (r : Results D) (dataset : Bool)
    (h : saveResults dataset M = .ok r) (s p : ParamArr D) (hs : M.sd .probeSupport = some s) (hp : M.sd .probe = some p)
    (hne : s.shape ≠ p.shape.tail) (view : V) : ∃ e, fromResultsDict C view r = .error e := by
  unfold saveResults at h
  split_ifs at h
  simp only [Except.ok.injEq] at h
  subst h
  unfold fromResultsDict
  rcases hi : C.init (resultArgs M.sd) with e | s1
  · exact ⟨e, rfl⟩
  · simp only [lossOf_name]
    obtain ⟨wl, db, ob, pr, o, bg, a1, a2, a3, a4, a5, a6, a7⟩ := init_required hi
    have hpr : pr = p := by
      have : resultArgs M.sd .probe = M.sd .probe := rfl
      rw [this, hp] at a4
      exact (Option.some.inj a4).symm
    unfold Ctor.init at hi
    rw [a1, a2, a3, a4, a5, a6] at hi
    simp only at hi
    rw [if_neg a7] at hi
    simp only [Except.ok.injEq] at hi
    have h1 : s1 .probeSupport = some ⟨pr.shape.tail, C.T .probeSupport pr⟩ := by rw [← hi]; rfl
    have : loadParams s1 M.sd allKeys = .error .runtimeError := by
      unfold loadParams
      rw [if_neg]
      intro hall
      rw [List.all_eq_true] at hall
      have := hall .probeSupport (mem_allKeys _)
      rw [h1, hs] at this
      simp only [decide_eq_true_eq] at this
      exact hne (by rw [← this, hpr])
    rw [this]
    exact ⟨_, rfl⟩

/-- **C54** (shapes of the derived entries): the phase ramps of a freshly built model have the shape of one
image of the probe, the normalization of the probe is a scalar, a default support has the shape of one mode of
the probe, and the ramps exist exactly when probe translation is simulated or probe shifts are fitted. -/
theorem init_derived_shapes (C : Ctor D) (args : Key → Option (ParamArr D)) (s : StateDict D)
    (h : C.init args = .ok s) (modes rows cols : ℕ) (mid : List ℕ) (pr : ParamArr D) (hp : args .probe = some pr)
    (hs : pr.shape = modes :: (mid ++ [rows, cols])) :
    (∀ a, s .iPhase = some a → a.shape = [rows, cols]) ∧ (∀ a, s .jPhase = some a → a.shape = [rows, cols]) ∧
    (∀ a, s .probeNorm = some a → a.shape = []) ∧ (∀ a, s .probe = some a → a.shape = pr.shape) ∧
    (args .probeSupport = none → ∀ a, s .probeSupport = some a → a.shape = mid ++ [rows, cols]) ∧
    ((s .iPhase).isSome ↔ C.truth ((args .simulateProbeTranslation).getD (C.dflt .simulateProbeTranslation)) = true ∨
      (args .probeFourierShifts).isSome) := by
  obtain ⟨wl, db, ob, pr', o, bg, a1, a2, a3, a4, a5, a6, a7⟩ := init_required h
  obtain rfl : pr' = pr := Option.some.inj (a4.symm.trans hp)
  have hl : lastTwo pr'.shape = [rows, cols] := by
    unfold lastTwo
    rw [hs, ← List.cons_append]
    simp
  unfold Ctor.init at h
  rw [a1, a2, a3, a4, a5, a6] at h
  simp only at h
  rw [if_neg a7] at h
  simp only [Except.ok.injEq] at h
  subst h
  refine ⟨fun a ha => ?_, fun a ha => ?_, fun a ha => ?_, fun a ha => ?_, fun hn a ha => ?_, ?_⟩
  · simp only at ha
    split at ha
    · cases ha; exact hl
    · cases ha
  · simp only at ha
    split at ha
    · cases ha; exact hl
    · cases ha
  · cases ha; rfl
  · cases ha; rfl
  · simp only [hn] at ha
    cases ha
    show pr'.shape.tail = _
    rw [hs]
    rfl
  · simp only
    split
    · rename_i hr
      simpa using hr
    · rename_i hr
      simpa using hr

/-- Non-vacuity: a freshly built model with every optional entry is reachable and has a fitting support. -/
example : ∃ (C : Ctor Unit) (M : FancyModel Unit Unit), FlagsCast C ∧ Reachable C M.sd ∧ SupportFits M.sd ∧
    ∃ r, saveResults false M = .ok r := by
  let C : Ctor Unit := ⟨fun _ _ => (), fun _ => ⟨[], ()⟩, fun _ => false⟩
  let args : Key → Option (ParamArr Unit) := fun
    | .probe => some ⟨[2, 4, 4], ()⟩
    | .probeSupport => some ⟨[4, 4], ()⟩
    | .weights => some ⟨[7], ()⟩
    | .translationOffsets => some ⟨[7, 2], ()⟩
    | _ => some ⟨[3], ()⟩
  obtain ⟨s, hs⟩ : ∃ s, C.init args = .ok s := ⟨_, rfl⟩
  refine ⟨C, ⟨s, .amplitudeMse, [], 0, "", ()⟩, fun _ => rfl, ⟨args, s, hs, fun _ => rfl, fun _ _ _ => rfl,
    fun p q hp hq => ?_, fun p q _ _ => rfl⟩, ?_, (save_results_succeeds_iff _ _).2 ⟨?_, Or.inr ?_⟩⟩
  · have : p = q := Option.some.inj (hp.symm.trans hq)
    rw [this]; exact ⟨rfl, rfl⟩
  · intro a p ha hp
    have h := Except.ok.inj hs
    simp only at ha hp
    rw [← h] at ha hp
    simp only [Option.some.injEq] at ha hp
    rw [← ha, ← hp]; rfl
  · rw [← Except.ok.inj hs]; simp [args]
  · rw [← Except.ok.inj hs]; simp [args]

end Cdtools.FancyIO
