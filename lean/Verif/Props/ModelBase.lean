/-
C96 (detector geometry and surface normal of a model), C97 (saved figures) and C98 (what `dataset.inspect` shows).
-/
import Verif.Lemmas.Chunks
import Verif.Model.ModelBase
import Verif.Props.BraggSetup

set_option linter.unusedSectionVars false

namespace Cdtools
open Finset

variable {α φ : Type}

/-! ### C96 -/

/-- What a model keeps of an entry: values in its data type; None is as good as missing. -/
def Entry.kept (cast : α → α) : Entry α → Entry α
  | .value x => .value (cast x)
  | _ => .missing

/-- **C96** (round trip): a new model to which a geometry with a basis is given returns this geometry, in its data type; entries None are left out. -/
theorem model_geometry_roundtrip (cast : α → α) (d : GeomDict α) (x : α) (hx : d.basis = .value x) :
    ∃ b, storeGeometry cast d {} = .ok b ∧ getGeometry b = ⟨.value (cast x), d.distance.kept cast, d.corner.kept cast⟩ := by
  refine ⟨⟨some (cast x), storeEntry cast d.distance none, storeEntry cast d.corner none⟩, ?_, ?_⟩
  · unfold storeGeometry
    rw [hx]
  · unfold getGeometry
    congr 1
    · cases d.distance <;> rfl
    · cases d.corner <;> rfl

/-- The last value among entries given one after the other, or the one before them. -/
def lastGiven (start : Option α) : List (Entry α) → Option α
  | [] => start
  | .value x :: es => lastGiven (some x) es
  | _ :: es => lastGiven start es

theorem lastGiven_map (cast : α → α) (es : List (Entry α)) : ∀ s : Option α, (lastGiven s es).map cast = lastGiven (s.map cast) (es.map (Entry.kept cast)) := by
  induction es with
  | nil => intro s; rfl
  | cons e es ih => intro s; cases e <;> exact ih _

theorem storeEntry_last (cast : α → α) (e : Entry α) (es : List (Entry α)) (s : Option α) :
    lastGiven (storeEntry cast e s) (es.map (Entry.kept cast)) = lastGiven s ((e :: es).map (Entry.kept cast)) := by
  cases e <;> rfl

/-- **C96** (histories): after any sequence of geometries given to a model, all with a basis, it has the last basis, and for distance and corner the last that was
given at all. -/
theorem geometry_history (cast : α → α) (ds : List (GeomDict α)) (hd : ∀ d ∈ ds, ∃ x, d.basis = .value x) :
    ∃ b, storeGeometries cast ds {} = .ok b ∧ b.basis = (lastGiven none (ds.map (·.basis))).map cast ∧
      b.distance = (lastGiven none (ds.map (·.distance))).map cast ∧ b.corner = (lastGiven none (ds.map (·.corner))).map cast := by
  have key : ∀ (ds : List (GeomDict α)) (b0 : GeomBuffers α), (∀ d ∈ ds, ∃ x, d.basis = .value x) → ∃ b, storeGeometries cast ds b0 = .ok b ∧
      b.basis = lastGiven b0.basis ((ds.map (·.basis)).map (Entry.kept cast)) ∧
      b.distance = lastGiven b0.distance ((ds.map (·.distance)).map (Entry.kept cast)) ∧
      b.corner = lastGiven b0.corner ((ds.map (·.corner)).map (Entry.kept cast)) := by
    intro ds
    induction ds with
    | nil => intro b0 _; exact ⟨b0, rfl, rfl, rfl, rfl⟩
    | cons d ds ih =>
      intro b0 h
      obtain ⟨x, hx⟩ := h d List.mem_cons_self
      obtain ⟨b, e, h1, h2, h3⟩ := ih ⟨some (cast x), storeEntry cast d.distance b0.distance, storeEntry cast d.corner b0.corner⟩
        fun d' hd' => h d' (List.mem_cons_of_mem _ hd')
      refine ⟨b, ?_, ?_, ?_, ?_⟩
      · rw [storeGeometries, storeGeometry, hx]; exact e
      · rw [h1, List.map_cons, List.map_cons, hx]; rfl
      · rw [h2, List.map_cons]; exact storeEntry_last cast _ _ _
      · rw [h3, List.map_cons]; exact storeEntry_last cast _ _ _
  obtain ⟨b, e, h1, h2, h3⟩ := key ds {} hd
  exact ⟨b, e, by rw [h1, lastGiven_map]; rfl, by rw [h2, lastGiven_map]; rfl, by rw [h3, lastGiven_map]; rfl⟩

/-- **C96** (copies): the geometry of a model, given to a new model (as from a simulated dataset), gives a model with the same geometry, if conversion twice
is conversion once. -/
theorem geometry_copy (cast : α → α) (hc : ∀ x, cast (cast x) = cast x) (ds : List (GeomDict α)) (hne : ds ≠ []) (hd : ∀ d ∈ ds, ∃ x, d.basis = .value x)
    (b : GeomBuffers α) (h : storeGeometries cast ds {} = .ok b) : storeGeometry cast (getGeometry b) {} = .ok b := by
  obtain ⟨b', e, h1, h2, h3⟩ := geometry_history cast ds hd
  rw [h] at e
  injection e with e
  subst e
  have hfix : ∀ o : Option α, storeEntry cast (getEntry (o.map cast)) none = o.map cast := by
    intro o
    cases o with
    | none => rfl
    | some x => simp [storeEntry, getEntry, hc]
  have hb : ∃ x, b.basis = some (cast x) := by
    rw [h1]
    have : ∀ (es : List (Entry α)) (s : Option α), (∀ e ∈ es, ∃ x, e = .value x) → (es ≠ [] ∨ s.isSome) → ∃ x, (lastGiven s es).map cast = some (cast x) := by
      intro es
      induction es with
      | nil =>
        intro s _ hs
        rcases hs with hs | hs
        · exact absurd rfl hs
        · obtain ⟨x, rfl⟩ := Option.isSome_iff_exists.1 hs
          exact ⟨x, rfl⟩
      | cons e es ih =>
        intro s he _
        obtain ⟨x, rfl⟩ := he _ List.mem_cons_self
        exact ih (some x) (fun e' h' => he e' (List.mem_cons_of_mem _ h')) (Or.inr rfl)
    refine this _ _ ?_ (Or.inl (by simpa using hne))
    intro e he
    obtain ⟨d, hd', rfl⟩ := List.mem_map.1 he
    exact hd d hd'
  obtain ⟨x, hx⟩ := hb
  unfold storeGeometry getGeometry
  rw [hx]
  show Except.ok (GeomBuffers.mk (some (cast (cast x))) (storeEntry cast (getEntry b.distance) none) (storeEntry cast (getEntry b.corner) none)) = _
  rw [hc, h2, hfix, ← h2, h3, hfix, ← h3, ← hx]

/-- **C96** (violated): a geometry without distance given to a model that had one leaves the old distance in place. -/
theorem geometry_stale_violated (cast : α → α) (x x' z : α) (c c' e : Entry α) (he : ∀ w, e ≠ .value w) :
    ∃ b, storeGeometries cast [⟨.value x, .value z, c⟩, ⟨.value x', e, c'⟩] {} = .ok b ∧ (getGeometry b).distance = .value (cast z) := by
  refine ⟨_, rfl, ?_⟩
  cases e with
  | value w => exact absurd rfl (he w)
  | none => rfl
  | missing => rfl

/-- **C96** (surface normal): transmission gives the beam direction, and without a mode the orientation of the sample counts, if there is one. -/
theorem normal_modes (o : Option Vec3) (D : Matrix (Fin 3) (Fin 2) ℝ) :
    datasetNormal (some "t") o D = .ok ![0, 0, 1] ∧ datasetNormal (some "transmission") o D = .ok ![0, 0, 1] ∧
      datasetNormal none o D = .ok (o.getD ![0, 0, 1]) ∧ datasetNormal (some "r") o D = datasetNormal (some "reflection") o D := by
  refine ⟨?_, ?_, ?_, ?_⟩ <;> simp [datasetNormal]

/-- **C96** (surface normal in reflection): for every detector that does not face the direct beam there is a normal, of length 1, for which the beam along
`z` is reflected specularly towards the detector (against the cross product of its basis). -/
theorem normal_reflection (o : Option Vec3) (D : Matrix (Fin 3) (Fin 2) ℝ) (hD : Spans D)
    (hback : ((basisCol D 0).cross (basisCol D 1)).unit ≠ ![0, 0, -1]) :
    ∃ v, datasetNormal (some "reflection") o D = .ok v ∧ v.dot v = 1 ∧
      ∀ c, (![0, 0, 1] : Vec3) c - 2 * Vec3.dot ![0, 0, 1] v * v c = -((basisCol D 0).cross (basisCol D 1)).unit c := by
  set C := (basisCol D 0).cross (basisCol D 1) with hC
  have hp := cross_pos hD
  rw [← hC] at hp
  set out := C.unit with hout
  have h1 : out.dot out = 1 := by
    have hss : Real.sqrt (C.dot C) * Real.sqrt (C.dot C) = C.dot C := Real.mul_self_sqrt hp.le
    have : out.dot out = C.dot C / (Real.sqrt (C.dot C) * Real.sqrt (C.dot C)) := by
      rw [hout]; unfold Vec3.unit
      generalize Real.sqrt (C.dot C) = s
      simp only [Vec3.dot]; ring
    rw [this, hss, div_self hp.ne']
  set s : Vec3 := fun c => out c + ![0, 0, 1] c with hs
  have hss : s.dot s = 2 * (1 + out 2) := by
    have : s.dot s = out.dot out + 2 * out 2 + 1 := by rw [hs]; simp [Vec3.dot]; ring
    rw [this, h1]; ring
  have hne : 1 + out 2 ≠ 0 := by
    intro h0
    apply hback
    have h2 : out 2 = -1 := by linarith
    have h3 : out 0 * out 0 + out 1 * out 1 = 0 := by
      simp only [Vec3.dot, h2] at h1; linarith
    have h4 : out 0 = 0 := by nlinarith [mul_self_nonneg (out 0), mul_self_nonneg (out 1)]
    have h5 : out 1 = 0 := by nlinarith [mul_self_nonneg (out 0), mul_self_nonneg (out 1)]
    funext i
    fin_cases i
    · exact h4
    · exact h5
    · exact h2
  have hpos : 0 < s.dot s := by
    have h0 : 0 ≤ s.dot s := by unfold Vec3.dot; nlinarith [mul_self_nonneg (s 0), mul_self_nonneg (s 1), mul_self_nonneg (s 2)]
    refine lt_of_le_of_ne h0 fun e => hne ?_
    rw [hss] at e; linarith
  have hs0 : s ≠ 0 := by
    intro e
    rw [e] at hpos
    simp [Vec3.dot] at hpos
  have hC0 : C ≠ 0 := by
    intro e
    rw [e] at hp
    simp [Vec3.dot] at hp
  have hval : datasetNormal (some "reflection") o D = .ok fun i => s i / (-Real.sqrt (s.dot s)) := by
    unfold datasetNormal
    rw [if_neg (by simp), if_pos (by simp)]
    have e : Vec3.cross (fun i => D i 0) (fun i => D i 1) = C := rfl
    rw [e]
    dsimp only
    rw [if_neg hC0]
    exact if_neg hs0
  have hr : Real.sqrt (s.dot s) * Real.sqrt (s.dot s) = s.dot s := Real.mul_self_sqrt hpos.le
  have hr0 : Real.sqrt (s.dot s) ≠ 0 := (Real.sqrt_pos.2 hpos).ne'
  refine ⟨_, hval, ?_, ?_⟩
  · generalize hq : Real.sqrt (s.dot s) = q at hr hr0
    have : Vec3.dot (fun i => s i / -q) (fun i => s i / -q) = s.dot s / (q * q) := by
      simp only [Vec3.dot]; field_simp
    rw [this, hr, div_self hpos.ne']
  · intro c
    generalize hq : Real.sqrt (s.dot s) = q at hr hr0
    have hz : Vec3.dot ![0, 0, 1] (fun i => s i / -q) = -(1 + out 2) / q := by
      simp only [Vec3.dot, hs]
      simp
      field_simp
      ring
    rw [hz]
    have : 2 * (-(1 + out 2) / q) * (s c / -q) = s c := by
      have : 2 * (-(1 + out 2) / q) * (s c / -q) = (2 * (1 + out 2)) / (q * q) * s c := by field_simp
      rw [this, hr, hss, div_self (by rw [← hss]; exact hpos.ne'), one_mul]
    rw [this, hs]
    ring

/-- **C96** (violated): a name that is no scattering mode is ignored without an error. -/
theorem normal_unknown_violated (s : String) (hs : s ≠ "t" ∧ s ≠ "transmission" ∧ s ≠ "r" ∧ s ≠ "reflection") (o : Option Vec3)
    (D : Matrix (Fin 3) (Fin 2) ℝ) : datasetNormal (some s) o D = datasetNormal none o D := by
  simp [datasetNormal, hs]

/-! ### C97 -/

theorem saveFigures_foldl (pre ext : String) (fs : List (SavedFig φ)) : ∀ (dir : String → Option φ) (name : String),
    fs.foldl (fun dir f => fun name => if name = pre ++ f.label ++ ext then some f.content else dir name) dir name =
      match fs.reverse.find? (fun f => decide (pre ++ f.label ++ ext = name)) with
      | some f => some f.content
      | none => dir name := by
  induction fs using List.reverseRecOn with
  | nil => intro dir name; rfl
  | append_singleton fs f ih =>
    intro dir name
    rw [List.foldl_append, List.reverse_append]
    simp only [List.foldl_cons, List.foldl_nil, List.reverse_cons, List.reverse_nil, List.nil_append, List.singleton_append, List.find?_cons]
    by_cases h : name = pre ++ f.label ++ ext
    · rw [if_pos h]
      have h' : pre ++ f.label ++ ext = name := h.symm
      simp [h']
    · rw [if_neg h, ih]
      have h' : ¬ (pre ++ f.label ++ ext = name) := fun e => h e.symm
      simp [h']

theorem file_injective {pre ext a b : String} (h : pre ++ a ++ ext = pre ++ b ++ ext) : a = b := by
  have h' := congrArg String.toList h
  simp only [String.toList_append] at h'
  have := List.append_cancel_left (List.append_cancel_right h')
  exact String.toList_injective this

/-- **C97**: if every open figure has the title of its plot as title of its first axes, and the titles are different, `save_figures` writes every
figure into the file of its title, and touches no other file. -/
theorem save_figures_by_title (pre ext : String) (fs : List (SavedFig φ)) (hlab : ∀ f ∈ fs, f.panelLabel = none ∧ f.axesTitle = some f.plotTitle)
    (hnd : (fs.map (·.plotTitle)).Nodup) (dir : String → Option φ) :
    (∀ f ∈ fs, saveFigures pre ext (some fs) dir (pre ++ f.plotTitle ++ ext) = some f.content) ∧
      ∀ name, (∀ f ∈ fs, name ≠ pre ++ f.plotTitle ++ ext) → saveFigures pre ext (some fs) dir name = dir name := by
  have hl : ∀ f ∈ fs, f.label = f.plotTitle := by
    intro f hf
    obtain ⟨h1, h2⟩ := hlab f hf
    unfold SavedFig.label
    rw [h1, h2]
    rfl
  constructor
  · intro f hf
    unfold saveFigures
    dsimp only
    rw [saveFigures_foldl]
    cases hfind : fs.reverse.find? (fun g => decide (pre ++ g.label ++ ext = pre ++ f.plotTitle ++ ext)) with
    | none =>
      have := List.find?_eq_none.1 hfind f (List.mem_reverse.2 hf)
      rw [hl f hf] at this
      simp at this
    | some g =>
      have hg := List.mem_reverse.1 (List.mem_of_find?_eq_some hfind)
      have he := List.find?_some hfind
      rw [decide_eq_true_eq, hl g hg] at he
      have := List.inj_on_of_nodup_map hnd hg hf (file_injective he)
      rw [this]
  · intro name hname
    unfold saveFigures
    dsimp only
    rw [saveFigures_foldl, List.find?_eq_none.2]
    intro g hg
    have hg' := List.mem_reverse.1 hg
    rw [hl g hg']
    simpa using fun e => hname g hg' e.symm

/-- **C97** (nothing inspected): without figures nothing is written. -/
theorem save_figures_none (pre ext : String) (dir : String → Option φ) :
    saveFigures pre ext (none : Option (List (SavedFig φ))) dir = dir ∧ saveFigures pre ext (some []) dir = dir := ⟨rfl, rfl⟩

/-- **C97** (violated): the name is the title of the first axes, not that of the plot: all figures whose first axes have the same title `t` go into the same
file, where only the last one is left, and none of them gets a file named by its own title if that is not `t`. -/
theorem save_figures_violated (pre ext t : String) (fs : List (SavedFig φ)) (last : SavedFig φ)
    (h : ∀ f ∈ fs ++ [last], f.panelLabel = none ∧ f.axesTitle = some t) (dir : String → Option φ) :
    saveFigures pre ext (some (fs ++ [last])) dir (pre ++ t ++ ext) = some last.content ∧
      ∀ f ∈ fs ++ [last], f.plotTitle ≠ t → saveFigures pre ext (some (fs ++ [last])) dir (pre ++ f.plotTitle ++ ext) = dir (pre ++ f.plotTitle ++ ext) := by
  have hl : ∀ f ∈ fs ++ [last], f.label = t := by
    intro f hf
    obtain ⟨h1, h2⟩ := h f hf
    unfold SavedFig.label
    rw [h1, h2]
    rfl
  constructor
  · unfold saveFigures
    dsimp only
    rw [saveFigures_foldl, List.reverse_append]
    simp [hl last (by simp)]
  · intro f hf hne
    unfold saveFigures
    dsimp only
    rw [saveFigures_foldl, List.find?_eq_none.2]
    intro g hg
    rw [hl g (List.mem_reverse.1 hg)]
    simpa using fun e : t = f.plotTitle => hne e.symm

/-- The per-exposure figures of `FancyPtycho` (`fancy_ptycho.py:1169-1196`): the first axes of all of them are the map of positions
(`plotting.py:1080`). -/
def perExposureFigures : List (SavedFig ℕ) :=
  [⟨"Per-Exposure Probe Intensity", some "Relative Displacement Map", none, 0⟩,
   ⟨"Per-Exposure Probe Amplitudes", some "Relative Displacement Map", none, 1⟩,
   ⟨"Per-Exposure Probe Phases", some "Relative Displacement Map", none, 2⟩]

example (f : SavedFig ℕ) (hf : f ∈ perExposureFigures) : f.panelLabel = none ∧ f.axesTitle = some "Relative Displacement Map" := by
  simp only [perExposureFigures, List.mem_cons, List.not_mem_nil, or_false] at hf
  rcases hf with rfl | rfl | rfl <;> exact ⟨rfl, rfl⟩

/-! ### C98 -/

theorem nanomapLoop_spec (sums : List ℝ) : ∀ (c k : ℕ) (values : List ℝ), values.length = sums.length → values.take (10 * k) = sums.take (10 * k) →
    10 * (k + c) < sums.length + 10 →
    ∃ v, nanomapLoop sums ((List.range c).map fun i => (k + i) * 10) values = .ok v ∧ v.length = sums.length ∧ v.take (10 * (k + c)) = sums.take (10 * (k + c)) := by
  intro c
  induction c with
  | zero => intro k values hl ht _; exact ⟨values, rfl, hl, ht⟩
  | succ c ih =>
    intro k values hl ht hlt
    rw [List.range_succ_eq_map, List.map_cons, List.map_map, nanomapLoop]
    have hslen : (pySlice sums ((k + 0) * 10) ((k + 0) * 10 + 10)).length = (pySlice values ((k + 0) * 10) ((k + 0) * 10 + 10)).length := by
      simp [pySlice, hl]
    have hass : assignChunk values ((k + 0) * 10) (pySlice sums ((k + 0) * 10) ((k + 0) * 10 + 10)) = .ok (values.take ((k + 0) * 10) ++
        pySlice sums ((k + 0) * 10) ((k + 0) * 10 + 10) ++ values.drop ((k + 0) * 10 + 10)) := by
      unfold assignChunk
      exact if_pos hslen
    rw [hass]
    set w := values.take ((k + 0) * 10) ++ pySlice sums ((k + 0) * 10) ((k + 0) * 10 + 10) ++ values.drop ((k + 0) * 10 + 10) with hw
    have hk : (k + 0) * 10 = 10 * k := by omega
    have hpre : values.take ((k + 0) * 10) ++ pySlice sums ((k + 0) * 10) ((k + 0) * 10 + 10) = sums.take (10 * (k + 1)) := by
      rw [hk, ht, pySlice]
      have : 10 * (k + 1) = 10 * k + 10 := by omega
      rw [this]
      conv_rhs => rw [← List.take_append_drop (10 * k) (sums.take (10 * k + 10))]
      rw [List.take_take, Nat.min_eq_left (by omega)]
    have hwl : w.length = sums.length := by
      rw [hw, hpre, List.length_append, List.length_take, List.length_drop, hl]
      omega
    have hwt : w.take (10 * (k + 1)) = sums.take (10 * (k + 1)) := by
      rw [hw, hpre]
      by_cases hle : 10 * (k + 1) ≤ sums.length
      · rw [List.take_append_of_le_length (by rw [List.length_take]; omega), List.take_take, Nat.min_self]
      · have : values.drop ((k + 0) * 10 + 10) = [] := List.drop_eq_nil_of_le (by omega)
        rw [this, List.append_nil, List.take_take, Nat.min_self]
    obtain ⟨v, e, h1, h2⟩ := ih (k + 1) w hwl hwt (by omega)
    refine ⟨v, ?_, h1, ?_⟩
    · show nanomapLoop sums _ w = _
      rw [← e]
      congr 1
      apply List.map_congr_left
      intro i _
      show (k + (i + 1)) * 10 = (k + 1 + i) * 10
      omega
    · have : k + (c + 1) = k + 1 + c := by omega
      rw [this]; exact h2

/-- **C98** (map of a scan): for any number of exposures the map shows for each exposure the intensity recorded in its valid pixels. -/
theorem inspect_nanomap {n m : ℕ} [NeZero n] [NeZero m] (mask : ZMod n → ZMod m → Bool) (patterns : List (ZMod n → ZMod m → ℝ)) :
    nanomapValues patterns.length (some mask) patterns = .ok (patterns.map fun p => ∑ i, ∑ j, if mask i j then p i j else 0) := by
  unfold nanomapValues
  dsimp only
  set sums := patterns.map fun p => ∑ i, ∑ j, (if mask i j then (1 : ℝ) else 0) * p i j with hs
  have hlen : sums.length = patterns.length := by rw [hs, List.length_map]
  have hsum : sums = patterns.map fun p => ∑ i, ∑ j, if mask i j then p i j else 0 := by
    rw [hs]
    apply List.map_congr_left
    intro p _
    refine sum_congr rfl fun i _ => sum_congr rfl fun j _ => ?_
    split <;> simp
  have hc : 10 * ((patterns.length + 10 - 1) / 10) < sums.length + 10 := by rw [hlen]; omega
  obtain ⟨v, e, h1, h2⟩ := nanomapLoop_spec sums ((patterns.length + 10 - 1) / 10) 0 (List.replicate patterns.length 1) (by simp [hlen]) (by simp)
    (by simpa using hc)
  have hv : v = sums := by
    have hge : sums.length ≤ 10 * (0 + (patterns.length + 10 - 1) / 10) := by rw [hlen]; omega
    rw [List.take_of_length_le (by rw [h1]; exact hge), List.take_of_length_le hge] at h2
    exact h2
  rw [← hsum, ← hv, ← e]
  unfold pyRange0
  congr 1
  apply List.map_congr_left
  intro i _
  omega

/-- **C98** (violated): a dataset without mask cannot be inspected, although its images could be shown. -/
theorem inspect_nomask_violated {n m : ℕ} [NeZero n] [NeZero m] (T : ℕ) (hT : T ≠ 0) (patterns : List (ZMod n → ZMod m → ℝ)) (value : ℝ) :
    nanomapValues T none patterns = .error .typeError ∧ shownPixel false 1 none value = some value := by
  constructor
  · unfold nanomapValues
    exact if_neg hT
  · simp [shownPixel]

/-- **C98** (images): a valid pixel shows its value, in the logarithmic image `log10(value + offset)`; masked pixels show as zeros. For values that
are not negative and positive offsets all pixels can be shown. -/
theorem inspect_pixel (offset value : ℝ) (ho : 0 < offset) (hv : 0 ≤ value) :
    shownPixel true offset (some true) value = some (Real.logb 10 (value + offset)) ∧
      shownPixel true offset (some false) value = some (Real.logb 10 offset) ∧
      shownPixel false offset (some true) value = some value ∧ shownPixel false offset (some false) value = some 0 ∧
      ∀ log, shownPixel log offset none value = shownPixel log offset (some true) value := by
  have h1 : 0 < value + offset := by linarith
  refine ⟨?_, ?_, ?_, ?_, ?_⟩
  · simp [shownPixel, h1]
  · simp [shownPixel, ho]
  · simp [shownPixel]
  · simp [shownPixel]
  · intro log; simp [shownPixel]

/-- **C98** (order of brightness): the logarithmic image is brighter where more light was recorded. -/
theorem inspect_pixel_monotone (offset v w : ℝ) (ho : 0 < offset) (hv : 0 ≤ v) (hw : v < w) :
    ∃ x y, shownPixel true offset (some true) v = some x ∧ shownPixel true offset (some true) w = some y ∧ x < y :=
  ⟨_, _, (inspect_pixel offset v ho hv).1, (inspect_pixel offset w ho (by linarith)).1,
    Real.logb_lt_logb (by norm_num) (by linarith) (by linarith)⟩

end Cdtools
