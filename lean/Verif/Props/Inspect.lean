/-
**C52**: `inspect` shows exactly the requested plots, does not reopen closed figures and does not
accumulate callbacks.
-/
import Verif.Model.Inspect
import Mathlib.Data.List.Nodup
import Mathlib.Tactic.Linarith

set_option linter.unusedSectionVars false

namespace Cdtools.Inspect

/-! ### Specification -/

/-- The plot is asked for: its level, 1 if none is given, does not exceed the model's, and its condition
holds. -/
def Wanted (c : Call) (level : Option ℚ) (cond : Option CondRes) : Prop :=
  ((level.getD 1 : ℚ) : WithTop ℚ) ≤ c.plotLevel ∧ evalCond cond = .ok true

/-- A figure of this title may be drawn: this is the first inspection, or closed figures are to be
reopened, or the figure is open. -/
def Visible (c : Call) (s : State) (title : String) : Prop :=
  s.last = none ∨ c.replotAll = true ∨ (s.open_ title).isSome

/-- The plot function draws, by itself or when given the dataset. -/
def Draws (c : Call) (p : Plot) : Prop :=
  (∃ k, p.first = .drew k) ∨ (p.first = .typeError ∧ c.dataset = true ∧ ∃ k, p.second = .drew k)

/-- The number of callbacks a drawing plot registers. -/
def callbacksOf (c : Call) (p : Plot) : ℕ :=
  match p.first with
  | .drew k => k
  | .typeError => if c.dataset then (match p.second with | .drew k => k | _ => 0) else 0
  | .raises _ => 0

open Classical in
/-- The plots of a list that are to be drawn, in order. -/
noncomputable def shown (c : Call) (s : State) (ps : List Plot) : List Plot :=
  ps.filter fun p => Wanted c p.level p.condition ∧ Visible c s p.title

/-! ### Standalone figures -/

theorem isClosed_iff (c : Call) (s : State) (t : String) : isClosed c s t = false ↔ Visible c s t := by
  unfold isClosed Visible
  cases h1 : s.last <;> cases h2 : c.replotAll <;> cases h3 : s.open_ t <;> simp

theorem isClosed_setFig {c : Call} {s : State} {t : String} (h : isClosed c s t = false) (f : Fig)
    (u : String) : isClosed c (setFig s t f) u = isClosed c s u := by
  by_cases hu : u = t
  · subst hu
    rw [h, isClosed_iff]
    right; right; simp [setFig]
  · simp [isClosed, setFig, hu]

theorem visible_setFig {c : Call} {s : State} {t : String} (h : Visible c s t) (f : Fig) (u : String) :
    Visible c (setFig s t f) u ↔ Visible c s u := by
  rw [← isClosed_iff, ← isClosed_iff, isClosed_setFig ((isClosed_iff _ _ _).2 h)]

theorem tryDraw_ok {c : Call} {p : Plot} {f : Fig} {d : Bool} (h : (tryDraw c p f).2 = .ok d) :
    d = true ↔ Draws c p := by
  unfold tryDraw at h
  unfold Draws
  cases h1 : p.first with
  | drew k => rw [h1] at h; simp at h; simp [← h]
  | raises e =>
    rw [h1] at h
    cases e <;> simp at h
    simp [← h]
  | typeError =>
    rw [h1] at h
    cases h2 : c.dataset
    · simp [h2] at h; simp [← h]
    · simp only [h2, if_true] at h
      cases h3 : p.second with
      | drew k => rw [h3] at h; simp at h; simp [← h]
      | typeError => rw [h3] at h; simp at h; simp [← h]
      | raises e =>
        rw [h3] at h
        cases e <;> simp at h
        simp [← h]

open Classical in
theorem individual_shows (c : Call) (ps : List Plot) (s : State)
    (h : (individual c ps s).2.2.2 = none) :
    (individual c ps s).2.1 = (shown c s ps).map (·.title) ∧
    (individual c ps s).2.2.1 = ((shown c s ps).filter (Draws c ·)).map fun p => (p.title, p) := by
  induction ps generalizing s with
  | nil => simp [individual, shown]
  | cons p ps ih =>
    unfold individual at h ⊢
    unfold shown
    by_cases hl : levelOk c p.level
    · rw [if_neg (not_not.2 hl)] at h ⊢
      cases hc : evalCond p.condition with
      | error e => rw [hc] at h; simp at h
      | ok b =>
        cases b with
        | false =>
          rw [hc] at h
          have hw : ¬ (Wanted c p.level p.condition ∧ Visible c s p.title) := by
            rintro ⟨⟨-, hw⟩, -⟩; rw [hc] at hw; simp at hw
          rw [List.filter_cons_of_neg (by simpa using hw)]
          exact ih s h
        | true =>
          rw [hc] at h
          simp only at h ⊢
          by_cases hcl : isClosed c s p.title = true
          · rw [if_pos hcl] at h ⊢
            have hw : ¬ (Wanted c p.level p.condition ∧ Visible c s p.title) := by
              rintro ⟨-, hv⟩
              rw [← isClosed_iff, hcl] at hv
              simp at hv
            rw [List.filter_cons_of_neg (by simpa using hw)]
            exact ih s h
          · rw [if_neg hcl] at h ⊢
            have hcl' : isClosed c s p.title = false := by simpa using hcl
            have hv := (isClosed_iff _ _ _).1 hcl'
            have hw : Wanted c p.level p.condition ∧ Visible c s p.title := ⟨⟨hl, hc⟩, hv⟩
            cases hr : (tryDraw c p (getFig c s p.title)).2 with
            | error e => rw [hr] at h; simp at h
            | ok d =>
              rw [hr] at h
              simp only at h ⊢
              obtain ⟨h1, h2⟩ := ih _ h
              have hsh : shown c (setFig s p.title (tryDraw c p (getFig c s p.title)).1) ps =
                  shown c s ps := by
                unfold shown
                exact List.filter_congr fun q _ => by simp only [visible_setFig hv]
              rw [hsh] at h1 h2
              rw [List.filter_cons_of_pos (by simpa using hw)]
              refine ⟨by rw [h1]; rfl, ?_⟩
              rw [h2]
              have hd := tryDraw_ok hr
              cases d with
              | true =>
                rw [List.filter_cons_of_pos (by simpa using hd.1 rfl)]
                simp [shown]
              | false =>
                rw [List.filter_cons_of_neg (by simpa using fun h => absurd (hd.2 h) (by simp))]
                simp [shown]
    · rw [if_pos hl] at h ⊢
      have hw : ¬ (Wanted c p.level p.condition ∧ Visible c s p.title) := fun h => hl h.1.1
      rw [List.filter_cons_of_neg (by simpa using hw)]
      exact ih s h

/-- The call is skipped because the last one was too recent. -/
def Skipped (s : State) (minInterval : Option ℚ) (now : ℚ) : Prop :=
  ∃ d t, minInterval = some d ∧ s.last = some t ∧ now - t < d

theorem skip_iff (s : State) (mi : Option ℚ) (now : ℚ) :
    skipNow s mi now = true ↔ Skipped s mi now := by
  unfold Skipped skipNow
  cases mi <;> cases h : s.last <;> simp

open Classical in
/-- **C52** (standalone figures): for every list of panels and plots, levels, conditions, outcomes and
state of the windows, an `inspect` call that is not skipped and raises nothing draws exactly those
plots - those of the panels with the level of their panel, then the standalone ones - whose level does
not exceed the model's, whose condition holds, whose figure is open unless this is the first inspection
or `replot_all`, and whose plot function does not fail; in order and each one once. -/
theorem inspect_shows (c : Call) (mi : Option ℚ) (now done : ℚ) (pp : List Panel) (pl : List Plot)
    (s : State) (hs : ¬ Skipped s mi now) (h : (inspect c false mi now done pp pl s).2.2 = none) :
    (inspect c false mi now done pp pl s).2.1 =
      ((((pp.flatMap fun p => p.plots.map fun q => ({ q with level := some (p.level.getD 1) } : Plot)) ++
        pl).filter fun p => Wanted c p.level p.condition ∧ Visible c s p.title ∧ Draws c p).map
        fun p => (p.title, p)) ∧
    (inspect c false mi now done pp pl s).1.figs = (shown c s (flatten pp ++ pl)).map (·.title) ∧
    (inspect c false mi now done pp pl s).1.last = some done := by
  have hk := (skip_iff s mi now).not.2 hs
  unfold inspect at h ⊢
  rw [if_neg hk, if_neg Bool.false_ne_true] at h ⊢
  simp only at h ⊢
  cases he : (individual c (flatten pp ++ pl) s).2.2.2 with
  | some e => rw [he] at h; simp at h
  | none =>
    obtain ⟨h1, h2⟩ := individual_shows c _ s he
    simp only
    refine ⟨?_, h1, trivial⟩
    rw [h2]
    unfold shown
    rw [List.filter_filter]
    refine congrArg _ (List.filter_congr fun p _ => ?_)
    rw [← Bool.decide_and]
    exact decide_eq_decide.2 ⟨fun h => ⟨h.2.1, h.2.2, h.1⟩, fun h => ⟨h.2.2, h.1, h.2.1⟩⟩

/-- **C52** (skipping): an `inspect` call that comes too soon changes nothing. -/
theorem inspect_skipped (c : Call) (pm : Bool) (mi : Option ℚ) (now done : ℚ) (pp : List Panel)
    (pl : List Plot) (s : State) (hs : Skipped s mi now) :
    inspect c pm mi now done pp pl s = (s, [], none) := by
  have hk := (skip_iff s mi now).2 hs
  unfold inspect
  rw [if_pos hk]

/-! ### Closed figures stay closed -/

theorem setFig_open {c : Call} {s : State} (hl : s.last.isSome = true) (hr : c.replotAll = false)
    {t : String} (h : isClosed c s t = false) (f : Fig) (u : String) :
    ((setFig s t f).open_ u).isSome = (s.open_ u).isSome := by
  unfold setFig
  by_cases hu : u = t
  · subst hu
    have hv := (isClosed_iff _ _ _).1 h
    unfold Visible at hv
    rw [hr] at hv
    have : s.last ≠ none := by intro h0; rw [h0] at hl; simp at hl
    simp only [this, Bool.false_eq_true, false_or] at hv
    simp [hv]
  · simp [hu]

theorem individual_open (c : Call) (hr : c.replotAll = false) (ps : List Plot) (s : State)
    (hl : s.last.isSome = true) (u : String) :
    ((individual c ps s).1.open_ u).isSome = (s.open_ u).isSome ∧ (individual c ps s).1.last = s.last := by
  induction ps generalizing s with
  | nil => exact ⟨rfl, rfl⟩
  | cons p ps ih =>
    unfold individual
    split
    · exact ih s hl
    · split
      · exact ⟨rfl, rfl⟩
      · exact ih s hl
      · by_cases hcl : isClosed c s p.title = true
        · rw [if_pos hcl]; exact ih s hl
        · rw [if_neg hcl]
          have hcl' : isClosed c s p.title = false := by simpa using hcl
          simp only
          split
          · exact ⟨setFig_open hl hr hcl' _ u, rfl⟩
          · obtain ⟨h1, h2⟩ := ih (setFig s p.title (tryDraw c p (getFig c s p.title)).1) hl
            exact ⟨h1.trans (setFig_open hl hr hcl' _ u), h2⟩

theorem panels_open (c : Call) (hr : c.replotAll = false) (ps : List Panel) (s : State)
    (hl : s.last.isSome = true) (u : String) :
    ((panels c ps s).1.open_ u).isSome = (s.open_ u).isSome ∧ (panels c ps s).1.last = s.last := by
  induction ps generalizing s with
  | nil => exact ⟨rfl, rfl⟩
  | cons p ps ih =>
    unfold panels
    split
    · exact ih s hl
    · split
      · exact ⟨rfl, rfl⟩
      · exact ih s hl
      · by_cases hcl : isClosed c s p.title = true
        · rw [if_pos hcl]; exact ih s hl
        · rw [if_neg hcl]
          have hcl' : isClosed c s p.title = false := by simpa using hcl
          simp only
          split
          · exact ⟨setFig_open hl hr hcl' _ u, rfl⟩
          · obtain ⟨h1, h2⟩ := ih (setFig s p.title _) hl
            exact ⟨h1.trans (setFig_open hl hr hcl' _ u), h2⟩

/-- **C52** (closed figures): after the first inspection, `inspect` without `replot_all` opens no window
and closes none, in either mode, whatever the plots do and even if it raises. -/
theorem inspect_keeps_windows (c : Call) (pm : Bool) (mi : Option ℚ) (now done : ℚ) (pp : List Panel)
    (pl : List Plot) (s : State) (hl : s.last.isSome = true) (hr : c.replotAll = false) (t : String) :
    ((inspect c pm mi now done pp pl s).1.open_ t).isSome = (s.open_ t).isSome ∧
    (inspect c pm mi now done pp pl s).1.last.isSome = true := by
  unfold inspect
  split
  · exact ⟨rfl, hl⟩
  · simp only
    split
    · have hp := panels_open c hr pp.reverse s hl
      split
      · exact ⟨(hp t).1, by rw [(hp t).2]; exact hl⟩
      · have hi := individual_open c hr pl (panels c pp.reverse s).1 (by rw [(hp t).2]; exact hl)
        split
        · exact ⟨((hi t).1).trans (hp t).1, by rw [(hi t).2, (hp t).2]; exact hl⟩
        · exact ⟨((hi t).1).trans (hp t).1, rfl⟩
    · have hi := individual_open c hr (flatten pp ++ pl) s hl
      split
      · exact ⟨(hi t).1, by rw [(hi t).2]; exact hl⟩
      · exact ⟨(hi t).1, rfl⟩

/-! ### Panel mode -/

theorem individual_last (c : Call) (ps : List Plot) (s : State) :
    (individual c ps s).1.last = s.last ∧ (individual c ps s).1.figs = s.figs := by
  induction ps generalizing s with
  | nil => exact ⟨rfl, rfl⟩
  | cons p ps ih =>
    unfold individual
    split
    · exact ih s
    · split
      · exact ⟨rfl, rfl⟩
      · exact ih s
      · split
        · exact ih s
        · simp only
          split
          · exact ⟨rfl, rfl⟩
          · exact ih (setFig s p.title _)

theorem panels_last (c : Call) (ps : List Panel) (s : State) :
    (panels c ps s).1.last = s.last ∧ (panels c ps s).1.figs = s.figs := by
  induction ps generalizing s with
  | nil => exact ⟨rfl, rfl⟩
  | cons p ps ih =>
    unfold panels
    split
    · exact ih s
    · split
      · exact ⟨rfl, rfl⟩
      · exact ih s
      · split
        · exact ih s
        · simp only
          split
          · exact ⟨rfl, rfl⟩
          · exact ih (setFig s p.title _)

theorem panels_visible (c : Call) (ps : List Panel) (s : State) (t : String) :
    Visible c (panels c ps s).1 t ↔ Visible c s t := by
  by_cases h1 : s.last = none
  · exact ⟨fun _ => Or.inl h1, fun _ => Or.inl ((panels_last c ps s).1.trans h1)⟩
  · by_cases h2 : c.replotAll = true
    · exact ⟨fun _ => Or.inr (Or.inl h2), fun _ => Or.inr (Or.inl h2)⟩
    · have hl : s.last.isSome = true := Option.isSome_iff_ne_none.2 h1
      obtain ⟨h3, h4⟩ := panels_open c (by simpa using h2) ps s hl t
      unfold Visible
      rw [h3, h4]

theorem tryDrawSub_ok {c : Call} {p : Plot} {f : Fig} {d : Bool} (h : (tryDrawSub c p f).2 = .ok d) :
    (d = true ↔ Draws c p) ∧
    (tryDrawSub c p f).1 = if d then f.connect (callbacksOf c p) else f := by
  unfold tryDrawSub at h ⊢
  unfold Draws callbacksOf
  cases h1 : p.first with
  | drew k => rw [h1] at h; simp at h; simp [← h, Fig.drawSub]
  | raises e => rw [h1] at h; simp at h
  | typeError =>
    rw [h1] at h
    cases h2 : c.dataset
    · simp [h2] at h; subst h; simp
    · simp only [h2, if_true] at h
      cases h3 : p.second with
      | drew k => rw [h3] at h; simp at h; simp [← h, Fig.drawSub]
      | typeError => rw [h3] at h; simp at h; simp [← h]
      | raises e =>
        rw [h3] at h
        cases e <;> simp at h
        simp [← h]

open Classical in
theorem subplots_shows (c : Call) (t : String) (ps : List Plot) (f : Fig)
    (h : (subplots c t ps f).2.2 = none) :
    (subplots c t ps f).2.1 =
      (ps.filter fun q => evalCond q.condition = .ok true ∧ Draws c q).map fun q => (t, q) := by
  induction ps generalizing f with
  | nil => simp [subplots]
  | cons p ps ih =>
    unfold subplots at h ⊢
    cases hc : evalCond p.condition with
    | error e => rw [hc] at h; simp at h
    | ok b =>
      cases b with
      | false =>
        rw [hc] at h
        rw [List.filter_cons_of_neg (by simp [hc])]
        exact ih f h
      | true =>
        rw [hc] at h
        simp only at h ⊢
        cases hr : (tryDrawSub c p f).2 with
        | error e => rw [hr] at h; simp at h
        | ok d =>
          rw [hr] at h
          simp only at h ⊢
          rw [ih _ h]
          have hd := (tryDrawSub_ok hr).1
          cases d with
          | true =>
            rw [List.filter_cons_of_pos (by simpa [hc] using hd.1 rfl)]
            simp
          | false =>
            rw [List.filter_cons_of_neg (by simpa [hc] using fun h => absurd (hd.2 h) (by simp))]
            simp

theorem renderPanel_trace (c : Call) (t : String) (ps : List Plot) (f : Fig)
    (h : (renderPanel c t ps f).2.2 = none) :
    (subplots c t ps (f.disconnect f.renderCids)).2.2 = none ∧
    (renderPanel c t ps f).2.1 = (subplots c t ps (f.disconnect f.renderCids)).2.1 := by
  unfold renderPanel at h ⊢
  simp only at h ⊢
  cases he : (subplots c t ps (f.disconnect f.renderCids)).2.2 with
  | some e => rw [he] at h; simp at h
  | none => simp

open Classical in
theorem panels_shows (c : Call) (ps : List Panel) (s : State) (h : (panels c ps s).2.2.2 = none) :
    (panels c ps s).2.1 =
      (ps.filter fun p => Wanted c p.level p.condition ∧ Visible c s p.title).map (·.title) ∧
    (panels c ps s).2.2.1 =
      (ps.filter fun p => Wanted c p.level p.condition ∧ Visible c s p.title).flatMap fun p =>
        (p.plots.filter fun q => evalCond q.condition = .ok true ∧ Draws c q).map fun q =>
          (p.title, q) := by
  induction ps generalizing s with
  | nil => simp [panels]
  | cons p ps ih =>
    unfold panels at h ⊢
    by_cases hl : levelOk c p.level
    · rw [if_neg (not_not.2 hl)] at h ⊢
      cases hc : evalCond p.condition with
      | error e => rw [hc] at h; simp at h
      | ok b =>
        cases b with
        | false =>
          rw [hc] at h
          have hw : ¬ (Wanted c p.level p.condition ∧ Visible c s p.title) := by
            rintro ⟨⟨-, hw⟩, -⟩; rw [hc] at hw; simp at hw
          rw [List.filter_cons_of_neg (by simpa using hw)]
          exact ih s h
        | true =>
          rw [hc] at h
          simp only at h ⊢
          by_cases hcl : isClosed c s p.title = true
          · rw [if_pos hcl] at h ⊢
            have hw : ¬ (Wanted c p.level p.condition ∧ Visible c s p.title) := by
              rintro ⟨-, hv⟩
              rw [← isClosed_iff, hcl] at hv
              simp at hv
            rw [List.filter_cons_of_neg (by simpa using hw)]
            exact ih s h
          · rw [if_neg hcl] at h ⊢
            have hcl' : isClosed c s p.title = false := by simpa using hcl
            have hv := (isClosed_iff _ _ _).1 hcl'
            have hw : Wanted c p.level p.condition ∧ Visible c s p.title := ⟨⟨hl, hc⟩, hv⟩
            cases hr : (renderPanel c p.title p.plots (getFig c s p.title)).2.2 with
            | some e => rw [hr] at h; simp at h
            | none =>
              rw [hr] at h
              simp only at h ⊢
              obtain ⟨h1, h2⟩ := ih _ h
              obtain ⟨h3, h4⟩ := renderPanel_trace c _ _ _ hr
              simp only [visible_setFig hv] at h1 h2
              rw [List.filter_cons_of_pos (by simpa using hw), h1, h2, h4, subplots_shows c _ _ _ h3]
              exact ⟨rfl, rfl⟩
    · rw [if_pos hl] at h ⊢
      have hw : ¬ (Wanted c p.level p.condition ∧ Visible c s p.title) := fun h => hl h.1.1
      rw [List.filter_cons_of_neg (by simpa using hw)]
      exact ih s h

open Classical in
/-- **C52** (panels): with `panel_plot_mode`, an `inspect` call that is not skipped and raises nothing
draws, panel by panel from the last to the first, the plots whose condition holds in the panels whose
level does not exceed the model's, whose condition holds and whose figure may be drawn; and then the
standalone plots, selected as in the other mode. -/
theorem inspect_panels_shows (c : Call) (mi : Option ℚ) (now done : ℚ) (pp : List Panel)
    (pl : List Plot) (s : State) (hs : ¬ Skipped s mi now)
    (h : (inspect c true mi now done pp pl s).2.2 = none) :
    (inspect c true mi now done pp pl s).2.1 =
      ((pp.reverse.filter fun p => Wanted c p.level p.condition ∧ Visible c s p.title).flatMap fun p =>
        (p.plots.filter fun q => evalCond q.condition = .ok true ∧ Draws c q).map fun q =>
          (p.title, q)) ++
      ((pl.filter fun p => Wanted c p.level p.condition ∧ Visible c s p.title ∧ Draws c p).map fun p =>
        (p.title, p)) ∧
    (inspect c true mi now done pp pl s).1.figs =
      ((pp.reverse.filter fun p => Wanted c p.level p.condition ∧ Visible c s p.title).map (·.title)) ++
      (shown c s pl).map (·.title) ∧
    (inspect c true mi now done pp pl s).1.last = some done := by
  have hk := (skip_iff s mi now).not.2 hs
  unfold inspect at h ⊢
  rw [if_neg hk, if_pos rfl] at h ⊢
  simp only at h ⊢
  cases he : (panels c pp.reverse s).2.2.2 with
  | some e => rw [he] at h; simp at h
  | none =>
    rw [he] at h
    simp only at h ⊢
    cases hi : (individual c pl (panels c pp.reverse s).1).2.2.2 with
    | some e => rw [hi] at h; simp at h
    | none =>
      obtain ⟨h1, h2⟩ := panels_shows c _ s he
      obtain ⟨h3, h4⟩ := individual_shows c _ _ hi
      have hsh : shown c (panels c pp.reverse s).1 pl = shown c s pl := by
        unfold shown
        exact List.filter_congr fun q _ => by simp only [panels_visible]
      rw [hsh] at h3 h4
      simp only
      refine ⟨?_, by rw [h1, h3], trivial⟩
      rw [h2, h4]
      congr 1
      unfold shown
      rw [List.filter_filter]
      refine congrArg _ (List.filter_congr fun p _ => ?_)
      rw [← Bool.decide_and]
      exact decide_eq_decide.2 ⟨fun h => ⟨h.2.1, h.2.2, h.1⟩, fun h => ⟨h.2.2, h.1, h.2.1⟩⟩

/-! ### Exceptions -/

/-- No condition of the list raises. -/
def QuietConditions (ps : List Plot) : Prop := ∀ p ∈ ps, ∃ b, evalCond p.condition = .ok b

/-- **C52** (exceptions): if no condition raises, the only exception that leaves the drawing of
standalone figures is `KeyboardInterrupt`. -/
theorem individual_raises (c : Call) (ps : List Plot) (hq : QuietConditions ps) (s : State) (e : Err)
    (h : (individual c ps s).2.2.2 = some e) : e = .keyboardInterrupt := by
  induction ps generalizing s with
  | nil => simp [individual] at h
  | cons p ps ih =>
    have hq' : QuietConditions ps := fun q hm => hq q (List.mem_cons_of_mem _ hm)
    obtain ⟨b, hb⟩ := hq p List.mem_cons_self
    unfold individual at h
    rw [hb] at h
    split at h
    · exact ih hq' s h
    · cases b with
      | false => exact ih hq' s h
      | true =>
        simp only at h
        split at h
        · exact ih hq' s h
        · split at h
          · rename_i e' he'
            simp only [Option.some.injEq] at h
            subst h
            unfold tryDraw at he'
            cases h1 : p.first with
            | drew k => rw [h1] at he'; simp at he'
            | raises e => rw [h1] at he'; cases e <;> simp at he'; exact he'.symm
            | typeError =>
              rw [h1] at he'
              cases h2 : c.dataset
              · simp [h2] at he'
              · simp only [h2, if_true] at he'
                cases h3 : p.second with
                | drew k => rw [h3] at he'; simp at he'
                | typeError => rw [h3] at he'; simp at he'
                | raises e => rw [h3] at he'; cases e <;> simp at he'; exact he'.symm
          · exact ih hq' _ h

theorem inspect_raises (c : Call) (mi : Option ℚ) (now done : ℚ) (pp : List Panel) (pl : List Plot)
    (hp : ∀ p ∈ pp, QuietConditions p.plots) (hq : QuietConditions pl) (s : State) (e : Err)
    (h : (inspect c false mi now done pp pl s).2.2 = some e) : e = .keyboardInterrupt := by
  unfold inspect at h
  split at h
  · simp at h
  · simp only [Bool.false_eq_true, if_false] at h
    cases hi : (individual c (flatten pp ++ pl) s).2.2.2 with
    | none => rw [hi] at h; simp at h
    | some e' =>
      rw [hi] at h
      simp only [Option.some.injEq] at h
      subst h
      refine individual_raises c _ ?_ s e' hi
      intro p hm
      rcases List.mem_append.1 hm with hm | hm
      · unfold flatten at hm
        obtain ⟨q, hq1, hq2⟩ := List.mem_flatMap.1 hm
        obtain ⟨r, hr1, rfl⟩ := List.mem_map.1 hq2
        exact hp q hq1 r hr1
      · exact hq p hm

/-! ### Callbacks -/

/-- What a history should have left on a figure: the callbacks that are not `cdtools`'s (those of the
window and of the user) and those of the latest drawing. -/
structure Count where
  foreign : ℕ
  drawn : ℕ

/-- The number of callbacks of the latest standalone drawing on `t` that registered any. -/
def latestDraw (c : Call) (t : String) : Trace → ℕ → ℕ
  | [], k => k
  | (u, p) :: tr, k => latestDraw c t tr (if u = t ∧ callbacksOf c p ≠ 0 then callbacksOf c p else k)

/-- The number of callbacks of all the drawings on `t` of one call. -/
def drawnOn (c : Call) (t : String) : Trace → ℕ
  | [] => 0
  | (u, p) :: tr => (if u = t then callbacksOf c p else 0) + drawnOn c t tr

/-- The counts of a figure that is only used for standalone plots. -/
def countIndividual (t : String) (s : State) (g : Count) : Event → Count
  | .close u => if u = t then ⟨0, 0⟩ else g
  | .connect u => if u = t ∧ (s.open_ t).isSome then { g with foreign := g.foreign + 1 } else g
  | .inspect c pm mi now done pp pl =>
    ⟨if (s.open_ t).isSome then g.foreign else c.base,
      latestDraw c t (inspect c pm mi now done pp pl s).2.1 (if (s.open_ t).isSome then g.drawn else 0)⟩

/-- A figure with these counts. -/
def IndInv (g : Count) (f : Fig) : Prop :=
  f.cids.Nodup ∧ (∀ i ∈ f.cids, i < f.next) ∧ (∀ i ∈ f.mine, i < f.next) ∧
  (f.cids.filter (· ∉ f.mine)).length = g.foreign ∧ f.cids.length = g.foreign + g.drawn

theorem nodup_append_new {f : Fig} (h1 : f.cids.Nodup) (h2 : ∀ i ∈ f.cids, i < f.next) (k : ℕ) :
    (f.connect k).cids.Nodup ∧ ∀ i ∈ (f.connect k).cids, i < (f.connect k).next := by
  constructor
  · refine List.Nodup.append h1 ?_ ?_
    · exact (List.nodup_range).map (fun a b h => by simpa using h)
    · intro a ha hb
      obtain ⟨j, -, rfl⟩ := List.mem_map.1 hb
      have := h2 _ ha
      omega
  · intro i hi
    rcases List.mem_append.1 hi with h | h
    · have := h2 _ h
      change i < f.next + k
      omega
    · obtain ⟨j, hj, rfl⟩ := List.mem_map.1 h
      have := List.mem_range.1 hj
      change f.next + j < f.next + k
      omega

theorem fresh_inv (b : ℕ) : IndInv ⟨b, 0⟩ (Fig.fresh b) := by
  refine ⟨List.nodup_range, fun i h => List.mem_range.1 h, by simp [Fig.fresh], ?_, ?_⟩ <;>
    simp [Fig.fresh]

theorem draw_inv {g : Count} {f : Fig} (h : IndInv g f) (k : ℕ) :
    IndInv ⟨g.foreign, if k ≠ 0 then k else g.drawn⟩ (f.draw k) := by
  obtain ⟨h1, h2, h3, h4, h5⟩ := h
  unfold Fig.draw
  by_cases hk : k = 0
  · simp only [hk, if_true, ne_eq, not_true, if_false]
    exact ⟨h1, h2, h3, h4, h5⟩
  · rw [if_neg hk]
    have e1 : (f.disconnect f.mine).cids.Nodup := h1.filter _
    have e2 : ∀ i ∈ (f.disconnect f.mine).cids, i < (f.disconnect f.mine).next :=
      fun i hi => h2 i (List.mem_filter.1 hi).1
    obtain ⟨e3, e4⟩ := nodup_append_new e1 e2 k
    simp only [ne_eq, hk, not_false_eq_true, if_true]
    refine ⟨e3, e4, ?_, ?_, ?_⟩
    · intro i hi
      obtain ⟨j, hj, rfl⟩ := List.mem_map.1 hi
      have := List.mem_range.1 hj
      change f.next + j < f.next + k
      omega
    · have : ((f.disconnect f.mine).connect k).cids.filter
          (· ∉ (List.range k).map ((f.disconnect f.mine).next + ·)) = (f.disconnect f.mine).cids := by
        change List.filter _ ((f.disconnect f.mine).cids ++
          (List.range k).map ((f.disconnect f.mine).next + ·)) = _
        rw [List.filter_append]
        have a1 : List.filter (· ∉ (List.range k).map ((f.disconnect f.mine).next + ·))
            (f.disconnect f.mine).cids = (f.disconnect f.mine).cids := by
          refine List.filter_eq_self.2 fun i hi => ?_
          simp only [decide_eq_true_eq]
          intro hm
          obtain ⟨j, -, rfl⟩ := List.mem_map.1 hm
          have := e2 _ hi
          omega
        have a2 : List.filter (· ∉ (List.range k).map ((f.disconnect f.mine).next + ·))
            ((List.range k).map ((f.disconnect f.mine).next + ·)) = [] := by
          refine List.filter_eq_nil_iff.2 fun i hi => ?_
          simpa using hi
        rw [a1, a2, List.append_nil]
      simp only
      rw [this]
      exact h4
    · change ((f.disconnect f.mine).cids ++ (List.range k).map ((f.disconnect f.mine).next + ·)).length = _
      rw [List.length_append, List.length_map, List.length_range]
      exact congrArg (· + k) h4

theorem connect_inv {g : Count} {f : Fig} (h : IndInv g f) :
    IndInv { g with foreign := g.foreign + 1 } (f.connect 1) := by
  obtain ⟨h1, h2, h3, h4, h5⟩ := h
  obtain ⟨e3, e4⟩ := nodup_append_new h1 h2 1
  have hc : (f.connect 1).cids = f.cids ++ [f.next] := by simp [Fig.connect]
  refine ⟨e3, e4, ?_, ?_, ?_⟩
  · intro i hi
    have := h3 i hi
    change i < f.next + 1
    omega
  · rw [hc, List.filter_append, List.length_append]
    have hm : f.next ∉ f.mine := fun h => absurd (h3 _ h) (lt_irrefl _)
    have : List.filter (· ∉ (f.connect 1).mine) [f.next] = [f.next] := by
      refine List.filter_eq_self.2 fun i hi => ?_
      rw [List.mem_singleton.1 hi]
      simp only [decide_eq_true_eq]
      exact hm
    rw [this]
    simpa [Fig.connect] using h4
  · rw [hc, List.length_append, h5]
    simp only [List.length_cons, List.length_nil]
    omega

theorem tryDraw_inv {c : Call} {p : Plot} {f : Fig} {g : Count} (h : IndInv g f) :
    (∃ d, (tryDraw c p f).2 = .ok d ∧
      IndInv ⟨g.foreign, if d = true ∧ callbacksOf c p ≠ 0 then callbacksOf c p else g.drawn⟩
        (tryDraw c p f).1) ∨
    (∃ e, (tryDraw c p f).2 = .error e ∧ IndInv g (tryDraw c p f).1) := by
  have hd := fun k => draw_inv h k
  unfold tryDraw callbacksOf
  cases h1 : p.first with
  | drew k => left; exact ⟨true, rfl, by simpa using hd k⟩
  | raises e =>
    cases e
    · right; exact ⟨_, rfl, h⟩
    · left; exact ⟨false, rfl, by simpa using h⟩
  | typeError =>
    cases h2 : c.dataset
    · left; exact ⟨false, rfl, by simpa using h⟩
    · cases h3 : p.second with
      | drew k => left; exact ⟨true, rfl, by simpa using hd k⟩
      | typeError => left; exact ⟨false, rfl, by simpa using h⟩
      | raises e =>
        cases e
        · right; exact ⟨_, rfl, h⟩
        · left; exact ⟨false, rfl, by simpa using h⟩

theorem individual_inv (c : Call) (t : String) (ps : List Plot) (s : State) (u k : ℕ)
    (h : IndInv ⟨u, k⟩ (getFig c s t)) :
    IndInv ⟨u, latestDraw c t (individual c ps s).2.2.1 k⟩ (getFig c (individual c ps s).1 t) := by
  induction ps generalizing s k with
  | nil => exact h
  | cons p ps ih =>
    unfold individual
    split
    · exact ih s k h
    · split
      · exact h
      · exact ih s k h
      · split
        · exact ih s k h
        · simp only
          by_cases ht : p.title = t
          · subst ht
            have hg : ∀ f, getFig c (setFig s p.title f) p.title = f := by
              intro f; simp [getFig, setFig]
            rcases tryDraw_inv (c := c) (p := p) h with ⟨d, hd, hi⟩ | ⟨e, he, hi⟩
            · rw [hd]
              simp only
              rw [← hg (tryDraw c p (getFig c s p.title)).1] at hi
              have := ih _ _ hi
              cases d with
              | true => simpa [latestDraw] using this
              | false => simpa using this
            · rw [he]
              simp only
              rw [hg]
              exact hi
          · have hg : ∀ f, getFig c (setFig s p.title f) t = getFig c s t := by
              intro f; simp [getFig, setFig, Ne.symm ht]
            split
            · rw [hg]; exact h
            · rename_i d hd
              have := ih (setFig s p.title (tryDraw c p (getFig c s p.title)).1) k (by rw [hg]; exact h)
              cases d with
              | true => simpa [latestDraw, ht] using this
              | false => simpa using this

theorem latestDraw_append (c : Call) (t : String) (a b : Trace) (k : ℕ) :
    latestDraw c t (a ++ b) k = latestDraw c t b (latestDraw c t a k) := by
  induction a generalizing k with
  | nil => rfl
  | cons x a ih => obtain ⟨u, p⟩ := x; exact ih _

theorem latestDraw_other (c : Call) (t : String) (a : Trace) (h : ∀ x ∈ a, x.1 ≠ t) (k : ℕ) :
    latestDraw c t a k = k := by
  induction a generalizing k with
  | nil => rfl
  | cons x a ih =>
    obtain ⟨u, p⟩ := x
    have hu : u ≠ t := h _ List.mem_cons_self
    unfold latestDraw
    rw [if_neg (fun h => hu h.1)]
    exact ih (fun x hx => h x (List.mem_cons_of_mem _ hx)) k

theorem drawnOn_append (c : Call) (t : String) (a b : Trace) :
    drawnOn c t (a ++ b) = drawnOn c t a + drawnOn c t b := by
  induction a with
  | nil => simp [drawnOn]
  | cons x a ih => obtain ⟨u, p⟩ := x; simp only [List.cons_append, drawnOn, ih, Nat.add_assoc]

theorem drawnOn_other (c : Call) (t : String) (a : Trace) (h : ∀ x ∈ a, x.1 ≠ t) : drawnOn c t a = 0 := by
  induction a with
  | nil => rfl
  | cons x a ih =>
    obtain ⟨u, p⟩ := x
    have hu : u ≠ t := h _ List.mem_cons_self
    unfold drawnOn
    rw [if_neg hu, ih (fun x hx => h x (List.mem_cons_of_mem _ hx))]

theorem subplots_titles (c : Call) (t : String) (ps : List Plot) (f : Fig) :
    ∀ x ∈ (subplots c t ps f).2.1, x.1 = t := by
  induction ps generalizing f with
  | nil => simp [subplots]
  | cons p ps ih =>
    unfold subplots
    split
    · simp
    · exact ih f
    · simp only
      split
      · simp
      · rename_i d _
        intro x hx
        rcases List.mem_append.1 hx with h | h
        · cases d
          · simp at h
          · rw [List.mem_singleton.1 h]
        · exact ih _ x h

theorem renderPanel_titles (c : Call) (t : String) (ps : List Plot) (f : Fig) :
    ∀ x ∈ (renderPanel c t ps f).2.1, x.1 = t := by
  unfold renderPanel
  simp only
  split <;> exact subplots_titles c t ps _

theorem panels_other (c : Call) (t : String) (ps : List Panel) (h : ∀ p ∈ ps, p.title ≠ t) (s : State) :
    (panels c ps s).1.open_ t = s.open_ t ∧ (∀ x ∈ (panels c ps s).2.2.1, x.1 ≠ t) ∧
    t ∉ (panels c ps s).2.1 := by
  induction ps generalizing s with
  | nil => simp [panels]
  | cons p ps ih =>
    have ih := ih (fun q hq => h q (List.mem_cons_of_mem _ hq))
    have hp : p.title ≠ t := h p List.mem_cons_self
    have hso : ∀ f, (setFig s p.title f).open_ t = s.open_ t := fun f => by
      simp [setFig, Ne.symm hp]
    unfold panels
    split
    · exact ih s
    · split
      · simp
      · exact ih s
      · split
        · exact ih s
        · simp only
          have htr : ∀ x ∈ (renderPanel c p.title p.plots (getFig c s p.title)).2.1, x.1 ≠ t := by
            intro x hx
            rw [renderPanel_titles _ _ _ _ x hx]; exact hp
          split
          · exact ⟨hso _, htr, by simp⟩
          · obtain ⟨h1, h2, h3⟩ := ih (setFig s p.title _)
            refine ⟨h1.trans (hso _), ?_, ?_⟩
            · intro x hx
              rcases List.mem_append.1 hx with h | h
              · exact htr x h
              · exact h2 x h
            · simp only [List.mem_cons, not_or]
              exact ⟨Ne.symm hp, h3⟩

theorem individual_other (c : Call) (t : String) (ps : List Plot) (h : ∀ p ∈ ps, p.title ≠ t) (s : State) :
    (individual c ps s).1.open_ t = s.open_ t ∧ (∀ x ∈ (individual c ps s).2.2.1, x.1 ≠ t) ∧
    t ∉ (individual c ps s).2.1 := by
  induction ps generalizing s with
  | nil => simp [individual]
  | cons p ps ih =>
    have ih := ih (fun q hq => h q (List.mem_cons_of_mem _ hq))
    have hp : p.title ≠ t := h p List.mem_cons_self
    have hso : ∀ f, (setFig s p.title f).open_ t = s.open_ t := fun f => by
      simp [setFig, Ne.symm hp]
    unfold individual
    split
    · exact ih s
    · split
      · simp
      · exact ih s
      · split
        · exact ih s
        · simp only
          split
          · exact ⟨hso _, by simp, by simp⟩
          · rename_i d _
            obtain ⟨h1, h2, h3⟩ := ih (setFig s p.title _)
            refine ⟨h1.trans (hso _), ?_, ?_⟩
            · intro x hx
              rcases List.mem_append.1 hx with h | h
              · cases d
                · simp at h
                · rw [List.mem_singleton.1 h]; exact hp
              · exact h2 x h
            · simp only [List.mem_cons, not_or]
              exact ⟨Ne.symm hp, h3⟩

/-- The histories in which the figure `t` is only used for standalone plots. -/
def StandaloneOnly (t : String) : Event → Prop
  | .inspect _ pm _ _ _ pp _ => pm = true → ∀ p ∈ pp, p.title ≠ t
  | _ => True

theorem getFig_congr {c : Call} {s s' : State} {t : String} (h : s.open_ t = s'.open_ t) :
    getFig c s t = getFig c s' t := by simp [getFig, h]

theorem getFig_of_open {c : Call} {s : State} {t : String} {f : Fig} (h : s.open_ t = some f) :
    getFig c s t = f := by simp [getFig, h]

theorem step_individual_inv (t : String) (s : State) (g : Count) (e : Event) (he : StandaloneOnly t e)
    (h : ∀ f, s.open_ t = some f → IndInv g f) :
    ∀ f, (step s e).open_ t = some f → IndInv (countIndividual t s g e) f := by
  cases e with
  | close u =>
    intro f hf
    unfold step at hf
    simp only at hf
    unfold countIndividual
    split at hf
    · simp at hf
    · rename_i hne
      simp only
      rw [if_neg (fun h => hne h.symm)]
      exact h f hf
  | connect u =>
    intro f hf
    unfold step at hf
    simp only at hf
    unfold countIndividual
    simp only
    by_cases hu : u = t
    · subst hu
      cases ho : s.open_ u with
      | none => rw [ho] at hf; rw [ho] at hf; simp at hf
      | some f0 =>
        rw [ho] at hf
        simp only [setFig, if_true, Option.some.injEq] at hf
        subst hf
        simp only [Option.isSome_some, and_self, if_true]
        exact connect_inv (h f0 ho)
    · rw [if_neg (fun h => hu h.1)]
      cases ho : s.open_ u with
      | none => rw [ho] at hf; exact h f hf
      | some f0 =>
        rw [ho] at hf
        simp only [setFig, Ne.symm hu, if_false] at hf
        exact h f hf
  | inspect c pm mi now done pp pl =>
    intro f hf
    have hstart : IndInv ⟨if (s.open_ t).isSome then g.foreign else c.base,
        if (s.open_ t).isSome then g.drawn else 0⟩ (getFig c s t) := by
      cases ho : s.open_ t with
      | none => simpa [getFig, ho] using fresh_inv c.base
      | some f0 => simpa [getFig, ho] using h f0 ho
    unfold countIndividual
    unfold step at hf
    simp only at hf ⊢
    unfold inspect at hf ⊢
    split at hf
    · rename_i hk
      rw [if_pos hk]
      rw [getFig_of_open hf] at hstart
      exact hstart
    · rename_i hk
      rw [if_neg hk]
      split at hf
      · rename_i hpm
        rw [if_pos hpm]
        have hother := panels_other c t pp.reverse (fun p hp => he hpm p (List.mem_reverse.1 hp)) s
        simp only at hf ⊢
        have hmid : getFig c (panels c pp.reverse s).1 t = getFig c s t := by
          simp only [getFig, hother.1]
        have htr := fun k => latestDraw_other c t _ hother.2.1 k
        cases hpe : (panels c pp.reverse s).2.2.2 with
        | some e =>
          rw [hpe] at hf
          simp only at hf ⊢
          rw [htr]
          rw [← hmid, getFig_of_open hf] at hstart
          exact hstart
        | none =>
          rw [hpe] at hf
          simp only at hf ⊢
          have hi := individual_inv c t pl _ _ _ (hmid ▸ hstart)
          cases hie : (individual c pl (panels c pp.reverse s).1).2.2.2 with
          | some e =>
            rw [hie] at hf
            simp only at hf ⊢
            rw [latestDraw_append, htr]
            rw [getFig_of_open hf] at hi
            exact hi
          | none =>
            rw [hie] at hf
            simp only at hf ⊢
            rw [latestDraw_append, htr]
            rw [getFig_of_open hf] at hi
            exact hi
      · rename_i hpm
        rw [if_neg hpm]
        simp only at hf ⊢
        have hi := individual_inv c t (flatten pp ++ pl) _ _ _ hstart
        cases hie : (individual c (flatten pp ++ pl) s).2.2.2 with
        | some e =>
          rw [hie] at hf
          simp only at hf ⊢
          rw [getFig_of_open hf] at hi
          exact hi
        | none =>
          rw [hie] at hf
          simp only at hf ⊢
          rw [getFig_of_open hf] at hi
          exact hi

/-- The state after a history, and the counts a history should leave. -/
def run (count : State → Count → Event → Count) : List Event → State × Count → State × Count
  | [], x => x
  | e :: es, x => run count es (step x.1 e, count x.1 x.2 e)

/-- **C52** (callbacks of standalone figures, `_partial`: see `stale_callback`): after any history of
closing windows, callbacks connected by the user and `inspect` calls of any kind, with any outcomes and
even with exceptions, the figure of a standalone plot has exactly the callbacks of its window, those of
the user and those of the latest drawing that registered any. -/
theorem standalone_callbacks_partial (t : String) (es : List Event) (h : ∀ e ∈ es, StandaloneOnly t e) :
    ∀ f, (run (countIndividual t) es (initial, ⟨0, 0⟩)).1.open_ t = some f →
      f.cids.Nodup ∧ f.cids.length =
        (run (countIndividual t) es (initial, ⟨0, 0⟩)).2.foreign +
        (run (countIndividual t) es (initial, ⟨0, 0⟩)).2.drawn := by
  have key : ∀ (es : List Event) (x : State × Count), (∀ e ∈ es, StandaloneOnly t e) →
      (∀ f, x.1.open_ t = some f → IndInv x.2 f) →
      ∀ f, (run (countIndividual t) es x).1.open_ t = some f →
        IndInv (run (countIndividual t) es x).2 f := by
    intro es
    induction es with
    | nil => intro x _ hx; exact hx
    | cons e es ih =>
      intro x hes hx
      exact ih _ (fun e' he' => hes e' (List.mem_cons_of_mem _ he'))
        (step_individual_inv t x.1 x.2 e (hes e List.mem_cons_self) hx)
  intro f hf
  have := key es (initial, ⟨0, 0⟩) h (by intro f hf; simp [initial] at hf) f hf
  exact ⟨this.1, this.2.2.2.2⟩

/-! ### Callbacks of panels -/

/-- The counts of a figure that is only used for a panel. -/
def countPanel (t : String) (s : State) (g : Count) : Event → Count
  | .close u => if u = t then ⟨0, 0⟩ else g
  | .connect u => if u = t ∧ (s.open_ t).isSome then { g with foreign := g.foreign + 1 } else g
  | .inspect c pm mi now done pp pl =>
    if ¬ skipNow s mi now ∧ t ∈ (inspect c pm mi now done pp pl s).1.figs then
      ⟨if (s.open_ t).isSome then g.foreign else c.base,
        drawnOn c t (inspect c pm mi now done pp pl s).2.1⟩
    else g

/-- The histories in which the figure `t` is only used for one panel, in panel mode, and in which no
`inspect` call raises. -/
def PanelOnly (t : String) (s : State) : Event → Prop
  | .inspect c pm mi now done pp pl =>
    pm = true ∧ (pp.map (·.title)).Nodup ∧ (∀ p ∈ pl, p.title ≠ t) ∧
      (inspect c pm mi now done pp pl s).2.2 = none
  | _ => True

def PanInv (g : Count) (f : Fig) : Prop :=
  f.cids.Nodup ∧ (∀ i ∈ f.cids, i < f.next) ∧ (∀ i ∈ f.renderCids, i < f.next) ∧
  (f.cids.filter (· ∉ f.renderCids)).length = g.foreign ∧ f.cids.length = g.foreign + g.drawn

theorem fresh_pan (b : ℕ) : PanInv ⟨b, 0⟩ (Fig.fresh b) := by
  refine ⟨List.nodup_range, fun i h => List.mem_range.1 h, by simp [Fig.fresh], ?_, ?_⟩ <;>
    simp [Fig.fresh]

theorem connect_pan {g : Count} {f : Fig} (h : PanInv g f) :
    PanInv { g with foreign := g.foreign + 1 } (f.connect 1) := by
  obtain ⟨h1, h2, h3, h4, h5⟩ := h
  obtain ⟨e3, e4⟩ := nodup_append_new h1 h2 1
  have hc : (f.connect 1).cids = f.cids ++ [f.next] := by simp [Fig.connect]
  refine ⟨e3, e4, ?_, ?_, ?_⟩
  · intro i hi
    have := h3 i hi
    change i < f.next + 1
    omega
  · rw [hc, List.filter_append, List.length_append]
    have hm : f.next ∉ f.renderCids := fun h => absurd (h3 _ h) (lt_irrefl _)
    have : List.filter (· ∉ (f.connect 1).renderCids) [f.next] = [f.next] := by
      refine List.filter_eq_self.2 fun i hi => ?_
      rw [List.mem_singleton.1 hi]
      simp only [decide_eq_true_eq]
      exact hm
    rw [this]
    simpa [Fig.connect] using h4
  · rw [hc, List.length_append, h5]
    simp only [List.length_cons, List.length_nil]
    omega

/-- Drawing the subplots only adds new callbacks, as many as the drawn plots register. -/
theorem subplots_cids (c : Call) (t : String) (ps : List Plot) (f : Fig)
    (h1 : f.cids.Nodup) (h2 : ∀ i ∈ f.cids, i < f.next) (h : (subplots c t ps f).2.2 = none) :
    (subplots c t ps f).1.cids.Nodup ∧
    (∀ i ∈ (subplots c t ps f).1.cids, i < (subplots c t ps f).1.next) ∧
    ∃ new, (subplots c t ps f).1.cids = f.cids ++ new ∧ (∀ i ∈ new, f.next ≤ i) ∧
      new.length = drawnOn c t (subplots c t ps f).2.1 ∧ f.next ≤ (subplots c t ps f).1.next := by
  induction ps generalizing f with
  | nil => exact ⟨h1, h2, [], by simp [subplots, drawnOn]⟩
  | cons p ps ih =>
    unfold subplots at h ⊢
    cases hc : evalCond p.condition with
    | error e => rw [hc] at h; simp at h
    | ok b =>
      rw [hc] at h
      cases b with
      | false => exact ih f h1 h2 h
      | true =>
        simp only at h ⊢
        cases hr : (tryDrawSub c p f).2 with
        | error e => rw [hr] at h; simp at h
        | ok d =>
          rw [hr] at h
          simp only at h ⊢
          have hf := (tryDrawSub_ok hr).2
          cases d with
          | false =>
            simp only [Bool.false_eq_true, if_false] at hf
            rw [hf] at h ⊢
            simpa using ih f h1 h2 h
          | true =>
            simp only [if_true] at hf
            rw [hf] at h ⊢
            obtain ⟨n1, n2⟩ := nodup_append_new h1 h2 (callbacksOf c p)
            obtain ⟨i1, i2, new, i3, i4, i5, i6⟩ := ih _ n1 n2 h
            have hn : (f.connect (callbacksOf c p)).next = f.next + callbacksOf c p := rfl
            refine ⟨i1, i2, (List.range (callbacksOf c p)).map (f.next + ·) ++ new, ?_, ?_, ?_, ?_⟩
            · rw [i3]; simp [Fig.connect]
            · intro i hi
              rcases List.mem_append.1 hi with h | h
              · obtain ⟨j, -, rfl⟩ := List.mem_map.1 h; omega
              · have := i4 i h; omega
            · simp [drawnOn, i5]
            · omega

theorem renderPanel_inv (c : Call) (t : String) (ps : List Plot) (f : Fig) (g : Count) (hg : PanInv g f)
    (h : (renderPanel c t ps f).2.2 = none) :
    PanInv ⟨g.foreign, drawnOn c t (renderPanel c t ps f).2.1⟩ (renderPanel c t ps f).1 := by
  obtain ⟨g1, g2, g3, g4, g5⟩ := hg
  obtain ⟨hs, htr⟩ := renderPanel_trace c t ps f h
  rw [htr]
  have d1 : (f.disconnect f.renderCids).cids.Nodup := g1.filter _
  have d2 : ∀ i ∈ (f.disconnect f.renderCids).cids, i < (f.disconnect f.renderCids).next :=
    fun i hi => g2 i (List.mem_filter.1 hi).1
  obtain ⟨s1, s2, new, s3, s4, s5, s6⟩ := subplots_cids c t ps _ d1 d2 hs
  unfold renderPanel
  simp only [hs]
  have hlen : (f.disconnect f.renderCids).cids.length = g.foreign := g4
  have hfil : (subplots c t ps (f.disconnect f.renderCids)).1.cids.filter
      (· ∉ (f.disconnect f.renderCids).cids) = new := by
    rw [s3, List.filter_append]
    have a1 : (f.disconnect f.renderCids).cids.filter (· ∉ (f.disconnect f.renderCids).cids) = [] :=
      List.filter_eq_nil_iff.2 fun i hi => by simpa using hi
    have a2 : new.filter (· ∉ (f.disconnect f.renderCids).cids) = new :=
      List.filter_eq_self.2 fun i hi => by
        simp only [decide_eq_true_eq]
        intro hm
        have := d2 i hm
        have := s4 i hi
        omega
    rw [a1, a2, List.nil_append]
  refine ⟨s1, s2, ?_, ?_, ?_⟩
  · intro i hi
    exact s2 i (List.mem_filter.1 hi).1
  · simp only
    rw [hfil, s3, List.filter_append]
    have a1 : (f.disconnect f.renderCids).cids.filter (· ∉ new) = (f.disconnect f.renderCids).cids :=
      List.filter_eq_self.2 fun i hi => by
        simp only [decide_eq_true_eq]
        intro hm
        have := d2 i hi
        have := s4 i hm
        omega
    have a2 : new.filter (· ∉ new) = [] := List.filter_eq_nil_iff.2 fun i hi => by simpa using hi
    rw [a1, a2, List.append_nil, hlen]
  · rw [s3, List.length_append, hlen, s5]

theorem panels_inv (c : Call) (t : String) (ps : List Panel) (hn : (ps.map (·.title)).Nodup) (s : State)
    (u k : ℕ) (hg : PanInv ⟨u, k⟩ (getFig c s t)) (h : (panels c ps s).2.2.2 = none) :
    (t ∉ (panels c ps s).2.1 → (panels c ps s).1.open_ t = s.open_ t) ∧
    (t ∈ (panels c ps s).2.1 →
      PanInv ⟨u, drawnOn c t (panels c ps s).2.2.1⟩ (getFig c (panels c ps s).1 t)) := by
  induction ps generalizing s k with
  | nil => simp [panels]
  | cons p ps ih =>
    have hn' : (ps.map (·.title)).Nodup := (List.nodup_cons.1 (by simpa using hn)).2
    have hnp : ∀ q ∈ ps, q.title ≠ p.title := by
      intro q hq he
      exact (List.nodup_cons.1 (by simpa using hn : (p.title :: ps.map (·.title)).Nodup)).1
        (List.mem_map.2 ⟨q, hq, he⟩)
    unfold panels at h ⊢
    split at h
    · rename_i hl; rw [if_pos hl]; exact ih hn' s k hg h
    · rename_i hl
      rw [if_neg hl]
      cases hc : evalCond p.condition with
      | error e => rw [hc] at h; simp at h
      | ok b =>
        rw [hc] at h
        cases b with
        | false => exact ih hn' s k hg h
        | true =>
          simp only at h ⊢
          split at h
          · rename_i hcl; rw [if_pos hcl]; exact ih hn' s k hg h
          · rename_i hcl
            rw [if_neg hcl]
            cases hr : (renderPanel c p.title p.plots (getFig c s p.title)).2.2 with
            | some e => rw [hr] at h; simp at h
            | none =>
              rw [hr] at h
              simp only at h ⊢
              by_cases ht : p.title = t
              · subst ht
                obtain ⟨o1, o2, o3⟩ := panels_other c p.title ps hnp
                  (setFig s p.title (renderPanel c p.title p.plots (getFig c s p.title)).1)
                refine ⟨fun hno => absurd List.mem_cons_self hno, fun _ => ?_⟩
                rw [drawnOn_append, drawnOn_other c _ _ o2, Nat.add_zero]
                have : getFig c (panels c ps (setFig s p.title
                    (renderPanel c p.title p.plots (getFig c s p.title)).1)).1 p.title =
                    (renderPanel c p.title p.plots (getFig c s p.title)).1 := by
                  exact getFig_of_open (o1.trans (by simp [setFig]))
                rw [this]
                exact renderPanel_inv c _ _ _ _ hg hr
              · have hso : (setFig s p.title
                    (renderPanel c p.title p.plots (getFig c s p.title)).1).open_ t = s.open_ t := by
                  simp [setFig, Ne.symm ht]
                have hgf : getFig c (setFig s p.title
                    (renderPanel c p.title p.plots (getFig c s p.title)).1) t = getFig c s t := by
                  exact getFig_congr hso
                obtain ⟨i1, i2⟩ := ih hn' _ k (hgf.symm ▸ hg) h
                constructor
                · intro hno
                  rw [i1 (fun hm => hno (List.mem_cons_of_mem _ hm)), hso]
                · intro hm
                  rcases List.mem_cons.1 hm with hm | hm
                  · exact absurd hm.symm ht
                  · rw [drawnOn_append, drawnOn_other c t
                      (renderPanel c p.title p.plots (getFig c s p.title)).2.1
                      (fun x hx => by rw [renderPanel_titles _ _ _ _ x hx]; exact ht), Nat.zero_add]
                    exact i2 hm

theorem step_panel_inv (t : String) (s : State) (g : Count) (e : Event) (he : PanelOnly t s e)
    (h : ∀ f, s.open_ t = some f → PanInv g f) :
    ∀ f, (step s e).open_ t = some f → PanInv (countPanel t s g e) f := by
  cases e with
  | close u =>
    intro f hf
    unfold step at hf
    simp only at hf
    unfold countPanel
    split at hf
    · simp at hf
    · rename_i hne
      simp only
      rw [if_neg (fun h => hne h.symm)]
      exact h f hf
  | connect u =>
    intro f hf
    unfold step at hf
    simp only at hf
    unfold countPanel
    simp only
    by_cases hu : u = t
    · subst hu
      cases ho : s.open_ u with
      | none => rw [ho] at hf; rw [ho] at hf; simp at hf
      | some f0 =>
        rw [ho] at hf
        simp only [setFig, if_true, Option.some.injEq] at hf
        subst hf
        simp only [Option.isSome_some, and_self, if_true]
        exact connect_pan (h f0 ho)
    · rw [if_neg (fun h => hu h.1)]
      cases ho : s.open_ u with
      | none => rw [ho] at hf; exact h f hf
      | some f0 =>
        rw [ho] at hf
        simp only [setFig, Ne.symm hu, if_false] at hf
        exact h f hf
  | inspect c pm mi now done pp pl =>
    obtain ⟨hpm, hnd, hpl, hok⟩ := he
    subst hpm
    intro f hf
    unfold countPanel
    unfold step at hf
    simp only at hf ⊢
    by_cases hk : skipNow s mi now = true
    · rw [if_neg (fun hh => hh.1 hk)]
      unfold inspect at hf
      rw [if_pos hk] at hf
      exact h f hf
    · have hstart : PanInv ⟨if (s.open_ t).isSome then g.foreign else c.base,
          if (s.open_ t).isSome then g.drawn else 0⟩ (getFig c s t) := by
        cases ho : s.open_ t with
        | none => simpa [getFig, ho] using fresh_pan c.base
        | some f0 => simpa [getFig, ho] using h f0 ho
      unfold inspect at hf hok ⊢
      rw [if_neg hk, if_pos rfl] at hf hok ⊢
      simp only at hf hok ⊢
      cases hpe : (panels c pp.reverse s).2.2.2 with
      | some e => rw [hpe] at hok; simp at hok
      | none =>
        rw [hpe] at hf hok
        simp only at hf hok ⊢
        obtain ⟨o1, o2, o3⟩ := individual_other c t pl hpl (panels c pp.reverse s).1
        have hnd' : (pp.reverse.map (·.title)).Nodup := by
          rw [List.map_reverse]; exact List.nodup_reverse.2 hnd
        obtain ⟨p1, p2⟩ := panels_inv c t pp.reverse hnd' s _ _ hstart hpe
        cases hie : (individual c pl (panels c pp.reverse s).1).2.2.2 with
        | some e => rw [hie] at hok; simp at hok
        | none =>
          rw [hie] at hf
          simp only at hf ⊢
          rw [o1] at hf
          by_cases hm : t ∈ (panels c pp.reverse s).2.1
          · rw [if_pos ⟨hk, List.mem_append_left _ hm⟩, drawnOn_append, drawnOn_other c t _ o2,
              Nat.add_zero]
            have := p2 hm
            rw [getFig_of_open hf] at this
            exact this
          · rw [if_neg (fun hh => (List.mem_append.1 hh.2).elim hm o3)]
            rw [p1 hm] at hf
            exact h f hf

/-- The events satisfy `P` at the state in which they happen. -/
def AllEvents (P : State → Event → Prop) : List Event → State → Prop
  | [], _ => True
  | e :: es, s => P s e ∧ AllEvents P es (step s e)

/-- **C52** (callbacks of panels, `_partial`: see `panel_leak`): after any history of closing windows,
callbacks connected by the user and `inspect` calls in panel mode that raise nothing, the figure of a
panel has exactly the callbacks of its window, those of the user and those of its latest drawing. -/
theorem panel_callbacks_partial (t : String) (es : List Event) (h : AllEvents (PanelOnly t) es initial) :
    ∀ f, (run (countPanel t) es (initial, ⟨0, 0⟩)).1.open_ t = some f →
      f.cids.Nodup ∧ f.cids.length =
        (run (countPanel t) es (initial, ⟨0, 0⟩)).2.foreign +
        (run (countPanel t) es (initial, ⟨0, 0⟩)).2.drawn := by
  have key : ∀ (es : List Event) (x : State × Count), AllEvents (PanelOnly t) es x.1 →
      (∀ f, x.1.open_ t = some f → PanInv x.2 f) →
      ∀ f, (run (countPanel t) es x).1.open_ t = some f →
        PanInv (run (countPanel t) es x).2 f := by
    intro es
    induction es with
    | nil => intro x _ hx; exact hx
    | cons e es ih =>
      intro x hes hx
      exact ih _ hes.2 (step_panel_inv t x.1 x.2 e hes.1 hx)
  intro f hf
  have := key es (initial, ⟨0, 0⟩) h (by intro f hf; simp [initial] at hf) f hf
  exact ⟨this.1, this.2.2.2.2⟩

/-! ### Violations -/

/-- Two calls used in the examples: a first inspection and a later one, at any plot level. -/
def anyCall : Call := { base := 3, plotLevel := ⊤, dataset := false, replotAll := false }

def simplePlot (title : String) (first : CallRes) (cond : Option CondRes) : Plot :=
  { title := title, level := none, condition := cond, first := first, second := .typeError }

def panelOf (title : String) (plots : List Plot) : Panel :=
  { title := title, level := none, condition := none, plots := plots }

/-- **C52** (violated: the condition of a panel is ignored in the default mode): for every panel whose
condition is false, without `panel_plot_mode` all its plots without a condition of their own are still
drawn at a first inspection. -/
theorem panel_condition_ignored (p : Panel) (q : Plot) (hq : q ∈ p.plots)
    (hqc : q.condition = none) (k : ℕ) (hqf : q.first = .drew k) (done : ℚ)
    (hother : QuietConditions p.plots) (hfirst : ∀ r ∈ p.plots, r.first ≠ .raises .keyboardInterrupt)
    (hsecond : ∀ r ∈ p.plots, r.second ≠ .raises .keyboardInterrupt) :
    (q.title, ({ q with level := some (p.level.getD 1) } : Plot)) ∈
      (inspect anyCall false none 0 done [p] [] initial).2.1 := by
  classical
  have hsk : ¬ Skipped initial none 0 := by rintro ⟨d, t, h, -⟩; simp at h
  have hno : (inspect anyCall false none 0 done [p] [] initial).2.2 = none := by
    unfold inspect
    rw [if_neg ((skip_iff _ _ _).not.2 hsk), if_neg Bool.false_ne_true]
    simp only
    have key : ∀ (ps : List Plot) (s : State), QuietConditions ps →
        (∀ r ∈ ps, r.first ≠ .raises .keyboardInterrupt) →
        (∀ r ∈ ps, r.second ≠ .raises .keyboardInterrupt) → (individual anyCall ps s).2.2.2 = none := by
      intro ps
      induction ps with
      | nil => intro s _ _ _; rfl
      | cons r ps ih =>
        intro s hA hB hC
        have ih' := fun s => ih s (fun x hx => hA x (List.mem_cons_of_mem _ hx))
          (fun x hx => hB x (List.mem_cons_of_mem _ hx)) (fun x hx => hC x (List.mem_cons_of_mem _ hx))
        obtain ⟨b, hb⟩ := hA r List.mem_cons_self
        have hB' := hB r List.mem_cons_self
        unfold individual
        rw [hb]
        split
        · exact ih' s
        · cases b with
          | false => exact ih' s
          | true =>
            simp only
            split
            · exact ih' s
            · split
              · rename_i e he
                exfalso
                unfold tryDraw at he
                cases h1 : r.first with
                | drew k => rw [h1] at he; simp at he
                | raises e => rw [h1] at he hB'; cases e <;> simp at he hB'
                | typeError => rw [h1] at he; simp [anyCall] at he
              · exact ih' _
    rw [key (flatten [p] ++ [])]
    · intro x hx
      simp only [flatten, List.append_nil, List.flatMap_cons, List.flatMap_nil] at hx
      obtain ⟨r, hr, rfl⟩ := List.mem_map.1 hx
      exact hother r hr
    · intro x hx
      simp only [flatten, List.append_nil, List.flatMap_cons, List.flatMap_nil] at hx
      obtain ⟨r, hr, rfl⟩ := List.mem_map.1 hx
      exact hfirst r hr
    · intro x hx
      simp only [flatten, List.append_nil, List.flatMap_cons, List.flatMap_nil] at hx
      obtain ⟨r, hr, rfl⟩ := List.mem_map.1 hx
      exact hsecond r hr
  rw [(inspect_shows anyCall none 0 done [p] [] initial hsk hno).1]
  refine List.mem_map.2 ⟨{ q with level := some (p.level.getD 1) }, ?_, rfl⟩
  refine List.mem_filter.2 ⟨?_, ?_⟩
  · simp only [List.append_nil, List.flatMap_cons, List.flatMap_nil]
    exact List.mem_map.2 ⟨q, hq, rfl⟩
  · simp only [decide_eq_true_eq]
    refine ⟨⟨le_top, by rw [hqc]; rfl⟩, Or.inl rfl, Or.inl ⟨k, hqf⟩⟩

/-- **C52** (violated: plots that become eligible later): once a first inspection has been made, a plot
whose figure is not open is not drawn by any sequence of further `inspect` calls without `replot_all`,
whatever its level and condition - also if the user never closed it, because it was not eligible at the
first inspection. -/
theorem late_plot_never_drawn (t : String) (es : List Event) (s : State) (hl : s.last.isSome = true)
    (hc : s.open_ t = none)
    (hes : ∀ e ∈ es, ∀ c pm mi now done pp pl, e = .inspect c pm mi now done pp pl →
      c.replotAll = false) :
    (es.foldl step s).open_ t = none := by
  have key : ∀ (es : List Event) (s : State), s.last.isSome = true → s.open_ t = none →
      (∀ e ∈ es, ∀ c pm mi now done pp pl, e = .inspect c pm mi now done pp pl → c.replotAll = false) →
      (es.foldl step s).open_ t = none := by
    intro es
    induction es with
    | nil => intro s _ h _; exact h
    | cons e es ih =>
      intro s hl hc hes
      have hes' := fun e' he' => hes e' (List.mem_cons_of_mem _ he')
      rw [List.foldl_cons]
      cases e with
      | close u =>
        refine ih _ hl ?_ hes'
        unfold step
        simp only
        split
        · rfl
        · exact hc
      | connect u =>
        have hst : (step s (.connect u)).last = s.last := by unfold step; simp only; split <;> rfl
        refine ih _ (by rw [hst]; exact hl) ?_ hes'
        unfold step
        simp only
        cases ho : s.open_ u with
        | none => exact hc
        | some f0 =>
          by_cases hu : t = u
          · subst hu; rw [hc] at ho; simp at ho
          · simp [setFig, hu, hc]
      | inspect c pm mi now done pp pl =>
        obtain ⟨h1, h2⟩ := inspect_keeps_windows c pm mi now done pp pl s hl
          (hes _ List.mem_cons_self c pm mi now done pp pl rfl) t
        refine ih _ h2 ?_ hes'
        change (inspect c pm mi now done pp pl s).1.open_ t = none
        rw [hc] at h1
        simpa using h1
  exact key es s hl hc hes

/-- A history that shows the point: the condition is false at the first inspection and true later; the
plot is never drawn although it was never closed. -/
theorem late_plot_example (done : ℚ) (n : ℕ) :
    let first := Event.inspect anyCall false none 0 done [] [simplePlot "a" (.drew 1) (some (.value false))]
    let later := Event.inspect anyCall false none 0 done [] [simplePlot "a" (.drew 1) (some (.value true))]
    ((first :: List.replicate n later).foldl step initial).open_ "a" = none := by
  intro first later
  rw [List.foldl_cons]
  have hlv : ¬ ¬ levelOk anyCall none := not_not.2 le_top
  have h1 : step initial first = { initial with last := some done } := by
    simp only [first, step, inspect, skipNow, flatten, List.flatMap_nil, List.nil_append, individual,
      simplePlot, evalCond, if_neg hlv]
    rfl
  rw [h1]
  refine late_plot_never_drawn "a" _ _ rfl rfl ?_
  intro e he c pm mi now done' pp pl heq
  rw [List.eq_of_mem_replicate he] at heq
  simp only [later, Event.inspect.injEq] at heq
  rw [← heq.1]
  rfl

/-- **C52** (violated: leak in panel mode): when the second plot of a panel raises, the callbacks of the
first one are not remembered; every further such call adds as many again. After `n` calls of which the
first plot draws with `k` callbacks and the second raises, the figure has `base + n * k` callbacks. -/
theorem panel_leak (k : ℕ) (n : ℕ) (done : ℚ) :
    let pan := panelOf "p" [simplePlot "a" (.drew k) none, simplePlot "b" (.raises .other) none]
    let e := Event.inspect anyCall true none 0 done [pan] []
    ∃ f, ((List.replicate (n + 1) e).foldl step initial).open_ "p" = some f ∧
      f.cids.length = 3 + (n + 1) * k := by
  intro pan e
  have hlv : ¬ ¬ levelOk anyCall none := not_not.2 le_top
  have hstep : ∀ s : State, s.last = none → (getFig anyCall s "p").renderCids = [] →
      step s e = setFig s "p" (((getFig anyCall s "p").disconnect []).connect k) := by
    intro s hs hr
    simp only [e, step, inspect, skipNow, List.reverse_singleton, panels, pan, panelOf, evalCond, if_neg hlv,
      isClosed, hs, Option.isSome_none, Bool.false_and, renderPanel, hr, subplots, simplePlot,
      tryDrawSub, Fig.drawSub, if_true, Bool.false_eq_true, if_false]
  have key : ∀ n : ℕ, ∃ f, ((List.replicate (n + 1) e).foldl step initial).open_ "p" = some f ∧
      f.cids.length = 3 + (n + 1) * k ∧ f.renderCids = [] ∧
      ((List.replicate (n + 1) e).foldl step initial).last = none := by
    intro n
    induction n with
    | zero =>
      refine ⟨((Fig.fresh 3).disconnect []).connect k, ?_, ?_, rfl, ?_⟩
      · change (step initial e).open_ "p" = _
        rw [hstep initial rfl rfl]
        simp [setFig, getFig, initial, anyCall]
      · simp [Fig.connect, Fig.disconnect, Fig.fresh]
      · change (step initial e).last = none
        rw [hstep initial rfl rfl]
        rfl
    | succ n ih =>
      obtain ⟨f, h1, h2, h3, h4⟩ := ih
      rw [List.replicate_succ', List.foldl_append, List.foldl_cons, List.foldl_nil]
      have hg : getFig anyCall ((List.replicate (n + 1) e).foldl step initial) "p" = f :=
        getFig_of_open h1
      rw [hstep _ h4 (by rw [hg]; exact h3), hg]
      refine ⟨(f.disconnect []).connect k, by simp [setFig], ?_, h3, h4⟩
      simp only [Fig.connect, Fig.disconnect, List.length_append, List.length_map, List.length_range]
      simp [h2]
      rw [Nat.succ_mul (n + 1) k]
      omega
  obtain ⟨f, h1, h2, -⟩ := key n
  exact ⟨f, h1, h2⟩

/-- **C52** (violated: stale callbacks): when a standalone plot whose latest drawing registered `k`
callbacks is redrawn without sliders, the old callbacks stay connected. -/
theorem stale_callback (k : ℕ) (hk : k ≠ 0) (f : Fig) (g : Count) (h : IndInv g f) :
    ((f.draw k).draw 0).cids.length = g.foreign + k := by
  have := (draw_inv (draw_inv h k) 0).2.2.2.2
  simpa [hk] using this

/-! ### Examples: the hypotheses are met -/

/-- A history in panel mode: two inspections, a user callback, a third inspection; the figure has the
callbacks of the window, of the user and of the last drawing. -/
example :
    let pan (k : ℕ) := panelOf "p" [simplePlot "a" (.drew k) none,
      simplePlot "b" (.drew 1) (some (.value true))]
    let es := [Event.inspect anyCall true none 0 0 [pan 2] [], .inspect anyCall true none 0 0 [pan 4] [],
      .connect "p", .inspect anyCall true none 0 0 [pan 5] []]
    AllEvents (PanelOnly "p") es initial ∧
    (run (countPanel "p") es (initial, ⟨0, 0⟩)).2.foreign = 4 ∧
    (run (countPanel "p") es (initial, ⟨0, 0⟩)).2.drawn = 6 := by
  intro pan es
  have hlv : ∀ b d r l, levelOk ⟨b, ⊤, d, r⟩ l := fun _ _ _ _ => le_top
  refine ⟨?_, ?_, ?_⟩
  · simp [es, AllEvents, PanelOnly, step, inspect, skipNow, panels, pan, panelOf, evalCond, isClosed, renderPanel,
      subplots, simplePlot, tryDrawSub, Fig.drawSub, individual, hlv, setFig, getFig,
      initial, anyCall]
  · simp [es, run, countPanel, step, inspect, skipNow, panels, pan, panelOf, evalCond, isClosed, renderPanel,
      subplots, simplePlot, tryDrawSub, Fig.drawSub, individual, hlv, setFig, getFig,
      initial, anyCall]
  · simp [es, run, countPanel, step, inspect, skipNow, panels, pan, panelOf, evalCond, isClosed, renderPanel,
      subplots, simplePlot, tryDrawSub, Fig.drawSub, individual, hlv, setFig, getFig,
      initial, anyCall, drawnOn, callbacksOf]

end Cdtools.Inspect
