import Verif.Model.History
import Verif.Lemmas.Threading

namespace Cdtools
set_option linter.unusedSectionVars false

variable {Θ I P S R : Type} [NormedAddCommGroup Θ] [NormedSpace ℝ Θ] {Ω N : Type}

/-- Either nothing was recorded, or exactly one epoch was. -/
def RecordStep (s s' : RunState Θ Ω N) : Prop :=
  SameBooks s s' ∨ ∃ l line, s'.lossHistory = s.lossHistory ++ [l] ∧
    s'.epoch = s'.lossHistory.length ∧ s'.trainingHistory = s.trainingHistory ++ line

theorem finishEpoch_record (env : Env Θ Ω N P) (dt : ℝ) (s : RunState Θ Ω N) (l : ℝ) :
    (finishEpoch env dt s l).1.lossHistory = s.lossHistory ++ [(finishEpoch env dt s l).2] ∧
    (finishEpoch env dt s l).1.epoch = (finishEpoch env dt s l).1.lossHistory.length ∧
    ∃ line, (finishEpoch env dt s l).1.trainingHistory = s.trainingHistory ++ line := by
  unfold finishEpoch
  exact ⟨rfl, rfl, _, rfl⟩

theorem runEpoch_record (env : Env Θ Ω N P) (ph : Physics Θ I P S R) (cw : ℤ) (reg : Option R)
    (dt : ℝ) (loader : Option (List (Minibatch I P))) (s : RunState Θ Ω N) :
    match runEpoch env ph cw reg dt loader s with
    | (s', .error _) => SameBooks s s'
    | (s', .ok l) => s'.lossHistory = s.lossHistory ++ [l] ∧ s'.epoch = s'.lossHistory.length ∧
        ∃ line, s'.trainingHistory = s.trainingHistory ++ line := by
  unfold runEpoch
  cases loader with
  | none => exact SameBooks.refl s
  | some bs =>
    have hb := (batches_props env ph cw reg bs s none).2.2.1
    rcases h : runBatches env ph cw reg bs s none with ⟨s', r⟩
    rw [h] at hb
    simp only [h]
    cases r with
    | error e => exact hb
    | ok ol =>
      cases ol with
      | none => exact hb
      | some l =>
        obtain ⟨h1, h2, line, h3⟩ := finishEpoch_record env dt s' l
        refine ⟨?_, h2, line, ?_⟩
        · rw [h1, hb.1]
        · rw [h3, hb.2.2]

theorem runEpoch_recordStep (env : Env Θ Ω N P) (ph : Physics Θ I P S R) (cw : ℤ) (reg : Option R)
    (dt : ℝ) (loader : Option (List (Minibatch I P))) (s : RunState Θ Ω N) :
    RecordStep s (runEpoch env ph cw reg dt loader s).1 := by
  have := runEpoch_record env ph cw reg dt loader s
  rcases h : runEpoch env ph cw reg dt loader s with ⟨s', r⟩
  rw [h] at this
  cases r with
  | error e => exact Or.inl this
  | ok l => obtain ⟨h1, h2, line, h3⟩ := this; exact Or.inr ⟨l, line, h1, h2, h3⟩

theorem threaded_recordStep (env : Env Θ Ω N P) (ph : Physics Θ I P S R) (cw : ℤ) (reg : Option R)
    (dt : ℝ) (bs : List (Minibatch I P)) (sch : List Sched) (s : RunState Θ Ω N) :
    (SameBooks s ((startEpoch env ph cw reg dt bs s).exec sch).shared ∨
     ((startEpoch env ph cw reg dt bs s).exec sch).shared =
        (runEpoch env ph cw reg dt (some bs) s).1) := by
  obtain ⟨dn, ⟨rest, hT, -, -⟩, hsh⟩ := ((TInv.startEpoch env ph cw reg dt bs s).exec sch).pre
  rw [hsh]
  by_cases hr : rest = []
  · right
    subst hr
    rw [List.append_nil] at hT
    rw [← hT, applyActs_epoch]
  · left
    exact applyActs_prefix_books env ph cw reg dt bs s dn rest hT hr

theorem Event.apply_record (s : RunState Θ Ω N) (e : Event Θ I P S R Ω N) :
    RecordStep s (e.apply s) ∨
      (∃ line, e.apply s = { s with trainingHistory := s.trainingHistory ++ line }) := by
  cases e with
  | newOptimizer o => exact Or.inl (Or.inl ⟨rfl, rfl, rfl⟩)
  | plan msg => exact Or.inr ⟨msg, rfl⟩
  | epoch a l => exact Or.inl (runEpoch_recordStep ..)
  | threadedEpoch a bs sch =>
    left
    rcases threaded_recordStep a.env a.ph a.cw a.reg a.dt bs sch s with h | h
    · exact Or.inl h
    · simp only [Event.apply, h]
      exact runEpoch_recordStep ..

end Cdtools
