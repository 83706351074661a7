/-
**C64**: the learning-rate scheduler sees every completed epoch once, with the loss that is recorded.
-/
import Verif.Props.Reconstructor

namespace Cdtools
set_option linter.unusedSectionVars false

section
variable {Θ I P S R : Type} [NormedAddCommGroup Θ] [NormedSpace ℝ Θ] {Ω N : Type}

/-- The same program with another scheduler. -/
def Env.withScheduler (env : Env Θ Ω N P) (f : Option (Ω → ℝ → Ω)) : Env Θ Ω N P :=
  ⟨env.step, f, env.accumulate, env.normalize, env.hasNormalizer, env.fmt⟩

theorem runBatches_scheduler (env : Env Θ Ω N P) (f : Option (Ω → ℝ → Ω)) (ph : Physics Θ I P S R) (cw : ℤ)
    (reg : Option R) : ∀ (bs : List (Minibatch I P)) (s : RunState Θ Ω N) (acc : Option ℝ),
      runBatches (env.withScheduler f) ph cw reg bs s acc = runBatches env ph cw reg bs s acc
  | [], _, _ => rfl
  | b :: bs, s, acc => by
      have ih := runBatches_scheduler env f ph cw reg bs
      unfold runBatches
      simp only [ih]
      rfl

/-- **C64**: an epoch with a scheduler is the epoch without it, except that if (and only if) the epoch
completes, the scheduler is then stepped once, with the value that the epoch appends to `loss_history` and
returns. A failed epoch does not step the scheduler. -/
theorem scheduler_steps_on_recorded_loss (env : Env Θ Ω N P) (f : Ω → ℝ → Ω) (ph : Physics Θ I P S R) (cw : ℤ)
    (reg : Option R) (dt : ℝ) (loader : Option (List (Minibatch I P))) (s : RunState Θ Ω N) :
    let plain := runEpoch (env.withScheduler none) ph cw reg dt loader s
    let sched := runEpoch (env.withScheduler (some f)) ph cw reg dt loader s
    sched.2 = plain.2 ∧
    (∀ e, plain.2 = .error e → sched.1 = plain.1) ∧
    (∀ l, plain.2 = .ok l → sched.1 = { plain.1 with opt := f plain.1.opt l } ∧
      sched.1.lossHistory = s.lossHistory ++ [l]) := by
  intro plain sched
  have hrec := epoch_records_exactly_one (env.withScheduler (some f)) ph cw reg dt loader s
  have key : sched.2 = plain.2 ∧ (∀ e, plain.2 = .error e → sched.1 = plain.1) ∧
      (∀ l, plain.2 = .ok l → sched.1 = { plain.1 with opt := f plain.1.opt l }) := by
    simp only [plain, sched]
    cases loader with
    | none => exact ⟨rfl, fun _ _ => rfl, fun l h => by cases h⟩
    | some bs =>
      unfold runEpoch
      simp only [runBatches_scheduler]
      rcases runBatches env ph cw reg bs s none with ⟨s', (e | (_ | l))⟩
      · exact ⟨rfl, fun _ _ => rfl, fun l h => by cases h⟩
      · exact ⟨rfl, fun _ _ => rfl, fun l h => by cases h⟩
      · simp only
        refine ⟨rfl, fun e h => by simp at h, fun l' h => ?_⟩
        simp only [Except.ok.injEq] at h
        subst h
        rfl
  refine ⟨key.1, key.2.1, fun l hl => ⟨key.2.2 l hl, ?_⟩⟩
  have h2 : (runEpoch (env.withScheduler (some f)) ph cw reg dt loader s).2 = .ok l := key.1.trans hl
  exact (hrec.1 _ l (Prod.ext rfl h2)).1

/-- Non-vacuity: a completed epoch with a scheduler that stores the loss it sees. -/
example : ∃ l, (runEpoch ((toyEnv).withScheduler none) toyPhysics 2 none 0 (some [toyBatch])
    (freshModel 0 () ())).2 = .ok l := by
  unfold runEpoch runBatches runBatches
  simp only [toyEnv, Env.withScheduler, Bool.false_eq_true, if_false, OptProg.run]
  rw [closure_eq toy_additive toy_faultFree 2 (by norm_num) _ toyBatch toyBatch_wf _ (toy_diff _ _)]
  exact ⟨_, rfl⟩

end
end Cdtools
