/- Property theorems C01–C06: minibatch steps, epoch bookkeeping, generators and threads. -/
import Verif.Lemmas.History
import Mathlib.Analysis.Calculus.FDeriv.Pow
import Mathlib.Analysis.Calculus.FDeriv.Mul

namespace Cdtools
set_option linter.unusedSectionVars false

section
variable {Θ I P S R : Type} [NormedAddCommGroup Θ] [NormedSpace ℝ Θ] {Ω N : Type}

/-! ### A concrete model used for the non-vacuity examples -/

/-- A one-parameter linear forward model with a least-squares loss and a ridge regularizer. -/
noncomputable def toyPhysics : Physics ℝ ℝ ℝ ℝ ℝ where
  fault := fun _ _ _ => none
  forward := fun θ xs => xs.map (θ * ·)
  loss := fun p s => (List.zipWith (fun a b => (a - b) ^ 2) p s).sum
  regularizer := some fun r θ => r * θ

theorem toy_additive : toyPhysics.DataAdditive where
  forward_append := by intro θ a b; simp [toyPhysics]
  forward_length := by intro θ a; simp [toyPhysics]
  loss_append := by
    intro p p' s s' h _
    simp [toyPhysics, List.zipWith_append h]

theorem toy_faultFree : toyPhysics.FaultFree := fun _ _ _ => rfl

theorem toy_diff (b : Minibatch ℝ ℝ) (θ : ℝ) : toyPhysics.DiffAt b θ := by
  intro e _
  have : toyPhysics.oneLoss e.1 e.2 = fun θ => (e.2 - θ * e.1) ^ 2 := by
    funext θ
    simp [Physics.oneLoss, toyPhysics]
  rw [this]
  fun_prop

/-- Five exposures; with calculation width 2 the chunks have sizes 2, 2, 1. -/
def toyBatch : Minibatch ℝ ℝ := ⟨[1, 2, 3, 4, 5], [2, 4, 6, 8, 10]⟩

theorem toyBatch_wf : toyBatch.WF := by simp [Minibatch.WF, toyBatch]

/-- Gradient descent with unit step, reporting its first loss. -/
noncomputable def toyEnv : Env ℝ Unit Unit ℝ where
  step := fun o θ => .eval o θ fun r => .ret o (θ - r.2 1) r.1
  scheduler := none
  accumulate := fun n _ => n
  normalize := fun n l => (n, l)
  hasNormalizer := false
  fmt := fun _ _ _ => "epoch"

/-! ### C01 -/

/-- **C01.** One evaluation of the minibatch closure returns the loss of the whole minibatch and
leaves the gradient of the whole minibatch's loss (plus the regularizer's), for every
calculation width at least one. -/
theorem minibatch_step_independent_of_width (ph : Physics Θ I P S R) (h : ph.DataAdditive)
    (hf : ph.FaultFree) (cw : ℤ) (hcw : 1 ≤ cw) (reg : Option R) (b : Minibatch I P) (hb : b.WF)
    (θ : Θ) (hd : ph.DiffAt b θ) :
    ph.closure cw reg b θ =
      .ok (some (ph.loss b.patterns (ph.forward θ b.inputs)),
           fderiv ℝ (fun θ' => ph.loss b.patterns (ph.forward θ' b.inputs)) θ
             + ph.regGrad reg θ) :=
  closure_eq h hf cw hcw reg b hb θ hd

example : toyPhysics.DataAdditive ∧ toyPhysics.FaultFree ∧ (1 : ℤ) ≤ 2 ∧ toyBatch.WF ∧
    toyPhysics.DiffAt toyBatch 1 :=
  ⟨toy_additive, toy_faultFree, by norm_num, toyBatch_wf, toy_diff _ _⟩

/-- **C01.** The chunks partition the minibatch: concatenated they are the minibatch, in order and
with inputs and patterns still aligned; none is empty and none is larger than the width. -/
theorem chunks_partition_minibatch (cw : ℤ) (hcw : 1 ≤ cw) (b : Minibatch I P) (hb : b.WF) :
    ∃ cs, minibatchChunks cw b = .ok cs ∧
      (cs.map fun c => c.1.zip c.2).flatten = b.inputs.zip b.patterns ∧
      (cs.map (·.1)).flatten = b.inputs ∧ (cs.map (·.2)).flatten = b.patterns ∧
      ∀ c ∈ cs, 1 ≤ c.1.length ∧ (c.1.length : ℤ) ≤ cw ∧ c.1.length = c.2.length := by
  have hw : 1 ≤ cw.toNat := by omega
  refine ⟨_, minibatchChunks_pos hcw b, ?_, ?_, ?_, ?_⟩
  · have : ((pyChunks b.inputs.length cw.toNat b.inputs).zip
        (pyChunks b.inputs.length cw.toNat b.patterns)).map (fun c => c.1.zip c.2)
        = pyChunks b.inputs.length cw.toNat (b.inputs.zip b.patterns) := by
      unfold pyChunks
      rw [List.zip_map', List.map_map]
      apply List.map_congr_left
      intro i _
      simp only [Function.comp_apply, pySlice]
      rw [List.zip_eq_zipWith, ← List.drop_zipWith, ← List.take_zipWith, ← List.zip_eq_zipWith]
    rw [this, pyChunks_flatten _ _ hw _ (by simp)]
  · rw [(zip_pyChunks_maps _ _).1, pyChunks_flatten _ _ hw _ le_rfl]
  · rw [(zip_pyChunks_maps _ _).2, pyChunks_flatten _ _ hw _ (by rw [hb.2])]
  · intro c hc
    obtain ⟨i, hi, rfl⟩ := zip_pyChunks_mem _ _ hc
    have hi' := (mem_pyRange0 hw hi).1
    simp only [pySlice, List.length_drop, List.length_take, ← hb.2]
    refine ⟨by omega, by omega, trivial⟩

example : toyBatch.WF ∧ (minibatchChunks 2 toyBatch).toOption =
    some [([1, 2], [2, 4]), ([3, 4], [6, 8]), ([5], [10])] :=
  ⟨toyBatch_wf, by
    simp [minibatchChunks, toyBatch, pyChunks, pyRange0, pySlice, List.range_succ, Except.toOption]⟩

/-- **C01.** Whole epochs: for any optimizer, normalizer and scheduler, two runs of an epoch that
differ only in the calculation width end in the same state with the same result. -/
theorem epoch_independent_of_width (env : Env Θ Ω N P) (ph : Physics Θ I P S R)
    (h : ph.DataAdditive) (hf : ph.FaultFree) (cw cw' : ℤ) (hcw : 1 ≤ cw) (hcw' : 1 ≤ cw')
    (reg : Option R) (dt : ℝ) (bs : List (Minibatch I P)) (s : RunState Θ Ω N)
    (hbs : ∀ b ∈ bs, b.WF) (hd : ∀ b ∈ bs, ∀ θ, ph.DiffAt b θ) :
    runEpoch env ph cw reg dt (some bs) s = runEpoch env ph cw' reg dt (some bs) s := by
  have key : ∀ (bs : List (Minibatch I P)) (s : RunState Θ Ω N) (acc : Option ℝ),
      (∀ b ∈ bs, b.WF) → (∀ b ∈ bs, ∀ θ, ph.DiffAt b θ) →
      runBatches env ph cw reg bs s acc = runBatches env ph cw' reg bs s acc := by
    intro bs
    induction bs with
    | nil => intro s acc _ _; rfl
    | cons b bs ih =>
      intro s acc hw hd
      have hcl : ph.closure cw reg b = ph.closure cw' reg b := by
        funext θ
        rw [closure_eq h hf cw hcw reg b (hw b (by simp)) θ (hd b (by simp) θ),
          closure_eq h hf cw' hcw' reg b (hw b (by simp)) θ (hd b (by simp) θ)]
      unfold runBatches
      rw [hcl]
      have ih' := fun s acc => ih s acc (fun x hx => hw x (by simp [hx]))
        (fun x hx => hd x (by simp [hx]))
      simp only [ih']
  unfold runEpoch
  simp only [key bs s none hbs hd]

example : ∃ (bs : List (Minibatch ℝ ℝ)), bs.length = 2 ∧ (∀ b ∈ bs, b.WF) ∧
    ∀ b ∈ bs, ∀ θ, toyPhysics.DiffAt b θ :=
  ⟨[toyBatch, toyBatch], rfl, by simp [toyBatch_wf], fun b _ θ => toy_diff b θ⟩

/-- **C01**, error branch: a calculation width of zero or less never completes an epoch
silently with part of the data: a non-empty epoch raises. -/
theorem nonpositive_width_raises (env : Env Θ Ω N P) (ph : Physics Θ I P S R) (cw : ℤ)
    (hcw : cw ≤ 0) (reg : Option R) (dt : ℝ) (b : Minibatch I P) (bs : List (Minibatch I P))
    (s : RunState Θ Ω N) (hopt : ∀ o θ, (env.step o θ).ReportsFirst θ) :
    ∃ e s', runEpoch env ph cw reg dt (some (b :: bs)) s = (s', .error e) := by
  have hcl : ph.closure cw reg b = fun θ => if cw = 0 then .error .valueError else
      .ok (none, 0 + ph.regGrad reg θ) := by
    funext θ
    unfold Physics.closure minibatchChunks
    by_cases h0 : cw = 0
    · simp [h0]
    · rw [if_neg h0, if_neg h0, if_pos (by omega)]
      simp [Physics.accumChunks]
  have hret : ∀ (l : Option ℝ) (p : OptProg Θ Ω (Θ →L[ℝ] ℝ)), p.Returns l →
      (p.run (ph.closure cw reg b)).2 = .ok l ∨
        ∃ e, (p.run (ph.closure cw reg b)).2 = .error e := by
    intro l p
    induction p with
    | ret o θ l' => intro h; left; simp [OptProg.run, (show l' = l from h)]
    | eval o θ k ih =>
      intro h
      unfold OptProg.run
      cases hc : ph.closure cw reg b θ with
      | error e => right; exact ⟨e, rfl⟩
      | ok r => exact ih r (h r)
  unfold runEpoch runBatches
  simp only [← accStep.eq_def]
  set s1 := accStep env b s
  have hp := hopt s1.opt s1.params
  have hfin : (∃ e, ((env.step s1.opt s1.params).run (ph.closure cw reg b)).2 = .error e) ∨
      ((env.step s1.opt s1.params).run (ph.closure cw reg b)).2 = .ok none := by
    cases hstep : env.step s1.opt s1.params with
    | ret o θ l => rw [hstep] at hp; exact hp.elim
    | eval o θ k =>
      rw [hstep] at hp
      unfold OptProg.run
      have hcθ := congrFun hcl θ
      by_cases h0 : cw = 0
      · rw [if_pos h0] at hcθ; rw [hcθ]; left; exact ⟨_, rfl⟩
      · rw [if_neg h0] at hcθ; rw [hcθ]
        rcases hret none (k (none, 0 + ph.regGrad reg θ))
            (hp.2 (none, 0 + ph.regGrad reg θ)) with h | h
        · right; exact h
        · left; exact h
  rcases hrun : (env.step s1.opt s1.params).run (ph.closure cw reg b) with ⟨⟨o, θ⟩, r⟩
  rw [hrun] at hfin
  rcases hfin with ⟨e, he⟩ | he <;> simp only at he <;> subst he
  · exact ⟨_, _, rfl⟩
  · exact ⟨_, _, rfl⟩

example : ∀ o θ, (toyEnv.step o θ).ReportsFirst θ :=
  fun _ _ => ⟨rfl, fun _ => rfl⟩

/-! ### C02 -/

/-- **C02.** Setting a regularization factor changes one evaluation of the closure only by adding
the regularizer's gradient once: loss and data gradient are the same, whatever the number
of chunks. -/
theorem regularizer_added_once (ph : Physics Θ I P S R) (f : R → Θ → ℝ)
    (hreg : ph.regularizer = some f) (cw : ℤ) (r : R) (b : Minibatch I P) (θ : Θ)
    (l : Option ℝ) (g : Θ →L[ℝ] ℝ) (h0 : ph.closure cw none b θ = .ok (l, g)) :
    ph.closure cw (some r) b θ = .ok (l, g + fderiv ℝ (f r) θ) := by
  unfold Physics.closure at *
  cases hc : minibatchChunks cw b with
  | error e => rw [hc] at h0; simp at h0
  | ok cs =>
    rw [hc] at h0
    simp only at h0 ⊢
    cases ha : ph.accumChunks θ cs (none, 0) with
    | error e => rw [ha] at h0; simp at h0
    | ok acc =>
      rw [ha] at h0
      simp only [Physics.regGrad, add_zero, Except.ok.injEq, Prod.mk.injEq] at h0
      simp only [Physics.regGrad, hreg, h0.1, h0.2]

example : ∃ l g, toyPhysics.closure 2 none toyBatch 1 = .ok (l, g) :=
  ⟨_, _, closure_eq toy_additive toy_faultFree 2 (by norm_num) none toyBatch toyBatch_wf 1
    (toy_diff _ _)⟩

/-- **C02.** The loss an epoch records is the sum over its minibatches of the data loss at the
parameters current when the minibatch was reached (the first being the starting parameters):
no regularizer term enters, for any optimizer that reports its first closure value. -/
theorem recorded_loss_is_data_loss (env : Env Θ Ω N P) (ph : Physics Θ I P S R)
    (h : ph.DataAdditive) (hf : ph.FaultFree) (cw : ℤ) (hcw : 1 ≤ cw) (reg : Option R) (dt : ℝ)
    (bs : List (Minibatch I P)) (s s' : RunState Θ Ω N) (l : ℝ)
    (hbs : ∀ b ∈ bs, b.WF) (hd : ∀ b ∈ bs, ∀ θ, ph.DiffAt b θ)
    (hopt : ∀ o θ, (env.step o θ).ReportsFirst θ) (hnorm : env.hasNormalizer = false)
    (hrun : runEpoch env ph cw reg dt (some bs) s = (s', .ok l)) :
    ∃ θs : List Θ, θs.length = bs.length ∧ θs.head? = some s.params ∧
      l = (List.zipWith (fun θ b => ph.loss b.patterns (ph.forward θ b.inputs)) θs bs).sum := by
  have hret : ∀ (b : Minibatch I P) (l : Option ℝ) (p : OptProg Θ Ω (Θ →L[ℝ] ℝ)), b.WF →
      (∀ θ, ph.DiffAt b θ) → p.Returns l → (p.run (ph.closure cw reg b)).2 = .ok l := by
    intro b l p hw hd
    induction p with
    | ret o θ l' => intro h; simp [OptProg.run, (show l' = l from h)]
    | eval o θ k ih =>
      intro hr
      unfold OptProg.run
      rw [closure_eq h hf cw hcw reg b hw θ (hd θ)]
      exact ih _ (hr _)
  have key : ∀ (bs : List (Minibatch I P)) (s : RunState Θ Ω N) (acc : Option ℝ),
      (∀ b ∈ bs, b.WF) → (∀ b ∈ bs, ∀ θ, ph.DiffAt b θ) →
      ∃ s' θs, θs.length = bs.length ∧ (bs ≠ [] → θs.head? = some s.params) ∧
        runBatches env ph cw reg bs s acc = (s', .ok (if bs = [] then acc else
          some (acc.getD 0 +
            (List.zipWith (fun θ b => ph.loss b.patterns (ph.forward θ b.inputs)) θs bs).sum))) := by
    intro bs
    induction bs with
    | nil => intro s acc _ _; exact ⟨s, [], rfl, by simp, rfl⟩
    | cons b bs ih =>
      intro s acc hw hd
      unfold runBatches
      simp only [hnorm, Bool.false_eq_true, if_false]
      have hp := hopt s.opt s.params
      have hres : ((env.step s.opt s.params).run (ph.closure cw reg b)).2 =
          .ok (some (ph.fullLoss b s.params)) := by
        cases hstep : env.step s.opt s.params with
        | ret o θ l => rw [hstep] at hp; exact hp.elim
        | eval o θ k =>
          rw [hstep] at hp
          obtain ⟨rfl, hk⟩ := hp
          unfold OptProg.run
          rw [closure_eq h hf cw hcw reg b (hw b (by simp)) _ (hd b (by simp) _)]
          exact hret b _ _ (hw b (by simp)) (hd b (by simp)) (hk (some _, _))
      rcases hr : (env.step s.opt s.params).run (ph.closure cw reg b) with ⟨⟨o, θ⟩, r⟩
      rw [hr] at hres
      simp only at hres
      subst hres
      obtain ⟨s', θs, h1, -, h3⟩ := ih { s with opt := o, params := θ }
        (addLoss acc (ph.fullLoss b s.params)) (fun x hx => hw x (by simp [hx]))
        (fun x hx => hd x (by simp [hx]))
      refine ⟨s', s.params :: θs, by simp [h1], by simp, ?_⟩
      show runBatches env ph cw reg bs _ _ = _
      rw [h3]
      simp only [List.zipWith_cons_cons, List.sum_cons, reduceCtorEq, if_false]
      by_cases hbs : bs = []
      · subst hbs
        have : θs = [] := by simpa using h1
        subst this
        simp [addLoss, Physics.fullLoss]
      · simp only [hbs, if_false, addLoss, Option.getD_some]
        rw [add_assoc]; rfl
  unfold runEpoch at hrun
  obtain ⟨s1, θs, h1, h2, h3⟩ := key bs s none hbs hd
  simp only [h3] at hrun
  by_cases hne : bs = []
  · simp [hne] at hrun
  · simp only [hne, if_false, Option.getD_none, zero_add] at hrun
    refine ⟨θs, h1, h2 hne, ?_⟩
    simp only [finishEpoch, hnorm, Bool.false_eq_true, if_false, Prod.mk.injEq,
      Except.ok.injEq] at hrun
    exact hrun.2.symm

example : ∃ s' l, runEpoch toyEnv toyPhysics 2 (some 3) 0 (some [toyBatch])
    (freshModel 0 () ()) = (s', .ok l) := by
  unfold runEpoch runBatches runBatches
  simp only [toyEnv, Bool.false_eq_true, if_false, OptProg.run]
  rw [closure_eq toy_additive toy_faultFree 2 (by norm_num) _ toyBatch toyBatch_wf _ (toy_diff _ _)]
  exact ⟨_, _, rfl⟩

/-! ### C03 -/

/-- **C03.** After any history of events (epochs of any optimizer that complete, fail or are
interrupted under any thread schedule, new optimizers, announcements) a model's epoch counter
equals the length of its loss history. -/
theorem epoch_counts_loss_history (θ : Θ) (o : Ω) (n : N) (hist : List (Event Θ I P S R Ω N)) :
    (runEvents (freshModel θ o n) hist).epoch =
      (runEvents (freshModel θ o n) hist).lossHistory.length := by
  have key : ∀ (hist : List (Event Θ I P S R Ω N)) (s : RunState Θ Ω N),
      s.epoch = s.lossHistory.length → (runEvents s hist).epoch =
        (runEvents s hist).lossHistory.length := by
    intro hist
    induction hist with
    | nil => intro s h; exact h
    | cons e hist ih =>
      intro s h
      refine ih (e.apply s) ?_
      rcases e.apply_record s with (⟨h1, h2, h3⟩ | ⟨l, line, h1, h2, h3⟩) | ⟨line, h1⟩
      · rw [h1, h2, h]
      · exact h2
      · rw [h1]; exact h
  exact key hist _ rfl

/-- **C03.** Whatever happens next, the records made so far stay: loss history and training
history are only ever appended to. -/
theorem records_only_grow (s : RunState Θ Ω N) (hist : List (Event Θ I P S R Ω N)) :
    s.lossHistory <+: (runEvents s hist).lossHistory ∧
    ∃ line, (runEvents s hist).trainingHistory = s.trainingHistory ++ line := by
  induction hist generalizing s with
  | nil => exact ⟨List.prefix_refl _, "", by simp [runEvents]⟩
  | cons e hist ih =>
    obtain ⟨i1, line, i2⟩ := ih (e.apply s)
    have hs : runEvents s (e :: hist) = runEvents (e.apply s) hist := rfl
    rw [hs]
    rcases e.apply_record s with (⟨h1, h2, h3⟩ | ⟨l, line', h1, h2, h3⟩) | ⟨line', h1⟩
    · exact ⟨h1 ▸ i1, line, by rw [i2, h3]⟩
    · refine ⟨List.IsPrefix.trans ?_ i1, line' ++ line, by rw [i2, h3, String.append_assoc]⟩
      rw [h1]; exact List.prefix_append _ _
    · have hl : (e.apply s).lossHistory = s.lossHistory := by rw [h1]
      have ht : (e.apply s).trainingHistory = s.trainingHistory ++ line' := by rw [h1]
      exact ⟨hl ▸ i1, line' ++ line, by rw [i2, ht, String.append_assoc]⟩

/-- **C03.** One epoch records exactly one loss, the one it returns, if it completes; and
nothing at all if it raises. -/
theorem epoch_records_exactly_one (env : Env Θ Ω N P) (ph : Physics Θ I P S R) (cw : ℤ)
    (reg : Option R) (dt : ℝ) (loader : Option (List (Minibatch I P))) (s : RunState Θ Ω N) :
    (∀ s' l, runEpoch env ph cw reg dt loader s = (s', .ok l) →
      s'.lossHistory = s.lossHistory ++ [l] ∧ s'.epoch = s.lossHistory.length + 1) ∧
    (∀ s' e, runEpoch env ph cw reg dt loader s = (s', .error e) →
      s'.lossHistory = s.lossHistory ∧ s'.epoch = s.epoch ∧
        s'.trainingHistory = s.trainingHistory) := by
  have h := runEpoch_record env ph cw reg dt loader s
  constructor
  · intro s' l he
    rw [he] at h
    obtain ⟨h1, h2, -⟩ := h
    exact ⟨h1, by rw [h2, h1]; simp⟩
  · intro s' e he
    rw [he] at h
    exact h

/-- **C03.** A completed epoch adds one line to the training history: its report, with the number
of the epoch (counted over the life of the model), its duration and the loss it returned. -/
theorem epoch_writes_line (env : Env Θ Ω N P) (ph : Physics Θ I P S R) (cw : ℤ)
    (reg : Option R) (dt : ℝ) (loader : Option (List (Minibatch I P))) (s s' : RunState Θ Ω N) (l : ℝ)
    (h : runEpoch env ph cw reg dt loader s = (s', .ok l)) :
    s'.trainingHistory = s.trainingHistory ++ (env.fmt (s.lossHistory.length + 1) dt l ++ "\n") := by
  unfold runEpoch at h
  cases loader with
  | none => simp at h
  | some bs =>
    have hb := (batches_props env ph cw reg bs s none).2.2.1
    rcases hr : runBatches env ph cw reg bs s none with ⟨s1, r⟩
    rw [hr] at hb
    simp only [hr] at h
    cases r with
    | error e => simp at h
    | ok ol =>
      cases ol with
      | none => simp at h
      | some l' =>
        simp only [Prod.mk.injEq, Except.ok.injEq] at h
        obtain ⟨rfl, rfl⟩ := h
        unfold finishEpoch
        have e1 : s1.lossHistory = s.lossHistory := hb.1
        have e2 : s1.trainingHistory = s.trainingHistory := hb.2.2
        simp only [e1, e2, List.length_append, List.length_cons, List.length_nil, zero_add]

/-- non-vacuity for C03: a history with a completed epoch, a failed one (no data loader) and one
interrupted before its first chunk. -/
example : ∃ hist : List (Event ℝ ℝ ℝ ℝ ℝ Unit Unit), hist.length = 3 ∧
    (runEvents (freshModel 0 () ()) hist).lossHistory.length = 1 := by
  let a : EpochArgs ℝ ℝ ℝ ℝ ℝ Unit Unit := ⟨toyEnv, toyPhysics, 2, none, 0⟩
  refine ⟨[.epoch a (some [toyBatch]), .epoch a none,
    .threadedEpoch a [toyBatch] [.interrupt, .worker]], rfl, ?_⟩
  have h1 : (runEpoch toyEnv toyPhysics 2 none 0 (some [toyBatch])
      (freshModel 0 () ())).1.lossHistory.length = 1 := by
    unfold runEpoch runBatches runBatches
    simp only [toyEnv, Bool.false_eq_true, if_false, OptProg.run]
    rw [closure_eq toy_additive toy_faultFree 2 (by norm_num) _ toyBatch toyBatch_wf _ (toy_diff _ _)]
    rfl
  have h2 : ∀ s : RunState ℝ Unit Unit,
      ((startEpoch toyEnv toyPhysics 2 none 0 [toyBatch] s).exec [.interrupt, .worker]).shared
        = s := by
    intro s
    simp only [startEpoch, epochActs, batchesActs, TState.exec, List.foldl, TState.step,
      List.cons_append, if_true, toyEnv, Bool.false_eq_true, if_false]
  simp only [runEvents, List.foldl, Event.apply, a, h2]
  exact h1

/-! ### C04 -/

/-- **C04.** A generator asked for `k` values appends to the loss history exactly the values it
yields; it yields `min k iterations` of them unless an epoch raised. -/
theorem generator_yields_recorded_losses (env : Env Θ Ω N P) (ph : Physics Θ I P S R) (cw : ℤ)
    (reg : Option R) (k : ℕ) (epochs : List (ℝ × List (Minibatch I P))) (s s' : RunState Θ Ω N)
    (ys : List ℝ) (e : Option PyExc)
    (h : optimizeSeq env ph cw reg k epochs s = (s', ys, e)) :
    s'.lossHistory = s.lossHistory ++ ys ∧ ys.length ≤ min k epochs.length ∧
      (e = none → ys.length = min k epochs.length) := by
  induction k generalizing epochs s ys with
  | zero =>
    simp only [optimizeSeq, Prod.mk.injEq] at h
    obtain ⟨rfl, rfl, rfl⟩ := h
    simp
  | succ k ih =>
    cases epochs with
    | nil =>
      simp only [optimizeSeq, Prod.mk.injEq] at h
      obtain ⟨rfl, rfl, rfl⟩ := h
      simp
    | cons ep rest =>
      obtain ⟨dt, bs⟩ := ep
      have hrec := runEpoch_record env ph cw reg dt (some bs) s
      unfold optimizeSeq at h
      rcases hr : runEpoch env ph cw reg dt (some bs) s with ⟨s1, r⟩
      rw [hr] at h hrec
      cases r with
      | error ex =>
        simp only [Prod.mk.injEq] at h
        obtain ⟨rfl, rfl, rfl⟩ := h
        refine ⟨by simpa using hrec.1, by simp, by simp⟩
      | ok l =>
        rcases hopt : optimizeSeq env ph cw reg k rest s1 with ⟨s2, ys2, e2⟩
        simp only [hopt, Prod.mk.injEq] at h
        obtain ⟨rfl, rfl, rfl⟩ := h
        obtain ⟨h1, h2, h3⟩ := ih rest s1 ys2 hopt
        refine ⟨?_, ?_, ?_⟩
        · rw [h1, hrec.1]; simp
        · simp only [List.length_cons] at h2 ⊢; omega
        · intro hn; have := h3 hn; simp only [List.length_cons] at this ⊢; omega

example : ∃ ys, (optimizeSeq toyEnv toyPhysics 2 none 5 [(0, [toyBatch])] (freshModel 0 () ())).2
    = (ys, none) ∧ ys.length = 1 := by
  unfold optimizeSeq runEpoch runBatches runBatches
  simp only [toyEnv, Bool.false_eq_true, if_false, OptProg.run]
  rw [closure_eq toy_additive toy_faultFree 2 (by norm_num) _ toyBatch toyBatch_wf _ (toy_diff _ _)]
  exact ⟨_, rfl, rfl⟩

/-! ### C05 -/

/-- **C05** (one epoch, any schedule). If the caller is not interrupted and the iteration ends,
the model state and the yielded value or raised exception are those of the same epoch run in
the calling thread. -/
theorem threaded_epoch_agrees (env : Env Θ Ω N P) (ph : Physics Θ I P S R) (cw : ℤ)
    (reg : Option R) (dt : ℝ) (bs : List (Minibatch I P)) (s : RunState Θ Ω N)
    (sch : List Sched) (hni : Sched.interrupt ∉ sch)
    (hfin : ((startEpoch env ph cw reg dt bs s).exec sch).pc.finished = true) :
    ((startEpoch env ph cw reg dt bs s).exec sch).shared =
        (runEpoch env ph cw reg dt (some bs) s).1 ∧
    ((startEpoch env ph cw reg dt bs s).exec sch).pc =
        (match (runEpoch env ph cw reg dt (some bs) s).2 with
          | .ok l => .yielded l
          | .error e => .raised e) := by
  have inv := (TInv.startEpoch env ph cw reg dt bs s).exec sch
  have hstop : ((startEpoch env ph cw reg dt bs s).exec sch).stop = false := by
    rw [exec_stop_false sch hni]; rfl
  set t := (startEpoch env ph cw reg dt bs s).exec sch
  have halive : t.alive = false := by
    cases ha : t.alive with
    | false => rfl
    | true => rcases (inv.qalive ha).2 with h | h <;> rw [h] at hfin <;> simp [MainPc.finished] at hfin
  obtain ⟨dn, ⟨rest, hT, -, hrest⟩, hsh⟩ := inv.pre
  have hr := hrest halive hstop
  subst hr
  rw [List.append_nil] at hT
  refine ⟨by rw [hsh, ← hT, applyActs_epoch], ?_⟩
  rcases inv.qdead halive hstop with ⟨h | h, -⟩ | ⟨l, h1, h2⟩ | ⟨e, h1, -, h2⟩
  · rw [h] at hfin; simp [MainPc.finished] at hfin
  · rw [h] at hfin; simp [MainPc.finished] at hfin
  · rw [h2, h1]
  · rw [h2, h1]

/-- **C05** (progress). Under every schedule that lets the worker take enough turns and then the
main thread two, the iteration ends, provided the epoch does not end in a `SystemExit` or
`KeyboardInterrupt` raised by the model's own code. -/
theorem threaded_epoch_ends_partial (env : Env Θ Ω N P) (ph : Physics Θ I P S R) (cw : ℤ)
    (reg : Option R) (dt : ℝ) (bs : List (Minibatch I P)) (s : RunState Θ Ω N)
    (s₁ s₂ : List Sched)
    (h1 : (epochActs env ph cw reg dt bs s).length < s₁.count .worker)
    (h2 : 2 ≤ s₂.count .main)
    (hexc : ∀ e, (runEpoch env ph cw reg dt (some bs) s).2 = .error e → e ≠ .systemExit ∧ e ≠ .keyboardInterrupt) :
    ((startEpoch env ph cw reg dt bs s).exec (s₁ ++ s₂)).pc.finished = true := by
  have inv := (TInv.startEpoch env ph cw reg dt bs s).exec (s₁ ++ s₂)
  obtain ⟨hd, h | ⟨hg, hq⟩⟩ := exec_progress (startEpoch env ph cw reg dt bs s) s₁ s₂
    (by simp only [startEpoch, TState.effort, if_true]; omega) h2
  · exact h
  · exfalso
    have hs : ((startEpoch env ph cw reg dt bs s).exec (s₁ ++ s₂)).stop = false := by
      cases hs : ((startEpoch env ph cw reg dt bs s).exec (s₁ ++ s₂)).stop with
      | false => rfl
      | true => rcases inv.stop_pc hs with h | h <;> rw [hg] at h <;> simp at h
    rcases inv.qdead hd hs with ⟨-, h⟩ | ⟨l, -, h⟩ | ⟨e, -, -, h⟩
    · rw [hq] at h
      cases hr : (runEpoch env ph cw reg dt (some bs) s).2 with
      | ok l => rw [hr] at h; simp [queueOf] at h
      | error e =>
        have he : e.isException = true := by
          have := hexc e hr
          cases e <;> simp_all [PyExc.isException]
        rw [hr] at h; simp [queueOf, he] at h
    · rw [hg] at h; simp at h
    · rw [hg] at h; simp at h

/-- **C05** (whole generator). For all schedules without interrupts, a threaded generator run that
is not left waiting yields the same losses, ends in the same state and with the same
exception as the run in the calling thread. -/
theorem threaded_generator_agrees (env : Env Θ Ω N P) (ph : Physics Θ I P S R) (cw : ℤ)
    (reg : Option R) (k : ℕ) (epochs : List ((ℝ × List (Minibatch I P)) × List Sched))
    (s : RunState Θ Ω N) (hni : ∀ x ∈ epochs, Sched.interrupt ∉ x.2)
    (hw : (optimizeThreaded env ph cw reg k epochs s).2.2 ≠ .waiting) :
    ((optimizeThreaded env ph cw reg k epochs s).1,
     (optimizeThreaded env ph cw reg k epochs s).2.1,
     (match (optimizeThreaded env ph cw reg k epochs s).2.2 with
        | .exception e => some e
        | _ => none)) =
    optimizeSeq env ph cw reg k (epochs.map (·.1)) s := by
  induction k generalizing epochs s with
  | zero => simp [optimizeThreaded, optimizeSeq]
  | succ k ih =>
    cases epochs with
    | nil => simp [optimizeThreaded, optimizeSeq]
    | cons x rest =>
      obtain ⟨⟨dt, bs⟩, sch⟩ := x
      have hagree := threaded_epoch_agrees env ph cw reg dt bs s sch (hni ((dt, bs), sch) (by simp))
      unfold optimizeThreaded at hw ⊢
      simp only [List.map_cons]
      unfold optimizeSeq
      simp only at hw ⊢
      cases hp : ((startEpoch env ph cw reg dt bs s).exec sch).pc with
      | polling => rw [hp] at hw; exact absurd rfl hw
      | joining => rw [hp] at hw; exact absurd rfl hw
      | getting => rw [hp] at hw; exact absurd rfl hw
      | raised e =>
        rw [hp] at hagree
        obtain ⟨h1, h2⟩ := hagree rfl
        rcases hr : runEpoch env ph cw reg dt (some bs) s with ⟨s1, r⟩
        rw [hr] at h1 h2
        cases r with
        | ok l => simp at h2
        | error e' =>
          simp only [MainPc.raised.injEq] at h2
          simp only [h1, h2]
      | yielded l =>
        rw [hp] at hagree hw
        obtain ⟨h1, h2⟩ := hagree rfl
        rcases hr : runEpoch env ph cw reg dt (some bs) s with ⟨s1, r⟩
        rw [hr] at h1 h2
        cases r with
        | error e' => simp at h2
        | ok l' =>
          simp only [MainPc.yielded.injEq] at h2
          subst h2
          simp only at h1 hw ⊢
          rw [h1] at hw ⊢
          have := ih rest s1 (fun x hx => hni x (by simp [hx])) hw
          rw [← this]

/-- A model whose forward code calls `exit()`. -/
noncomputable def exitingPhysics : Physics ℝ ℝ ℝ ℝ ℝ :=
  { toyPhysics with fault := fun _ _ _ => some .systemExit }

/-- **C05, violated part.** If the model's own code raises `SystemExit` (for instance by calling
`exit()`) or `KeyboardInterrupt`, the calling-thread run raises it, but the threaded run never ends under any
schedule: the queue stays empty and the main thread waits for ever (only a
KeyboardInterrupt during polling can end it). -/
theorem threaded_systemExit_never_ends_violated (env : Env Θ Ω N P) (ph : Physics Θ I P S R)
    (cw : ℤ) (reg : Option R) (dt : ℝ) (bs : List (Minibatch I P)) (s : RunState Θ Ω N)
    (e₀ : PyExc) (he₀ : e₀ = .systemExit ∨ e₀ = .keyboardInterrupt)
    (hexit : (runEpoch env ph cw reg dt (some bs) s).2 = .error e₀)
    (sch : List Sched) (hni : Sched.interrupt ∉ sch) :
    ((startEpoch env ph cw reg dt bs s).exec sch).pc.finished = false := by
  cases hf : ((startEpoch env ph cw reg dt bs s).exec sch).pc.finished with
  | false => rfl
  | true =>
    exfalso
    have inv := (TInv.startEpoch env ph cw reg dt bs s).exec sch
    have hstop : ((startEpoch env ph cw reg dt bs s).exec sch).stop = false := by
      rw [exec_stop_false sch hni]; rfl
    set t := (startEpoch env ph cw reg dt bs s).exec sch
    have halive : t.alive = false := by
      cases ha : t.alive with
      | false => rfl
      | true =>
        rcases (inv.qalive ha).2 with h | h <;> rw [h] at hf <;> simp [MainPc.finished] at hf
    rcases inv.qdead halive hstop with ⟨h | h, -⟩ | ⟨l, h1, h2⟩ | ⟨e, h1, h3, h2⟩
    · rw [h] at hf; simp [MainPc.finished] at hf
    · rw [h] at hf; simp [MainPc.finished] at hf
    · rw [hexit] at h1; simp at h1
    · rw [hexit] at h1; simp at h1; subst h1; rcases he₀ with rfl | rfl <;> simp [PyExc.isException] at h3

/-- The violation is reachable: one minibatch of the exiting model. -/
example : (runEpoch toyEnv exitingPhysics 2 none 0 (some [toyBatch]) (freshModel 0 () ())).2
    = .error .systemExit := by
  unfold runEpoch runBatches
  simp only [toyEnv, Bool.false_eq_true, if_false, OptProg.run]
  rw [show exitingPhysics.closure 2 none toyBatch (freshModel (0 : ℝ) () ()).params =
    .error .systemExit from by
      unfold Physics.closure
      rw [minibatchChunks_pos (by norm_num)]
      simp [toyBatch, pyChunks, pyRange0, List.range_succ, Physics.accumChunks, exitingPhysics]]

/-- non-vacuity for the agreement and progress theorems: the toy epoch satisfies the side
condition, and schedules with enough turns exist for every epoch. -/
example : (∀ e, (runEpoch toyEnv toyPhysics 2 none 0 (some [toyBatch])
      (freshModel 0 () ())).2 = .error e → e ≠ .systemExit ∧ e ≠ .keyboardInterrupt) ∧
    ∀ n : ℕ, ∃ s₁ s₂ : List Sched, n < s₁.count .worker ∧ 2 ≤ s₂.count .main ∧
      Sched.interrupt ∉ s₁ ++ s₂ := by
  constructor
  · unfold runEpoch runBatches runBatches
    simp only [toyEnv, Bool.false_eq_true, if_false, OptProg.run]
    rw [closure_eq toy_additive toy_faultFree 2 (by norm_num) _ toyBatch toyBatch_wf _
      (toy_diff _ _)]
    intro e h
    cases h
  · intro n
    exact ⟨List.replicate (n + 1) .worker, [.main, .main], by simp, by decide, by
      simp [List.mem_replicate]⟩

/-! ### C06 -/

/-- **C06.** Whenever the KeyboardInterrupt arrives and however the threads are scheduled, the
worker computes at most one more chunk (the one whose stop check it had already passed), the
interrupt is what the caller sees in the end, and the epoch is either not recorded at all
or had already been computed to its end. -/
theorem interrupt_stops_at_chunk (env : Env Θ Ω N P) (ph : Physics Θ I P S R) (cw : ℤ)
    (reg : Option R) (dt : ℝ) (bs : List (Minibatch I P)) (s : RunState Θ Ω N)
    (sch : List Sched) :
    let t := (startEpoch env ph cw reg dt bs s).exec sch
    t.sinceStop ≤ 1 ∧
    (t.stop = true → t.pc = .joining ∨ t.pc = .raised .keyboardInterrupt) ∧
    ((t.shared.lossHistory = s.lossHistory ∧ t.shared.epoch = s.epoch ∧
        t.shared.trainingHistory = s.trainingHistory) ∨
      t.shared = (runEpoch env ph cw reg dt (some bs) s).1) := by
  intro t
  have inv := (TInv.startEpoch env ph cw reg dt bs s).exec sch
  obtain ⟨b, -, hc, -⟩ := inv.guard
  refine ⟨le_trans (Nat.le_add_right _ _) hc, inv.stop_pc, ?_⟩
  exact threaded_recordStep env ph cw reg dt bs sch s

/-- **C06** (progress). Once interrupted, the iteration ends with the KeyboardInterrupt under
every schedule that gives the worker enough turns and then the main thread two. -/
theorem interrupt_is_reraised (env : Env Θ Ω N P) (ph : Physics Θ I P S R) (cw : ℤ)
    (reg : Option R) (dt : ℝ) (bs : List (Minibatch I P)) (s : RunState Θ Ω N)
    (s₁ s₂ : List Sched)
    (h1 : (epochActs env ph cw reg dt bs s).length < s₁.count .worker)
    (h2 : 2 ≤ s₂.count .main)
    (hs : ((startEpoch env ph cw reg dt bs s).exec (s₁ ++ s₂)).stop = true) :
    ((startEpoch env ph cw reg dt bs s).exec (s₁ ++ s₂)).pc = .raised .keyboardInterrupt := by
  have inv := (TInv.startEpoch env ph cw reg dt bs s).exec (s₁ ++ s₂)
  obtain ⟨hd, h | ⟨hg, hq⟩⟩ := exec_progress (startEpoch env ph cw reg dt bs s) s₁ s₂
    (by simp only [startEpoch, TState.effort, if_true]; omega) h2
  · rcases inv.stop_pc hs with hj | hj
    · rw [hj] at h; simp [MainPc.finished] at h
    · exact hj
  · rcases inv.stop_pc hs with hj | hj <;> rw [hg] at hj <;> simp at hj

/-- non-vacuity for C06: interrupting right after the start sets the stop event. -/
example : ((startEpoch toyEnv toyPhysics 2 none 0 [toyBatch] (freshModel 0 () ())).exec
    [.worker, .interrupt, .worker]).stop = true := by
  simp only [TState.exec, List.foldl, TState.step, startEpoch, epochActs, batchesActs,
    List.cons_append, if_true, toyEnv, OptProg.acts, Bool.false_eq_true, if_false]

end
end Cdtools
