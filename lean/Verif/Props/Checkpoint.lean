/- Property theorems C10–C12: checkpoints and saving on exit. -/
import Verif.Lemmas.Checkpoint
import Mathlib.Tactic.NormNum

namespace Cdtools
variable {Θ V : Type}
set_option linter.unusedSectionVars false

theorem emptyDisk_ok (v0 : V) (cs : List (Cmd Θ V)) (c0 : Core Θ) :
    DiskOK v0 cs c0 (fun _ => none) := by
  intro i f h; cases h

/-! ### C10 -/

/-- **C10, files (partial: scripts whose epochs keep no hidden state).** Whatever jobs were
launched on an empty disk, in whatever order, and whenever each was killed: every checkpoint file
`i` on disk holds exactly the model state of the uninterrupted run at the `i`-th checkpoint. -/
theorem checkpoint_files_agree_partial (cs : List (Cmd Θ V)) (hm : Memoryless cs) (c0 : Core Θ)
    (ls : List (Launch V)) (i : ℕ) (f : CkFile Θ V)
    (hf : diskAfter cs c0 (fun _ => none) ls i = some f) (v : V) :
    ∃ pre post, cs = pre ++ .checkpoint :: post ∧ numCk pre = i ∧
      f.core = uninterrupted pre c0 v := by
  obtain ⟨pre, post, h1, h2, h3⟩ :=
    diskAfter_ok v cs hm c0 ls _ (emptyDisk_ok v cs c0) i f hf
  refine ⟨pre, post, h1, h2, ?_⟩
  rw [h3, uninterrupted_eq v v pre]
  intro t f h; exact hm t f (by rw [h1]; exact List.mem_append_left _ h)

/-- **C10, resuming (partial: threaded epochs without hidden state).** After any history of
launches and kills, a job `k` that finds the previous job's file: if it is the last one it runs to
the end and leaves exactly the model of the uninterrupted run; otherwise it stops with SystemExit
and leaves file `k`. -/
theorem resumed_job_agrees_partial (cs : List (Cmd Θ V)) (hm : Memoryless cs)
    (ht : AllThreaded cs) (c0 : Core Θ) (ls : List (Launch V)) (k : ℕ) (hk : k ≤ numCk cs)
    (v v' : V) (hfile : 1 ≤ k → (diskAfter cs c0 (fun _ => none) ls (k - 1)).isSome) :
    let r := launch cs c0 (diskAfter cs c0 (fun _ => none) ls) ⟨k, v, cs.length⟩
    (k = numCk cs → r.2.2 = none ∧ r.2.1.core = uninterrupted cs c0 v') ∧
    (k < numCk cs → r.2.2 = some .systemExit ∧ (r.1 k).isSome) := by
  intro r
  have h := run_complete v' cs hm ht c0 k cs [] rfl _ _ (good_start v' c0 v k)
    (diskAfter_ok v' cs hm c0 ls _ (emptyDisk_ok v' cs c0)) hfile hk
  have hr : r = runScript (startJob c0 v (some k)) (diskAfter cs c0 (fun _ => none) ls) cs := by
    simp [r, launch]
  rw [← hr] at h
  obtain ⟨_, h⟩ := h
  constructor
  · intro hkk
    rw [if_pos hkk] at h
    exact ⟨h.1, by rw [h.2, uninterrupted_eq v' v' cs hm]⟩
  · intro hkk
    rw [if_neg (by omega)] at h
    exact h

/-- **C10, skipped part.** While a job is skipping to its checkpoint, threaded epochs compute nothing and
change nothing but the epoch counter, which counts them; the training history shows the announced plans. -/
theorem skipped_epochs_counted (cs : List (Cmd Θ V)) (hck : numCk cs = 0) (ht : AllThreaded cs)
    (s : CkState Θ V) (hs : s.skip = true) (fs : Files Θ V) :
    let r := runScript s fs cs
    r.1 = fs ∧ r.2.2 = none ∧ r.2.1.work = s.work ∧ r.2.1.vol = s.vol ∧ r.2.1.ids = s.ids ∧
    r.2.1.core.params = s.core.params ∧ r.2.1.core.lossHistory = s.core.lossHistory ∧
    r.2.1.core.epoch = s.core.epoch + cs.countP Cmd.isEpoch := by
  induction cs generalizing s with
  | nil => exact ⟨rfl, rfl, rfl, rfl, rfl, rfl, rfl, rfl⟩
  | cons c cs ih =>
    have hck' : numCk cs = 0 := by
      unfold numCk at hck ⊢; rw [List.countP_cons] at hck; omega
    have ht' : AllThreaded cs := fun t f h => ht t f (List.mem_cons_of_mem _ h)
    cases c with
    | plan msg =>
      have hs' : CkState.skip { s with core := { s.core with trainingHistory := s.core.trainingHistory ++ msg } } = true := hs
      have := ih hck' ht' _ hs'
      simp only [runScript, Cmd.exec, List.countP_cons, Cmd.isEpoch] at this ⊢
      simpa using this
    | checkpoint =>
      unfold numCk at hck; rw [List.countP_cons] at hck; simp [Cmd.isCheckpoint] at hck
    | epoch t f =>
      have htt : t = true := ht t f (List.mem_cons_self ..)
      subst htt
      have hs' : CkState.skip { s with core := { s.core with epoch := s.core.epoch + 1 } } = true := hs
      have := ih hck' ht' _ hs'
      simp only [runScript, Cmd.exec, hs, if_true, List.countP_cons, Cmd.isEpoch] at this ⊢
      refine ⟨this.1, this.2.1, this.2.2.1, this.2.2.2.1, this.2.2.2.2.1, this.2.2.2.2.2.1, this.2.2.2.2.2.2.1, ?_⟩
      rw [this.2.2.2.2.2.2.2]
      omega

/-- The jobs `0, 1, ..., k-1`, each with its own fresh in-memory state. -/
def jobsBelow (vols : ℕ → V) (len k : ℕ) : List (Launch V) :=
  (List.range k).map fun j => ⟨j, vols j, len⟩

theorem diskAfter_append (cs : List (Cmd Θ V)) (c0 : Core Θ) (fs : Files Θ V)
    (a b : List (Launch V)) :
    diskAfter cs c0 fs (a ++ b) = diskAfter cs c0 (diskAfter cs c0 fs a) b := by
  induction a generalizing fs with
  | nil => rfl
  | cons l ls ih => exact ih _

theorem jobs_leave_file (cs : List (Cmd Θ V)) (hm : Memoryless cs) (ht : AllThreaded cs)
    (c0 : Core Θ) (vols : ℕ → V) (k : ℕ) (hk : k ≤ numCk cs) (h1 : 1 ≤ k) :
    (diskAfter cs c0 (fun _ => none) (jobsBelow vols cs.length k) (k - 1)).isSome := by
  induction k with
  | zero => omega
  | succ k ih =>
    simp only [jobsBelow, List.range_succ, List.map_append, List.map_cons, List.map_nil,
      diskAfter_append, Nat.add_sub_cancel]
    have := resumed_job_agrees_partial cs hm ht c0 (jobsBelow vols cs.length k) k (by omega)
      (vols k) (vols k) (fun h => ih (by omega) h)
    exact (this.2 (by omega)).2

/-- **C10, the whole chain (partial: threaded epochs without hidden state).** Running jobs
`0, 1, ..., n` (`n` = number of checkpoints) in order on an empty disk ends with the model of the
uninterrupted run, and all jobs together compute every epoch of the script exactly once. -/
theorem job_chain_agrees_partial (cs : List (Cmd Θ V)) (hm : Memoryless cs)
    (ht : AllThreaded cs) (c0 : Core Θ) (vols : ℕ → V) (v' : V) :
    let job := fun k => launch cs c0 (diskAfter cs c0 (fun _ => none)
      (jobsBelow vols cs.length k)) ⟨k, vols k, cs.length⟩
    (job (numCk cs)).2.2 = none ∧ (job (numCk cs)).2.1.core = uninterrupted cs c0 v' ∧
    ∑ k ∈ Finset.range (numCk cs + 1), (job k).2.1.work = cs.countP Cmd.isEpoch := by
  intro job
  have hfile : ∀ k, k ≤ numCk cs → 1 ≤ k →
      (diskAfter cs c0 (fun _ => none) (jobsBelow vols cs.length k) (k - 1)).isSome :=
    fun k hk h1 => jobs_leave_file cs hm ht c0 vols k hk h1
  have hlast := resumed_job_agrees_partial cs hm ht c0 (jobsBelow vols cs.length (numCk cs))
    (numCk cs) le_rfl (vols (numCk cs)) v' (hfile _ le_rfl)
  refine ⟨(hlast.1 rfl).1, (hlast.1 rfl).2, ?_⟩
  rw [← sum_segEpochs 0 cs (numCk cs + 1) (by omega)]
  apply Finset.sum_congr rfl
  intro k hk
  have hk' : k ≤ numCk cs := by have := Finset.mem_range.1 hk; omega
  have h := run_complete v' cs hm ht c0 k cs [] rfl _ _ (good_start v' c0 (vols k) k)
    (diskAfter_ok v' cs hm c0 (jobsBelow vols cs.length k) _ (emptyDisk_ok v' cs c0))
    (hfile k hk') hk'
  have : job k = runScript (startJob c0 (vols k) (some k))
      (diskAfter cs c0 (fun _ => none) (jobsBelow vols cs.length k)) cs := by
    simp [job, launch]
  rw [this]; exact h.1

/-- A checkpoint chain with two segments; epochs add one and record a loss. -/
def demoEpoch (x : Core ℕ × Unit) : Core ℕ × Unit :=
  (⟨x.1.params + 1, x.1.lossHistory ++ [0], x.1.epoch + 1, x.1.trainingHistory ++ "e"⟩, ())

/-- Non-vacuity: this script meets the hypotheses and has two checkpoints and three epochs. -/
example : Memoryless [.epoch true demoEpoch, .checkpoint, .plan "x", .epoch true demoEpoch,
      .checkpoint, .epoch true demoEpoch] ∧
    AllThreaded [.epoch true demoEpoch, .checkpoint, .plan "x", .epoch true demoEpoch,
      .checkpoint, .epoch true demoEpoch] ∧
    numCk [.epoch true demoEpoch, .checkpoint, .plan "x", .epoch true demoEpoch,
      .checkpoint, .epoch true demoEpoch] = 2 ∧
    (uninterrupted [.epoch true demoEpoch, .checkpoint, .plan "x", .epoch true demoEpoch,
      .checkpoint, .epoch true demoEpoch] ⟨0, [], 0, ""⟩ ()).params = 3 := by
  refine ⟨?_, ?_, rfl, rfl⟩
  · intro t f h c v v'; rfl
  · intro t f h; simp at h; exact h.1

/-- **C10 is violated without threads**: a script that runs its epochs with `thread=False` cannot
be resumed: every job after job 0 dies with AttributeError at the first epoch it should skip. -/
theorem resume_without_thread_violated (f : Core Θ × V → Core Θ × V) (cs : List (Cmd Θ V))
    (c0 : Core Θ) (fs : Files Θ V) (k : ℕ) (hk : 1 ≤ k) (v : V) (m : ℕ) :
    (launch (.epoch false f :: cs) c0 fs ⟨k, v, m + 1⟩).2.2 = some .attributeError := by
  have : (0 == k) = false := by simp; omega
  simp [launch, runScript, Cmd.exec, startJob, CkState.skip, bne, this]

/-- Gradient descent with momentum: parameter and momentum both matter for the next epoch. -/
def momentumEpoch (x : Core ℕ × ℕ) : Core ℕ × ℕ :=
  (⟨x.1.params + x.2 + 1, x.1.lossHistory ++ [0], x.1.epoch + 1, x.1.trainingHistory⟩, x.2 + 1)

/-- **C10 is violated for epochs with hidden state** (momentum, the loss normalizer): with the
in-memory state starting equally fresh in both jobs, the resumed run ends with other parameters
than the uninterrupted one. -/
theorem resume_with_momentum_violated :
    let cs : List (Cmd ℕ ℕ) := [.epoch true momentumEpoch, .checkpoint, .epoch true momentumEpoch]
    let c0 : Core ℕ := ⟨0, [], 0, ""⟩
    let r := launch cs c0 (diskAfter cs c0 (fun _ => none) [⟨0, 0, 3⟩]) ⟨1, 0, 3⟩
    r.2.2 = none ∧ r.2.1.core.params = 2 ∧ (uninterrupted cs c0 0).params = 3 :=
  ⟨rfl, rfl, rfl⟩

/-! ### C11 -/

theorem run_modelOptimizer (cs : List (Cmd Θ V)) (s : CkState Θ V) (fs : Files Θ V)
    (hs : s.modelOptimizer = none) (hfs : ∀ i f, fs i = some f → f.optimizerState = none) :
    ∀ i f, (runScript s fs cs).1 i = some f → f.optimizerState = none := by
  induction cs generalizing s fs with
  | nil => exact hfs
  | cons c cs ih =>
    cases c with
    | plan msg => exact ih _ fs hs hfs
    | epoch t f =>
      unfold runScript
      simp only [Cmd.exec]
      by_cases hsk : s.skip = true
      · cases t with
        | true => simp only [hsk, if_true]; exact ih _ fs hs hfs
        | false => simp only [hsk, if_true, Bool.false_eq_true, if_false]; exact hfs
      · simp only [hsk, Bool.false_eq_true, if_false]; exact ih _ fs hs hfs
    | checkpoint =>
      unfold runScript
      simp only [Cmd.exec]
      rcases hi : s.ids with _ | ⟨cid, job⟩
      · exact hfs
      · simp only
        by_cases h1 : cid = job
        · simp only [h1, if_true]
          intro i f hf
          by_cases hij : i = job
          · simp only [hij, if_true, Option.some.injEq] at hf
            rw [← hf]; exact hs
          · simp only [hij, if_false] at hf; exact hfs i f hf
        · simp only [h1, if_false]
          by_cases h2 : cid + 1 = job
          · simp only [h2, if_true]
            rcases hl : s.loadFile (fs cid) with e | s'
            · exact hfs
            · simp only
              refine ih _ fs ?_ hfs
              unfold CkState.loadFile at hl
              rcases hf : fs cid with _ | f
              · rw [hf] at hl; cases hl
              · rw [hf] at hl
                simp only [hs] at hl
                cases hl; rfl
          · simp only [h2, if_false]
            exact ih _ fs hs hfs

/-- **C11 is violated.** Whatever the script does before its checkpoints — any number of epochs
with any optimizer — no checkpoint file it ever writes contains an optimizer state. -/
theorem checkpoints_never_hold_optimizer_violated (cs : List (Cmd Θ V)) (c0 : Core Θ)
    (ls : List (Launch V)) (i : ℕ) (f : CkFile Θ V)
    (hf : diskAfter cs c0 (fun _ => none) ls i = some f) : f.optimizerState = none := by
  have : ∀ (ls : List (Launch V)) (fs : Files Θ V),
      (∀ i f, fs i = some f → f.optimizerState = none) →
      ∀ i f, diskAfter cs c0 fs ls i = some f → f.optimizerState = none := by
    intro ls
    induction ls with
    | nil => intro fs h; exact h
    | cons l ls ih =>
      intro fs h
      exact ih _ (run_modelOptimizer _ (startJob c0 l.vol (some l.job)) fs rfl h)
  exact this ls _ (by intro i f h; cases h) i f hf

/-- Non-vacuity: such a file is written after an epoch that did change the optimizer state. -/
example :
    let cs : List (Cmd ℕ ℕ) := [.epoch true momentumEpoch, .checkpoint, .epoch true momentumEpoch]
    ∃ f, diskAfter cs ⟨0, [], 0, ""⟩ (fun _ => none) [⟨0, 0, 3⟩] 0 = some f ∧
      f.core.params = 1 := ⟨_, rfl, rfl⟩

/-- **C11, what does hold**: a state dictionary found in a file is loaded into the optimizer only
if the model itself has the attribute `current_optimizer`; if it has one but the file holds
none, loading fails with KeyError, never silently. -/
theorem load_needs_optimizer_entry_partial (s : CkState Θ V) (f : CkFile Θ V) :
    (∀ o v, s.modelOptimizer = some o → f.optimizerState = some v →
      ∃ s', s.loadFile (some f) = .ok s' ∧ s'.core = f.core ∧ s'.vol = v ∧ s'.modelOptimizer = some v) ∧
    (∀ o, s.modelOptimizer = some o → f.optimizerState = none →
      s.loadFile (some f) = .error .keyError) := by
  constructor
  · intro o v h1 h2
    simp only [CkState.loadFile, h1, h2]
    exact ⟨_, rfl, rfl, rfl, rfl⟩
  · intro o h1 h2
    simp only [CkState.loadFile, h1, h2]

/-! ### C12 -/

section
variable {σ : Type}

/-- A disk of results files, and a `save_to_h5` that writes the file with the model state. -/
abbrev ResultsDisk (σ : Type) := String → Option σ

/-- `save_to_h5` succeeding: the named file holds the model state, other files are untouched. -/
def saveOk : SaveFn σ (ResultsDisk σ) := fun name s d => .ok fun n => if n = name then some s else d n

/-- **C12.** Whatever happens in the with-block, `save_on_exit` leaves a file holding the model
state at the moment of exit — under the exception name (default: the normal name) if the block
raised, else under the normal name —, touches no other file, and re-raises exactly the exception
the block raised. -/
theorem save_on_exit_always_saves (filename : String) (exn : Option String)
    (body : σ → σ × Except PyExc Unit) (s : σ) (d : ResultsDisk σ) :
    let r := saveOnExit saveOk filename exn body s d
    let target := match (body s).2 with
      | .ok _ => filename
      | .error _ => exn.getD filename
    r.1 = (body s).1 ∧ r.2.1 target = some (body s).1 ∧
    (∀ n, n ≠ target → r.2.1 n = d n) ∧ r.2.2 = (body s).2 := by
  unfold saveOnExit
  rcases hb : body s with ⟨s', (e | ⟨⟩)⟩
  · simp [saveOk]; intro n h; simp [h]
  · simp [saveOk]; intro n h; simp [h]

/-- **C12.** `save_on_exception` writes nothing when the block ends normally, and otherwise leaves
the state at the moment of the exception in the named file and re-raises the same exception. -/
theorem save_on_exception_saves_iff_raised (filename : String)
    (body : σ → σ × Except PyExc Unit) (s : σ) (d : ResultsDisk σ) :
    let r := saveOnException saveOk filename body s d
    r.1 = (body s).1 ∧ r.2.2 = (body s).2 ∧
    ((body s).2 = .ok () → r.2.1 = d) ∧
    (∀ e, (body s).2 = .error e →
      r.2.1 filename = some (body s).1 ∧ ∀ n, n ≠ filename → r.2.1 n = d n) := by
  unfold saveOnException
  rcases hb : body s with ⟨s', (e | ⟨⟩)⟩
  · simp [saveOk]; intro n h; simp [h]
  · simp

/-- **C12**, failing saves: if writing the file itself fails, the caller still gets an exception
(never a silent success). -/
theorem save_on_exit_never_silent (save : SaveFn σ (ResultsDisk σ)) (filename : String)
    (exn : Option String) (body : σ → σ × Except PyExc Unit) (s : σ) (d : ResultsDisk σ)
    (h : (saveOnExit save filename exn body s d).2.2 = .ok ()) :
    (body s).2 = .ok () ∧ save filename (body s).1 d = .ok (saveOnExit save filename exn body s d).2.1 := by
  unfold saveOnExit at h ⊢
  rcases hb : body s with ⟨s', (e | ⟨⟩)⟩
  · simp only [hb] at h
    split at h <;> cases h
  · simp only [hb] at h ⊢
    rcases hs : save filename s' d with e | d'
    · simp only [hs] at h
      split at h <;> cases h
    · simp

/-- Non-vacuity: a block killed by KeyboardInterrupt after changing the model. -/
example : (saveOnExit saveOk "a" (some "b")
    (fun n : ℕ => (n + 1, .error .keyboardInterrupt)) 4 (fun _ => none)).2.1 "b" = some 5 := rfl
end

end Cdtools
