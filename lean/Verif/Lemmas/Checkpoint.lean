/- Helper lemmas for checkpointed scripts. -/
import Verif.Spec.Checkpoint
import Mathlib.Data.List.Basic
import Mathlib.Algebra.BigOperators.Group.Finset.Piecewise
import Mathlib.Tactic.Linarith

namespace Cdtools
variable {Θ V : Type}
set_option linter.unusedSectionVars false

/-- core effect of a statement outside of checkpointing -/
def coreStep (v0 : V) (c : Core Θ) : Cmd Θ V → Core Θ
  | .plan msg => { c with trainingHistory := c.trainingHistory ++ msg }
  | .epoch _ f => (f (c, v0)).1
  | .checkpoint => c

def coreRun (v0 : V) (c0 : Core Θ) (cs : List (Cmd Θ V)) : Core Θ := cs.foldl (coreStep v0) c0

theorem coreRun_append (v0 : V) (c0 : Core Θ) (a : List (Cmd Θ V)) (c : Cmd Θ V) :
    coreRun v0 c0 (a ++ [c]) = coreStep v0 (coreRun v0 c0 a) c := by
  simp [coreRun]

theorem free_run (v0 : V) (cs : List (Cmd Θ V)) (hm : Memoryless cs) (s : CkState Θ V)
    (hs : s.ids = none) (fs : Files Θ V) :
    (runScript s fs (cs.filter fun c => !c.isCheckpoint)).2.1.core = coreRun v0 s.core cs ∧
    (runScript s fs (cs.filter fun c => !c.isCheckpoint)).2.2 = none := by
  induction cs generalizing s with
  | nil => simp [runScript, coreRun]
  | cons c cs ih =>
    have hm' : Memoryless cs := fun t f h => hm t f (List.mem_cons_of_mem _ h)
    cases c with
    | plan msg =>
      rw [List.filter_cons_of_pos (by simp [Cmd.isCheckpoint])]
      simp only [runScript, Cmd.exec]
      have := ih hm' { s with core := { s.core with
        trainingHistory := s.core.trainingHistory ++ msg } } hs
      simpa [coreRun, coreStep] using this
    | epoch t f =>
      have hsk : s.skip = false := by simp [CkState.skip, hs]
      rw [List.filter_cons_of_pos (by simp [Cmd.isCheckpoint])]
      simp only [runScript, Cmd.exec, hsk, Bool.false_eq_true, if_false]
      have := ih hm' { s with core := (f (s.core, s.vol)).1, vol := (f (s.core, s.vol)).2,
                              work := s.work + 1 } hs
      rw [hm t f List.mem_cons_self s.core s.vol v0] at this
      rw [hm t f List.mem_cons_self s.core s.vol v0]
      simpa [coreRun, coreStep] using this
    | checkpoint =>
      rw [List.filter_cons_of_neg (by simp [Cmd.isCheckpoint])]
      have := ih hm' s hs
      simpa [coreRun, coreStep] using this

theorem uninterrupted_eq (v v0 : V) (cs : List (Cmd Θ V)) (hm : Memoryless cs) (c0 : Core Θ) :
    uninterrupted cs c0 v = coreRun v0 c0 cs :=
  (free_run v0 cs hm (startJob c0 v none) rfl _).1

/-- number of epochs with exactly `k` checkpoint statements before them, when `n` were already
passed -/
def segEpochs (n : ℕ) : List (Cmd Θ V) → ℕ → ℕ
  | [], _ => 0
  | .checkpoint :: cs, k => segEpochs (n + 1) cs k
  | .epoch _ _ :: cs, k => (if n = k then 1 else 0) + segEpochs n cs k
  | .plan _ :: cs, k => segEpochs n cs k

theorem segEpochs_snoc (n : ℕ) (cs : List (Cmd Θ V)) (c : Cmd Θ V) (k : ℕ) :
    segEpochs n (cs ++ [c]) k =
      segEpochs n cs k + if c.isEpoch ∧ n + numCk cs = k then 1 else 0 := by
  induction cs generalizing n with
  | nil => cases c <;> simp [segEpochs, Cmd.isEpoch, numCk]
  | cons d cs ih =>
    cases d <;> simp only [List.cons_append, segEpochs, ih, numCk, List.countP_cons,
      Cmd.isCheckpoint, if_true, Bool.false_eq_true, if_false] <;> split_ifs <;> grind

theorem sum_segEpochs (n : ℕ) (cs : List (Cmd Θ V)) (m : ℕ) (hm : n + numCk cs < m) :
    ∑ k ∈ Finset.range m, segEpochs n cs k = cs.countP Cmd.isEpoch := by
  induction cs generalizing n with
  | nil => simp [segEpochs]
  | cons d cs ih =>
    cases d with
    | plan msg =>
      simp only [segEpochs, numCk, List.countP_cons, Cmd.isCheckpoint, Cmd.isEpoch,
        Bool.false_eq_true, if_false, Nat.add_zero] at *
      exact ih n hm
    | epoch t f =>
      simp only [segEpochs, numCk, List.countP_cons, Cmd.isCheckpoint, Cmd.isEpoch,
        Bool.false_eq_true, if_false, Nat.add_zero, if_true] at *
      rw [Finset.sum_add_distrib, ih n hm, Finset.sum_ite_eq, if_pos (by simp; omega)]
      omega
    | checkpoint =>
      simp only [segEpochs, numCk, List.countP_cons, Cmd.isCheckpoint, Cmd.isEpoch,
        Bool.false_eq_true, if_false, Nat.add_zero, if_true] at *
      exact ih (n + 1) (by omega)

/-- disk invariant: every checkpoint file holds the state of the uninterrupted run at that
checkpoint -/
def DiskOK (v0 : V) (cs : List (Cmd Θ V)) (c0 : Core Θ) (fs : Files Θ V) : Prop :=
  ∀ i f, fs i = some f → ∃ pre post, cs = pre ++ .checkpoint :: post ∧ numCk pre = i ∧
    f.core = coreRun v0 c0 pre

theorem split_unique {pre pre' post post' : List (Cmd Θ V)}
    (h : pre ++ .checkpoint :: post = pre' ++ .checkpoint :: post')
    (hn : numCk pre = numCk pre') : pre = pre' := by
  rcases List.append_eq_append_iff.1 h with ⟨as, h1, h2⟩ | ⟨bs, h1, h2⟩
  · cases as with
    | nil => simpa using h1.symm
    | cons a as =>
      simp only [List.cons_append, List.cons.injEq] at h2
      subst h1
      rw [← h2.1] at hn
      simp only [numCk, List.countP_append, List.countP_cons, Cmd.isCheckpoint, if_true] at hn
      omega
  · cases bs with
    | nil => simpa using h1
    | cons a as =>
      simp only [List.cons_append, List.cons.injEq] at h2
      subst h1
      rw [← h2.1] at hn
      simp only [numCk, List.countP_append, List.countP_cons, Cmd.isCheckpoint, if_true] at hn
      omega

/-- state of job `k` after the statements `pre` -/
structure Good (v0 : V) (c0 : Core Θ) (k : ℕ) (pre : List (Cmd Θ V)) (s : CkState Θ V) : Prop where
  ids : s.ids = some (numCk pre, k)
  le : numCk pre ≤ k
  opt : s.modelOptimizer = none
  live : numCk pre = k → s.core = coreRun v0 c0 pre
  work : s.work = segEpochs 0 pre k

theorem numCk_snoc (pre : List (Cmd Θ V)) (c : Cmd Θ V) :
    numCk (pre ++ [c]) = numCk pre + if c.isCheckpoint then 1 else 0 := by
  simp [numCk, List.countP_append, List.countP_cons]

/-- one statement of a job -/
theorem good_step (v0 : V) (cs : List (Cmd Θ V)) (hm : Memoryless cs) (c0 : Core Θ) (k : ℕ)
    (pre post : List (Cmd Θ V)) (c : Cmd Θ V) (hcs : cs = pre ++ c :: post) (s : CkState Θ V)
    (fs : Files Θ V) (hg : Good v0 c0 k pre s) (hd : DiskOK v0 cs c0 fs) :
    DiskOK v0 cs c0 (c.exec s fs).1 ∧
    (∀ s', (c.exec s fs).2 = .ok s' → Good v0 c0 k (pre ++ [c]) s') ∧
    (∀ i, (fs i).isSome → ((c.exec s fs).1 i).isSome) := by
  have hmem : c ∈ cs := by rw [hcs]; simp
  cases c with
  | plan msg =>
    refine ⟨hd, ?_, fun i h => h⟩
    intro s' h
    simp only [Cmd.exec, Except.ok.injEq] at h
    subst h
    refine ⟨by simp [numCk_snoc, Cmd.isCheckpoint, hg.ids], by simp [numCk_snoc, Cmd.isCheckpoint, hg.le],
      hg.opt, ?_, ?_⟩
    · intro h
      rw [numCk_snoc] at h
      simp only [Cmd.isCheckpoint, Bool.false_eq_true, if_false, Nat.add_zero] at h
      simp [coreRun_append, coreStep, hg.live h]
    · rw [segEpochs_snoc]; simp [Cmd.isEpoch, hg.work]
  | epoch t f =>
    have hmf := hm t f hmem
    simp only [Cmd.exec]
    by_cases hk : numCk pre = k
    · have hsk : s.skip = false := by simp [CkState.skip, hg.ids, hk]
      simp only [hsk, Bool.false_eq_true, if_false]
      refine ⟨hd, ?_, fun i h => h⟩
      intro s' h
      simp only [Except.ok.injEq] at h
      subst h
      refine ⟨by simp [numCk_snoc, Cmd.isCheckpoint, hg.ids],
        by simp [numCk_snoc, Cmd.isCheckpoint, hg.le], hg.opt, ?_, ?_⟩
      · intro _
        simp [coreRun_append, coreStep, hg.live hk, hmf _ s.vol v0]
      · rw [segEpochs_snoc]; simp [Cmd.isEpoch, hg.work, hk]
    · have hsk : s.skip = true := by simp [CkState.skip, hg.ids, hk]
      simp only [hsk, if_true]
      cases t with
      | false =>
        simp only [Bool.false_eq_true, if_false]
        exact ⟨hd, (by intro s' h; cases h), fun i h => h⟩
      | true =>
        simp only [if_true]
        refine ⟨hd, ?_, fun i h => h⟩
        intro s' h
        simp only [Except.ok.injEq] at h
        subst h
        refine ⟨by simp [numCk_snoc, Cmd.isCheckpoint, hg.ids],
          by simp [numCk_snoc, Cmd.isCheckpoint, hg.le], hg.opt, ?_, ?_⟩
        · intro h
          rw [numCk_snoc] at h
          simp only [Cmd.isCheckpoint, Bool.false_eq_true, if_false, Nat.add_zero] at h
          exact absurd h hk
        · rw [segEpochs_snoc]; simp [Cmd.isEpoch, hg.work, hk]
  | checkpoint =>
    simp only [Cmd.exec, hg.ids]
    by_cases hk : numCk pre = k
    · simp only [hk, if_true]
      refine ⟨?_, (by intro s' h; cases h), ?_⟩
      · intro i f hf
        by_cases hi : i = k
        · simp only [hi, if_true, Option.some.injEq] at hf
          subst hf
          exact ⟨pre, post, hcs, by rw [hi, hk], hg.live hk⟩
        · simp only [hi, if_false] at hf
          exact hd i f hf
      · intro i h; by_cases hi : i = k <;> simp [hi, h]
    · simp only [hk, if_false]
      by_cases hk1 : numCk pre + 1 = k
      · simp only [hk1, if_true]
        unfold CkState.loadFile
        rcases hf : fs (numCk pre) with _ | f
        · exact ⟨hd, (by intro s' h; cases h), fun i h => h⟩
        · simp only [hg.opt]
          refine ⟨hd, ?_, fun i h => h⟩
          intro s' h
          simp only [Except.ok.injEq] at h
          subst h
          refine ⟨by simp [numCk_snoc, Cmd.isCheckpoint, hk1],
            by simp [numCk_snoc, Cmd.isCheckpoint, hk1], rfl, ?_, ?_⟩
          · intro _
            obtain ⟨p, q, h1, h2, h3⟩ := hd _ _ hf
            have := split_unique (hcs.symm.trans h1) h2.symm
            subst this
            simp [coreRun_append, coreStep, h3]
          · rw [segEpochs_snoc]; simp [Cmd.isEpoch, hg.work]
      · simp only [hk1, if_false]
        refine ⟨hd, ?_, fun i h => h⟩
        intro s' h
        simp only [Except.ok.injEq] at h
        subst h
        have := hg.le
        refine ⟨by simp [numCk_snoc, Cmd.isCheckpoint],
            by simp [numCk_snoc, Cmd.isCheckpoint]; omega, hg.opt, ?_, ?_⟩
        · intro h
          rw [numCk_snoc] at h
          simp only [Cmd.isCheckpoint, if_true] at h
          exact absurd h hk1
        · rw [segEpochs_snoc]; simp [Cmd.isEpoch, hg.work]

theorem run_disk (v0 : V) (cs : List (Cmd Θ V)) (hm : Memoryless cs) (c0 : Core Θ) (k : ℕ)
    (mid : List (Cmd Θ V)) : ∀ (pre post : List (Cmd Θ V)), cs = pre ++ mid ++ post →
    ∀ (s : CkState Θ V) (fs : Files Θ V), Good v0 c0 k pre s → DiskOK v0 cs c0 fs →
    DiskOK v0 cs c0 (runScript s fs mid).1 ∧
    (∀ i, (fs i).isSome → ((runScript s fs mid).1 i).isSome) := by
  induction mid with
  | nil => intro pre post _ s fs _ hd; exact ⟨hd, fun i h => h⟩
  | cons c mid ih =>
    intro pre post hcs s fs hg hd
    obtain ⟨h1, h2, h3⟩ := good_step v0 cs hm c0 k pre (mid ++ post) c (by simpa using hcs) s fs hg hd
    unfold runScript
    rcases he : c.exec s fs with ⟨fs', (e | s')⟩
    · rw [he] at h1 h3; exact ⟨h1, h3⟩
    · rw [he] at h1 h2 h3
      obtain ⟨h4, h5⟩ := ih (pre ++ [c]) post (by simpa using hcs) s' fs' (h2 s' rfl) h1
      exact ⟨h4, fun i h => h5 i (h3 i h)⟩

theorem good_start (v0 : V) (c0 : Core Θ) (v : V) (k : ℕ) :
    Good v0 c0 k [] (startJob c0 v (some k)) :=
  ⟨by simp [startJob, numCk], by simp [numCk], rfl, fun _ => by simp [startJob, coreRun],
    by simp [startJob, segEpochs]⟩

theorem launch_disk (v0 : V) (cs : List (Cmd Θ V)) (hm : Memoryless cs) (c0 : Core Θ)
    (fs : Files Θ V) (hd : DiskOK v0 cs c0 fs) (l : Launch V) :
    DiskOK v0 cs c0 (launch cs c0 fs l).1 ∧
    (∀ i, (fs i).isSome → ((launch cs c0 fs l).1 i).isSome) :=
  run_disk v0 cs hm c0 l.job (cs.take l.killedAfter) [] (cs.drop l.killedAfter) (by simp) _ fs
    (good_start v0 c0 l.vol l.job) hd

theorem diskAfter_ok (v0 : V) (cs : List (Cmd Θ V)) (hm : Memoryless cs) (c0 : Core Θ)
    (ls : List (Launch V)) (fs : Files Θ V) (hd : DiskOK v0 cs c0 fs) :
    DiskOK v0 cs c0 (diskAfter cs c0 fs ls) := by
  induction ls generalizing fs with
  | nil => exact hd
  | cons l ls ih => exact ih _ (launch_disk v0 cs hm c0 fs hd l).1

/-- A job that finds the file it needs either finishes the script or stops at its own
checkpoint. -/
theorem run_complete (v0 : V) (cs : List (Cmd Θ V)) (hm : Memoryless cs) (ht : AllThreaded cs)
    (c0 : Core Θ) (k : ℕ) (rest : List (Cmd Θ V)) : ∀ (pre : List (Cmd Θ V)), cs = pre ++ rest →
    ∀ (s : CkState Θ V) (fs : Files Θ V), Good v0 c0 k pre s → DiskOK v0 cs c0 fs →
    (1 ≤ k → (fs (k - 1)).isSome) → k ≤ numCk cs →
    (runScript s fs rest).2.1.work = segEpochs 0 cs k ∧
    (if k = numCk cs then
      (runScript s fs rest).2.2 = none ∧
        (runScript s fs rest).2.1.core = coreRun v0 c0 cs
     else (runScript s fs rest).2.2 = some .systemExit ∧
        ((runScript s fs rest).1 k).isSome) := by
  induction rest with
  | nil =>
    intro pre hcs s fs hg hd _ hk
    simp only [List.append_nil] at hcs
    subst hcs
    have := hg.le
    have hkk : k = numCk cs := by omega
    simp only [runScript]
    refine ⟨hg.work, ?_⟩
    rw [if_pos hkk]
    exact ⟨trivial, hg.live hkk.symm⟩
  | cons c rest ih =>
    intro pre hcs s fs hg hd hfile hk
    obtain ⟨h1, h2, h3⟩ := good_step v0 cs hm c0 k pre rest c hcs s fs hg hd
    unfold runScript
    rcases he : c.exec s fs with ⟨fs', (e | s')⟩
    · -- the only failing case: this job's own checkpoint
      simp only
      have hcase : c = .checkpoint ∧ numCk pre = k := by
        cases c with
        | plan msg => simp [Cmd.exec] at he
        | epoch t f =>
          have := ht t f (by rw [hcs]; simp)
          subst this
          simp only [Cmd.exec, if_true] at he
          split at he <;> simp at he
        | checkpoint =>
          refine ⟨rfl, ?_⟩
          by_contra hne
          simp only [Cmd.exec, hg.ids, hne, if_false] at he
          by_cases hk1 : numCk pre + 1 = k
          · simp only [hk1, if_true] at he
            have hf := hfile (by omega)
            have : k - 1 = numCk pre := by omega
            rw [this] at hf
            obtain ⟨f, hf⟩ := Option.isSome_iff_exists.1 hf
            simp [hf, CkState.loadFile, hg.opt] at he
          · simp [hk1] at he
      obtain ⟨rfl, hpk⟩ := hcase
      have hnck : numCk cs = k + 1 + numCk rest := by
        rw [hcs]
        simp only [numCk, List.countP_append, List.countP_cons, Cmd.isCheckpoint, if_true] at *
        omega
      simp only [Cmd.exec, hg.ids, hpk, if_true, Prod.mk.injEq, Except.error.injEq] at he
      refine ⟨?_, ?_⟩
      · rw [hg.work, hcs]
        have : ∀ (l : List (Cmd Θ V)) (n : ℕ), k < n → segEpochs n l k = 0 := by
          intro l
          induction l with
          | nil => intros; rfl
          | cons d l ihl =>
            intro n hn
            cases d <;> simp only [segEpochs]
            · exact ihl n hn
            · rw [ihl n hn, if_neg (by omega)]
            · exact ihl (n + 1) (by omega)
        have happ : ∀ (a b : List (Cmd Θ V)) (n : ℕ),
            segEpochs n (a ++ b) k = segEpochs n a k + segEpochs (n + numCk a) b k := by
          intro a
          induction a with
          | nil => intros; simp [segEpochs, numCk]
          | cons d a iha =>
            intro b n
            cases d <;> simp only [List.cons_append, segEpochs, iha, numCk, List.countP_cons,
              Cmd.isCheckpoint, if_true, Bool.false_eq_true, if_false, Nat.add_zero] <;> grind
        rw [happ]
        simp only [segEpochs]
        rw [this rest _ (by omega)]; rfl
      · rw [if_neg (by omega)]
        refine ⟨by rw [← he.2], ?_⟩
        rw [← he.1]; simp
    · rw [he] at h1 h2 h3
      simp only
      exact ih (pre ++ [c]) (by simpa using hcs) s' fs' (h2 s' rfl) h1
        (fun h => h3 _ (hfile h)) hk

end Cdtools
