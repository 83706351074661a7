import Verif.Model.Threading
import Verif.Lemmas.Reconstructor

namespace Cdtools
set_option linter.unusedSectionVars false

/-- The state after a list of worker actions (checks and computations do not change it). -/
def applyActs {σ : Type} : σ → List (Act σ) → σ
  | s, [] => s
  | _, .set s' :: r => applyActs s' r
  | s, .check :: r => applyActs s r
  | s, .compute :: r => applyActs s r

theorem applyActs_append {σ : Type} (l₁ l₂ : List (Act σ)) : ∀ s : σ,
    applyActs s (l₁ ++ l₂) = applyActs (applyActs s l₁) l₂ := by
  induction l₁ with
  | nil => intro s; rfl
  | cons a l ih => intro s; cases a <;> simp [applyActs, ih]

/-- Every state written by the actions satisfies `p`. -/
def SetsSat {σ : Type} (p : σ → Prop) (l : List (Act σ)) : Prop := ∀ s, Act.set s ∈ l → p s

theorem applyActs_sat {σ : Type} {p : σ → Prop} : ∀ {l : List (Act σ)} {s : σ},
    SetsSat p l → p s → p (applyActs s l)
  | [], _, _, hs => hs
  | .set s' :: r, _, h, _ => applyActs_sat (l := r) (fun x hx => h x (by simp [hx])) (h s' (by simp))
  | .check :: r, s, h, hs => applyActs_sat (l := r) (fun x hx => h x (by simp [hx])) hs
  | .compute :: r, s, h, hs => applyActs_sat (l := r) (fun x hx => h x (by simp [hx])) hs

/-- A computation is always directly preceded by a check (`b` : the previous action was a check). -/
def Guard {σ : Type} : Bool → List (Act σ) → Prop
  | _, [] => True
  | _, .check :: r => Guard true r
  | b, .compute :: r => b = true ∧ Guard false r
  | _, .set _ :: r => Guard false r

theorem Guard.mono {σ : Type} {b : Bool} : ∀ {l : List (Act σ)}, Guard false l → Guard b l
  | [], _ => trivial
  | .check :: _, h => h
  | .compute :: _, h => absurd h.1 (by simp)
  | .set _ :: _, h => h

theorem Guard.append {σ : Type} : ∀ {l₁ l₂ : List (Act σ)} {b : Bool},
    Guard b l₁ → Guard false l₂ → Guard b (l₁ ++ l₂)
  | [], _, _, _, h2 => h2.mono
  | .check :: _, _, _, h, h2 => Guard.append (b := true) h h2
  | .compute :: _, _, _, h, h2 => ⟨h.1, Guard.append h.2 h2⟩
  | .set _ :: _, _, _, h, h2 => Guard.append (b := false) h h2

section
variable {Θ I P S R : Type} [NormedAddCommGroup Θ] [NormedSpace ℝ Θ] {Ω N : Type}

theorem chunkActs_props (ph : Physics Θ I P S R) (σ : Type) (θ : Θ) :
    ∀ cs : List (List I × List P),
      Guard false (ph.chunkActs σ θ cs) ∧ (∀ p, SetsSat p (ph.chunkActs σ θ cs))
      ∧ ∀ s, applyActs s (ph.chunkActs σ θ cs) = s
  | [] => ⟨trivial, fun _ _ h => by simp [Physics.chunkActs] at h, fun _ => rfl⟩
  | (i, p) :: cs => by
      obtain ⟨h1, h2, h3⟩ := chunkActs_props ph σ θ cs
      unfold Physics.chunkActs
      split
      · refine ⟨⟨rfl, trivial⟩, fun p s h => by simp at h, fun s => rfl⟩
      · refine ⟨⟨rfl, h1⟩, fun p s h => h2 p s (by simpa using h), fun s => h3 s⟩

theorem closureActs_props (ph : Physics Θ I P S R) (σ : Type) (cw : ℤ) (b : Minibatch I P)
    (θ : Θ) :
    Guard false (ph.closureActs σ cw b θ) ∧ (∀ p, SetsSat p (ph.closureActs σ cw b θ))
      ∧ ∀ s, applyActs s (ph.closureActs σ cw b θ) = s := by
  unfold Physics.closureActs
  split
  · exact ⟨trivial, fun _ _ h => by simp at h, fun _ => rfl⟩
  · exact chunkActs_props ph σ θ _

/-- Bookkeeping fields agree. -/
def SameBooks (s s' : RunState Θ Ω N) : Prop :=
  s'.lossHistory = s.lossHistory ∧ s'.epoch = s.epoch ∧ s'.trainingHistory = s.trainingHistory

theorem SameBooks.refl (s : RunState Θ Ω N) : SameBooks s s := ⟨rfl, rfl, rfl⟩

theorem SameBooks.trans {s s' s'' : RunState Θ Ω N} (h : SameBooks s s') (h' : SameBooks s' s'') :
    SameBooks s s'' :=
  ⟨h'.1.trans h.1, h'.2.1.trans h.2.1, h'.2.2.trans h.2.2⟩

theorem optActs_props (ph : Physics Θ I P S R) (cw : ℤ) (reg : Option R)
    (b : Minibatch I P) (s : RunState Θ Ω N) :
    ∀ p : OptProg Θ Ω (Θ →L[ℝ] ℝ),
      Guard false (p.acts ph cw reg b s) ∧ SetsSat (SameBooks s) (p.acts ph cw reg b s)
      ∧ ∀ s0, applyActs s0 (p.acts ph cw reg b s) =
          { s with opt := (p.run (ph.closure cw reg b)).1.1,
                   params := (p.run (ph.closure cw reg b)).1.2 }
  | .ret o θ l => by
      refine ⟨trivial, ?_, fun s0 => rfl⟩
      intro x hx
      simp only [OptProg.acts, List.mem_singleton, Act.set.injEq] at hx
      subst hx; exact ⟨rfl, rfl, rfl⟩
  | .eval o θ k => by
      obtain ⟨g1, g2, g3⟩ := closureActs_props ph (RunState Θ Ω N) cw b θ
      unfold OptProg.acts OptProg.run
      cases hc : ph.closure cw reg b θ with
      | error e =>
        refine ⟨Guard.append (b := false) g1 trivial, ?_, fun s0 => ?_⟩
        · intro x hx
          simp only [List.append_nil, List.mem_cons, Act.set.injEq] at hx
          rcases hx with rfl | hx
          · exact ⟨rfl, rfl, rfl⟩
          · exact g2 _ x hx
        · simp only [List.append_nil, applyActs, g3]
      | ok r =>
        obtain ⟨h1, h2, h3⟩ := optActs_props ph cw reg b s (k r)
        refine ⟨Guard.append (b := false) g1 h1, ?_, fun s0 => ?_⟩
        · intro x hx
          simp only [List.mem_cons, Act.set.injEq, List.mem_append] at hx
          rcases hx with rfl | hx | hx
          · exact ⟨rfl, rfl, rfl⟩
          · exact g2 _ x hx
          · exact h2 x hx
        · simp only [applyActs, applyActs_append, g3, h3]

/-- The first minibatch statement: normalizer accumulation. -/
def accStep (env : Env Θ Ω N P) (b : Minibatch I P) (s : RunState Θ Ω N) : RunState Θ Ω N :=
  if env.hasNormalizer then { s with norm := env.accumulate s.norm b.patterns } else s

theorem accStep_books (env : Env Θ Ω N P) (b : Minibatch I P) (s : RunState Θ Ω N) :
    SameBooks s (accStep env b s) := by
  unfold accStep; split <;> exact ⟨rfl, rfl, rfl⟩

theorem batches_props (env : Env Θ Ω N P) (ph : Physics Θ I P S R) (cw : ℤ) (reg : Option R) :
    ∀ (bs : List (Minibatch I P)) (s : RunState Θ Ω N) (acc : Option ℝ),
      Guard false (batchesActs env ph cw reg bs s) ∧
      SetsSat (SameBooks s) (batchesActs env ph cw reg bs s) ∧
      SameBooks s (runBatches env ph cw reg bs s acc).1 ∧
      applyActs s (batchesActs env ph cw reg bs s) = (runBatches env ph cw reg bs s acc).1
  | [], s, acc => ⟨trivial, fun x hx => by simp [batchesActs] at hx, SameBooks.refl s, rfl⟩
  | b :: bs, s, acc => by
      have hb := accStep_books env b s
      obtain ⟨h1, h2, h3⟩ := optActs_props ph cw reg b (accStep env b s)
        (env.step (accStep env b s).opt (accStep env b s).params)
      unfold batchesActs runBatches
      simp only [← accStep.eq_def]
      set s1 := accStep env b s with hs1
      cases hrun : (env.step s1.opt s1.params).run (ph.closure cw reg b) with
      | mk oθ r =>
        obtain ⟨o, θ⟩ := oθ
        rw [hrun] at h3
        have hb1 : SameBooks s ({ s1 with opt := o, params := θ } : RunState Θ Ω N) := hb
        have base : SetsSat (SameBooks s) ((env.step s1.opt s1.params).acts ph cw reg b s1) :=
          fun x hx => hb.trans (h2 x hx)
        have fin : ∀ (tail : List (Act (RunState Θ Ω N))), tail = [] →
            Guard false (Act.set s1 :: ((env.step s1.opt s1.params).acts ph cw reg b s1 ++ tail)) ∧
            SetsSat (SameBooks s)
              (Act.set s1 :: ((env.step s1.opt s1.params).acts ph cw reg b s1 ++ tail)) ∧
            SameBooks s ({ s1 with opt := o, params := θ } : RunState Θ Ω N) ∧
            applyActs s (Act.set s1 :: ((env.step s1.opt s1.params).acts ph cw reg b s1 ++ tail)) =
              ({ s1 with opt := o, params := θ } : RunState Θ Ω N) := by
          rintro tail rfl
          refine ⟨by rw [List.append_nil]; exact h1, ?_, hb1, ?_⟩
          · intro x hx
            simp only [List.append_nil, List.mem_cons, Act.set.injEq] at hx
            rcases hx with rfl | hx
            · exact hb
            · exact base x hx
          · rw [List.append_nil]; exact h3 s1
        cases r with
        | error e => exact fin [] rfl
        | ok ol =>
          cases ol with
          | none => exact fin [] rfl
          | some l =>
            obtain ⟨i1, i2, i3, i4⟩ := batches_props env ph cw reg bs
              { s1 with opt := o, params := θ } (addLoss acc l)
            refine ⟨Guard.append (b := false) h1 i1, ?_, hb1.trans i3, ?_⟩
            · intro x hx
              simp only [List.mem_cons, Act.set.injEq, List.mem_append] at hx
              rcases hx with rfl | hx | hx
              · exact hb
              · exact base x hx
              · exact hb1.trans (i2 x hx)
            · simp only [applyActs, applyActs_append]
              rw [h3]; exact i4

theorem epochActs_guard (env : Env Θ Ω N P) (ph : Physics Θ I P S R) (cw : ℤ) (reg : Option R)
    (dt : ℝ) (bs : List (Minibatch I P)) (s : RunState Θ Ω N) :
    Guard false (epochActs env ph cw reg dt bs s) := by
  unfold epochActs
  refine Guard.append (batches_props env ph cw reg bs s none).1 ?_
  split <;> exact trivial

theorem applyActs_epoch (env : Env Θ Ω N P) (ph : Physics Θ I P S R) (cw : ℤ) (reg : Option R)
    (dt : ℝ) (bs : List (Minibatch I P)) (s : RunState Θ Ω N) :
    applyActs s (epochActs env ph cw reg dt bs s) = (runEpoch env ph cw reg dt (some bs) s).1 := by
  unfold epochActs runEpoch
  rw [applyActs_append, (batches_props env ph cw reg bs s none).2.2.2]
  rcases h : runBatches env ph cw reg bs s none with ⟨s', r⟩
  simp only [h]
  cases r with
  | error e => rfl
  | ok ol => cases ol <;> rfl

/-- A strict prefix of the epoch's actions leaves the bookkeeping alone. -/
theorem applyActs_prefix_books (env : Env Θ Ω N P) (ph : Physics Θ I P S R) (cw : ℤ)
    (reg : Option R) (dt : ℝ) (bs : List (Minibatch I P)) (s : RunState Θ Ω N)
    (l₁ l₂ : List (Act (RunState Θ Ω N))) (h : epochActs env ph cw reg dt bs s = l₁ ++ l₂)
    (hne : l₂ ≠ []) : SameBooks s (applyActs s l₁) := by
  have hb := (batches_props env ph cw reg bs s none).2.1
  apply applyActs_sat _ (SameBooks.refl s)
  intro x hx
  unfold epochActs at h
  have key : ∀ tail : List (Act (RunState Θ Ω N)), tail.length ≤ 1 →
      batchesActs env ph cw reg bs s ++ tail = l₁ ++ l₂ → SameBooks s x := by
    intro tail ht he
    have hpre : l₁ <+: batchesActs env ph cw reg bs s := by
      have h1 : l₁ <+: batchesActs env ph cw reg bs s ++ tail := ⟨l₂, he.symm⟩
      have hlen : l₁.length ≤ (batchesActs env ph cw reg bs s).length := by
        have := congrArg List.length he
        simp only [List.length_append] at this
        have : 1 ≤ l₂.length := List.length_pos_iff.mpr hne
        omega
      exact List.prefix_of_prefix_length_le h1 (List.prefix_append _ _) hlen
    exact hb x (hpre.subset hx)
  split at h
  · exact key [_] (by simp) h
  · exact key [] (by simp) h

/-! ### Invariants of the two-thread system -/

/-- What a dead worker that ran to its end has put into the queue. -/
def queueOf : Except PyExc ℝ → List QItem
  | .ok l => [.value l]
  | .error e => if e.isException then [.exc e] else []

/-- Invariant of every reachable state of the pair of threads. -/
structure TInv {σ : Type} (s0 : σ) (T : List (Act σ)) (res : Except PyExc ℝ) (t : TState σ) :
    Prop where
  result_eq : t.result = res
  pre : ∃ dn, (∃ rest, T = dn ++ rest ∧ (t.alive = true → t.todo = rest) ∧
      (t.alive = false → t.stop = false → rest = []))
      ∧ t.shared = applyActs s0 dn
  guard : ∃ b, (t.alive = true → Guard b t.todo) ∧ t.sinceStop + (if b then 1 else 0) ≤ 1
      ∧ (t.stop = false → t.sinceStop = 0)
  stop_pc : t.stop = true → t.pc = .joining ∨ t.pc = .raised .keyboardInterrupt
  nostop_pc : t.stop = false → t.pc ≠ .joining
  qalive : t.alive = true → t.queue = [] ∧ (t.pc = .polling ∨ t.pc = .joining)
  qdead : t.alive = false → t.stop = false →
      (t.pc = .polling ∨ t.pc = .getting) ∧
        t.queue = queueOf res
      ∨ (∃ l, res = .ok l ∧ t.pc = .yielded l)
      ∨ (∃ e, res = .error e ∧ e.isException = true ∧ t.pc = .raised e)

theorem TInv.start {σ : Type} (s0 : σ) (T : List (Act σ)) (res : Except PyExc ℝ)
    (hT : Guard false T) :
    TInv s0 T res
      { shared := s0, alive := true, todo := T, result := res, stop := false, queue := [],
        pc := .polling, computes := 0, sinceStop := 0 } where
  result_eq := rfl
  pre := ⟨[], ⟨T, rfl, fun _ => rfl, fun h => by simp at h⟩, rfl⟩
  guard := ⟨false, fun _ => hT, by simp, fun _ => rfl⟩
  stop_pc := fun h => by simp at h
  nostop_pc := fun _ h => by simp at h
  qalive := fun _ => ⟨rfl, Or.inl rfl⟩
  qdead := fun h => by simp at h

theorem TInv.step_worker {σ : Type} {s0 : σ} {T : List (Act σ)} {res : Except PyExc ℝ}
    {t : TState σ} (h : TInv s0 T res t) : TInv s0 T res (t.step .worker) := by
  obtain ⟨hr, ⟨dn, ⟨rest, hT, hal, hdead⟩, hsh⟩, ⟨b, hg, hc, h0⟩, hsp, hns, hqa, hqd⟩ := h
  obtain ⟨sh, alive, todo, result, stop, queue, pc, comp, since⟩ := t
  simp only at *
  cases alive with
  | false =>
    simp only [TState.step, Bool.false_eq_true, if_false]
    exact ⟨hr, ⟨dn, ⟨rest, hT, hal, hdead⟩, hsh⟩, ⟨b, hg, hc, h0⟩, hsp, hns, hqa, hqd⟩
  | true =>
    have htodo := hal rfl
    have hgd := hg rfl
    obtain ⟨hq, hpc⟩ := hqa rfl
    subst htodo
    simp only [TState.step, if_true]
    cases todo with
    | nil =>
      cases result with
      | ok l =>
        refine ⟨hr, ⟨dn, ⟨[], hT, fun h => by simp at h, fun _ _ => rfl⟩, hsh⟩,
          ⟨b, fun h => by simp at h, hc, h0⟩, hsp, hns, fun h => by simp at h, ?_⟩
        intro _ hs
        left
        refine ⟨?_, ?_⟩
        · rcases hpc with h | h
          · exact Or.inl h
          · exact absurd h (hns hs)
        · simp only [hq, ← hr, queueOf]; rfl
      | error e =>
        cases he : e.isException with
        | true =>
          simp only [he, if_true]
          refine ⟨hr, ⟨dn, ⟨[], hT, fun h => by simp at h, fun _ _ => rfl⟩, hsh⟩,
            ⟨b, fun h => by simp at h, hc, h0⟩, hsp, hns, fun h => by simp at h, ?_⟩
          intro _ hs
          left
          refine ⟨?_, ?_⟩
          · rcases hpc with h | h
            · exact Or.inl h
            · exact absurd h (hns hs)
          · simp [hq, ← hr, he, queueOf]
        | false =>
          simp only [he, Bool.false_eq_true, if_false]
          refine ⟨hr, ⟨dn, ⟨[], hT, fun h => by simp at h, fun _ _ => rfl⟩, hsh⟩,
            ⟨b, fun h => by simp at h, hc, h0⟩, hsp, hns, fun h => by simp at h, ?_⟩
          intro _ hs
          left
          refine ⟨?_, ?_⟩
          · rcases hpc with h | h
            · exact Or.inl h
            · exact absurd h (hns hs)
          · simp [hq, ← hr, he, queueOf]
    | cons a rest =>
      have happ : T = (dn ++ [a]) ++ rest := by rw [hT]; simp
      cases a with
      | check =>
        cases stop with
        | true =>
          simp only [if_true]
          refine ⟨hr, ⟨dn, ⟨_, hT, fun h => by simp at h, fun _ h => by simp at h⟩, hsh⟩,
            ⟨b, fun h => by simp at h, hc, h0⟩, hsp, hns, fun h => by simp at h,
            fun _ h => by simp at h⟩
        | false =>
          simp only [Bool.false_eq_true, if_false]
          refine ⟨hr, ⟨dn ++ [.check], ⟨rest, happ, fun _ => rfl, fun h => by simp at h⟩,
            by rw [applyActs_append, ← hsh]; rfl⟩,
            ⟨true, fun _ => hgd, by simp [h0 rfl], h0⟩, hsp, hns, fun _ => ⟨hq, hpc⟩,
            fun h => by simp at h⟩
      | compute =>
        have hb : b = true := hgd.1
        subst hb
        refine ⟨hr, ⟨dn ++ [.compute], ⟨rest, happ, fun _ => rfl, fun h => by simp at h⟩,
            by rw [applyActs_append, ← hsh]; rfl⟩,
            ⟨false, fun _ => hgd.2, ?_, ?_⟩, hsp, hns, fun _ => ⟨hq, hpc⟩,
            fun h => by simp at h⟩
        · simp only [if_true] at hc
          cases stop <;> simp <;> omega
        · intro hs; simp only at hs; subst hs; simpa using h0 rfl
      | set x =>
        refine ⟨hr, ⟨dn ++ [.set x], ⟨rest, happ, fun _ => rfl, fun h => by simp at h⟩,
            by rw [applyActs_append, ← hsh]; rfl⟩,
            ⟨false, fun _ => hgd, by simp; split at hc <;> omega, h0⟩, hsp, hns,
            fun _ => ⟨hq, hpc⟩, fun h => by simp at h⟩

theorem TInv.step_main {σ : Type} {s0 : σ} {T : List (Act σ)} {res : Except PyExc ℝ}
    {t : TState σ} (h : TInv s0 T res t) : TInv s0 T res (t.step .main) := by
  obtain ⟨hr, hpre, hg, hsp, hns, hqa, hqd⟩ := h
  obtain ⟨sh, alive, todo, result, stop, queue, pc, comp, since⟩ := t
  simp only at *
  cases pc with
  | polling =>
    cases alive with
    | true => exact ⟨hr, hpre, hg, hsp, hns, hqa, hqd⟩
    | false =>
      simp only [TState.step, Bool.false_eq_true, if_false]
      have hs : stop = false := by
        cases stop with
        | false => rfl
        | true => rcases hsp rfl with h | h <;> simp at h
      refine ⟨hr, hpre, hg, fun h => by simp [hs] at h, fun _ h => by simp at h,
        fun h => by simp at h, ?_⟩
      intro _ _
      rcases hqd rfl hs with h | ⟨l, _, h⟩ | ⟨e, _, _, h⟩
      · exact Or.inl ⟨Or.inr rfl, h.2⟩
      · simp at h
      · simp at h
  | joining =>
    cases alive with
    | true => exact ⟨hr, hpre, hg, hsp, hns, hqa, hqd⟩
    | false =>
      simp only [TState.step, Bool.false_eq_true, if_false]
      have hs : stop = true := by
        cases stop with
        | true => rfl
        | false => exact absurd rfl (hns rfl)
      refine ⟨hr, hpre, hg, fun _ => Or.inr rfl, fun h => by simp [hs] at h,
        fun h => by simp at h, fun _ h => by simp [hs] at h⟩
  | getting =>
    have hs : stop = false := by
      cases stop with
      | false => rfl
      | true => rcases hsp rfl with h | h <;> simp at h
    have ha : alive = false := by
      cases alive with
      | false => rfl
      | true => rcases (hqa rfl).2 with h | h <;> simp at h
    subst hs ha
    rcases hqd rfl rfl with ⟨_, hq⟩ | ⟨l, _, h⟩ | ⟨e, _, _, h⟩
    · subst hq
      cases res with
      | ok l =>
        simp only [queueOf]
        refine ⟨hr, hpre, hg, fun h => by simp [TState.step] at h, fun _ h => by
          simp [TState.step] at h, fun h => by simp [TState.step] at h, fun _ _ => ?_⟩
        exact Or.inr (Or.inl ⟨l, rfl, rfl⟩)
      | error e =>
        cases he : e.isException with
        | true =>
          simp only [queueOf, he, if_true]
          refine ⟨hr, hpre, hg, fun h => by simp [TState.step] at h, fun _ h => by
            simp [TState.step] at h, fun h => by simp [TState.step] at h, fun _ _ => ?_⟩
          exact Or.inr (Or.inr ⟨e, rfl, he, rfl⟩)
        | false =>
          simp only [queueOf, he, Bool.false_eq_true, if_false]
          exact ⟨hr, hpre, hg, hsp, hns, fun h => by simp [TState.step] at h, fun _ _ => Or.inl ⟨Or.inr rfl, by
            simp [TState.step, queueOf, he]⟩⟩
    · simp at h
    · simp at h
  | yielded l => exact ⟨hr, hpre, hg, hsp, hns, hqa, hqd⟩
  | raised e => exact ⟨hr, hpre, hg, hsp, hns, hqa, hqd⟩

theorem TInv.step_interrupt {σ : Type} {s0 : σ} {T : List (Act σ)} {res : Except PyExc ℝ}
    {t : TState σ} (h : TInv s0 T res t) : TInv s0 T res (t.step .interrupt) := by
  obtain ⟨hr, ⟨dn, ⟨rest, hT, hal, hdead⟩, hsh⟩, hg, hsp, hns, hqa, hqd⟩ := h
  obtain ⟨sh, alive, todo, result, stop, queue, pc, comp, since⟩ := t
  simp only at *
  cases pc with
  | polling =>
    obtain ⟨b, hgd, hc, h0⟩ := hg
    refine ⟨hr, ⟨dn, ⟨rest, hT, hal, fun _ h => by simp [TState.step] at h⟩, hsh⟩,
      ⟨b, hgd, hc, fun h => by simp [TState.step] at h⟩, fun _ => Or.inl rfl,
      fun h => by simp [TState.step] at h, fun h => ⟨(hqa h).1, Or.inr rfl⟩,
      fun _ h => by simp [TState.step] at h⟩
  | joining => exact ⟨hr, ⟨dn, ⟨rest, hT, hal, hdead⟩, hsh⟩, hg, hsp, hns, hqa, hqd⟩
  | getting => exact ⟨hr, ⟨dn, ⟨rest, hT, hal, hdead⟩, hsh⟩, hg, hsp, hns, hqa, hqd⟩
  | yielded l => exact ⟨hr, ⟨dn, ⟨rest, hT, hal, hdead⟩, hsh⟩, hg, hsp, hns, hqa, hqd⟩
  | raised e => exact ⟨hr, ⟨dn, ⟨rest, hT, hal, hdead⟩, hsh⟩, hg, hsp, hns, hqa, hqd⟩

theorem TInv.step {σ : Type} {s0 : σ} {T : List (Act σ)} {res : Except PyExc ℝ}
    {t : TState σ} (h : TInv s0 T res t) (c : Sched) : TInv s0 T res (t.step c) := by
  cases c
  · exact h.step_worker
  · exact h.step_main
  · exact h.step_interrupt

theorem TInv.exec {σ : Type} {s0 : σ} {T : List (Act σ)} {res : Except PyExc ℝ}
    (sch : List Sched) : ∀ {t : TState σ}, TInv s0 T res t → TInv s0 T res (t.exec sch) := by
  induction sch with
  | nil => intro t h; exact h
  | cons c sch ih => intro t h; exact ih (h.step c)

theorem TInv.startEpoch (env : Env Θ Ω N P) (ph : Physics Θ I P S R) (cw : ℤ) (reg : Option R)
    (dt : ℝ) (bs : List (Minibatch I P)) (s : RunState Θ Ω N) :
    TInv s (epochActs env ph cw reg dt bs s) (runEpoch env ph cw reg dt (some bs) s).2
      (startEpoch env ph cw reg dt bs s) :=
  TInv.start _ _ _ (epochActs_guard env ph cw reg dt bs s)

/-! ### stop flag and progress -/

theorem step_stop_of_ne {σ : Type} (t : TState σ) (c : Sched) (h : c ≠ .interrupt) :
    (t.step c).stop = t.stop := by
  cases c with
  | interrupt => exact absurd rfl h
  | worker =>
    unfold TState.step
    repeat' split
    all_goals first | rfl | contradiction
  | main =>
    unfold TState.step
    repeat' split
    all_goals first | rfl | contradiction

theorem exec_stop_false {σ : Type} (sch : List Sched) (h : Sched.interrupt ∉ sch) :
    ∀ t : TState σ, (t.exec sch).stop = t.stop := by
  induction sch with
  | nil => intro t; rfl
  | cons c sch ih =>
    intro t
    simp only [List.mem_cons, not_or] at h
    show ((t.step c).exec sch).stop = t.stop
    rw [ih h.2, step_stop_of_ne t c (fun e => h.1 e.symm)]

/-- Remaining worker effort. -/
def TState.effort {σ : Type} (t : TState σ) : ℕ := if t.alive then t.todo.length + 1 else 0

theorem step_effort {σ : Type} (t : TState σ) (c : Sched) :
    (t.step c).effort ≤ t.effort - (if c = .worker then 1 else 0) := by
  obtain ⟨sh, alive, todo, result, stop, queue, pc, comp, since⟩ := t
  cases c with
  | interrupt => cases pc <;> cases alive <;> simp [TState.step, TState.effort]
  | main =>
    unfold TState.step
    simp only [TState.effort]
    repeat' split
    all_goals first | contradiction | (cases alive <;> simp_all)
  | worker =>
    unfold TState.step
    simp only [TState.effort]
    cases alive with
    | false => simp
    | true =>
      cases todo with
      | nil =>
        cases result with
        | ok l => simp
        | error e => cases he : e.isException <;> simp [he]
      | cons a r => cases a <;> cases stop <;> simp

theorem exec_effort {σ : Type} (sch : List Sched) : ∀ t : TState σ,
    (t.exec sch).effort ≤ t.effort - sch.count .worker := by
  induction sch with
  | nil => intro t; simp [TState.exec]
  | cons c sch ih =>
    intro t
    have h1 := step_effort t c
    have h2 := ih (t.step c)
    show ((t.step c).exec sch).effort ≤ _
    cases c <;> simp at h1 ⊢ <;> omega

/-- Remaining effort of the main thread once the worker is dead; 0 means finished or
waiting on an empty queue. -/
def TState.mrank {σ : Type} (t : TState σ) : ℕ :=
  match t.pc with
  | .polling => 2
  | .joining => 1
  | .getting => if t.queue.isEmpty then 0 else 1
  | .yielded _ => 0
  | .raised _ => 0

theorem step_dead {σ : Type} {t : TState σ} (h : t.alive = false) (c : Sched) :
    (t.step c).alive = false ∧ (t.step c).mrank ≤ t.mrank - (if c = .main then 1 else 0) := by
  obtain ⟨sh, alive, todo, result, stop, queue, pc, comp, since⟩ := t
  simp only at h
  subst h
  cases c with
  | worker => simp [TState.step]
  | interrupt => cases pc <;> simp [TState.step, TState.mrank]
  | main =>
    cases pc with
    | polling => cases queue <;> simp [TState.step, TState.mrank]
    | joining => simp [TState.step, TState.mrank]
    | getting =>
      cases queue with
      | nil => simp [TState.step, TState.mrank]
      | cons q qs => cases q <;> simp [TState.step, TState.mrank]
    | yielded l => simp [TState.step, TState.mrank]
    | raised e => simp [TState.step, TState.mrank]

theorem exec_dead {σ : Type} (sch : List Sched) : ∀ {t : TState σ}, t.alive = false →
    (t.exec sch).alive = false ∧ (t.exec sch).mrank ≤ t.mrank - sch.count .main := by
  induction sch with
  | nil => intro t h; simp [TState.exec, h]
  | cons c sch ih =>
    intro t h
    obtain ⟨h1, h2⟩ := step_dead h c
    obtain ⟨h3, h4⟩ := ih h1
    refine ⟨h3, ?_⟩
    show ((t.step c).exec sch).mrank ≤ _
    cases c <;> simp at h2 ⊢ <;> omega

theorem exec_append {σ : Type} (t : TState σ) (s₁ s₂ : List Sched) :
    t.exec (s₁ ++ s₂) = (t.exec s₁).exec s₂ := by simp [TState.exec]

/-- Under any schedule giving the worker enough turns and then the main thread two, the
iteration ends, except when the main thread waits on a queue nobody will fill. -/
theorem exec_progress {σ : Type} (t : TState σ) (s₁ s₂ : List Sched)
    (h1 : t.effort ≤ s₁.count .worker) (h2 : 2 ≤ s₂.count .main) :
    (t.exec (s₁ ++ s₂)).alive = false ∧
    ((t.exec (s₁ ++ s₂)).pc.finished = true ∨
      ((t.exec (s₁ ++ s₂)).pc = .getting ∧ (t.exec (s₁ ++ s₂)).queue = [])) := by
  rw [exec_append]
  have hd : (t.exec s₁).alive = false := by
    have := exec_effort s₁ t
    have h0 : (t.exec s₁).effort = 0 := by omega
    unfold TState.effort at h0
    cases ha : (t.exec s₁).alive with
    | false => rfl
    | true => simp [ha] at h0
  obtain ⟨h3, h4⟩ := exec_dead s₂ hd
  refine ⟨h3, ?_⟩
  have hm : (t.exec s₁).mrank ≤ 2 := by
    unfold TState.mrank; repeat' split
    all_goals omega
  have h0 : ((t.exec s₁).exec s₂).mrank = 0 := by omega
  unfold TState.mrank at h0
  cases hp : ((t.exec s₁).exec s₂).pc with
  | polling => simp [hp] at h0
  | joining => simp [hp] at h0
  | getting =>
    right
    refine ⟨rfl, ?_⟩
    simp only [hp] at h0
    cases hq : ((t.exec s₁).exec s₂).queue with
    | nil => rfl
    | cons a b => simp [hq] at h0
  | yielded l => left; rfl
  | raised e => left; rfl

end
end Cdtools
