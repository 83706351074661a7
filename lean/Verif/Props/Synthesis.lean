/-
C68: `synthesize_reconstructions`.
-/
import Verif.Model.ReconSets
import Verif.Props.FindShift
import Verif.Props.Standardize

set_option linter.unusedSectionVars false

namespace Cdtools
open Finset ZMod

variable {n m r a b c d : ℕ} [NeZero n] [NeZero m] [NeZero a] [NeZero b] [NeZero c] [NeZero d]

/-! ### Specification -/

/-- `A` is the reconstruction `R`, standardized and then shifted — probe modes and object by one common vector. -/
def IsAligned (S : Finset (ZMod a × ZMod b)) (ramp : Bool) (R A : Recon r n m a b) : Prop :=
  ∃ R' s0 s1, standardize S ramp R = some R' ∧ A.obj = sincShift R'.obj s0 s1 ∧
    ∀ k, A.probe k = sincShift (R'.probe k) s0 s1

/-! ### Lemmas -/

theorem sincShift_zero (w : Wave n m) : sincShift w 0 0 = w := by
  have := integer_shift_is_roll w 0 0
  simpa using this

theorem synthLoop_spec (useProbe ramp : Bool) (r0 c0 : ℕ) (Rs : List (Recon r n m a b)) :
    ∀ s s' : SynthState r n m a b, synthLoop useProbe ramp c d r0 c0 s Rs = .ok (some s') →
      ∃ As : List (Recon r n m a b), List.Forall₂ (IsAligned (rectSlice a b c d r0 c0) ramp) Rs As ∧
        s'.stack = s.stack ++ As.map Recon.obj ∧
        (∀ i j, s'.obj i j = s.obj i j + (As.map fun A => A.obj i j).sum) ∧
        (∀ k i j, s'.probe k i j = s.probe k i j + (As.map fun A => A.probe k i j).sum) := by
  induction Rs with
  | nil =>
    intro s s' h
    simp only [synthLoop, Except.ok.injEq, Option.some.injEq] at h
    subst h
    exact ⟨[], List.Forall₂.nil, by simp, by simp, by simp⟩
  | cons R Rs ih =>
    intro s s' h
    simp only [synthLoop] at h
    cases h1 : synthStep useProbe ramp c d r0 c0 s R with
    | error e => rw [h1] at h; simp at h
    | ok o =>
      cases o with
      | none => rw [h1] at h; simp at h
      | some s1 =>
        rw [h1] at h
        simp only at h
        obtain ⟨As, hA, hst, hobj, hpr⟩ := ih s1 s' h
        unfold synthStep at h1
        cases hstd : standardize (rectSlice a b c d r0 c0) ramp R with
        | none => rw [hstd] at h1; simp at h1
        | some R' =>
          rw [hstd] at h1
          simp only at h1
          generalize (if useProbe then findShift 50 (s.probe 0) (R'.probe 0)
            else findShift 50 (cropWave c d r0 c0 s.obj) (cropWave c d r0 c0 R'.obj)) = sh at h1
          cases sh with
          | error e => simp at h1
          | ok sh =>
            simp only [Except.ok.injEq, Option.some.injEq] at h1
            subst h1
            refine ⟨⟨fun k => sincShift (R'.probe k) sh.1 sh.2, sincShift R'.obj sh.1 sh.2⟩ :: As,
              List.Forall₂.cons ⟨R', sh.1, sh.2, hstd, rfl, fun k => rfl⟩ hA, ?_, ?_, ?_⟩
            · rw [hst]; simp
            · intro i j; rw [hobj]; simp; ring
            · intro k i j; rw [hpr]; simp; ring

/-! ### C68 -/

/-- **C68.** When `synthesize_reconstructions` returns, the stack it returns has one object per reconstruction, in
order: the first is the standardized first object, each further one is a standardized object moved as a whole,
together with its probe; and the synthesized object and probe modes are the means over all reconstructions. -/
theorem synthesize_is_mean (useProbe ramp : Bool) (r0 c0 : ℕ) (R : Recon r n m a b) (Rs : List (Recon r n m a b))
    (S : Recon r n m a b) (stack : List (Wave a b))
    (h : synthesize useProbe ramp c d r0 c0 R Rs = .ok (some (S, stack))) :
    ∃ (A : Recon r n m a b) (As : List (Recon r n m a b)),
      standardize (rectSlice a b c d r0 c0) ramp R = some A ∧
      List.Forall₂ (IsAligned (rectSlice a b c d r0 c0) ramp) Rs As ∧
      stack = (A :: As).map Recon.obj ∧
      (∀ i j, S.obj i j = ((A :: As).map fun q => q.obj i j).sum / ((Rs.length + 1 : ℕ) : ℂ)) ∧
      (∀ k i j, S.probe k i j = ((A :: As).map fun q => q.probe k i j).sum / ((Rs.length + 1 : ℕ) : ℂ)) := by
  unfold synthesize at h
  cases hstd : standardize (rectSlice a b c d r0 c0) ramp R with
  | none => rw [hstd] at h; simp at h
  | some A =>
    rw [hstd] at h
    simp only at h
    cases hl : synthLoop useProbe ramp c d r0 c0 ⟨A.probe, A.obj, [A.obj]⟩ Rs with
    | error e => rw [hl] at h; simp at h
    | ok o =>
      cases o with
      | none => rw [hl] at h; simp at h
      | some s =>
        rw [hl] at h
        simp only [Except.ok.injEq, Option.some.injEq, Prod.mk.injEq] at h
        obtain ⟨h1, h2⟩ := h
        obtain ⟨As, hA, hst, hobj, hpr⟩ := synthLoop_spec useProbe ramp r0 c0 Rs _ s hl
        have hdiv : (((Rs.length : ℤ) - 1 + 2 : ℤ) : ℂ) = ((Rs.length + 1 : ℕ) : ℂ) := by push_cast; ring
        refine ⟨A, As, rfl, hA, ?_, ?_, ?_⟩
        · rw [← h2, hst]; simp
        · intro i j
          rw [← h1]
          simp only [hobj, List.map_cons, List.sum_cons]
          rw [hdiv]
        · intro k i j
          rw [← h1]
          simp only [hpr, List.map_cons, List.sum_cons]
          rw [hdiv]

/-- Summing over the pixels of the slice is summing over the cropped object. -/
theorem sum_rectSlice (r0 c0 : ℕ) (hr : r0 + c ≤ a) (hc : c0 + d ≤ b) (w : Wave a b) :
    ∑ p ∈ rectSlice a b c d r0 c0, w p.1 p.2 = ∑ i : ZMod c, ∑ j : ZMod d, cropWave c d r0 c0 w i j := by
  rw [← Fintype.sum_prod_type' (f := fun (i : ZMod c) (j : ZMod d) => cropWave c d r0 c0 w i j)]
  have hva : ∀ i : ZMod c, (((r0 + i.val : ℕ) : ZMod a)).val = r0 + i.val := fun i =>
    ZMod.val_cast_of_lt (lt_of_lt_of_le (Nat.add_lt_add_left i.val_lt r0) hr)
  have hvb : ∀ j : ZMod d, (((c0 + j.val : ℕ) : ZMod b)).val = c0 + j.val := fun j =>
    ZMod.val_cast_of_lt (lt_of_lt_of_le (Nat.add_lt_add_left j.val_lt c0) hc)
  symm
  refine sum_bij' (fun q _ => (((r0 + q.1.val : ℕ) : ZMod a), ((c0 + q.2.val : ℕ) : ZMod b)))
    (fun p _ => (((p.1.val - r0 : ℕ) : ZMod c), ((p.2.val - c0 : ℕ) : ZMod d))) ?_ ?_ ?_ ?_ ?_
  · intro q _
    have h1 := q.1.val_lt
    have h2 := q.2.val_lt
    simp only [rectSlice, mem_filter, mem_univ, true_and, hva, hvb]
    omega
  · intro p _; exact mem_univ _
  · intro q _
    ext
    · simp only [hva]
      rw [Nat.add_sub_cancel_left, ZMod.natCast_zmod_val]
    · simp only [hvb]
      rw [Nat.add_sub_cancel_left, ZMod.natCast_zmod_val]
  · intro p hp
    simp only [rectSlice, mem_filter, mem_univ, true_and] at hp
    obtain ⟨h1, h2, h3, h4⟩ := hp
    ext
    · simp only
      rw [ZMod.val_cast_of_lt (by omega), show r0 + (p.1.val - r0) = p.1.val by omega, ZMod.natCast_zmod_val]
    · simp only
      rw [ZMod.val_cast_of_lt (by omega), show c0 + (p.2.val - c0) = p.2.val by omega, ZMod.natCast_zmod_val]
  · intro q _; rfl

/-- **C68** (phase): the object that synthesis starts from has no overall phase over the window that the caller selected. -/
theorem synthesize_first_phase (ramp : Bool) (useProbe : Bool) (r0 c0 : ℕ) (hr : r0 + c ≤ a) (hc : c0 + d ≤ b)
    (R : Recon r n m a b) (Rs : List (Recon r n m a b)) (S : Recon r n m a b) (stack : List (Wave a b))
    (h : synthesize useProbe ramp c d r0 c0 R Rs = .ok (some (S, stack))) :
    ∃ first rest, stack = first :: rest ∧ ∃ x : ℝ, 0 ≤ x ∧ ∑ i : ZMod c, ∑ j : ZMod d,
      first ((r0 + i.val : ℕ) : ZMod a) ((c0 + j.val : ℕ) : ZMod b) = x := by
  obtain ⟨A, As, hA, -, hst, -⟩ := synthesize_is_mean useProbe ramp r0 c0 R Rs S stack h
  obtain ⟨-, -, x, hx, hsum⟩ := standardize_normal_form hA
  refine ⟨A.obj, As.map Recon.obj, hst, x, hx, ?_⟩
  rw [← hsum, sum_rectSlice r0 c0 hr hc]
  rfl

/-- The number of objects in the stack. -/
theorem synthesize_stack_length (useProbe ramp : Bool) (r0 c0 : ℕ) (R : Recon r n m a b) (Rs : List (Recon r n m a b))
    (S : Recon r n m a b) (stack : List (Wave a b))
    (h : synthesize useProbe ramp c d r0 c0 R Rs = .ok (some (S, stack))) : stack.length = Rs.length + 1 := by
  obtain ⟨A, As, -, hA, rfl, -⟩ := synthesize_is_mean useProbe ramp r0 c0 R Rs S stack h
  simp [hA.length_eq]

/-- **C68** (one reconstruction): a single reconstruction is returned standardized; NaN only for a vanishing first
mode (`standardize_defined`). -/
theorem synthesize_single (useProbe ramp : Bool) (r0 c0 : ℕ) (R : Recon r n m a b) :
    synthesize useProbe ramp c d r0 c0 R [] =
      .ok ((standardize (rectSlice a b c d r0 c0) ramp R).map fun A => (A, [A.obj])) := by
  unfold synthesize
  cases standardize (rectSlice a b c d r0 c0) ramp R with
  | none => rfl
  | some A => simp [synthLoop]

/-- **C68** (repeats): if all reconstructions have the same standardization `A` (for instance because they differ by
scaling and phases only, `standardize_canonical`), and the images used for the alignment are at least 30 × 30
pixels, then nothing is moved: the result is `A` and the stack holds copies of its object. -/
theorem synthesize_repeats (useProbe ramp : Bool) (r0 c0 : ℕ) (R A : Recon r n m a b) (Rs : List (Recon r n m a b))
    (hR : standardize (rectSlice a b c d r0 c0) ramp R = some A)
    (hRs : ∀ Q ∈ Rs, standardize (rectSlice a b c d r0 c0) ramp Q = some A)
    (hsize : if useProbe then 30 ≤ n ∧ 30 ≤ m else 30 ≤ c ∧ 30 ≤ d) :
    synthesize useProbe ramp c d r0 c0 R Rs = .ok (some (A, List.replicate (Rs.length + 1) A.obj)) := by
  have shift : ∀ q : ℕ, (if useProbe = true then findShift 50 (fun i j => ((q + 1 : ℕ) : ℂ) * A.probe 0 i j) (A.probe 0)
      else findShift 50 (cropWave c d r0 c0 fun i j => ((q + 1 : ℕ) : ℂ) * A.obj i j) (cropWave c d r0 c0 A.obj)) =
      .ok (0, 0) := by
    intro q
    have hq : (((q + 1 : ℕ) : ℂ)) ≠ 0 := by exact_mod_cast Nat.succ_ne_zero q
    cases useProbe with
    | true =>
      simp only [if_true] at hsize ⊢
      exact find_shift_copy hsize.1 hsize.2 50 (A.probe 0) _ hq
    | false =>
      simp only [Bool.false_eq_true, if_false] at hsize ⊢
      exact find_shift_copy hsize.1 hsize.2 50 (cropWave c d r0 c0 A.obj) _ hq
  have loop : ∀ (Qs : List (Recon r n m a b)) (q : ℕ), (∀ Q ∈ Qs, standardize (rectSlice a b c d r0 c0) ramp Q = some A) →
      synthLoop useProbe ramp c d r0 c0 ⟨fun k i j => ((q + 1 : ℕ) : ℂ) * A.probe k i j,
        fun i j => ((q + 1 : ℕ) : ℂ) * A.obj i j, List.replicate (q + 1) A.obj⟩ Qs =
      .ok (some ⟨fun k i j => ((q + Qs.length + 1 : ℕ) : ℂ) * A.probe k i j,
        fun i j => ((q + Qs.length + 1 : ℕ) : ℂ) * A.obj i j, List.replicate (q + Qs.length + 1) A.obj⟩) := by
    intro Qs
    induction Qs with
    | nil => intro q _; rfl
    | cons Q Qs ih =>
      intro q hQ
      have step : synthStep useProbe ramp c d r0 c0 ⟨fun k i j => ((q + 1 : ℕ) : ℂ) * A.probe k i j,
          fun i j => ((q + 1 : ℕ) : ℂ) * A.obj i j, List.replicate (q + 1) A.obj⟩ Q =
          .ok (some ⟨fun k i j => ((q + 1 + 1 : ℕ) : ℂ) * A.probe k i j,
            fun i j => ((q + 1 + 1 : ℕ) : ℂ) * A.obj i j, List.replicate (q + 1 + 1) A.obj⟩) := by
        unfold synthStep
        rw [hQ Q (by simp)]
        simp only
        rw [shift q]
        simp only [sincShift_zero]
        congr 3
        · funext k i j; push_cast; ring
        · funext i j; push_cast; ring
        · rw [← List.replicate_succ']
      simp only [synthLoop, step]
      rw [ih (q + 1) fun Q' hQ' => hQ Q' (by simp [hQ'])]
      have : q + 1 + Qs.length + 1 = q + (Q :: Qs).length + 1 := by simp; omega
      rw [this]
  unfold synthesize
  rw [hR]
  simp only
  have h0 := loop Rs 0 hRs
  have e : (⟨A.probe, A.obj, [A.obj]⟩ : SynthState r n m a b) = ⟨fun k i j => ((0 + 1 : ℕ) : ℂ) * A.probe k i j,
      fun i j => ((0 + 1 : ℕ) : ℂ) * A.obj i j, List.replicate (0 + 1) A.obj⟩ := by
    simp
  rw [e, h0]
  simp only
  have hdiv : (((Rs.length : ℤ) - 1 + 2 : ℤ) : ℂ) = ((0 + Rs.length + 1 : ℕ) : ℂ) := by push_cast; ring
  have hne : ((0 + Rs.length + 1 : ℕ) : ℂ) ≠ 0 := Nat.cast_ne_zero.2 (by omega)
  rw [hdiv]
  congr 3
  · cases A with
    | mk p o =>
      congr 1
      · funext k i j; exact mul_div_cancel_left₀ _ hne
      · funext i j; exact mul_div_cancel_left₀ _ hne
  · simp

/-- A small reconstruction: one bright pixel, seen by a probe of one pixel. -/
noncomputable def impulseRecon : Recon 0 1 1 30 30 :=
  { probe := fun _ _ _ => 1, obj := fun i j => if i = 0 ∧ j = 0 then 1 else 0 }

/-- Non-vacuity of `synthesize_repeats`: three copies of `impulseRecon`, aligned on the object. -/
example : synthesize false false 30 30 0 0 impulseRecon [impulseRecon, impulseRecon] =
    .ok (some (impulseRecon, [impulseRecon.obj, impulseRecon.obj, impulseRecon.obj])) := by
  have hn : stdNormalization (impulseRecon.probe 0) = 1 := by
    simp [stdNormalization, impulseRecon]
  have hsl : ∑ p ∈ rectSlice 30 30 30 30 0 0, impulseRecon.obj p.1 p.2 = 1 := by
    rw [sum_eq_single (0, 0)]
    · simp [impulseRecon]
    · rintro ⟨i, j⟩ - h
      simp only [impulseRecon]
      rw [if_neg]
      rintro ⟨rfl, rfl⟩
      exact h rfl
    · intro h
      exact absurd (by simp [rectSlice]) h
  have hstd : standardize (rectSlice 30 30 30 30 0 0) false impulseRecon = some impulseRecon := by
    have hsc : stdScale impulseRecon = impulseRecon := by
      unfold stdScale
      simp only [hn]
      simp
    unfold standardize
    rw [if_neg (by rw [hn]; exact one_ne_zero), if_neg (by decide), hsc]
    congr 1
    unfold stdPhase
    rw [hsl]
    have h1 : ∀ x : ℂ, unphase 1 x = x := by
      intro x; have := unphase_real (x := 1) (by norm_num) x; simpa using this
    have h2 : ∀ k : Fin 1, ∑ i, ∑ j, impulseRecon.probe k i j = 1 := by
      intro k; simp [impulseRecon]
    simp only [h2, h1]
  have := synthesize_repeats (c := 30) (d := 30) false false 0 0 impulseRecon impulseRecon [impulseRecon, impulseRecon]
    hstd (by intro Q hQ; simp at hQ; rw [hQ]; exact hstd) (by simp)
  simpa using this

end Cdtools
