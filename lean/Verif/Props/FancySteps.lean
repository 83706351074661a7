/-
**C120**: an Adam or SGD reconstruction of a `FancyPtycho` model changes only what its data can see.
-/
import Verif.Model.FancySteps
import Verif.Props.Descent
import Verif.Props.FancyGradient

set_option linter.unusedSectionVars false

namespace Cdtools
open Finset Topology

variable {n m a b H W h w N r k : ℕ} [NeZero n] [NeZero m] [NeZero a] [NeZero b]

/-! ### Specification -/

/-- Object pixel `(i, j)` is in the window of an exposure at pixel position `p`. -/
def InWindow (a b : ℕ) (p : Fin 2 → ℝ) (i : Fin H) (j : Fin W) : Prop :=
  ⌊p 0⌋ ≤ (i.val : ℤ) ∧ (i.val : ℤ) < ⌊p 0⌋ + a ∧ ⌊p 1⌋ ≤ (j.val : ℤ) ∧ (j.val : ℤ) < ⌊p 1⌋ + b

/-- `θ'` has the values of `θ` wherever the data of a run says nothing: `seen e θs` means that exposure `e` has been simulated with the
parameters `θs`. Probe outside its support, object outside all windows, background under masked pixels, and weights, offsets and Fourier shifts
of exposures that were never simulated. -/
structure UnseenKept (M : Fancy n m a b N k) (mask : Option (Fin h × Fin w → Bool))
    (seen : (Fin N × (Fin 3 → ℝ)) → FancyTheta n m H W h w N r k → Prop) (θ θ' : FancyTheta n m H W h w N r k) : Prop where
  probe : ∀ q x y, M.support x y = false → θ'.1 q x y = θ.1 q x y
  obj : ∀ i j, (∀ e θs, seen e θs → ¬ InWindow a b ((M.withTheta θs).pixTrans e.1 e.2) i j) → θ'.2.1 i j = θ.2.1 i j
  background : ∀ x, ¬ Unmasked mask x → θ'.2.2.1 x.1 x.2 = θ.2.2.1 x.1 x.2
  exposure : ∀ idx, (∀ e θs, seen e θs → e.1 ≠ idx) → θ'.2.2.2.1 idx = θ.2.2.2.1 idx ∧ θ'.2.2.2.2.1 idx = θ.2.2.2.2.1 idx ∧
    θ'.2.2.2.2.2.1 idx = θ.2.2.2.2.2.1 idx ∧ θ'.2.2.2.2.2.2 idx = θ.2.2.2.2.2.2 idx

/-! ### Coordinates -/

@[simp] theorem part_re (z : ℂ) : part z false = z.re := rfl
@[simp] theorem part_im (z : ℂ) : part z true = z.im := rfl

theorem fancyWrite_read (θ : FancyTheta n m H W h w N r k) : fancyWrite (fancyRead θ) = θ := rfl

theorem fancyRead_write (v : FancyCoord n m H W h w N r k → ℝ) : fancyRead (fancyWrite v) = v := by
  funext c
  rcases c with ⟨j, x, y, im⟩ | ⟨i, j, im⟩ | ⟨i, j⟩ | i | ⟨i, q, j, im⟩ | ⟨i, c⟩ | ⟨i, c⟩ <;> first | rfl | (cases im <;> rfl)

/-- The change of the parameters when one coordinate changes. -/
noncomputable def fancyDir (c : FancyCoord n m H W h w N r k) : FancyTheta n m H W h w N r k := fancyWrite (Pi.single c 1)

theorem fancyWrite_update (v : FancyCoord n m H W h w N r k → ℝ) (c : FancyCoord n m H W h w N r k) (x : ℝ) :
    fancyWrite (Function.update v c x) = fancyWrite v + (x - v c) • fancyDir c := by
  have hz : ∀ d, Function.update v c x d = v d + (x - v c) * (Pi.single c 1 : FancyCoord n m H W h w N r k → ℝ) d := fun d => by
    by_cases hd : d = c
    · subst hd; simp
    · simp [hd]
  unfold fancyDir fancyWrite
  simp only [hz]
  refine Prod.ext ?_ (Prod.ext ?_ (Prod.ext ?_ (Prod.ext ?_ (Prod.ext ?_ (Prod.ext ?_ ?_)))))
  · funext j y z; apply Complex.ext <;> simp
  · funext j y; apply Complex.ext <;> simp
  · funext j y; simp
  · funext j; simp
  · funext j y z; apply Complex.ext <;> simp
  · funext j y; simp
  · funext j y; simp

/-! ### Runs -/

/-- If every step of a run keeps a property of the state under which coordinate `c` does not move, the run does not move `c`. -/
theorem fancyRun_keeps {σ : Type} (M : Fancy n m a b N k) (kind : LossKind) (mask : Option (Fin h × Fin w → Bool))
    (c : FancyCoord n m H W h w N r k) (Inv : σ → Prop) :
    ∀ (steps : List (OptStep σ (FancyCoord n m H W h w N r k) × Minibatch (Fin N × (Fin 3 → ℝ)) (Fin h × Fin w → ℝ)))
      (s : σ × FancyTheta n m H W h w N r k)
      (_ : ∀ pre x post t, steps = pre ++ x :: post → fancyRun M kind mask pre s = some t → Inv t.1 →
        (∀ e ∈ x.2.inputs, ((M.withTheta t.2).shotPixels h w e).isSome) →
        let u := x.1 (gradOf (fun v => fancyTotal M kind mask x.2 (fancyWrite v)) (fancyRead t.2)) (t.1, fancyRead t.2)
        Inv u.1 ∧ u.2 c = fancyRead t.2 c)
      (s' : σ × FancyTheta n m H W h w N r k), Inv s.1 → fancyRun M kind mask steps s = some s' →
        fancyRead s'.2 c = fancyRead s.2 c := by
  intro steps
  induction steps with
  | nil =>
    intro s _ s' hi h
    rw [← Option.some.inj h]
  | cons x steps ih =>
    intro s hx s' hi h
    obtain ⟨step, B⟩ := x
    have hrun := h
    unfold fancyRun at h
    split_ifs at h with hs
    obtain ⟨h1, h2⟩ := hx [] _ steps s rfl rfl hi hs
    have h3 := ih _ (fun pre y post t he ht hit hst => hx ((step, B) :: pre) y post t (by rw [he]; rfl)
      (by unfold fancyRun; rw [if_pos hs]; exact ht) hit hst) s' h1 h
    refine h3.trans ?_
    rw [← h2]
    exact congrFun (fancyRead_write _) c

/-- A coordinate that an exposure cannot see, and a background pixel of a masked pixel, has no gradient. -/
theorem fancy_gradOf_zero (M : Fancy n m a b N k) (kind : LossKind) (mask : Option (Fin h × Fin w → Bool))
    (B : Minibatch (Fin N × (Fin 3 → ℝ)) (Fin h × Fin w → ℝ)) (θ : FancyTheta n m H W h w N r k) (c : FancyCoord n m H W h w N r k)
    (hs : ∀ e ∈ B.inputs, ((M.withTheta θ).shotPixels h w e).isSome)
    (hin : ∀ e ∈ B.inputs, ∀ c : Fin 2, 0 ≤ ⌊(M.withTheta θ).pixTrans e.1 e.2 c⌋)
    (hag : ∀ e ∈ B.inputs, AgreeAt a b M.support ((M.withTheta θ).pixTrans e.1 e.2) e.1 (fancyDir c) 0)
    (hbg : ∀ x, Unmasked mask x → (fancyDir c).2.2.1 x.1 x.2 = 0) :
    gradOf (fun v => fancyTotal M kind mask B (fancyWrite v)) (fancyRead θ) c = 0 := by
  have hconst : (fun x => fancyTotal M kind mask B (fancyWrite (Function.update (fancyRead θ) c x))) = fun _ => fancyTotal M kind mask B θ := by
    funext x
    rw [fancyWrite_update, fancyWrite_read]
    refine fancy_loss_local M kind mask θ (fancyDir c) B (fun e he => ⟨?_, hin e he, hag e he⟩) hbg (fancyTotal M kind mask B) rfl _
    have := hs e he
    unfold Fancy.shotPixels at this
    cases hQ : (M.withTheta θ).forward e.1 e.2 with
    | error ex => rw [hQ] at this; simp at this
    | ok Q =>
      rw [hQ] at this
      refine ⟨Q, rfl, ?_⟩
      by_contra hne
      simp [hne] at this
  unfold gradOf
  rw [hconst]
  exact deriv_const _ _

/-- **C120** for any optimizer that does not move a coordinate without a gradient. -/
theorem fancyRun_unseen {σ : Type} (M : Fancy n m a b N k) (kind : LossKind) (mask : Option (Fin h × Fin w → Bool))
    (Inv : FancyCoord n m H W h w N r k → σ → Prop)
    (steps : List (OptStep σ (FancyCoord n m H W h w N r k) × Minibatch (Fin N × (Fin 3 → ℝ)) (Fin h × Fin w → ℝ)))
    (hk : ∀ x ∈ steps, ∀ c g s, Inv c s.1 → g c = 0 → Inv c (x.1 g s).1 ∧ (x.1 g s).2 c = s.2 c)
    (s s' : σ × FancyTheta n m H W h w N r k) (h0 : ∀ c, Inv c s.1) (hrun : fancyRun M kind mask steps s = some s')
    (seen : (Fin N × (Fin 3 → ℝ)) → FancyTheta n m H W h w N r k → Prop)
    (hseen : ∀ pre x post t, steps = pre ++ x :: post → fancyRun M kind mask pre s = some t → ∀ e ∈ x.2.inputs, seen e t.2)
    (hin : ∀ e θs, seen e θs → ∀ d : Fin 2, 0 ≤ ⌊(M.withTheta θs).pixTrans e.1 e.2 d⌋) : UnseenKept M mask seen s.2 s'.2 := by
  have key : ∀ c : FancyCoord n m H W h w N r k,
      (∀ e θs, seen e θs → AgreeAt a b M.support ((M.withTheta θs).pixTrans e.1 e.2) e.1 (fancyDir c) 0) →
      (∀ x, Unmasked mask x → (fancyDir c).2.2.1 x.1 x.2 = 0) → fancyRead s'.2 c = fancyRead s.2 c := by
    intro c hag hbg
    refine fancyRun_keeps M kind mask c (Inv c) steps s (fun pre x post t he ht hi hs => ?_) s' (h0 c) hrun
    have hmem : x ∈ steps := by rw [he]; simp
    exact hk x hmem c _ _ hi (fancy_gradOf_zero M kind mask x.2 t.2 c hs (fun e hx => hin e _ (hseen pre x post t he ht e hx))
      (fun e hx => hag e _ (hseen pre x post t he ht e hx)) hbg)
  constructor
  · intro q x y hxy
    have h1 : ∀ im, fancyRead s'.2 (.inl (q, x, y, im)) = fancyRead s.2 (.inl (q, x, y, im)) := fun im => by
      refine key _ (fun e θs _ => ⟨fun j x' y' h' => ?_, fun i j _ _ _ _ => ?_, ?_, ?_, ?_, ?_⟩) (fun z _ => ?_)
      · have : ¬ (x' = x ∧ y' = y) := fun hh => by rw [hh.1, hh.2, hxy] at h'; cases h'
        apply Complex.ext <;> simp [fancyDir, fancyWrite, Pi.single_apply] <;> intro _ h2 h3 <;> exact absurd ⟨h2, h3⟩ this
      all_goals simp [fancyDir, fancyWrite, Pi.single_apply]
      all_goals rfl
    exact Complex.ext (h1 false) (h1 true)
  · intro i j hout
    have h1 : ∀ im, fancyRead s'.2 (.inr (.inl (i, j, im))) = fancyRead s.2 (.inr (.inl (i, j, im))) := fun im => by
      refine key _ (fun e θs hs => ⟨fun j x' y' h' => ?_, fun i' j' a1 a2 a3 a4 => ?_, ?_, ?_, ?_, ?_⟩) (fun z _ => ?_)
      · simp [fancyDir, fancyWrite, Pi.single_apply]
        rfl
      · have : ¬ (i' = i ∧ j' = j) := fun hh => by
          obtain ⟨rfl, rfl⟩ := hh
          exact hout e θs hs ⟨a1, a2, a3, a4⟩
        apply Complex.ext <;> simp [fancyDir, fancyWrite, Pi.single_apply] <;> intro h2 h3 <;> exact absurd ⟨h2, h3⟩ this
      all_goals simp [fancyDir, fancyWrite, Pi.single_apply]
      all_goals rfl
    exact Complex.ext (h1 false) (h1 true)
  · intro x hx
    refine key (.inr (.inr (.inl (x.1, x.2)))) (fun e θs hs => ⟨fun j x' y' h' => ?_, fun i' j' a1 a2 a3 a4 => ?_, ?_, ?_, ?_, ?_⟩) (fun z hz => ?_)
    · simp [fancyDir, fancyWrite, Pi.single_apply]
      rfl
    · simp [fancyDir, fancyWrite, Pi.single_apply]
      rfl
    · simp [fancyDir, fancyWrite, Pi.single_apply]
    · simp [fancyDir, fancyWrite, Pi.single_apply]
      rfl
    · simp [fancyDir, fancyWrite, Pi.single_apply]
      rfl
    · simp [fancyDir, fancyWrite, Pi.single_apply]
      rfl
    · have : ¬ (z.1 = x.1 ∧ z.2 = x.2) := fun hh => hx (by rwa [show z = x from Prod.ext hh.1 hh.2] at hz)
      simp [fancyDir, fancyWrite, Pi.single_apply]
      exact fun h2 => this ⟨congrArg Prod.fst h2, congrArg Prod.snd h2⟩
  · intro idx hidx
    refine ⟨?_, ?_, ?_, ?_⟩
    · refine key (.inr (.inr (.inr (.inl idx)))) (fun e θs hs => ⟨fun j' x' y' h' => ?_, fun i' j' a1 a2 a3 a4 => ?_, ?_, ?_, ?_, ?_⟩) (fun z hz => ?_)
      all_goals first | simp [fancyDir, fancyWrite, Pi.single_apply, hidx _ _ (by assumption)] | simp [fancyDir, fancyWrite, Pi.single_apply]
      all_goals rfl
    · funext q j
      have h1 : ∀ im, fancyRead s'.2 (.inr (.inr (.inr (.inr (.inl (idx, q, j, im)))))) =
          fancyRead s.2 (.inr (.inr (.inr (.inr (.inl (idx, q, j, im)))))) := fun im => by
        refine key (.inr (.inr (.inr (.inr (.inl (idx, q, j, im)))))) (fun e θs hs => ⟨fun j' x' y' h' => ?_, fun i' j' a1 a2 a3 a4 => ?_, ?_, ?_, ?_, ?_⟩) (fun z hz => ?_)
        all_goals first | simp [fancyDir, fancyWrite, Pi.single_apply, hidx _ _ (by assumption)] | simp [fancyDir, fancyWrite, Pi.single_apply]
        all_goals rfl
      exact Complex.ext (h1 false) (h1 true)
    · funext d
      refine key (.inr (.inr (.inr (.inr (.inr (.inl (idx, d))))))) (fun e θs hs => ⟨fun j' x' y' h' => ?_, fun i' j' a1 a2 a3 a4 => ?_, ?_, ?_, ?_, ?_⟩) (fun z hz => ?_)
      all_goals first | simp [fancyDir, fancyWrite, Pi.single_apply, hidx _ _ (by assumption)] | simp [fancyDir, fancyWrite, Pi.single_apply]
      all_goals rfl
    · funext d
      refine key (.inr (.inr (.inr (.inr (.inr (.inr (idx, d))))))) (fun e θs hs => ⟨fun j' x' y' h' => ?_, fun i' j' a1 a2 a3 a4 => ?_, ?_, ?_, ?_, ?_⟩) (fun z hz => ?_)
      all_goals first | simp [fancyDir, fancyWrite, Pi.single_apply, hidx _ _ (by assumption)] | simp [fancyDir, fancyWrite, Pi.single_apply]
      all_goals rfl

theorem fancyAdam_some {M : Fancy n m a b N k} {kind : LossKind} {mask : Option (Fin h × Fin w → Bool)}
    {steps : List (AdamHyper × Minibatch (Fin N × (Fin 3 → ℝ)) (Fin h × Fin w → ℝ))} {θ θ' : FancyTheta n m H W h w N r k} :
    fancyAdam M kind mask steps θ = some θ' ↔
      ∃ mem, fancyRun M kind mask (steps.map fun x => (adamUpdate x.1 fancyGroup, x.2)) (AdamMemory.start, θ) = some (mem, θ') := by
  unfold fancyAdam
  cases fancyRun M kind mask (steps.map fun x => (adamUpdate x.1 fancyGroup, x.2)) (AdamMemory.start, θ) with
  | none => simp
  | some s => obtain ⟨mem, t⟩ := s; simp

theorem fancySgd_some {M : Fancy n m a b N k} {kind : LossKind} {mask : Option (Fin h × Fin w → Bool)}
    {steps : List (SgdHyper × Minibatch (Fin N × (Fin 3 → ℝ)) (Fin h × Fin w → ℝ))} {θ θ' : FancyTheta n m H W h w N r k} :
    fancySgd M kind mask steps θ = some θ' ↔
      ∃ mem, fancyRun M kind mask (steps.map fun x => (sgdUpdate x.1 fancyGroup, x.2)) (none, θ) = some (mem, θ') := by
  unfold fancySgd
  cases fancyRun M kind mask (steps.map fun x => (sgdUpdate x.1 fancyGroup, x.2)) (none, θ) with
  | none => simp
  | some s => obtain ⟨mem, t⟩ := s; simp

theorem adamUpdate_unseen {ι : Type} (hp : AdamHyper) (group : ι → String) (g : ι → ℝ) (s : AdamMemory ι × (ι → ℝ)) (i : ι)
    (hm : s.1.avg i = 0) (hg : g i = 0) : (adamUpdate hp group g s).1.avg i = 0 ∧ (adamUpdate hp group g s).2 i = s.2 i := by
  have ha : hp.beta1 * s.1.avg i + (1 - hp.beta1) * g i = 0 := by rw [hm, hg]; ring
  refine ⟨ha, ?_⟩
  unfold adamUpdate
  dsimp only
  rw [ha, zero_div, mul_zero, sub_zero]

theorem sgdUpdate_unseen {ι : Type} (hp : SgdHyper) (hw : hp.weightDecay = 0) (group : ι → String) (g : ι → ℝ)
    (s : Option (ι → ℝ) × (ι → ℝ)) (i : ι) (hm : ∀ b, s.1 = some b → b i = 0) (hg : g i = 0) :
    (∀ b, (sgdUpdate hp group g s).1 = some b → b i = 0) ∧ (sgdUpdate hp group g s).2 i = s.2 i := by
  obtain ⟨b, θ⟩ := s
  unfold sgdUpdate
  by_cases h0 : hp.momentum = 0
  · simp only [h0, if_true]
    exact ⟨hm, by rw [hg, hw]; ring⟩
  · simp only [h0, if_false]
    have hbuf : sgdBuffer hp (fun i => g i + hp.weightDecay * θ i) b i = 0 := by
      cases b with
      | none => simp [sgdBuffer, hg, hw]
      | some b => simp [sgdBuffer, hg, hw, hm b rfl]
    refine ⟨fun b' hb' => by rw [← Option.some.inj hb']; exact hbuf, ?_⟩
    cases hp.nesterov with
    | true =>
      simp only [if_true]
      rw [hbuf, hg, hw]
      ring
    | false =>
      simp only [Bool.false_eq_true, if_false]
      rw [hbuf]
      ring

/-! ### The property -/

/-- Exposure `e` is simulated with the parameters `θs` in a run of Adam. -/
def SeenByAdam (M : Fancy n m a b N k) (kind : LossKind) (mask : Option (Fin h × Fin w → Bool))
    (steps : List (AdamHyper × Minibatch (Fin N × (Fin 3 → ℝ)) (Fin h × Fin w → ℝ))) (θ : FancyTheta n m H W h w N r k)
    (e : Fin N × (Fin 3 → ℝ)) (θs : FancyTheta n m H W h w N r k) : Prop :=
  ∃ pre x post, steps = pre ++ x :: post ∧ fancyAdam M kind mask pre θ = some θs ∧ e ∈ x.2.inputs

/-- Exposure `e` is simulated with the parameters `θs` in a run of SGD. -/
def SeenBySgd (M : Fancy n m a b N k) (kind : LossKind) (mask : Option (Fin h × Fin w → Bool))
    (steps : List (SgdHyper × Minibatch (Fin N × (Fin 3 → ℝ)) (Fin h × Fin w → ℝ))) (θ : FancyTheta n m H W h w N r k)
    (e : Fin N × (Fin 3 → ℝ)) (θs : FancyTheta n m H W h w N r k) : Prop :=
  ∃ pre x post, steps = pre ++ x :: post ∧ fancySgd M kind mask pre θ = some θs ∧ e ∈ x.2.inputs

/-- A prefix of a mapped list. -/
theorem map_split {α β : Type} (f : α → β) {l : List α} {pre : List β} {x : β} {post : List β} (h : l.map f = pre ++ x :: post) :
    ∃ pre' x' post', l = pre' ++ x' :: post' ∧ pre = pre'.map f ∧ x = f x' := by
  obtain ⟨p, q, rfl, hp, hq⟩ := List.map_eq_append_iff.1 h
  obtain ⟨y, t, rfl, hy, -⟩ := List.map_eq_cons_iff.1 hq
  exact ⟨p, y, t, rfl, hp.symm, hy.symm⟩

/-- **C120** (Adam): any number of minibatches of any exposures, with any loss and hyperparameters, that run without an exception leave
everything that the data does not see as it was; `hin`: no simulated window starts above or left of the object. -/
theorem fancy_adam_unseen (M : Fancy n m a b N k) (kind : LossKind) (mask : Option (Fin h × Fin w → Bool))
    (steps : List (AdamHyper × Minibatch (Fin N × (Fin 3 → ℝ)) (Fin h × Fin w → ℝ))) (θ θ' : FancyTheta n m H W h w N r k)
    (hrun : fancyAdam M kind mask steps θ = some θ')
    (hin : ∀ e θs, SeenByAdam M kind mask steps θ e θs → ∀ d : Fin 2, 0 ≤ ⌊(M.withTheta θs).pixTrans e.1 e.2 d⌋) :
    UnseenKept M mask (SeenByAdam M kind mask steps θ) θ θ' := by
  obtain ⟨mem, hrun⟩ := fancyAdam_some.1 hrun
  refine fancyRun_unseen M kind mask (fun c mem => mem.avg c = 0) _ (fun x hx c g s h1 h2 => ?_) (AdamMemory.start, θ) (mem, θ') (fun _ => rfl)
    hrun _ (fun pre x post t he ht e hx => ?_) hin
  · obtain ⟨y, -, rfl⟩ := List.mem_map.1 hx
    exact adamUpdate_unseen y.1 fancyGroup g s c h1 h2
  · obtain ⟨pre', x', post', h1, h2, h3⟩ := map_split _ he
    subst h2 h3
    obtain ⟨mem, t⟩ := t
    exact ⟨pre', x', post', h1, fancyAdam_some.2 ⟨mem, ht⟩, hx⟩

/-- **C120** (SGD): the same for SGD without weight decay, with any momentum. -/
theorem fancy_sgd_unseen (M : Fancy n m a b N k) (kind : LossKind) (mask : Option (Fin h × Fin w → Bool))
    (steps : List (SgdHyper × Minibatch (Fin N × (Fin 3 → ℝ)) (Fin h × Fin w → ℝ))) (hw : ∀ x ∈ steps, x.1.weightDecay = 0)
    (θ θ' : FancyTheta n m H W h w N r k) (hrun : fancySgd M kind mask steps θ = some θ')
    (hin : ∀ e θs, SeenBySgd M kind mask steps θ e θs → ∀ d : Fin 2, 0 ≤ ⌊(M.withTheta θs).pixTrans e.1 e.2 d⌋) :
    UnseenKept M mask (SeenBySgd M kind mask steps θ) θ θ' := by
  obtain ⟨mem, hrun⟩ := fancySgd_some.1 hrun
  refine fancyRun_unseen M kind mask (fun c mem => ∀ b, mem = some b → b c = 0) _ (fun x hx c g s h1 h2 => ?_) (none, θ) (mem, θ')
    (fun _ _ h => by cases h) hrun _ (fun pre x post t he ht e hx => ?_) hin
  · obtain ⟨y, hy, rfl⟩ := List.mem_map.1 hx
    exact sgdUpdate_unseen y.1 (hw y hy) fancyGroup g s c h1 h2
  · obtain ⟨pre', x', post', h1, h2, h3⟩ := map_split _ he
    subst h2 h3
    obtain ⟨mem, t⟩ := t
    exact ⟨pre', x', post', h1, fancySgd_some.2 ⟨mem, ht⟩, hx⟩

/-- **C120** (frozen parameters): a parameter of the model with the learning rate factor 0 has its old value after any run of Adam. -/
theorem fancy_adam_frozen (M : Fancy n m a b N k) (kind : LossKind) (mask : Option (Fin h × Fin w → Bool))
    (steps : List (AdamHyper × Minibatch (Fin N × (Fin 3 → ℝ)) (Fin h × Fin w → ℝ))) (θ θ' : FancyTheta n m H W h w N r k)
    (hrun : fancyAdam M kind mask steps θ = some θ') :
    ((∀ x ∈ steps, x.1.factors.lookup "probe" = some 0) → θ'.1 = θ.1) ∧
    ((∀ x ∈ steps, x.1.factors.lookup "obj" = some 0) → θ'.2.1 = θ.2.1) ∧
    ((∀ x ∈ steps, x.1.factors.lookup "background" = some 0) → θ'.2.2.1 = θ.2.2.1) ∧
    ((∀ x ∈ steps, x.1.factors.lookup "weights" = some 0) → θ'.2.2.2.1 = θ.2.2.2.1 ∧ θ'.2.2.2.2.1 = θ.2.2.2.2.1) ∧
    ((∀ x ∈ steps, x.1.factors.lookup "translation_offsets" = some 0) → θ'.2.2.2.2.2.1 = θ.2.2.2.2.2.1) ∧
    ((∀ x ∈ steps, x.1.factors.lookup "probe_fourier_shifts" = some 0) → θ'.2.2.2.2.2.2 = θ.2.2.2.2.2.2) := by
  obtain ⟨mem, hrun⟩ := fancyAdam_some.1 hrun
  have key : ∀ c : FancyCoord n m H W h w N r k, (∀ x ∈ steps, x.1.factors.lookup (fancyGroup c) = some 0) → fancyRead θ' c = fancyRead θ c := by
    intro c hc
    refine fancyRun_keeps M kind mask c (fun _ => True) _ (AdamMemory.start, θ) (fun pre x post t he ht _ hs => ⟨trivial, ?_⟩) (mem, θ') trivial hrun
    have hmem : x ∈ steps.map fun x => (adamUpdate x.1 fancyGroup, x.2) := by rw [he]; simp
    obtain ⟨y, hy, rfl⟩ := List.mem_map.1 hmem
    unfold adamUpdate groupLr
    simp [hc y hy]
  refine ⟨fun hc => ?_, fun hc => ?_, fun hc => ?_, fun hc => ⟨?_, ?_⟩, fun hc => ?_, fun hc => ?_⟩
  · funext q x y
    exact Complex.ext (key (.inl (q, x, y, false)) hc) (key (.inl (q, x, y, true)) hc)
  · funext i j
    exact Complex.ext (key (.inr (.inl (i, j, false))) hc) (key (.inr (.inl (i, j, true))) hc)
  · funext i j
    exact key (.inr (.inr (.inl (i, j)))) hc
  · funext i
    exact key (.inr (.inr (.inr (.inl i)))) hc
  · funext i q j
    exact Complex.ext (key (.inr (.inr (.inr (.inr (.inl (i, q, j, false)))))) hc) (key (.inr (.inr (.inr (.inr (.inl (i, q, j, true)))))) hc)
  · funext i d
    exact key (.inr (.inr (.inr (.inr (.inr (.inl (i, d))))))) hc
  · funext i d
    exact key (.inr (.inr (.inr (.inr (.inr (.inr (i, d))))))) hc

/-- **C120** (fixed positions): if the model has no translation offsets, or their learning rate factor is 0, the condition for an object
pixel to keep its value can be read off before the run: no window of an exposure used lies over it at the start. -/
theorem fancy_adam_object (M : Fancy n m a b N k) (kind : LossKind) (mask : Option (Fin h × Fin w → Bool))
    (steps : List (AdamHyper × Minibatch (Fin N × (Fin 3 → ℝ)) (Fin h × Fin w → ℝ))) (θ θ' : FancyTheta n m H W h w N r k)
    (hrun : fancyAdam M kind mask steps θ = some θ')
    (hfix : M.offsets = none ∨ ∀ x ∈ steps, x.1.factors.lookup "translation_offsets" = some 0)
    (hin : ∀ x ∈ steps, ∀ e ∈ x.2.inputs, ∀ d : Fin 2, 0 ≤ ⌊(M.withTheta θ).pixTrans e.1 e.2 d⌋) (i : Fin H) (j : Fin W)
    (hout : ∀ x ∈ steps, ∀ e ∈ x.2.inputs, ¬ InWindow a b ((M.withTheta θ).pixTrans e.1 e.2) i j) : θ'.2.1 i j = θ.2.1 i j := by
  have hpix : ∀ e θs, SeenByAdam M kind mask steps θ e θs → (∃ x ∈ steps, e ∈ x.2.inputs) ∧
      (M.withTheta θs).pixTrans e.1 e.2 = (M.withTheta θ).pixTrans e.1 e.2 := by
    rintro e θs ⟨pre, x, post, he, hpre, hx⟩
    refine ⟨⟨x, by rw [he]; simp, hx⟩, ?_⟩
    unfold Fancy.pixTrans Fancy.withTheta
    rcases hfix with h0 | h0
    · simp only [h0, Option.map_none]
    · have h1 := (fancy_adam_frozen M kind mask pre θ θs hpre).2.2.2.2.1 fun y hy => h0 y (by rw [he]; simp [hy])
      cases M.offsets with
      | none => rfl
      | some o => simp only [Option.map_some, h1]
  refine (fancy_adam_unseen M kind mask steps θ θ' hrun fun e θs hs => ?_).obj i j fun e θs hs => ?_
  · obtain ⟨⟨x, hx, he⟩, h1⟩ := hpix e θs hs
    rw [h1]
    exact hin x hx e he
  · obtain ⟨⟨x, hx, he⟩, h1⟩ := hpix e θs hs
    rw [h1]
    exact hout x hx e he

/-! ### The first step -/

/-- `fancyWrite` as a continuous linear map. -/
noncomputable def fancyWriteL : (FancyCoord n m H W h w N r k → ℝ) →L[ℝ] FancyTheta n m H W h w N r k :=
  LinearMap.toContinuousLinearMap
    { toFun := fancyWrite
      map_add' := fun v v' => by
        refine Prod.ext ?_ (Prod.ext ?_ (Prod.ext ?_ (Prod.ext ?_ (Prod.ext ?_ (Prod.ext ?_ ?_))))) <;> rfl
      map_smul' := fun x v => by
        refine Prod.ext ?_ (Prod.ext ?_ (Prod.ext ?_ (Prod.ext ?_ (Prod.ext ?_ (Prod.ext ?_ ?_)))))
        · funext j y z; apply Complex.ext <;> simp [fancyWrite]
        · funext j y; apply Complex.ext <;> simp [fancyWrite]
        · rfl
        · rfl
        · funext j y z; apply Complex.ext <;> simp [fancyWrite]
        · rfl
        · rfl }

theorem fancyWriteL_apply (v : FancyCoord n m H W h w N r k → ℝ) : fancyWriteL v = fancyWrite v := rfl

theorem fancyTotal_coords {M : Fancy n m a b N k} {kind : LossKind} {mask : Option (Fin h × Fin w → Bool)}
    {B : Minibatch (Fin N × (Fin 3 → ℝ)) (Fin h × Fin w → ℝ)} {θ : FancyTheta n m H W h w N r k}
    (hd : DifferentiableAt ℝ (fancyTotal M kind mask B) θ) :
    HasFDerivAt (fun v => fancyTotal M kind mask B (fancyWrite v)) ((fderiv ℝ (fancyTotal M kind mask B) θ).comp fancyWriteL) (fancyRead θ) := by
  have h1 : HasFDerivAt (fancyTotal M kind mask B) (fderiv ℝ (fancyTotal M kind mask B) θ) (fancyWriteL (fancyRead θ)) := hd.hasFDerivAt
  exact h1.comp (fancyRead θ) fancyWriteL.hasFDerivAt

/-- **C120** (the gradient of a step): what the steps of a run use is what the closure leaves in the parameters (C100), for every calculation
width. -/
theorem fancy_run_closure (M : Fancy n m a b N k) (kind : LossKind) (mask : Option (Fin h × Fin w → Bool)) (cw : ℤ) (hcw : 1 ≤ cw)
    (B : Minibatch (Fin N × (Fin 3 → ℝ)) (Fin h × Fin w → ℝ)) (hB : B.WF) (θ : FancyTheta n m H W h w N r k)
    (hs : ∀ e ∈ B.inputs, Trainable (M.withTheta θ) h w e)
    (hpos : kind ≠ .intensityMse → (∀ q, M.qe = some q → ∀ i < h, ∀ j < w, 0 < q.px i j) ∧ ∀ s, M.saturation = some s → 0 < s) :
    ∃ G : FancyTheta n m H W h w N r k →L[ℝ] ℝ,
      (fancyPhysics M kind mask).closure cw none B θ = .ok (some (fancyTotal M kind mask B θ), G) ∧
      ∀ c, G (fancyDir c) = gradOf (fun v => fancyTotal M kind mask B (fancyWrite v)) (fancyRead θ) c := by
  obtain ⟨h1, h2⟩ := fancy_step_independent_of_width M kind mask θ cw hcw B hB hs hpos
  refine ⟨_, h1, fun c => ?_⟩
  have h3 := fancyTotal_coords (M := M) (kind := kind) (mask := mask) (B := B) h2
  rw [gradOf_eq_fderiv h3.differentiableAt, h3.fderiv]
  rfl

/-- **C120** (downhill): the first minibatch of a reconstruction with Adam or SGD (any momentum, no weight decay) lowers its loss for every
sufficiently small learning rate, if its exposures are regular (C100) and some parameter that is trained has a gradient. -/
theorem fancy_first_step_downhill (M : Fancy n m a b N k) (kind : LossKind) (mask : Option (Fin h × Fin w → Bool))
    (B : Minibatch (Fin N × (Fin 3 → ℝ)) (Fin h × Fin w → ℝ)) (hB : B.WF) (θ : FancyTheta n m H W h w N r k)
    (hs : ∀ e ∈ B.inputs, Trainable (M.withTheta θ) h w e)
    (hpos : kind ≠ .intensityMse → (∀ q, M.qe = some q → ∀ i < h, ∀ j < w, 0 < q.px i j) ∧ ∀ s, M.saturation = some s → 0 < s)
    (factors : List (String × ℝ)) (hf : ∀ name f, factors.lookup name = some f → 0 ≤ f)
    (hg : ∃ c, factors.lookup (fancyGroup c) ≠ some 0 ∧ fderiv ℝ (fancyTotal M kind mask B) θ (fancyDir c) ≠ 0) :
    (∀ beta1 beta2 eps amsgrad, beta1 < 1 → beta2 < 1 → 0 ≤ eps → ∃ ε > 0, ∀ lr, 0 < lr → lr < ε → ∃ θ',
      fancyAdam M kind mask [(⟨lr, beta1, beta2, amsgrad, factors, eps⟩, B)] θ = some θ' ∧
        fancyTotal M kind mask B θ' < fancyTotal M kind mask B θ) ∧
    (∀ momentum dampening nesterov, 0 ≤ momentum → ∃ ε > 0, ∀ lr, 0 < lr → lr < ε → ∃ θ',
      fancySgd M kind mask [(⟨lr, momentum, dampening, 0, nesterov, factors⟩, B)] θ = some θ' ∧
        fancyTotal M kind mask B θ' < fancyTotal M kind mask B θ) := by
  obtain ⟨-, h2⟩ := fancy_step_independent_of_width M kind mask θ 1 le_rfl B hB hs hpos
  have h3 := fancyTotal_coords (M := M) (kind := kind) (mask := mask) (B := B) h2
  have hsome : ∀ e ∈ B.inputs, ((M.withTheta θ).shotPixels h w e).isSome := fun e he => by
    obtain ⟨Q, hQ, hh, hw, -⟩ := hs e he
    unfold Fancy.shotPixels
    rw [hQ]
    simp [hh, hw]
  have hnn : ∀ c : FancyCoord n m H W h w N r k, 0 ≤ groupLr factors 1 (fancyGroup c) := fun c => by
    unfold groupLr
    cases hl : factors.lookup (fancyGroup c) with
    | none => simp
    | some f => simpa using hf _ f hl
  have hg' : ∃ c : FancyCoord n m H W h w N r k, 0 < groupLr factors 1 (fancyGroup c) ∧
      gradOf (fun v => fancyTotal M kind mask B (fancyWrite v)) (fancyRead θ) c ≠ 0 := by
    obtain ⟨c, hc, hgc⟩ := hg
    refine ⟨c, lt_of_le_of_ne (hnn c) fun h0 => ?_, ?_⟩
    · unfold groupLr at h0
      cases hl : factors.lookup (fancyGroup c) with
      | none => rw [hl] at h0; simp at h0
      | some f =>
        rw [hl] at h0
        simp only [one_mul] at h0
        exact hc (by rw [hl, ← h0])
    · rw [gradOf_eq_fderiv h3.differentiableAt, h3.fderiv]
      exact hgc
  obtain ⟨ha, hb⟩ := first_step_downhill fancyGroup factors (fun v => fancyTotal M kind mask B (fancyWrite v)) (fancyRead θ) h3.differentiableAt
    hnn hg'
  constructor
  · intro beta1 beta2 eps amsgrad q1 q2 q3
    obtain ⟨ε, hε, h⟩ := ha beta1 beta2 eps amsgrad q1 q2 q3
    refine ⟨ε, hε, fun lr l0 l1 => ⟨_, ?_, h lr l0 l1⟩⟩
    unfold fancyAdam
    rw [List.map_cons, List.map_nil]
    unfold fancyRun
    rw [if_pos hsome]
    rfl
  · intro momentum dampening nesterov q1
    obtain ⟨ε, hε, h⟩ := hb momentum dampening nesterov q1
    refine ⟨ε, hε, fun lr l0 l1 => ⟨_, ?_, h lr l0 l1⟩⟩
    unfold fancySgd
    rw [List.map_cons, List.map_nil]
    unfold fancyRun
    rw [if_pos hsome]
    rfl

/-! ### A reconstruction that starts at the truth -/

/-- The data of a minibatch is what the model with the parameters `θ` simulates, on the unmasked pixels; for the amplitude loss these intensities
are positive (the derivative of the square root at 0 is not finite). -/
structure Explains (M : Fancy n m a b N k) (kind : LossKind) (mask : Option (Fin h × Fin w → Bool)) (θ : FancyTheta n m H W h w N r k)
    (B : Minibatch (Fin N × (Fin 3 → ℝ)) (Fin h × Fin w → ℝ)) : Prop where
  simulated : ∀ e ∈ B.inputs, ((M.withTheta θ).shotPixels h w e).isSome
  equal : ∀ x ∈ B.patterns.zip B.inputs, ∀ z, Unmasked mask z → x.1 z = ((M.withTheta θ).shotPixels h w x.2).getD 0 z
  positive : kind = .amplitudeMse → ∀ x ∈ B.patterns.zip B.inputs, ∀ z, Unmasked mask z → 0 < x.1 z

theorem fancy_truth_gradient (M : Fancy n m a b N k) (kind : LossKind) (hk : kind ≠ .poissonNll) (mask : Option (Fin h × Fin w → Bool))
    (θ : FancyTheta n m H W h w N r k) (B : Minibatch (Fin N × (Fin 3 → ℝ)) (Fin h × Fin w → ℝ)) (hB : Explains M kind mask θ B)
    (c : FancyCoord n m H W h w N r k) : gradOf (fun v => fancyTotal M kind mask B (fancyWrite v)) (fancyRead θ) c = 0 := by
  have hnn : ∀ θ' : FancyTheta n m H W h w N r k, 0 ≤ fancyTotal M kind mask B θ' := fun θ' => by
    unfold fancyTotal
    cases kind with
    | amplitudeMse => exact batchSum_nonneg mask (fun i s => (Real.sqrt s - Real.sqrt i) ^ 2) _ fun _ _ _ _ => sq_nonneg _
    | intensityMse => exact batchSum_nonneg mask (fun i s => (s - i) ^ 2) _ fun _ _ _ _ => sq_nonneg _
    | poissonNll => exact absurd rfl hk
  have hz : fancyTotal M kind mask B θ = 0 := by
    have hzip : B.patterns.zip (B.inputs.map fun e => ((M.withTheta θ).shotPixels h w e).getD 0) =
        (B.patterns.zip B.inputs).map fun x => (x.1, ((M.withTheta θ).shotPixels h w x.2).getD 0) := by
      rw [List.zip_map_right]
      rfl
    have hsum : ∀ f : ℝ → ℝ → ℝ, (∀ i, f i i = 0) → batchSum mask f
        ((B.patterns.zip B.inputs).map fun x => (x.1, ((M.withTheta θ).shotPixels h w x.2).getD 0)) = 0 := fun f hf => by
      unfold batchSum
      refine List.sum_eq_zero fun y hy => ?_
      obtain ⟨x, hx, rfl⟩ := List.mem_map.1 hy
      obtain ⟨z, hz, rfl⟩ := List.mem_map.1 hx
      refine Finset.sum_eq_zero fun p hp => ?_
      dsimp only
      rw [hB.equal z hz p ((mem_selected mask p).1 hp)]
      exact hf _
    unfold fancyTotal
    rw [hzip]
    cases kind with
    | amplitudeMse => exact hsum (fun i s => (Real.sqrt s - Real.sqrt i) ^ 2) fun i => by ring
    | intensityMse => exact hsum (fun i s => (s - i) ^ 2) fun i => by ring
    | poissonNll => exact absurd rfl hk
  unfold gradOf
  refine IsLocalMin.deriv_eq_zero (Filter.Eventually.of_forall fun x => ?_)
  beta_reduce
  rw [Function.update_eq_self, fancyWrite_read, hz]
  exact hnn _

theorem fancyRun_fixed {σ : Type} (M : Fancy n m a b N k) (kind : LossKind) (hkind : kind ≠ .poissonNll) (mask : Option (Fin h × Fin w → Bool))
    (Inv : FancyCoord n m H W h w N r k → σ → Prop) (θ : FancyTheta n m H W h w N r k) :
    ∀ (steps : List (OptStep σ (FancyCoord n m H W h w N r k) × Minibatch (Fin N × (Fin 3 → ℝ)) (Fin h × Fin w → ℝ)))
      (_ : ∀ x ∈ steps, ∀ c g s, Inv c s.1 → g c = 0 → Inv c (x.1 g s).1 ∧ (x.1 g s).2 c = s.2 c)
      (_ : ∀ x ∈ steps, Explains M kind mask θ x.2) (mem : σ) (_ : ∀ c, Inv c mem), ∃ mem', fancyRun M kind mask steps (mem, θ) = some (mem', θ)
  | [], _, _, mem, _ => ⟨mem, rfl⟩
  | (step, B) :: steps, hk, hx, mem, hi => by
    have hB : Explains M kind mask θ B := hx _ List.mem_cons_self
    have hg := fancy_truth_gradient M kind hkind mask θ B hB
    have hu := fun c => hk _ List.mem_cons_self c (gradOf (fun v => fancyTotal M kind mask B (fancyWrite v)) (fancyRead θ)) (mem, fancyRead θ)
      (hi c) (hg c)
    obtain ⟨mem', h⟩ := fancyRun_fixed M kind hkind mask Inv θ steps (fun x hx => hk x (List.mem_cons_of_mem _ hx))
      (fun y hy => hx y (List.mem_cons_of_mem _ hy)) _ fun c => (hu c).1
    refine ⟨mem', ?_⟩
    unfold fancyRun
    rw [if_pos hB.simulated, ← h]
    dsimp only
    rw [show (step (gradOf (fun v => fancyTotal M kind mask B (fancyWrite v)) (fancyRead θ)) (mem, fancyRead θ)).2 = fancyRead θ from
      funext fun c => (hu c).2, fancyWrite_read]

/-- **C121**: a reconstruction with the amplitude or the intensity loss that starts at parameters which explain all the data it is given stays
there: no number of minibatches of Adam, or of SGD without weight decay, moves any parameter. -/
theorem fancy_truth_stays (M : Fancy n m a b N k) (kind : LossKind) (hkind : kind ≠ .poissonNll) (mask : Option (Fin h × Fin w → Bool))
    (θ : FancyTheta n m H W h w N r k) :
    (∀ steps : List (AdamHyper × Minibatch (Fin N × (Fin 3 → ℝ)) (Fin h × Fin w → ℝ)), (∀ x ∈ steps, Explains M kind mask θ x.2) →
      fancyAdam M kind mask steps θ = some θ) ∧
    (∀ steps : List (SgdHyper × Minibatch (Fin N × (Fin 3 → ℝ)) (Fin h × Fin w → ℝ)), (∀ x ∈ steps, Explains M kind mask θ x.2) →
      (∀ x ∈ steps, x.1.weightDecay = 0) → fancySgd M kind mask steps θ = some θ) := by
  constructor
  · intro steps hx
    refine fancyAdam_some.2 (fancyRun_fixed M kind hkind mask (fun c mem => mem.avg c = 0) θ _ (fun x h c g s h1 h2 => ?_) (fun x h => ?_) _
      fun _ => rfl)
    · obtain ⟨y, -, rfl⟩ := List.mem_map.1 h
      exact adamUpdate_unseen y.1 fancyGroup g s c h1 h2
    · obtain ⟨y, hy, rfl⟩ := List.mem_map.1 h
      exact hx y hy
  · intro steps hx hw
    refine fancySgd_some.2 (fancyRun_fixed M kind hkind mask (fun c mem => ∀ b, mem = some b → b c = 0) θ _ (fun x h c g s h1 h2 => ?_)
      (fun x h => ?_) _ fun _ _ h => by cases h)
    · obtain ⟨y, hy, rfl⟩ := List.mem_map.1 h
      exact sgdUpdate_unseen y.1 (hw y hy) fancyGroup g s c h1 h2
    · obtain ⟨y, hy, rfl⟩ := List.mem_map.1 h
      exact hx y hy

/-! ### Non-vacuity -/

/-- A minibatch of two exposures and a first step with frozen translation offsets meets the hypotheses of `fancy_adam_object` for a corner of the
object. -/
example (kind : LossKind) (mask : Option (Fin 2 × Fin 2 → Bool)) (p q : Fin 2 × Fin 2 → ℝ) :
    let B : Minibatch (Fin 2 × (Fin 3 → ℝ)) (Fin 2 × Fin 2 → ℝ) := ⟨[(0, 0), (1, 0)], [p, q]⟩
    let hp : AdamHyper := ⟨0.005, 0.9, 0.999, false, [("translation_offsets", 0)], 1e-8⟩
    ∃ θ', fancyAdam toyFancy kind mask [(hp, B)] toyTheta = some θ' ∧ θ'.2.1 0 0 = toyTheta.2.1 0 0 := by
  intro B hp
  have hmem : ∀ e ∈ B.inputs, e.2 = 0 := by
    intro e he
    simp only [B, List.mem_cons, List.not_mem_nil, or_false] at he
    rcases he with rfl | rfl <;> rfl
  have hsome : ∀ e ∈ B.inputs, ((toyFancy.withTheta toyTheta).shotPixels 2 2 e).isSome := fun e he => by
    obtain ⟨e1, e2⟩ := e
    obtain rfl : e2 = 0 := hmem _ he
    obtain ⟨Q, hQ, hh, hw, -⟩ := toyTheta_trainable e1
    unfold Fancy.shotPixels
    rw [hQ]
    simp [hh, hw]
  have hrun : ∃ θ', fancyAdam toyFancy kind mask [(hp, B)] toyTheta = some θ' := by
    unfold fancyAdam
    rw [List.map_cons, List.map_nil]
    unfold fancyRun
    rw [if_pos hsome]
    exact ⟨_, rfl⟩
  obtain ⟨θ', hrun⟩ := hrun
  refine ⟨θ', hrun, fancy_adam_object toyFancy kind mask _ toyTheta θ' hrun (Or.inr fun x hx => ?_) (fun x hx e he d => ?_) 0 0 fun x hx e he hw => ?_⟩
  · rw [List.mem_singleton.1 hx]
    rfl
  · rw [List.mem_singleton.1 hx] at he
    rw [hmem e he]
    fin_cases d
    · exact (toyTheta_floor e.1).1 ▸ by norm_num
    · exact (toyTheta_floor e.1).2 ▸ by norm_num
  · rw [List.mem_singleton.1 hx] at he
    rw [hmem e he] at hw
    have := hw.1
    rw [(toyTheta_floor e.1).1] at this
    norm_num at this

/-- Data that the toy model simulates itself meets the hypotheses of C121 for the intensity loss, for any number of minibatches. -/
example (mask : Option (Fin 2 × Fin 2 → Bool)) (c : ℕ) (hp : AdamHyper) :
    let B : Minibatch (Fin 2 × (Fin 3 → ℝ)) (Fin 2 × Fin 2 → ℝ) :=
      ⟨[(0, 0), (1, 0)], [((toyFancy.withTheta toyTheta).shotPixels 2 2 (0, 0)).getD 0, ((toyFancy.withTheta toyTheta).shotPixels 2 2 (1, 0)).getD 0]⟩
    fancyAdam toyFancy .intensityMse mask (List.replicate c (hp, B)) toyTheta = some toyTheta := by
  intro B
  refine (fancy_truth_stays toyFancy .intensityMse (by simp) mask toyTheta).1 _ fun x hx => ?_
  rw [List.eq_of_mem_replicate hx]
  refine ⟨fun e he => ?_, fun y hy z _ => ?_, fun hk => by cases hk⟩
  · have h0 : e.2 = 0 := by
      simp only [B, List.mem_cons, List.not_mem_nil, or_false] at he
      rcases he with rfl | rfl <;> rfl
    obtain ⟨e1, e2⟩ := e
    obtain rfl : e2 = 0 := h0
    obtain ⟨Q, hQ, hh, hw, -⟩ := toyTheta_trainable e1
    unfold Fancy.shotPixels
    rw [hQ]
    simp [hh, hw]
  · simp only [B, List.zip_cons_cons, List.zip_nil_right, List.mem_cons, List.not_mem_nil, or_false] at hy
    rcases hy with rfl | rfl <;> rfl

end Cdtools
