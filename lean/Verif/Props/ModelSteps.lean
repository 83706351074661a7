/- Property theorems C129: reconstructions of the other models change only what their data can see, and stay at the truth. -/
import Verif.Model.ModelSteps
import Verif.Props.FancySteps
import Verif.Props.Locality

set_option linter.unusedSectionVars false

namespace Cdtools
open Finset

variable {n m a b H W h w N r k l nz : ℕ}

/-! ### Any model -/

section General
variable {Θ I ι ε : Type} [DecidableEq ι]

/-- Exposure `e` is simulated with the parameters `θs` in a run of Adam. -/
def AdamSees (K : Coords Θ ι) (sim : Θ → I → Except ε (Img ℝ)) (kind : LossKind) (mask : Option (Fin h × Fin w → Bool))
    (steps : List (AdamHyper × Minibatch I (Fin h × Fin w → ℝ))) (θ : Θ) (e : I) (θs : Θ) : Prop :=
  ∃ pre x post, steps = pre ++ x :: post ∧ shotAdam K sim kind mask pre θ = some θs ∧ e ∈ x.2.inputs ∧ (simPixels h w (sim θs e)).isSome

/-- Exposure `e` is simulated with the parameters `θs` in a run of SGD. -/
def SgdSees (K : Coords Θ ι) (sim : Θ → I → Except ε (Img ℝ)) (kind : LossKind) (mask : Option (Fin h × Fin w → Bool))
    (steps : List (SgdHyper × Minibatch I (Fin h × Fin w → ℝ))) (θ : Θ) (e : I) (θs : Θ) : Prop :=
  ∃ pre x post, steps = pre ++ x :: post ∧ shotSgd K sim kind mask pre θ = some θs ∧ e ∈ x.2.inputs ∧ (simPixels h w (sim θs e)).isSome

/-- No unmasked pixel of exposure `e` changes when coordinate `c` of the parameters `θ` does. -/
def Unaffected (K : Coords Θ ι) (sim : Θ → I → Except ε (Img ℝ)) (mask : Option (Fin h × Fin w → Bool)) (c : ι) (e : I) (θ : Θ) : Prop :=
  ∀ (x : ℝ) (z : Fin h × Fin w), Unmasked mask z →
    (simPixels h w (sim (K.write (Function.update (K.read θ) c x)) e)).getD 0 z = (simPixels h w (sim θ e)).getD 0 z

/-- The data of a minibatch is what the model with the parameters `θ` simulates, on the unmasked pixels; for the amplitude loss these intensities
are positive. -/
structure ShotExplains (sim : Θ → I → Except ε (Img ℝ)) (kind : LossKind) (mask : Option (Fin h × Fin w → Bool)) (θ : Θ)
    (B : Minibatch I (Fin h × Fin w → ℝ)) : Prop where
  simulated : ∀ e ∈ B.inputs, (simPixels h w (sim θ e)).isSome
  equal : ∀ x ∈ B.patterns.zip B.inputs, ∀ z, Unmasked mask z → x.1 z = (simPixels h w (sim θ x.2)).getD 0 z
  positive : kind = .amplitudeMse → ∀ x ∈ B.patterns.zip B.inputs, ∀ z, Unmasked mask z → 0 < x.1 z

theorem chunk_congr (kind : LossKind) (mask : Option (Fin h × Fin w → Bool)) (f g : I → Fin h × Fin w → ℝ) :
    ∀ (ps : List (Fin h × Fin w → ℝ)) (es : List I), (∀ e ∈ es, ∀ z, Unmasked mask z → f e z = g e z) →
      kind.chunk mask (ps.zip (es.map f)) = kind.chunk mask (ps.zip (es.map g)) := by
  intro ps
  induction ps with
  | nil => intro es _; rfl
  | cons p ps ih =>
    intro es hes
    cases es with
    | nil => rfl
    | cons e es =>
      have hone : kind.chunk mask [(p, f e)] = kind.chunk mask [(p, g e)] := by
        have hpx := hes e (by simp)
        cases kind <;>
        · simp only [LossKind.chunk, Cdtools.amplitudeMse, Cdtools.intensityMse, Cdtools.poissonNll, if_true,
            Bool.false_eq_true, if_false, batchSum, List.map_cons, List.map_nil, List.sum_cons, List.sum_nil, add_zero]
          refine sum_congr rfl fun x hx => ?_
          rw [hpx x ((mem_selected mask x).1 hx)]
      have h1 := LossKind.chunk_append kind mask [(p, f e)] (ps.zip (es.map f))
      have h2 := LossKind.chunk_append kind mask [(p, g e)] (ps.zip (es.map g))
      rw [hone, ih es fun e he => hes e (by simp [he])] at h1
      exact h1.trans h2.symm

theorem shot_gradOf_zero (K : Coords Θ ι) (sim : Θ → I → Except ε (Img ℝ)) (kind : LossKind) (mask : Option (Fin h × Fin w → Bool))
    (B : Minibatch I (Fin h × Fin w → ℝ)) (θ : Θ) (c : ι) (hc : ∀ e ∈ B.inputs, Unaffected K sim mask c e θ) :
    gradOf (fun v => shotTotal sim kind mask B (K.write v)) (K.read θ) c = 0 := by
  have hconst : (fun x => shotTotal sim kind mask B (K.write (Function.update (K.read θ) c x))) = fun _ => shotTotal sim kind mask B θ := by
    funext x
    exact chunk_congr kind mask _ _ B.patterns B.inputs fun e he z hz => hc e he x z hz
  unfold gradOf
  rw [hconst]
  exact deriv_const _ _

/-- If every step of a run keeps a property of the state under which coordinate `c` does not move, the run does not move `c`. -/
theorem shotRun_keeps {σ : Type} (K : Coords Θ ι) (sim : Θ → I → Except ε (Img ℝ)) (kind : LossKind) (mask : Option (Fin h × Fin w → Bool))
    (c : ι) (Inv : σ → Prop) :
    ∀ (steps : List (OptStep σ ι × Minibatch I (Fin h × Fin w → ℝ))) (s : σ × Θ)
      (_ : ∀ pre x post t, steps = pre ++ x :: post → shotRun K sim kind mask pre s = some t → Inv t.1 →
        (∀ e ∈ x.2.inputs, (simPixels h w (sim t.2 e)).isSome) →
        let u := x.1 (gradOf (fun v => shotTotal sim kind mask x.2 (K.write v)) (K.read t.2)) (t.1, K.read t.2)
        Inv u.1 ∧ u.2 c = K.read t.2 c)
      (s' : σ × Θ), Inv s.1 → shotRun K sim kind mask steps s = some s' → K.read s'.2 c = K.read s.2 c := by
  intro steps
  induction steps with
  | nil =>
    intro s _ s' hi h
    rw [← Option.some.inj h]
  | cons x steps ih =>
    intro s hx s' hi h
    obtain ⟨step, B⟩ := x
    unfold shotRun at h
    split_ifs at h with hs
    obtain ⟨h1, h2⟩ := hx [] _ steps s rfl rfl hi hs
    have h3 := ih _ (fun pre y post t he ht hit hst => hx ((step, B) :: pre) y post t (by rw [he]; rfl)
      (by unfold shotRun; rw [if_pos hs]; exact ht) hit hst) s' h1 h
    refine h3.trans ?_
    rw [← h2]
    exact congrFun (K.read_write _) c

theorem shotAdam_some {K : Coords Θ ι} {sim : Θ → I → Except ε (Img ℝ)} {kind : LossKind} {mask : Option (Fin h × Fin w → Bool)}
    {steps : List (AdamHyper × Minibatch I (Fin h × Fin w → ℝ))} {θ θ' : Θ} :
    shotAdam K sim kind mask steps θ = some θ' ↔
      ∃ mem, shotRun K sim kind mask (steps.map fun x => (adamUpdate x.1 K.group, x.2)) (AdamMemory.start, θ) = some (mem, θ') := by
  unfold shotAdam
  cases shotRun K sim kind mask (steps.map fun x => (adamUpdate x.1 K.group, x.2)) (AdamMemory.start, θ) with
  | none => simp
  | some s => obtain ⟨mem, t⟩ := s; simp

theorem shotSgd_some {K : Coords Θ ι} {sim : Θ → I → Except ε (Img ℝ)} {kind : LossKind} {mask : Option (Fin h × Fin w → Bool)}
    {steps : List (SgdHyper × Minibatch I (Fin h × Fin w → ℝ))} {θ θ' : Θ} :
    shotSgd K sim kind mask steps θ = some θ' ↔
      ∃ mem, shotRun K sim kind mask (steps.map fun x => (sgdUpdate x.1 K.group, x.2)) (none, θ) = some (mem, θ') := by
  unfold shotSgd
  cases shotRun K sim kind mask (steps.map fun x => (sgdUpdate x.1 K.group, x.2)) (none, θ) with
  | none => simp
  | some s => obtain ⟨mem, t⟩ := s; simp

/-- **C129** (any model, Adam): a coordinate that no simulation of a run depends on keeps its value. -/
theorem shot_adam_unseen (K : Coords Θ ι) (sim : Θ → I → Except ε (Img ℝ)) (kind : LossKind) (mask : Option (Fin h × Fin w → Bool))
    (steps : List (AdamHyper × Minibatch I (Fin h × Fin w → ℝ))) (θ θ' : Θ) (hrun : shotAdam K sim kind mask steps θ = some θ') (c : ι)
    (hc : ∀ e θs, AdamSees K sim kind mask steps θ e θs → Unaffected K sim mask c e θs) : K.read θ' c = K.read θ c := by
  obtain ⟨mem, hrun⟩ := shotAdam_some.1 hrun
  refine shotRun_keeps K sim kind mask c (fun mem => mem.avg c = 0) _ (AdamMemory.start, θ) (fun pre x post t he ht hi hs => ?_) (mem, θ') rfl hrun
  obtain ⟨pre', x', post', h1, h2, h3⟩ := map_split _ he
  subst h2 h3
  obtain ⟨mem', t⟩ := t
  exact adamUpdate_unseen x'.1 K.group _ (mem', K.read t) c hi (shot_gradOf_zero K sim kind mask x'.2 t c fun e hx =>
    hc e t ⟨pre', x', post', h1, shotAdam_some.2 ⟨mem', ht⟩, hx, hs e hx⟩)

/-- **C129** (any model, SGD): the same for SGD without weight decay. -/
theorem shot_sgd_unseen (K : Coords Θ ι) (sim : Θ → I → Except ε (Img ℝ)) (kind : LossKind) (mask : Option (Fin h × Fin w → Bool))
    (steps : List (SgdHyper × Minibatch I (Fin h × Fin w → ℝ))) (hw : ∀ x ∈ steps, x.1.weightDecay = 0) (θ θ' : Θ)
    (hrun : shotSgd K sim kind mask steps θ = some θ') (c : ι)
    (hc : ∀ e θs, SgdSees K sim kind mask steps θ e θs → Unaffected K sim mask c e θs) : K.read θ' c = K.read θ c := by
  obtain ⟨mem, hrun⟩ := shotSgd_some.1 hrun
  refine shotRun_keeps K sim kind mask c (fun mem => ∀ b, mem = some b → b c = 0) _ (none, θ) (fun pre x post t he ht hi hs => ?_) (mem, θ')
    (fun _ h => by cases h) hrun
  obtain ⟨pre', x', post', h1, h2, h3⟩ := map_split _ he
  subst h2 h3
  obtain ⟨mem', t⟩ := t
  exact sgdUpdate_unseen x'.1 (hw x' (by rw [h1]; simp)) K.group _ (mem', K.read t) c hi (shot_gradOf_zero K sim kind mask x'.2 t c fun e hx =>
    hc e t ⟨pre', x', post', h1, shotSgd_some.2 ⟨mem', ht⟩, hx, hs e hx⟩)

/-- **C129** (any model, frozen parameters): a parameter with the learning rate factor 0 has its old value after any run of Adam. -/
theorem shot_adam_frozen (K : Coords Θ ι) (sim : Θ → I → Except ε (Img ℝ)) (kind : LossKind) (mask : Option (Fin h × Fin w → Bool))
    (steps : List (AdamHyper × Minibatch I (Fin h × Fin w → ℝ))) (θ θ' : Θ) (hrun : shotAdam K sim kind mask steps θ = some θ')
    (name : String) (hf : ∀ x ∈ steps, x.1.factors.lookup name = some 0) (c : ι) (hc : K.group c = name) : K.read θ' c = K.read θ c := by
  obtain ⟨mem, hrun⟩ := shotAdam_some.1 hrun
  refine shotRun_keeps K sim kind mask c (fun _ => True) _ (AdamMemory.start, θ) (fun pre x post t he ht _ hs => ⟨trivial, ?_⟩) (mem, θ') trivial hrun
  obtain ⟨pre', x', post', h1, h2, h3⟩ := map_split _ he
  subst h3
  unfold adamUpdate groupLr
  simp [hc, hf x' (by rw [h1]; simp)]

theorem shot_truth_gradient (K : Coords Θ ι) (sim : Θ → I → Except ε (Img ℝ)) (kind : LossKind) (hk : kind ≠ .poissonNll)
    (mask : Option (Fin h × Fin w → Bool)) (θ : Θ) (B : Minibatch I (Fin h × Fin w → ℝ)) (hB : ShotExplains sim kind mask θ B) (c : ι) :
    gradOf (fun v => shotTotal sim kind mask B (K.write v)) (K.read θ) c = 0 := by
  have hnn : ∀ θ' : Θ, 0 ≤ shotTotal sim kind mask B θ' := fun θ' => by
    unfold shotTotal
    cases kind with
    | amplitudeMse => exact batchSum_nonneg mask (fun i s => (Real.sqrt s - Real.sqrt i) ^ 2) _ fun _ _ _ _ => sq_nonneg _
    | intensityMse => exact batchSum_nonneg mask (fun i s => (s - i) ^ 2) _ fun _ _ _ _ => sq_nonneg _
    | poissonNll => exact absurd rfl hk
  have hz : shotTotal sim kind mask B θ = 0 := by
    have hzip : B.patterns.zip (B.inputs.map fun e => (simPixels h w (sim θ e)).getD 0) =
        (B.patterns.zip B.inputs).map fun x => (x.1, (simPixels h w (sim θ x.2)).getD 0) := by
      rw [List.zip_map_right]
      rfl
    have hsum : ∀ f : ℝ → ℝ → ℝ, (∀ i, f i i = 0) → batchSum mask f
        ((B.patterns.zip B.inputs).map fun x => (x.1, (simPixels h w (sim θ x.2)).getD 0)) = 0 := fun f hf => by
      unfold batchSum
      refine List.sum_eq_zero fun y hy => ?_
      obtain ⟨x, hx, rfl⟩ := List.mem_map.1 hy
      obtain ⟨z, hz, rfl⟩ := List.mem_map.1 hx
      refine Finset.sum_eq_zero fun p hp => ?_
      dsimp only
      rw [hB.equal z hz p ((mem_selected mask p).1 hp)]
      exact hf _
    unfold shotTotal
    rw [hzip]
    cases kind with
    | amplitudeMse => exact hsum (fun i s => (Real.sqrt s - Real.sqrt i) ^ 2) fun i => by ring
    | intensityMse => exact hsum (fun i s => (s - i) ^ 2) fun i => by ring
    | poissonNll => exact absurd rfl hk
  unfold gradOf
  refine IsLocalMin.deriv_eq_zero (Filter.Eventually.of_forall fun x => ?_)
  beta_reduce
  rw [Function.update_eq_self, K.write_read, hz]
  exact hnn _

theorem shotRun_fixed {σ : Type} (K : Coords Θ ι) (sim : Θ → I → Except ε (Img ℝ)) (kind : LossKind) (hkind : kind ≠ .poissonNll)
    (mask : Option (Fin h × Fin w → Bool)) (Inv : ι → σ → Prop) (θ : Θ) :
    ∀ (steps : List (OptStep σ ι × Minibatch I (Fin h × Fin w → ℝ)))
      (_ : ∀ x ∈ steps, ∀ c g s, Inv c s.1 → g c = 0 → Inv c (x.1 g s).1 ∧ (x.1 g s).2 c = s.2 c)
      (_ : ∀ x ∈ steps, ShotExplains sim kind mask θ x.2) (mem : σ) (_ : ∀ c, Inv c mem),
      ∃ mem', shotRun K sim kind mask steps (mem, θ) = some (mem', θ)
  | [], _, _, mem, _ => ⟨mem, rfl⟩
  | (step, B) :: steps, hk, hx, mem, hi => by
    have hB : ShotExplains sim kind mask θ B := hx _ List.mem_cons_self
    have hg := shot_truth_gradient K sim kind hkind mask θ B hB
    have hu := fun c => hk _ List.mem_cons_self c (gradOf (fun v => shotTotal sim kind mask B (K.write v)) (K.read θ)) (mem, K.read θ)
      (hi c) (hg c)
    obtain ⟨mem', h⟩ := shotRun_fixed K sim kind hkind mask Inv θ steps (fun x hx => hk x (List.mem_cons_of_mem _ hx))
      (fun y hy => hx y (List.mem_cons_of_mem _ hy)) _ fun c => (hu c).1
    refine ⟨mem', ?_⟩
    unfold shotRun
    rw [if_pos hB.simulated, ← h]
    dsimp only
    rw [show (step (gradOf (fun v => shotTotal sim kind mask B (K.write v)) (K.read θ)) (mem, K.read θ)).2 = K.read θ from
      funext fun c => (hu c).2, K.write_read]

/-- **C129** (any model): a reconstruction with the amplitude or the intensity loss that starts at parameters which explain all the data it is
given stays there. -/
theorem shot_truth_stays (K : Coords Θ ι) (sim : Θ → I → Except ε (Img ℝ)) (kind : LossKind) (hkind : kind ≠ .poissonNll)
    (mask : Option (Fin h × Fin w → Bool)) (θ : Θ) :
    (∀ steps : List (AdamHyper × Minibatch I (Fin h × Fin w → ℝ)), (∀ x ∈ steps, ShotExplains sim kind mask θ x.2) →
      shotAdam K sim kind mask steps θ = some θ) ∧
    (∀ steps : List (SgdHyper × Minibatch I (Fin h × Fin w → ℝ)), (∀ x ∈ steps, ShotExplains sim kind mask θ x.2) →
      (∀ x ∈ steps, x.1.weightDecay = 0) → shotSgd K sim kind mask steps θ = some θ) := by
  constructor
  · intro steps hx
    refine shotAdam_some.2 (shotRun_fixed K sim kind hkind mask (fun c mem => mem.avg c = 0) θ _ (fun x h c g s h1 h2 => ?_) (fun x h => ?_) _
      fun _ => rfl)
    · obtain ⟨y, -, rfl⟩ := List.mem_map.1 h
      exact adamUpdate_unseen y.1 K.group g s c h1 h2
    · obtain ⟨y, hy, rfl⟩ := List.mem_map.1 h
      exact hx y hy
  · intro steps hx hw
    refine shotSgd_some.2 (shotRun_fixed K sim kind hkind mask (fun c mem => ∀ b, mem = some b → b c = 0) θ _ (fun x h c g s h1 h2 => ?_)
      (fun x h => ?_) _ fun _ _ h => by cases h)
    · obtain ⟨y, hy, rfl⟩ := List.mem_map.1 h
      exact sgdUpdate_unseen y.1 (hw y hy) K.group g s c h1 h2
    · obtain ⟨y, hy, rfl⟩ := List.mem_map.1 h
      exact hx y hy

/-- From exact images to unaffected pixels. -/
theorem unaffected_of_images (K : Coords Θ ι) (sim : Θ → I → Except ε (Img ℝ)) (mask : Option (Fin h × Fin w → Bool)) (c : ι) (e : I) (θ : Θ)
    (hs : (simPixels h w (sim θ e)).isSome)
    (H : ∀ x Q, sim θ e = .ok Q → Q.h = h → Q.w = w → ∃ Q', sim (K.write (Function.update (K.read θ) c x)) e = .ok Q' ∧ Q'.h = Q.h ∧ Q'.w = Q.w ∧
      ∀ z : Fin h × Fin w, Unmasked mask z → Q'.px z.1 z.2 = Q.px z.1 z.2) : Unaffected K sim mask c e θ := by
  intro x z hz
  cases hQ : sim θ e with
  | error ex => rw [hQ] at hs; simp [simPixels] at hs
  | ok Q =>
    rw [hQ] at hs
    have hsh : Q.h = h ∧ Q.w = w := by
      by_contra hne
      simp [simPixels, hne] at hs
    obtain ⟨Q', h1, h2, h3, h4⟩ := H x Q hQ hsh.1 hsh.2
    rw [h1]
    simp only [simPixels, h2, h3, hsh, and_self, if_true, Option.getD_some]
    exact h4 z hz

end General

/-! ### Specification for the models -/

variable [NeZero n] [NeZero m] [NeZero a] [NeZero b]

/-- The simulation of an exposure by `MultislicePtycho`. -/
noncomputable def Multislice.simulate (M : Multislice n m a b N k) (θ : MultisliceTheta n m nz H W h w N r k) (e : Fin N × (Fin 3 → ℝ)) :
    Except String (Img ℝ) := (M.withTheta θ).forward e.1 e.2

/-- The simulation of an exposure by `Bragg2DPtycho`. -/
noncomputable def Bragg.simulate (M : Bragg n m a b N k) (θ : BraggTheta n m H W h w N k) (e : Fin N × (Fin 3 → ℝ)) :
    Except String (Img ℝ) := (M.withTheta θ).forward e.1 e.2

/-- The simulation of an exposure by `SimplePtycho`. -/
noncomputable def Simple.simulate (M : Simple n m) (θ : SimpleTheta n m H W) (t : Fin 3 → ℝ) : Except String (Img ℝ) :=
  (M.withTheta θ).forward t

/-- `θ'` has the values of `θ` wherever the data of a run says nothing: `seen e θs` means that exposure `e` has been simulated with the
parameters `θs`. -/
structure MultisliceUnseenKept (M : Multislice n m a b N k) (mask : Option (Fin h × Fin w → Bool))
    (seen : (Fin N × (Fin 3 → ℝ)) → MultisliceTheta n m nz H W h w N r k → Prop) (θ θ' : MultisliceTheta n m nz H W h w N r k) : Prop where
  probe : ∀ q x y, M.support x y = false → θ'.1 q x y = θ.1 q x y
  slices : ∀ s i j, (∀ e θs, seen e θs → ¬ InWindow a b ((M.withTheta θs).pixTrans e.1 e.2) i j) → θ'.2.1 s i j = θ.2.1 s i j
  background : ∀ x, ¬ Unmasked mask x → θ'.2.2.1 x.1 x.2 = θ.2.2.1 x.1 x.2
  exposure : ∀ idx, (∀ e θs, seen e θs → e.1 ≠ idx) → θ'.2.2.2.1 idx = θ.2.2.2.1 idx ∧ θ'.2.2.2.2.1 idx = θ.2.2.2.2.1 idx ∧
    θ'.2.2.2.2.2 idx = θ.2.2.2.2.2 idx

/-- The same for `Bragg2DPtycho`. -/
structure BraggUnseenKept (M : Bragg n m a b N k) (mask : Option (Fin h × Fin w → Bool))
    (seen : (Fin N × (Fin 3 → ℝ)) → BraggTheta n m H W h w N k → Prop) (θ θ' : BraggTheta n m H W h w N k) : Prop where
  probe : ∀ q x y, M.support x y = false → θ'.1 q x y = θ.1 q x y
  obj : ∀ i j, (∀ e θs, seen e θs → ¬ InWindow a b ((M.withTheta θs).pixTrans e.1 e.2) i j) → θ'.2.1 i j = θ.2.1 i j
  background : ∀ x, ¬ Unmasked mask x → θ'.2.2.1 x.1 x.2 = θ.2.2.1 x.1 x.2
  exposure : ∀ idx, (∀ e θs, seen e θs → e.1 ≠ idx) → θ'.2.2.2.1 idx = θ.2.2.2.1 idx ∧ θ'.2.2.2.2 idx = θ.2.2.2.2 idx

/-! ### MultislicePtycho -/

theorem multislice_unaffected (M : Multislice n m a b N k) (mask : Option (Fin h × Fin w → Bool)) (c : MultisliceCoord n m nz H W h w N r k)
    (e : Fin N × (Fin 3 → ℝ)) (θ : MultisliceTheta n m nz H W h w N r k) (hs : (simPixels h w (M.simulate θ e)).isSome)
    (hin : ∀ d : Fin 2, 0 ≤ ⌊(M.withTheta θ).pixTrans e.1 e.2 d⌋)
    (hag : ∀ x, MultisliceAgree a b M.support ((M.withTheta θ).pixTrans e.1 e.2) e.1 θ
      (multisliceCoords.write (Function.update (multisliceCoords.read θ) c x)))
    (hbg : ∀ z : Fin h × Fin w, Unmasked mask z → c ≠ .background z.1 z.2) : Unaffected multisliceCoords M.simulate mask c e θ := by
  refine unaffected_of_images _ _ _ _ _ _ hs fun x Q hQ hh hw => ?_
  obtain ⟨Q', h1, h2, h3, h4⟩ := multislice_forward_local M θ _ e.1 e.2 hin (hag x) Q hQ
  refine ⟨Q', h1, h2, h3, fun z hz => h4 z.1 z.2 fun hi hj => ?_⟩
  exact (Function.update_of_ne (hbg z hz).symm x (multisliceCoords.read θ)).symm

theorem multislice_unseen_of (M : Multislice n m a b N k) (mask : Option (Fin h × Fin w → Bool))
    (seen : (Fin N × (Fin 3 → ℝ)) → MultisliceTheta n m nz H W h w N r k → Prop) (θ θ' : MultisliceTheta n m nz H W h w N r k)
    (hs : ∀ e θs, seen e θs → (simPixels h w (M.simulate θs e)).isSome)
    (hin : ∀ e θs, seen e θs → ∀ d : Fin 2, 0 ≤ ⌊(M.withTheta θs).pixTrans e.1 e.2 d⌋)
    (key : ∀ c, (∀ e θs, seen e θs → Unaffected multisliceCoords M.simulate mask c e θs) →
      multisliceCoords.read θ' c = multisliceCoords.read θ c) : MultisliceUnseenKept M mask seen θ θ' := by
  have hne : ∀ (θs : MultisliceTheta n m nz H W h w N r k) c x d, d ≠ c →
      Function.update (multisliceCoords.read θs) c x d = multisliceCoords.read θs d := fun θs c x d hd => Function.update_of_ne hd _ _
  have hcx : ∀ (θs : MultisliceTheta n m nz H W h w N r k) c x, (∀ q x' y, (∀ im, MultisliceCoord.probe q x' y im ≠ c) →
        θs.1 q x' y = (multisliceCoords.write (Function.update (multisliceCoords.read θs) c x)).1 q x' y) ∧
      (∀ s i j, (∀ im, MultisliceCoord.obj s i j im ≠ c) →
        θs.2.1 s i j = (multisliceCoords.write (Function.update (multisliceCoords.read θs) c x)).2.1 s i j) ∧
      (∀ i, MultisliceCoord.weight i ≠ c →
        θs.2.2.2.1 i = (multisliceCoords.write (Function.update (multisliceCoords.read θs) c x)).2.2.2.1 i) ∧
      (∀ i, (∀ q j im, MultisliceCoord.weights i q j im ≠ c) →
        θs.2.2.2.2.1 i = (multisliceCoords.write (Function.update (multisliceCoords.read θs) c x)).2.2.2.2.1 i) ∧
      (∀ i, (∀ d, MultisliceCoord.offset i d ≠ c) →
        θs.2.2.2.2.2 i = (multisliceCoords.write (Function.update (multisliceCoords.read θs) c x)).2.2.2.2.2 i) := fun θs c x =>
    ⟨fun q x' y hd => Complex.ext (hne θs c x _ (hd false)).symm (hne θs c x _ (hd true)).symm,
      fun s i j hd => Complex.ext (hne θs c x _ (hd false)).symm (hne θs c x _ (hd true)).symm,
      fun i hd => (hne θs c x _ hd).symm,
      fun i hd => funext fun q => funext fun j => Complex.ext (hne θs c x _ (hd q j false)).symm (hne θs c x _ (hd q j true)).symm,
      fun i hd => funext fun d => (hne θs c x _ (hd d)).symm⟩
  constructor
  · intro q x y hxy
    have h1 : ∀ im, multisliceCoords.read θ' (.probe q x y im) = multisliceCoords.read θ (.probe q x y im) := fun im => by
      refine key _ fun e θs he => multislice_unaffected M mask _ e θs (hs e θs he) (hin e θs he) (fun v => ?_) (fun z _ => by simp)
      obtain ⟨a1, a2, a3, a4, a5⟩ := hcx θs (.probe q x y im) v
      refine ⟨fun q' x' y' h' => a1 q' x' y' fun im' heq => ?_, fun s i j _ _ _ _ => a2 s i j (by simp), a3 _ (by simp), a4 _ (by simp), a5 _ (by simp)⟩
      cases heq
      rw [hxy] at h'
      cases h'
    exact Complex.ext (h1 false) (h1 true)
  · intro s i j hout
    have h1 : ∀ im, multisliceCoords.read θ' (.obj s i j im) = multisliceCoords.read θ (.obj s i j im) := fun im => by
      refine key _ fun e θs he => multislice_unaffected M mask _ e θs (hs e θs he) (hin e θs he) (fun v => ?_) (fun z _ => by simp)
      obtain ⟨a1, a2, a3, a4, a5⟩ := hcx θs (.obj s i j im) v
      refine ⟨fun q' x' y' _ => a1 q' x' y' (by simp), fun s' i' j' b1 b2 b3 b4 => a2 s' i' j' fun im' heq => ?_, a3 _ (by simp), a4 _ (by simp),
        a5 _ (by simp)⟩
      cases heq
      exact hout e θs he ⟨b1, b2, b3, b4⟩
    exact Complex.ext (h1 false) (h1 true)
  · intro x hx
    refine key (.background x.1 x.2) fun e θs he => multislice_unaffected M mask _ e θs (hs e θs he) (hin e θs he) (fun v => ?_) (fun z hz heq => ?_)
    · obtain ⟨a1, a2, a3, a4, a5⟩ := hcx θs (.background x.1 x.2) v
      exact ⟨fun q' x' y' _ => a1 q' x' y' (by simp), fun s i j _ _ _ _ => a2 s i j (by simp), a3 _ (by simp), a4 _ (by simp), a5 _ (by simp)⟩
    · injection heq with e1 e2
      exact hx (by rwa [show x = z from Prod.ext e1 e2])
  · intro idx hidx
    have hx : ∀ c : MultisliceCoord n m nz H W h w N r k, (c = .weight idx ∨ (∃ q j im, c = .weights idx q j im) ∨ ∃ d, c = .offset idx d) →
        multisliceCoords.read θ' c = multisliceCoords.read θ c := fun c hc => by
      refine key _ fun e θs he => multislice_unaffected M mask _ e θs (hs e θs he) (hin e θs he) (fun v => ?_) (fun z hz heq => ?_)
      · obtain ⟨a1, a2, a3, a4, a5⟩ := hcx θs c v
        have hei := hidx e θs he
        rcases hc with rfl | ⟨q, j, im, rfl⟩ | ⟨d, rfl⟩ <;>
        · refine ⟨fun q' x' y' _ => a1 q' x' y' (by simp), fun s i j _ _ _ _ => a2 s i j (by simp), a3 _ (by simp [hei]), a4 _ (by simp [hei]),
            a5 _ (by simp [hei])⟩
      · rw [heq] at hc
        simp at hc
    refine ⟨hx _ (Or.inl rfl), ?_, ?_⟩
    · funext q j
      exact Complex.ext (hx (.weights idx q j false) (Or.inr (Or.inl ⟨_, _, _, rfl⟩))) (hx (.weights idx q j true) (Or.inr (Or.inl ⟨_, _, _, rfl⟩)))
    · funext d
      exact hx (.offset idx d) (Or.inr (Or.inr ⟨_, rfl⟩))

/-- **C129** (`MultislicePtycho`, Adam): any number of minibatches, with any loss and hyperparameters, leaves everything that the data does not see as
it was; `hin`: no simulated window starts above or left of the object. -/
theorem multislice_adam_unseen (M : Multislice n m a b N k) (kind : LossKind) (mask : Option (Fin h × Fin w → Bool))
    (steps : List (AdamHyper × Minibatch (Fin N × (Fin 3 → ℝ)) (Fin h × Fin w → ℝ))) (θ θ' : MultisliceTheta n m nz H W h w N r k)
    (hrun : shotAdam multisliceCoords M.simulate kind mask steps θ = some θ')
    (hin : ∀ e θs, AdamSees multisliceCoords M.simulate kind mask steps θ e θs → ∀ d : Fin 2, 0 ≤ ⌊(M.withTheta θs).pixTrans e.1 e.2 d⌋) :
    MultisliceUnseenKept M mask (AdamSees multisliceCoords M.simulate kind mask steps θ) θ θ' :=
  multislice_unseen_of M mask _ θ θ' (fun _ _ ⟨_, _, _, _, _, _, hs⟩ => hs) hin fun c hc =>
    shot_adam_unseen multisliceCoords M.simulate kind mask steps θ θ' hrun c hc

/-- **C129** (`MultislicePtycho`, SGD without weight decay). -/
theorem multislice_sgd_unseen (M : Multislice n m a b N k) (kind : LossKind) (mask : Option (Fin h × Fin w → Bool))
    (steps : List (SgdHyper × Minibatch (Fin N × (Fin 3 → ℝ)) (Fin h × Fin w → ℝ))) (hw : ∀ x ∈ steps, x.1.weightDecay = 0)
    (θ θ' : MultisliceTheta n m nz H W h w N r k) (hrun : shotSgd multisliceCoords M.simulate kind mask steps θ = some θ')
    (hin : ∀ e θs, SgdSees multisliceCoords M.simulate kind mask steps θ e θs → ∀ d : Fin 2, 0 ≤ ⌊(M.withTheta θs).pixTrans e.1 e.2 d⌋) :
    MultisliceUnseenKept M mask (SgdSees multisliceCoords M.simulate kind mask steps θ) θ θ' :=
  multislice_unseen_of M mask _ θ θ' (fun _ _ ⟨_, _, _, _, _, _, hs⟩ => hs) hin fun c hc =>
    shot_sgd_unseen multisliceCoords M.simulate kind mask steps hw θ θ' hrun c hc

/-! ### Bragg2DPtycho -/

theorem bragg_unaffected (M : Bragg n m a b N k) (mask : Option (Fin h × Fin w → Bool)) (c : BraggCoord n m H W h w N k)
    (e : Fin N × (Fin 3 → ℝ)) (θ : BraggTheta n m H W h w N k) (hs : (simPixels h w (M.simulate θ e)).isSome)
    (hin : ∀ d : Fin 2, 0 ≤ ⌊(M.withTheta θ).pixTrans e.1 e.2 d⌋)
    (hag : ∀ x, BraggAgree a b M.support ((M.withTheta θ).pixTrans e.1 e.2) e.1 θ (braggCoords.write (Function.update (braggCoords.read θ) c x)))
    (hbg : ∀ z : Fin h × Fin w, Unmasked mask z → c ≠ .background z.1 z.2) : Unaffected braggCoords M.simulate mask c e θ := by
  refine unaffected_of_images _ _ _ _ _ _ hs fun x Q hQ hh hw => ?_
  obtain ⟨Q', h1, h2, h3, h4⟩ := bragg_forward_local M θ _ e.1 e.2 hin (hag x) Q hQ
  refine ⟨Q', h1, h2, h3, fun z hz => h4 z.1 z.2 fun hi hj => ?_⟩
  exact (Function.update_of_ne (hbg z hz).symm x (braggCoords.read θ)).symm

theorem bragg_unseen_of (M : Bragg n m a b N k) (mask : Option (Fin h × Fin w → Bool))
    (seen : (Fin N × (Fin 3 → ℝ)) → BraggTheta n m H W h w N k → Prop) (θ θ' : BraggTheta n m H W h w N k)
    (hs : ∀ e θs, seen e θs → (simPixels h w (M.simulate θs e)).isSome)
    (hin : ∀ e θs, seen e θs → ∀ d : Fin 2, 0 ≤ ⌊(M.withTheta θs).pixTrans e.1 e.2 d⌋)
    (key : ∀ c, (∀ e θs, seen e θs → Unaffected braggCoords M.simulate mask c e θs) → braggCoords.read θ' c = braggCoords.read θ c) :
    BraggUnseenKept M mask seen θ θ' := by
  have hne : ∀ (θs : BraggTheta n m H W h w N k) c x d, d ≠ c →
      Function.update (braggCoords.read θs) c x d = braggCoords.read θs d := fun θs c x d hd => Function.update_of_ne hd _ _
  have hcx : ∀ (θs : BraggTheta n m H W h w N k) c x, (∀ q x' y, (∀ im, BraggCoord.probe q x' y im ≠ c) →
        θs.1 q x' y = (braggCoords.write (Function.update (braggCoords.read θs) c x)).1 q x' y) ∧
      (∀ i j, (∀ im, BraggCoord.obj i j im ≠ c) → θs.2.1 i j = (braggCoords.write (Function.update (braggCoords.read θs) c x)).2.1 i j) ∧
      (∀ i, BraggCoord.weight i ≠ c → θs.2.2.2.1 i = (braggCoords.write (Function.update (braggCoords.read θs) c x)).2.2.2.1 i) ∧
      (∀ i, (∀ d, BraggCoord.offset i d ≠ c) → θs.2.2.2.2 i = (braggCoords.write (Function.update (braggCoords.read θs) c x)).2.2.2.2 i) :=
    fun θs c x =>
    ⟨fun q x' y hd => Complex.ext (hne θs c x _ (hd false)).symm (hne θs c x _ (hd true)).symm,
      fun i j hd => Complex.ext (hne θs c x _ (hd false)).symm (hne θs c x _ (hd true)).symm,
      fun i hd => (hne θs c x _ hd).symm,
      fun i hd => funext fun d => (hne θs c x _ (hd d)).symm⟩
  constructor
  · intro q x y hxy
    have h1 : ∀ im, braggCoords.read θ' (.probe q x y im) = braggCoords.read θ (.probe q x y im) := fun im => by
      refine key _ fun e θs he => bragg_unaffected M mask _ e θs (hs e θs he) (hin e θs he) (fun v => ?_) (fun z _ => by simp)
      obtain ⟨a1, a2, a3, a5⟩ := hcx θs (.probe q x y im) v
      refine ⟨fun q' x' y' h' => a1 q' x' y' fun im' heq => ?_, fun i j _ _ _ _ => a2 i j (by simp), a3 _ (by simp), a5 _ (by simp)⟩
      cases heq
      rw [hxy] at h'
      cases h'
    exact Complex.ext (h1 false) (h1 true)
  · intro i j hout
    have h1 : ∀ im, braggCoords.read θ' (.obj i j im) = braggCoords.read θ (.obj i j im) := fun im => by
      refine key _ fun e θs he => bragg_unaffected M mask _ e θs (hs e θs he) (hin e θs he) (fun v => ?_) (fun z _ => by simp)
      obtain ⟨a1, a2, a3, a5⟩ := hcx θs (.obj i j im) v
      refine ⟨fun q' x' y' _ => a1 q' x' y' (by simp), fun i' j' b1 b2 b3 b4 => a2 i' j' fun im' heq => ?_, a3 _ (by simp), a5 _ (by simp)⟩
      cases heq
      exact hout e θs he ⟨b1, b2, b3, b4⟩
    exact Complex.ext (h1 false) (h1 true)
  · intro x hx
    refine key (.background x.1 x.2) fun e θs he => bragg_unaffected M mask _ e θs (hs e θs he) (hin e θs he) (fun v => ?_) (fun z hz heq => ?_)
    · obtain ⟨a1, a2, a3, a5⟩ := hcx θs (.background x.1 x.2) v
      exact ⟨fun q' x' y' _ => a1 q' x' y' (by simp), fun i j _ _ _ _ => a2 i j (by simp), a3 _ (by simp), a5 _ (by simp)⟩
    · injection heq with e1 e2
      exact hx (by rwa [show x = z from Prod.ext e1 e2])
  · intro idx hidx
    have hx : ∀ c : BraggCoord n m H W h w N k, (c = .weight idx ∨ ∃ d, c = .offset idx d) → braggCoords.read θ' c = braggCoords.read θ c :=
      fun c hc => by
      refine key _ fun e θs he => bragg_unaffected M mask _ e θs (hs e θs he) (hin e θs he) (fun v => ?_) (fun z hz heq => ?_)
      · obtain ⟨a1, a2, a3, a5⟩ := hcx θs c v
        have hei := hidx e θs he
        rcases hc with rfl | ⟨d, rfl⟩ <;>
        · exact ⟨fun q' x' y' _ => a1 q' x' y' (by simp), fun i j _ _ _ _ => a2 i j (by simp), a3 _ (by simp [hei]), a5 _ (by simp [hei])⟩
      · rw [heq] at hc
        simp at hc
    exact ⟨hx _ (Or.inl rfl), funext fun d => hx (.offset idx d) (Or.inr ⟨_, rfl⟩)⟩

/-- **C129** (`Bragg2DPtycho`, Adam). -/
theorem bragg_adam_unseen (M : Bragg n m a b N k) (kind : LossKind) (mask : Option (Fin h × Fin w → Bool))
    (steps : List (AdamHyper × Minibatch (Fin N × (Fin 3 → ℝ)) (Fin h × Fin w → ℝ))) (θ θ' : BraggTheta n m H W h w N k)
    (hrun : shotAdam braggCoords M.simulate kind mask steps θ = some θ')
    (hin : ∀ e θs, AdamSees braggCoords M.simulate kind mask steps θ e θs → ∀ d : Fin 2, 0 ≤ ⌊(M.withTheta θs).pixTrans e.1 e.2 d⌋) :
    BraggUnseenKept M mask (AdamSees braggCoords M.simulate kind mask steps θ) θ θ' :=
  bragg_unseen_of M mask _ θ θ' (fun _ _ ⟨_, _, _, _, _, _, hs⟩ => hs) hin fun c hc =>
    shot_adam_unseen braggCoords M.simulate kind mask steps θ θ' hrun c hc

/-- **C129** (`Bragg2DPtycho`, SGD without weight decay). -/
theorem bragg_sgd_unseen (M : Bragg n m a b N k) (kind : LossKind) (mask : Option (Fin h × Fin w → Bool))
    (steps : List (SgdHyper × Minibatch (Fin N × (Fin 3 → ℝ)) (Fin h × Fin w → ℝ))) (hw : ∀ x ∈ steps, x.1.weightDecay = 0)
    (θ θ' : BraggTheta n m H W h w N k) (hrun : shotSgd braggCoords M.simulate kind mask steps θ = some θ')
    (hin : ∀ e θs, SgdSees braggCoords M.simulate kind mask steps θ e θs → ∀ d : Fin 2, 0 ≤ ⌊(M.withTheta θs).pixTrans e.1 e.2 d⌋) :
    BraggUnseenKept M mask (SgdSees braggCoords M.simulate kind mask steps θ) θ θ' :=
  bragg_unseen_of M mask _ θ θ' (fun _ _ ⟨_, _, _, _, _, _, hs⟩ => hs) hin fun c hc =>
    shot_sgd_unseen braggCoords M.simulate kind mask steps hw θ θ' hrun c hc

/-! ### SimplePtycho -/

/-- **C129** (`SimplePtycho`): the positions are fixed, so the pixels of the object that keep their value can be read off before the run: those outside
the windows of all exposures used. -/
theorem simple_adam_object (M : Simple n m) (steps : List (AdamHyper × Minibatch (Fin 3 → ℝ) (Fin h × Fin w → ℝ))) (θ θ' : SimpleTheta n m H W)
    (hrun : shotAdam simpleCoords M.simulate .amplitudeMse none steps θ = some θ')
    (hin : ∀ x ∈ steps, ∀ t ∈ x.2.inputs, ∀ d : Fin 2, 0 ≤ roundHalfEven (M.pixTrans t d)) (i : Fin H) (j : Fin W)
    (hout : ∀ x ∈ steps, ∀ t ∈ x.2.inputs, ¬ (roundHalfEven (M.pixTrans t 0) ≤ (i.val : ℤ) ∧ (i.val : ℤ) < roundHalfEven (M.pixTrans t 0) + n ∧
      roundHalfEven (M.pixTrans t 1) ≤ (j.val : ℤ) ∧ (j.val : ℤ) < roundHalfEven (M.pixTrans t 1) + m)) : θ'.2 i j = θ.2 i j := by
  have h1 : ∀ im, simpleCoords.read θ' (.obj i j im) = simpleCoords.read θ (.obj i j im) := fun im => by
    refine shot_adam_unseen simpleCoords M.simulate .amplitudeMse none steps θ θ' hrun _ fun t θs hsee x z _ => ?_
    obtain ⟨pre, y, post, he, -, ht, -⟩ := hsee
    have hy : y ∈ steps := by rw [he]; simp
    have hfw : M.simulate (simpleCoords.write (Function.update (simpleCoords.read θs) (.obj i j im) x)) t = M.simulate θs t := by
      refine simple_forward_local M θs _ t (hin y hy t ht) ?_ fun i' j' b1 b2 b3 b4 => ?_
      · funext x' y'
        have hd : ∀ im', SimpleCoord.probe x' y' im' ≠ (.obj i j im : SimpleCoord n m H W) := fun im' => by simp
        exact Complex.ext (Function.update_of_ne (hd false) x (simpleCoords.read θs)).symm
          (Function.update_of_ne (hd true) x (simpleCoords.read θs)).symm
      · have hd : ∀ im', SimpleCoord.obj i' j' im' ≠ (.obj i j im : SimpleCoord n m H W) := fun im' heq => by
          cases heq
          exact hout y hy t ht ⟨b1, b2, b3, b4⟩
        have q : ∀ im', Function.update (simpleCoords.read θs) (.obj i j im) x (.obj i' j' im') = simpleCoords.read θs (.obj i' j' im') :=
          fun im' => Function.update_of_ne (hd im') _ _
        exact Complex.ext (q false).symm (q true).symm
    rw [hfw]
  exact Complex.ext (h1 false) (h1 true)

/-! ### The truth -/

/-- **C129** (`MultislicePtycho`): a reconstruction that starts at parameters which explain the data stays there. -/
theorem multislice_truth_stays (M : Multislice n m a b N k) (kind : LossKind) (hkind : kind ≠ .poissonNll) (mask : Option (Fin h × Fin w → Bool))
    (θ : MultisliceTheta n m nz H W h w N r k) (steps : List (AdamHyper × Minibatch (Fin N × (Fin 3 → ℝ)) (Fin h × Fin w → ℝ)))
    (hx : ∀ x ∈ steps, ShotExplains M.simulate kind mask θ x.2) : shotAdam multisliceCoords M.simulate kind mask steps θ = some θ :=
  (shot_truth_stays multisliceCoords M.simulate kind hkind mask θ).1 steps hx

/-- **C129** (`Bragg2DPtycho`). -/
theorem bragg_truth_stays (M : Bragg n m a b N k) (kind : LossKind) (hkind : kind ≠ .poissonNll) (mask : Option (Fin h × Fin w → Bool))
    (θ : BraggTheta n m H W h w N k) (steps : List (AdamHyper × Minibatch (Fin N × (Fin 3 → ℝ)) (Fin h × Fin w → ℝ)))
    (hx : ∀ x ∈ steps, ShotExplains M.simulate kind mask θ x.2) : shotAdam braggCoords M.simulate kind mask steps θ = some θ :=
  (shot_truth_stays braggCoords M.simulate kind hkind mask θ).1 steps hx

/-- **C129** (`SimplePtycho`). -/
theorem simple_truth_stays (M : Simple n m) (θ : SimpleTheta n m H W) (steps : List (AdamHyper × Minibatch (Fin 3 → ℝ) (Fin h × Fin w → ℝ)))
    (hx : ∀ x ∈ steps, ShotExplains M.simulate .amplitudeMse none θ x.2) :
    shotAdam simpleCoords M.simulate .amplitudeMse none steps θ = some θ :=
  (shot_truth_stays simpleCoords M.simulate .amplitudeMse (by simp) none θ).1 steps hx

/-- **C129** (`RPI` without a regularizer). -/
theorem rpi_truth_stays (M : Rpi n m a b k (l + 1)) (weightMatrix : Bool) (kind : LossKind) (hkind : kind ≠ .poissonNll)
    (mask : Option (Fin h × Fin w → Bool)) (θ : RpiTheta a b k (l + 1)) (steps : List (AdamHyper × Minibatch ℕ (Fin h × Fin w → ℝ)))
    (hx : ∀ x ∈ steps, ShotExplains (fun θ (_ : ℕ) => (M.withTheta weightMatrix θ).pattern) kind mask θ x.2) :
    shotAdam rpiCoords (fun θ (_ : ℕ) => (M.withTheta weightMatrix θ).pattern) kind mask steps θ = some θ :=
  (shot_truth_stays rpiCoords _ kind hkind mask θ).1 steps hx

/-! ### Non-vacuity -/

/-- The exposure of the toy model is simulated for all values of the parameters with offsets of half a pixel. -/
theorem toyBragg_simulated (θ : BraggTheta 2 2 4 4 2 2 1 1) (hθ : θ.2.2.2.2 = fun _ _ => 1 / 2) :
    (simPixels 2 2 (toyBraggOffsets.simulate θ (0, ![-1, -2, 0]))).isSome := by
  have hp := toyBragg_position θ hθ
  unfold Bragg.simulate
  rw [Bragg.forward_eq _ θ.2.2.2.1 rfl, hp]
  have f0 : ⌊(![5 / 2, 3 / 2] : Fin 2 → ℝ) 0⌋ = 2 := by
    rw [Int.floor_eq_iff]; constructor <;> norm_num
  have f1 : ⌊(![5 / 2, 3 / 2] : Fin 2 → ℝ) 1⌋ = 1 := by
    rw [Int.floor_eq_iff]; constructor <;> norm_num
  rw [f0, f1, objWindow_inside ⟨by norm_num, by simp [Bragg.withTheta, imgOf]⟩ ⟨by norm_num, by simp [Bragg.withTheta, imgOf]⟩]
  rfl

/-- Its own pattern as data: any number of steps of Adam leaves all parameters as they are. -/
example (mask : Option (Fin 2 × Fin 2 → Bool)) (θ : BraggTheta 2 2 4 4 2 2 1 1) (hθ : θ.2.2.2.2 = fun _ _ => 1 / 2) (c : ℕ) (hp : AdamHyper) :
    let B : Minibatch (Fin 1 × (Fin 3 → ℝ)) (Fin 2 × Fin 2 → ℝ) :=
      ⟨[(0, ![-1, -2, 0])], [(simPixels 2 2 (toyBraggOffsets.simulate θ (0, ![-1, -2, 0]))).getD 0]⟩
    shotAdam braggCoords toyBraggOffsets.simulate .intensityMse mask (List.replicate c (hp, B)) θ = some θ := by
  intro B
  refine bragg_truth_stays toyBraggOffsets .intensityMse (by simp) mask θ _ fun x hx => ?_
  rw [List.eq_of_mem_replicate hx]
  refine ⟨fun e he => ?_, fun y hy z _ => ?_, fun hk => by cases hk⟩
  · simp only [B, List.mem_singleton] at he
    rw [he]
    exact toyBragg_simulated θ hθ
  · simp only [B, List.zip_cons_cons, List.zip_nil_right, List.mem_singleton] at hy
    rw [hy]

/-- A step of Adam with any data leaves the corner of the object, which the window of the exposure does not reach, as it was. -/
example (kind : LossKind) (mask : Option (Fin 2 × Fin 2 → Bool)) (θ : BraggTheta 2 2 4 4 2 2 1 1) (hθ : θ.2.2.2.2 = fun _ _ => 1 / 2)
    (hp : AdamHyper) (p : Fin 2 × Fin 2 → ℝ) :
    ∃ θ', shotAdam braggCoords toyBraggOffsets.simulate kind mask [(hp, ⟨[(0, ![-1, -2, 0])], [p]⟩)] θ = some θ' ∧ θ'.2.1 0 0 = θ.2.1 0 0 := by
  have hrun : ∃ θ', shotAdam braggCoords toyBraggOffsets.simulate kind mask [(hp, ⟨[(0, ![-1, -2, 0])], [p]⟩)] θ = some θ' := by
    unfold shotAdam
    rw [List.map_cons, List.map_nil]
    unfold shotRun
    rw [if_pos fun e he => by rw [List.mem_singleton.1 he]; exact toyBragg_simulated θ hθ]
    exact ⟨_, rfl⟩
  obtain ⟨θ', hrun⟩ := hrun
  have hsee : ∀ e θs, AdamSees braggCoords toyBraggOffsets.simulate kind mask [(hp, ⟨[(0, ![-1, -2, 0])], [p]⟩)] θ e θs →
      e = (0, ![-1, -2, 0]) ∧ θs = θ := by
    rintro e θs ⟨pre, x, post, h1, h2, h3, -⟩
    rcases pre with _ | ⟨y, pre⟩
    · obtain ⟨rfl, -⟩ := List.cons.inj h1
      refine ⟨List.mem_singleton.1 h3, ?_⟩
      have h2' : some θ = some θs := h2
      exact (Option.some.inj h2').symm
    · have := congrArg List.length h1
      simp at this
  have hpos := toyBragg_position θ hθ
  refine ⟨θ', hrun, (bragg_adam_unseen toyBraggOffsets kind mask _ θ θ' hrun fun e θs hs d => ?_).obj 0 0 fun e θs hs hw => ?_⟩
  · obtain ⟨rfl, rfl⟩ := hsee e θs hs
    rw [hpos]
    fin_cases d <;> refine Int.floor_nonneg.2 ?_ <;> norm_num
  · obtain ⟨rfl, rfl⟩ := hsee e θs hs
    have h0 := hw.1
    rw [hpos] at h0
    have f0 : ⌊(![5 / 2, 3 / 2] : Fin 2 → ℝ) 0⌋ = 2 := by
      rw [Int.floor_eq_iff]; constructor <;> norm_num
    rw [f0] at h0
    norm_num at h0

end Cdtools
