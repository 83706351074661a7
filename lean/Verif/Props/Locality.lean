/- Property theorems C114: what an exposure of the other models can see, and where a minibatch leaves no gradient. -/
import Verif.Props.FancyGradient
import Verif.Props.Training

set_option linter.unusedSectionVars false

namespace Cdtools
open Finset Matrix

variable {n m a b H W h w N r k : ℕ} [NeZero n] [NeZero m] [NeZero a] [NeZero b]

/-! ### General facts -/

/-- The window at a non-negative position depends on the pixels inside only. -/
theorem objWindow_local (T T' : Img ℂ) (hh : T'.h = T.h) (hw : T'.w = T.w) (p q : ℤ) (hp : 0 ≤ p) (hq : 0 ≤ q)
    (hpx : ∀ i j : ℕ, p ≤ (i : ℤ) → (i : ℤ) < p + a → q ≤ (j : ℤ) → (j : ℤ) < q + b → T'.px i j = T.px i j) :
    objWindow a b T' p q = objWindow a b T p q := by
  unfold objWindow
  simp only [hh, hw]
  by_cases hfit : (sliceExtent T.h p (p + a)).2 = a ∧ (sliceExtent T.w q (q + b)).2 = b
  · rw [if_pos hfit, if_pos hfit]
    have hstart : (((sliceExtent T.h p (p + a)).1 : ℕ) : ℤ) = p ∧ (((sliceExtent T.w q (q + b)).1 : ℕ) : ℤ) = q := by
      have ha := NeZero.pos a
      have hb := NeZero.pos b
      unfold sliceExtent sliceBound at hfit ⊢
      simp only at hfit ⊢
      rw [if_neg (by omega), if_neg (by omega), if_neg (by omega), if_neg (by omega)] at hfit
      rw [if_neg (by omega), if_neg (by omega)]
      omega
    refine congrArg _ ?_
    funext u v
    have hu := ZMod.val_lt u
    have hv := ZMod.val_lt v
    refine hpx _ _ ?_ ?_ ?_ ?_ <;> push_cast <;> omega
  · rw [if_neg hfit, if_neg hfit]

/-- A direction in which no simulated unmasked pixel of the minibatch changes carries no gradient of the loss. -/
theorem no_gradient_of_unchanged {E I ε : Type} [NormedAddCommGroup E] [NormedSpace ℝ E] (sim : E → I → Except ε (Img ℝ)) (kind : LossKind)
    (mask : Option (Fin h × Fin w → Bool)) (θ v : E) (B : Minibatch I (Fin h × Fin w → ℝ))
    (hs : ∀ e ∈ B.inputs, ∀ s : ℝ, ∃ Q Q', sim θ e = .ok Q ∧ sim (θ + s • v) e = .ok Q' ∧ Q.h = h ∧ Q.w = w ∧ Q'.h = h ∧ Q'.w = w ∧
      ∀ x : Fin h × Fin w, Unmasked mask x → Q'.px x.1 x.2 = Q.px x.1 x.2)
    (L : E → ℝ) (hL : L = fun θ' => kind.chunk mask (B.patterns.zip (B.inputs.map fun e => (simPixels h w (sim θ' e)).getD 0)))
    (hd : DifferentiableAt ℝ L θ) : fderiv ℝ L θ v = 0 := by
  refine fderiv_zero_of_invariant L θ v hd fun s => ?_
  rw [hL]
  have hpix : ∀ e ∈ B.inputs, ∀ x, Unmasked mask x → (simPixels h w (sim (θ + s • v) e)).getD 0 x = (simPixels h w (sim θ e)).getD 0 x := by
    intro e he x hx
    obtain ⟨Q, Q', hQ, hQ', h1, h2, h3, h4, hpx⟩ := hs e he s
    rw [hQ, hQ']
    simp only [simPixels, h1, h2, h3, h4, and_self, if_true, Option.getD_some]
    exact hpx x hx
  have hc : ∀ (ps : List (Fin h × Fin w → ℝ)) (es : List I), (∀ e ∈ es, e ∈ B.inputs) →
      kind.chunk mask (ps.zip (es.map fun e => (simPixels h w (sim (θ + s • v) e)).getD 0)) =
      kind.chunk mask (ps.zip (es.map fun e => (simPixels h w (sim θ e)).getD 0)) := by
    intro ps
    induction ps with
    | nil => intro es _; rfl
    | cons p ps ih =>
      intro es hes
      cases es with
      | nil => rfl
      | cons e es =>
        have hone : kind.chunk mask [(p, (simPixels h w (sim (θ + s • v) e)).getD 0)] = kind.chunk mask [(p, (simPixels h w (sim θ e)).getD 0)] := by
          have hpx := hpix e (hes e (by simp))
          cases kind <;>
          · simp only [LossKind.chunk, Cdtools.amplitudeMse, Cdtools.intensityMse, Cdtools.poissonNll, if_true,
              Bool.false_eq_true, if_false, batchSum, List.map_cons, List.map_nil, List.sum_cons, List.sum_nil, add_zero]
            refine sum_congr rfl fun x hx => ?_
            rw [hpx x ((mem_selected mask x).1 hx)]
        have h1 := LossKind.chunk_append kind mask [(p, (simPixels h w (sim (θ + s • v) e)).getD 0)]
          (ps.zip (es.map fun e => (simPixels h w (sim (θ + s • v) e)).getD 0))
        have h2 := LossKind.chunk_append kind mask [(p, (simPixels h w (sim θ e)).getD 0)]
          (ps.zip (es.map fun e => (simPixels h w (sim θ e)).getD 0))
        rw [hone, ih es fun e he => hes e (by simp [he])] at h1
        exact h1.trans h2.symm
  exact hc _ _ fun e he => he

/-- A pixel of the background acts on that pixel of the pattern only. -/
theorem background_local (sat : Option ℝ) (o : ℕ) (B B' : Img ℝ) (I : Img ℝ) :
    (measQuadratic { saturation := sat, oversampling := o } B' none I).h = (measQuadratic { saturation := sat, oversampling := o } B none I).h ∧
    (measQuadratic { saturation := sat, oversampling := o } B' none I).w = (measQuadratic { saturation := sat, oversampling := o } B none I).w ∧
    ∀ i j, B.px i j = B'.px i j → (measQuadratic { saturation := sat, oversampling := o } B' none I).px i j =
      (measQuadratic { saturation := sat, oversampling := o } B none I).px i j := by
  have h3 := meas_shape sat o B' none I
  have h4 := meas_shape sat o B none I
  refine ⟨h3.1.trans h4.1.symm, h3.2.trans h4.2.symm, fun i j hb => ?_⟩
  unfold measQuadratic saturate
  dsimp only
  cases sat <;> simp [Img.zip, Img.map, hb]

theorem imgOf_px_congr {α : Type} [Zero α] (f g : Fin H → Fin W → α) (i j : ℕ) (h : ∀ (hi : i < H) (hj : j < W), f ⟨i, hi⟩ ⟨j, hj⟩ = g ⟨i, hi⟩ ⟨j, hj⟩) :
    (imgOf f).px i j = (imgOf g).px i j := by
  unfold imgOf
  by_cases hlt : i < H ∧ j < W
  · simp only [dif_pos hlt]; exact h hlt.1 hlt.2
  · simp only [dif_neg hlt]

/-- Two objects agree inside the `a × b` window whose corner is at `(p, q)`. -/
def AgreeInside (a b : ℕ) (p q : ℤ) (f g : Fin H → Fin W → ℂ) : Prop :=
  ∀ (i : Fin H) (j : Fin W), p ≤ (i.val : ℤ) → (i.val : ℤ) < p + a → q ≤ (j.val : ℤ) → (j.val : ℤ) < q + b → f i j = g i j

/-! ### MultislicePtycho -/

/-- `θ` and `θ'` agree as far as exposure `idx` at pixel position `p` can see: on the probe inside its support, on every slice inside the window
at the integer part of `p`, and on the exposure's own weights and offset. -/
structure MultisliceAgree {nz : ℕ} (a b : ℕ) (support : ZMod n → ZMod m → Bool) (p : Fin 2 → ℝ) (idx : Fin N)
    (θ θ' : MultisliceTheta n m nz H W h w N r k) : Prop where
  probe : ∀ j x y, support x y = true → θ.1 j x y = θ'.1 j x y
  slices : ∀ s, AgreeInside a b ⌊p 0⌋ ⌊p 1⌋ (θ.2.1 s) (θ'.2.1 s)
  weight : θ.2.2.2.1 idx = θ'.2.2.2.1 idx
  weights : θ.2.2.2.2.1 idx = θ'.2.2.2.2.1 idx
  offset : θ.2.2.2.2.2 idx = θ'.2.2.2.2.2 idx

/-- **C114** (`MultislicePtycho`). Changing the probe outside its support, the slices outside the window of the exposure, or the weights and
offsets of other exposures does not change the simulation of an exposure, and a pixel of the background acts on that pixel only. -/
theorem multislice_forward_local {nz : ℕ} (M : Multislice n m a b N k) (θ θ' : MultisliceTheta n m nz H W h w N r k) (idx : Fin N) (t : Fin 3 → ℝ)
    (hin : ∀ c : Fin 2, 0 ≤ ⌊(M.withTheta θ).pixTrans idx t c⌋)
    (hag : MultisliceAgree a b M.support ((M.withTheta θ).pixTrans idx t) idx θ θ') (Q : Img ℝ) (hQ : (M.withTheta θ).forward idx t = .ok Q) :
    ∃ Q', (M.withTheta θ').forward idx t = .ok Q' ∧ Q'.h = Q.h ∧ Q'.w = Q.w ∧
      ∀ i j, (∀ (hi : i < h) (hj : j < w), θ.2.2.1 ⟨i, hi⟩ ⟨j, hj⟩ = θ'.2.2.1 ⟨i, hi⟩ ⟨j, hj⟩) → Q'.px i j = Q.px i j := by
  have hp : (M.withTheta θ').pixTrans idx t = (M.withTheta θ).pixTrans idx t := by
    unfold Multislice.pixTrans Multislice.withTheta
    cases M.offsets with
    | none => rfl
    | some o => simp only [Option.map_some, hag.offset]
  have hbasis : (fun j => (M.withTheta θ').realSpace ((M.withTheta θ').probe j)) = fun j => (M.withTheta θ).realSpace ((M.withTheta θ).probe j) := by
    funext j
    unfold Multislice.realSpace Multislice.withTheta
    have : (fun x y => θ'.1 j x y * (if M.support x y = true then 1 else 0) : Wave n m) =
        fun x y => θ.1 j x y * (if M.support x y = true then 1 else 0) := by
      funext x y
      by_cases hsup : M.support x y = true
      · rw [hag.probe j x y hsup]
      · simp [hsup]
    simp only [this]
  have hU : (∃ v v', (M.withTheta θ').effectiveWeights = .perShot v ∧ (M.withTheta θ).effectiveWeights = .perShot v' ∧ v idx = v' idx) ∨
      ∃ r, ∃ V V' : Fin N → Matrix (Fin r) (Fin k) ℂ, (M.withTheta θ').effectiveWeights = .matrices r V ∧
        (M.withTheta θ).effectiveWeights = .matrices r V' ∧ V idx = V' idx := by
    unfold Multislice.effectiveWeights Multislice.withTheta
    cases M.weights with
    | none => exact Or.inl ⟨_, _, rfl, rfl, rfl⟩
    | some U =>
      cases U with
      | perShot v => exact Or.inl ⟨_, _, rfl, rfl, hag.weight.symm⟩
      | matrices r0 V => exact Or.inr ⟨_, _, _, rfl, rfl, by rw [hag.weights]⟩
  have hwin : ((M.withTheta θ').slices.mapM fun o => objWindow a b ((M.withTheta θ').transmission o) ⌊(M.withTheta θ).pixTrans idx t 0⌋ ⌊(M.withTheta θ).pixTrans idx t 1⌋) =
      ((M.withTheta θ).slices.mapM fun o => objWindow a b ((M.withTheta θ).transmission o) ⌊(M.withTheta θ).pixTrans idx t 0⌋ ⌊(M.withTheta θ).pixTrans idx t 1⌋) := by
    have e : ∀ θ'' : MultisliceTheta n m nz H W h w N r k, (M.withTheta θ'').slices = List.ofFn fun s => imgOf (θ''.2.1 s) := fun _ => rfl
    have et : ∀ θ'' : MultisliceTheta n m nz H W h w N r k, (M.withTheta θ'').transmission = M.transmission := fun _ => rfl
    rw [e, e, et, et]
    have hofn : ∀ f : Fin nz → Img ℂ, List.ofFn f = (List.finRange nz).map f := fun f => List.ofFn_eq_map
    rw [hofn, hofn, List.mapM_map, List.mapM_map]
    congr 1
    funext s
    refine objWindow_local _ _ ?_ ?_ _ _ (hin 0) (hin 1) ?_
    · rw [(transmission_shape M _).1, (transmission_shape M _).1]; rfl
    · rw [(transmission_shape M _).2, (transmission_shape M _).2]; rfl
    · intro i j h1 h2 h3 h4
      have hobj := imgOf_px_congr (θ'.2.1 s) (θ.2.1 s) i j fun hi hj => (hag.slices s ⟨i, hi⟩ ⟨j, hj⟩ h1 h2 h3 h4).symm
      unfold Multislice.transmission
      cases M.exponentiate <;> simp [Img.map, hobj]
  unfold Multislice.forward at hQ ⊢
  simp only [hp, hwin]
  simp only at hQ
  cases hw : ((M.withTheta θ).slices.mapM fun o => objWindow a b ((M.withTheta θ).transmission o) ⌊(M.withTheta θ).pixTrans idx t 0⌋ ⌊(M.withTheta θ).pixTrans idx t 1⌋) with
  | error e => rw [hw] at hQ; exact (nomatch hQ)
  | ok ws =>
    rw [hw] at hQ
    simp only at hQ ⊢
    have hne : ((M.withTheta θ').slices ≠ [] ↔ (M.withTheta θ).slices ≠ []) := by
      have e : ∀ θ'' : MultisliceTheta n m nz H W h w N r k, (M.withTheta θ'').slices.length = nz := fun θ'' => List.length_ofFn
      rw [ne_eq, ne_eq, ← List.length_eq_zero_iff, ← List.length_eq_zero_iff, e, e]
    have hpr : (M.withTheta θ').propagator = (M.withTheta θ).propagator := rfl
    split_ifs at hQ with hP
    rw [if_neg (fun h => hP ⟨hne.1 h.1, h.2⟩)]
    obtain rfl := Except.ok.inj hQ
    have hI : sumModes a b (List.ofFn fun i => fun x y => (M.withTheta θ').toDetector idx t ws
          (shotProbes (M.withTheta θ').effectiveWeights idx (fun j => (M.withTheta θ').realSpace ((M.withTheta θ').probe j)) i) (x : ℕ) (y : ℕ)) =
        sumModes a b (List.ofFn fun i => fun x y => (M.withTheta θ).toDetector idx t ws
          (shotProbes (M.withTheta θ).effectiveWeights idx (fun j => (M.withTheta θ).realSpace ((M.withTheta θ).probe j)) i) (x : ℕ) (y : ℕ)) := by
      have ht : (M.withTheta θ').toDetector idx t ws = (M.withTheta θ).toDetector idx t ws := by
        unfold Multislice.toDetector
        rw [hp]
        rfl
      unfold sumModes
      simp only [List.map_ofFn, Function.comp_def, List.sum_ofFn, ht]
      congr 1
      funext i j
      exact shotProbes_congr _ _ _ _ idx hbasis hU (fun p => ‖(M.withTheta θ).toDetector idx t ws p i j‖ ^ 2)
    obtain ⟨b1, b2, b3⟩ := background_local M.saturation M.oversampling (imgOf θ.2.2.1) (imgOf θ'.2.2.1)
      (sumModes a b (List.ofFn fun i => fun x y => (M.withTheta θ).toDetector idx t ws
          (shotProbes (M.withTheta θ).effectiveWeights idx (fun j => (M.withTheta θ).realSpace ((M.withTheta θ).probe j)) i) (x : ℕ) (y : ℕ)))
    exact ⟨_, congrArg (fun I => Except.ok (measQuadratic { saturation := M.saturation, oversampling := M.oversampling } (imgOf θ'.2.2.1) none I)) hI,
      b1, b2, fun i j hbg => b3 i j (imgOf_px_congr _ _ i j hbg)⟩

/-- **C114** (`MultislicePtycho`, gradient): the closure leaves no gradient on the probe outside its support, on slices outside all windows of the
minibatch, on weights and offsets of exposures that are not in the minibatch, and on the background under masked pixels. -/
theorem multislice_gradient_local {nz : ℕ} (M : Multislice n m a b N k) (kind : LossKind) (mask : Option (Fin h × Fin w → Bool))
    (θ v : MultisliceTheta n m nz H W h w N r k) (B : Minibatch (Fin N × (Fin 3 → ℝ)) (Fin h × Fin w → ℝ))
    (hs : ∀ e ∈ B.inputs, (∃ Q, (M.withTheta θ).forward e.1 e.2 = .ok Q ∧ Q.h = h ∧ Q.w = w) ∧
      (∀ c : Fin 2, 0 ≤ ⌊(M.withTheta θ).pixTrans e.1 e.2 c⌋) ∧ MultisliceAgree a b M.support ((M.withTheta θ).pixTrans e.1 e.2) e.1 v 0)
    (hbg : ∀ x, Unmasked mask x → v.2.2.1 x.1 x.2 = 0)
    (L : MultisliceTheta n m nz H W h w N r k → ℝ) (hL : L = fun θ' =>
      kind.chunk mask (B.patterns.zip (B.inputs.map fun e => (simPixels h w ((M.withTheta θ').forward e.1 e.2)).getD 0)))
    (hd : DifferentiableAt ℝ L θ) : fderiv ℝ L θ v = 0 := by
  refine no_gradient_of_unchanged (fun (θ' : MultisliceTheta n m nz H W h w N r k) (e : Fin N × (Fin 3 → ℝ)) => (M.withTheta θ').forward e.1 e.2)
    kind mask θ v B (fun e he s => ?_) L hL hd
  obtain ⟨⟨Q, hQ, hh, hw⟩, hin, hag⟩ := hs e he
  have hag' : MultisliceAgree a b M.support ((M.withTheta θ).pixTrans e.1 e.2) e.1 θ (θ + s • v) := by
    refine ⟨fun j x y hxy => ?_, fun q i j h1 h2 h3 h4 => ?_, ?_, ?_, ?_⟩
    · simp [hag.probe j x y hxy]
    · simp [hag.slices q i j h1 h2 h3 h4]
    · simp [hag.weight]
    · simp [hag.weights]
    · simp [hag.offset]
  obtain ⟨Q', hQ', hh', hw', hpx⟩ := multislice_forward_local M θ (θ + s • v) e.1 e.2 hin hag' Q hQ
  refine ⟨Q, Q', hQ, hQ', hh, hw, hh'.trans hh, hw'.trans hw, fun x hx => hpx x.1 x.2 fun hi hj => ?_⟩
  simp [hbg x hx]

/-! ### Bragg2DPtycho -/

/-- `θ` and `θ'` agree as far as exposure `idx` at pixel position `p` can see. -/
structure BraggAgree (a b : ℕ) (support : ZMod n → ZMod m → Bool) (p : Fin 2 → ℝ) (idx : Fin N) (θ θ' : BraggTheta n m H W h w N k) : Prop where
  probe : ∀ j x y, support x y = true → θ.1 j x y = θ'.1 j x y
  obj : AgreeInside a b ⌊p 0⌋ ⌊p 1⌋ θ.2.1 θ'.2.1
  weight : θ.2.2.2.1 idx = θ'.2.2.2.1 idx
  offset : θ.2.2.2.2 idx = θ'.2.2.2.2 idx

/-- **C114** (`Bragg2DPtycho`): with and without tilt correction and propagation, an exposure sees the probe inside its support, the object inside its
window and its own weight and offset; a pixel of the background acts on that pixel only. -/
theorem bragg_forward_local (M : Bragg n m a b N k) (θ θ' : BraggTheta n m H W h w N k) (idx : Fin N) (t : Fin 3 → ℝ)
    (hin : ∀ c : Fin 2, 0 ≤ ⌊(M.withTheta θ).pixTrans idx t c⌋)
    (hag : BraggAgree a b M.support ((M.withTheta θ).pixTrans idx t) idx θ θ') (Q : Img ℝ) (hQ : (M.withTheta θ).forward idx t = .ok Q) :
    ∃ Q', (M.withTheta θ').forward idx t = .ok Q' ∧ Q'.h = Q.h ∧ Q'.w = Q.w ∧
      ∀ i j, (∀ (hi : i < h) (hj : j < w), θ.2.2.1 ⟨i, hi⟩ ⟨j, hj⟩ = θ'.2.2.1 ⟨i, hi⟩ ⟨j, hj⟩) → Q'.px i j = Q.px i j := by
  have hp : (M.withTheta θ').pixTrans idx t = (M.withTheta θ).pixTrans idx t := by
    unfold Bragg.pixTrans Bragg.withTheta
    cases M.offsets with
    | none => rfl
    | some o => simp only [Option.map_some, hag.offset]
  cases hW : M.weights with
  | none =>
    have : (M.withTheta θ).weights = none := by unfold Bragg.withTheta; rw [hW]; rfl
    rw [bragg_without_weights_violated _ this] at hQ
    exact (nomatch hQ)
  | some W0 =>
    have e1 : ∀ θ'' : BraggTheta n m H W h w N k, (M.withTheta θ'').weights = some θ''.2.2.2.1 := fun θ'' => by
      unfold Bragg.withTheta; rw [hW]; rfl
    rw [Bragg.forward_eq _ _ (e1 θ)] at hQ
    rw [Bragg.forward_eq _ _ (e1 θ'), hp]
    have hwin : objWindow a b (M.withTheta θ').obj ⌊(M.withTheta θ).pixTrans idx t 0⌋ ⌊(M.withTheta θ).pixTrans idx t 1⌋ =
        objWindow a b (M.withTheta θ).obj ⌊(M.withTheta θ).pixTrans idx t 0⌋ ⌊(M.withTheta θ).pixTrans idx t 1⌋ :=
      objWindow_local (imgOf θ.2.1) (imgOf θ'.2.1) rfl rfl _ _ (hin 0) (hin 1) fun i j h1 h2 h3 h4 =>
        imgOf_px_congr θ'.2.1 θ.2.1 i j fun hi hj => (hag.obj ⟨i, hi⟩ ⟨j, hj⟩ h1 h2 h3 h4).symm
    rw [hwin]
    cases hw : objWindow a b (M.withTheta θ).obj ⌊(M.withTheta θ).pixTrans idx t 0⌋ ⌊(M.withTheta θ).pixTrans idx t 1⌋ with
    | error e => rw [hw] at hQ; exact (nomatch hQ)
    | ok sel =>
      rw [hw] at hQ
      obtain rfl := Except.ok.inj hQ
      have hx : ∀ j, (M.withTheta θ').exitWave θ'.2.2.2.1 idx t sel ((M.withTheta θ').probe j) =
          (M.withTheta θ).exitWave θ.2.2.2.1 idx t sel ((M.withTheta θ).probe j) := by
        intro j
        have hq : (fun x y => (θ'.2.2.2.1 idx : ℂ) * θ'.1 j x y * (if M.support x y = true then 1 else 0) : Wave n m) =
            fun x y => (θ.2.2.2.1 idx : ℂ) * θ.1 j x y * (if M.support x y = true then 1 else 0) := by
          funext x y
          rw [hag.weight]
          by_cases hsup : M.support x y = true
          · rw [hag.probe j x y hsup]
          · simp [hsup]
        have hill : (M.withTheta θ').illumination (θ'.2.2.2.1 idx) ((M.withTheta θ').distance t) ((M.withTheta θ').probe j) =
            (M.withTheta θ).illumination (θ.2.2.2.1 idx) ((M.withTheta θ).distance t) ((M.withTheta θ).probe j) := by
          have : (M.withTheta θ').illumination (θ'.2.2.2.1 idx) ((M.withTheta θ').distance t) ((M.withTheta θ').probe j) =
              padProbe a b (if M.propagateProbe then nearField (M.propagator (M.distance t))
                (fun x y => (θ'.2.2.2.1 idx : ℂ) * θ'.1 j x y * (if M.support x y = true then 1 else 0)) else
                fun x y => (θ'.2.2.2.1 idx : ℂ) * θ'.1 j x y * (if M.support x y = true then 1 else 0)) := rfl
          rw [this, hq]
          rfl
        unfold Bragg.exitWave
        rw [hp, hill]
        rfl
      obtain ⟨b1, b2, b3⟩ := background_local M.saturation M.oversampling (imgOf θ.2.2.1) (imgOf θ'.2.2.1)
        ⟨a, b, fun x y => ∑ j, ‖M.toDetector ((M.withTheta θ).exitWave θ.2.2.2.1 idx t sel ((M.withTheta θ).probe j)) x y‖ ^ 2⟩
      refine ⟨_, ?_, b1, b2, fun i j hbg => b3 i j (imgOf_px_congr _ _ i j hbg)⟩
      simp only [Except.map, hx]
      rfl

/-- **C114** (`Bragg2DPtycho`, gradient). -/
theorem bragg_gradient_local (M : Bragg n m a b N k) (kind : LossKind) (mask : Option (Fin h × Fin w → Bool))
    (θ v : BraggTheta n m H W h w N k) (B : Minibatch (Fin N × (Fin 3 → ℝ)) (Fin h × Fin w → ℝ))
    (hs : ∀ e ∈ B.inputs, (∃ Q, (M.withTheta θ).forward e.1 e.2 = .ok Q ∧ Q.h = h ∧ Q.w = w) ∧
      (∀ c : Fin 2, 0 ≤ ⌊(M.withTheta θ).pixTrans e.1 e.2 c⌋) ∧ BraggAgree a b M.support ((M.withTheta θ).pixTrans e.1 e.2) e.1 v 0)
    (hbg : ∀ x, Unmasked mask x → v.2.2.1 x.1 x.2 = 0)
    (L : BraggTheta n m H W h w N k → ℝ) (hL : L = fun θ' =>
      kind.chunk mask (B.patterns.zip (B.inputs.map fun e => (simPixels h w ((M.withTheta θ').forward e.1 e.2)).getD 0)))
    (hd : DifferentiableAt ℝ L θ) : fderiv ℝ L θ v = 0 := by
  refine no_gradient_of_unchanged (fun (θ' : BraggTheta n m H W h w N k) (e : Fin N × (Fin 3 → ℝ)) => (M.withTheta θ').forward e.1 e.2)
    kind mask θ v B (fun e he s => ?_) L hL hd
  obtain ⟨⟨Q, hQ, hh, hw⟩, hin, hag⟩ := hs e he
  have hag' : BraggAgree a b M.support ((M.withTheta θ).pixTrans e.1 e.2) e.1 θ (θ + s • v) := by
    refine ⟨fun j x y hxy => ?_, fun i j h1 h2 h3 h4 => ?_, ?_, ?_⟩
    · simp [hag.probe j x y hxy]
    · simp [hag.obj i j h1 h2 h3 h4]
    · simp [hag.weight]
    · simp [hag.offset]
  obtain ⟨Q', hQ', hh', hw', hpx⟩ := bragg_forward_local M θ (θ + s • v) e.1 e.2 hin hag' Q hQ
  refine ⟨Q, Q', hQ, hQ', hh, hw, hh'.trans hh, hw'.trans hw, fun x hx => hpx x.1 x.2 fun hi hj => ?_⟩
  simp [hbg x hx]

/-! ### SimplePtycho -/

/-- **C114** (`SimplePtycho`): an exposure sees the object inside the window at the rounded position only. -/
theorem simple_forward_local (M : Simple n m) (θ θ' : SimpleTheta n m H W) (t : Fin 3 → ℝ)
    (hin : ∀ c : Fin 2, 0 ≤ roundHalfEven ((M.withTheta θ).pixTrans t c)) (hprobe : θ.1 = θ'.1)
    (hobj : AgreeInside n m (roundHalfEven ((M.withTheta θ).pixTrans t 0)) (roundHalfEven ((M.withTheta θ).pixTrans t 1)) θ.2 θ'.2) :
    (M.withTheta θ').forward t = (M.withTheta θ).forward t := by
  have hwin : objWindow n m (M.withTheta θ').obj (roundHalfEven (M.pixTrans t 0)) (roundHalfEven (M.pixTrans t 1)) =
      objWindow n m (M.withTheta θ).obj (roundHalfEven (M.pixTrans t 0)) (roundHalfEven (M.pixTrans t 1)) :=
    objWindow_local (imgOf θ.2) (imgOf θ'.2) rfl rfl _ _ (hin 0) (hin 1) fun i j h1 h2 h3 h4 =>
      imgOf_px_congr θ'.2 θ.2 i j fun hi hj => (hobj ⟨i, hi⟩ ⟨j, hj⟩ h1 h2 h3 h4).symm
  have hp : ∀ θ'' : SimpleTheta n m H W, (M.withTheta θ'').pixTrans = M.pixTrans := fun _ => rfl
  unfold Simple.forward roundExit
  rw [hp, hp]
  simp only
  rw [hwin]
  have : (M.withTheta θ').probe = (M.withTheta θ).probe := hprobe.symm
  rw [this]
  rfl

/-- **C114** (`SimplePtycho`, gradient): no gradient on the object outside all windows. -/
theorem simple_gradient_local (M : Simple n m) (θ v : SimpleTheta n m H W) (B : Minibatch (Fin 3 → ℝ) (Fin h × Fin w → ℝ)) (hv : v.1 = 0)
    (hs : ∀ t ∈ B.inputs, (∃ Q, (M.withTheta θ).forward t = .ok Q ∧ Q.h = h ∧ Q.w = w) ∧
      (∀ c : Fin 2, 0 ≤ roundHalfEven ((M.withTheta θ).pixTrans t c)) ∧
      AgreeInside n m (roundHalfEven ((M.withTheta θ).pixTrans t 0)) (roundHalfEven ((M.withTheta θ).pixTrans t 1)) v.2 0)
    (L : SimpleTheta n m H W → ℝ) (hL : L = fun θ' => LossKind.amplitudeMse.chunk none
      (B.patterns.zip (B.inputs.map fun t => (simPixels h w ((M.withTheta θ').forward t)).getD 0)))
    (hd : DifferentiableAt ℝ L θ) : fderiv ℝ L θ v = 0 := by
  refine no_gradient_of_unchanged (fun (θ' : SimpleTheta n m H W) (t : Fin 3 → ℝ) => (M.withTheta θ').forward t) .amplitudeMse none θ v B
    (fun t ht s => ?_) L hL hd
  obtain ⟨⟨Q, hQ, hh, hw⟩, hin, hag⟩ := hs t ht
  refine ⟨Q, Q, hQ, ?_, hh, hw, hh, hw, fun _ _ => rfl⟩
  rw [← hQ]
  refine simple_forward_local M θ (θ + s • v) t hin (by simp [hv]) fun i j h1 h2 h3 h4 => ?_
  simp [hag i j h1 h2 h3 h4]

/-! ### Non-vacuity -/

/-- A corner of the second slice, and a probe pixel outside the support: directions that meet the hypotheses. -/
example (p : Fin 2 → ℝ) (hp : ⌊p 0⌋ = 1 ∧ ⌊p 1⌋ = 1) : ∃ v : MultisliceTheta 2 2 2 5 5 2 2 2 1 1, v.1 ≠ 0 ∧ v.2.1 ≠ 0 ∧
    MultisliceAgree 2 2 (fun x _ => decide (x = 0)) p 0 v 0 := by
  refine ⟨(fun _ x _ => if x = 1 then 1 else 0, fun s i j => if s = 1 ∧ i = 0 ∧ j = 0 then 1 else 0, 0, 0, fun i _ _ => if i = 1 then 1 else 0, 0),
    ?_, ?_, ⟨fun j x y hx => ?_, fun s i j h1 _ _ _ => ?_, rfl, ?_, rfl⟩⟩
  · intro h
    have := congrFun (congrFun (congrFun h 0) 1) 0
    simp at this
  · intro h
    have := congrFun (congrFun (congrFun h 1) 0) 0
    simp at this
  · have hx0 : x = 0 := by simpa using hx
    simp [hx0]
  · rw [hp.1] at h1
    have : i ≠ 0 := by rintro rfl; simp at h1
    simp [this]
  · funext a b; simp

end Cdtools
