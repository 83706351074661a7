/-
C100: the step of a `FancyPtycho` reconstruction. C101: what the simulation of an exposure depends on.
-/
import Verif.Model.FancyTraining
import Verif.Lemmas.FancySmooth
import Verif.Props.ModelLoss
import Verif.Props.Reconstructor

set_option linter.unusedSectionVars false

namespace Cdtools
open Finset Topology

variable {n m a b H W h w N r k : ℕ} [NeZero n] [NeZero m] [NeZero a] [NeZero b]

/-! ### Specification -/

/-- The exposure is not at a place where the simulation jumps or has a kink: the integer part of a trained pixel position
is not about to change, and no pixel is exactly at the saturation level. -/
structure RegularShot (M : Fancy n m a b N k) (idx : Fin N) (t : Fin 3 → ℝ) : Prop where
  position : M.offsets = none ∨ ∀ c : Fin 2, ∀ z : ℤ, M.pixTrans idx t c ≠ z
  saturation : ∀ s, M.saturation = some s → ∀ Q, Fancy.forward { M with saturation := none } idx t = .ok Q →
    ∀ i j, Q.px i j ≠ s ∧ Q.px i j ≠ 0

/-! ### Differentiability of the simulation -/

theorem withTheta_pixTrans_diff (M : Fancy n m a b N k) (idx : Fin N) (t : Fin 3 → ℝ) (c : Fin 2)
    (θ : FancyTheta n m H W h w N r k) :
    DifferentiableAt ℝ (fun θ' : FancyTheta n m H W h w N r k => (M.withTheta θ').pixTrans idx t c) θ := by
  unfold Fancy.pixTrans Fancy.withTheta
  cases M.offsets with
  | none => simp only [Option.map_none]; fun_prop
  | some o =>
    simp only [Option.map_some, Pi.add_apply, Pi.smul_apply, smul_eq_mul]
    fun_prop

theorem withTheta_ramp_diff (M : Fancy n m a b N k) (idx : Fin N) (t : Fin 3 → ℝ) (θ : FancyTheta n m H W h w N r k) :
    DWave (fun θ' : FancyTheta n m H W h w N r k => (M.withTheta θ').ramp idx t) θ := by
  intro x y
  unfold Fancy.ramp Fancy.withTheta
  cases M.fourierShifts with
  | none => exact differentiableAt_const _
  | some f =>
    simp only [Option.map_some]
    refine diff_cexp (DifferentiableAt.const_mul ?_ _)
    have hc : ∀ c : Fin 2, DifferentiableAt ℝ (fun θ' : FancyTheta n m H W h w N r k =>
        (((if M.simulateTranslation = true then θ'.2.2.2.2.2.2 idx + translationsToPixel M.detBasis M.normal t
          else θ'.2.2.2.2.2.2 idx) c : ℝ) : ℂ)) θ := by
      intro c
      refine diff_ofReal ?_
      cases M.simulateTranslation
      · simp only [Bool.false_eq_true, if_false]; fun_prop
      · simp only [if_true, Pi.add_apply]; fun_prop
    exact ((hc 0).mul_const _).fun_add ((hc 1).mul_const _)

theorem imgOf_diff {α : Type} [NormedAddCommGroup α] [NormedSpace ℝ α] {E : Type} [NormedAddCommGroup E] [NormedSpace ℝ E]
    {θ : E} {f : E → Fin H → Fin W → α} (hf : ∀ i j, DifferentiableAt ℝ (fun e => f e i j) θ) (i j : ℕ) :
    DifferentiableAt ℝ (fun e => (imgOf (f e)).px i j) θ := by
  unfold imgOf
  by_cases hij : i < H ∧ j < W
  · simp only [dif_pos hij]; exact hf _ _
  · simp only [dif_neg hij]; exact differentiableAt_const _

theorem withTheta_transmission_diff (M : Fancy n m a b N k) (i j : ℕ) (θ : FancyTheta n m H W h w N r k) :
    DifferentiableAt ℝ (fun θ' : FancyTheta n m H W h w N r k => (M.withTheta θ').transmission.px i j) θ := by
  have h1 : DifferentiableAt ℝ (fun θ' : FancyTheta n m H W h w N r k => (imgOf θ'.2.1).px i j) θ :=
    imgOf_diff (fun i j => by fun_prop) i j
  unfold Fancy.transmission Fancy.withTheta
  cases M.exponentiate
  · exact h1
  · cases M.phaseOnly
    · exact diff_cexp (h1.const_mul _)
    · exact diff_cexp ((diff_ofReal (diff_re h1)).const_mul _)

theorem withTheta_basis_diff (M : Fancy n m a b N k) (j : Fin k) (θ : FancyTheta n m H W h w N r k) :
    DWave (fun θ' : FancyTheta n m H W h w N r k => (M.withTheta θ').basisProbes j) θ := by
  have h1 : DWave (fun θ' : FancyTheta n m H W h w N r k => θ'.1 j) θ := by intro x y; fun_prop
  exact h1.linear (M.isLinear_realSpace)

theorem withTheta_transmission_shape (M : Fancy n m a b N k) (θ : FancyTheta n m H W h w N r k) :
    (M.withTheta θ).transmission.h = H ∧ (M.withTheta θ).transmission.w = W := by
  unfold Fancy.transmission Fancy.withTheta
  cases M.exponentiate <;> cases M.phaseOnly <;> exact ⟨rfl, rfl⟩

/-- The intensity on the simulation grid with the integer parts of the pixel position fixed. -/
noncomputable def fixedIntensity (M : Fancy n m a b N k) (idx : Fin N) (t : Fin 3 → ℝ) (z : Fin 2 → ℤ) (x0 y0 : ℕ) : Img ℝ :=
  let sel : Wave a b := fun i j => M.transmission.px (x0 + i.val) (y0 + j.val)
  sumModes a b (List.ofFn fun i => fun x y => M.propagate (fun u v => (M.probeNorm : ℂ) *
    sincFixed M.nearField (M.pixTrans idx t 0 - z 0) (M.pixTrans idx t 1 - z 1) sel
      (padProbe a b fun u v => shotProbes M.weights idx M.basisProbes i u v * M.ramp idx t u v) u v) x y)

theorem forward_fixed (M : Fancy n m a b N k) (idx : Fin N) (t : Fin 3 → ℝ) (z : Fin 2 → ℤ)
    (hz : ∀ c, ⌊M.pixTrans idx t c⌋ = z c) :
    M.forward idx t = if M.simulateTranslation ∧ M.fourierShifts = none then .error "RuntimeError" else
      if (sliceExtent M.transmission.h (z 0) (z 0 + a)).2 = a ∧ (sliceExtent M.transmission.w (z 1) (z 1 + b)).2 = b then
        .ok (measQuadratic { saturation := M.saturation, oversampling := M.oversampling } M.background M.qe
          (fixedIntensity M idx t z (sliceExtent M.transmission.h (z 0) (z 0 + a)).1
            (sliceExtent M.transmission.w (z 1) (z 1 + b)).1))
      else .error "RuntimeError" := by
  unfold Fancy.forward
  dsimp only
  rw [hz 0, hz 1]
  split_ifs with h1 h2
  · rfl
  · unfold objWindow
    dsimp only
    rw [if_pos h2]
    unfold Fancy.toDetector sincApply
    simp only [Except.map, hz]
    rfl
  · unfold objWindow
    dsimp only
    rw [if_neg h2]
    rfl

theorem shot_sum_perShot (U : Weights N k) (v : Fin N → ℝ) (hU : U = .perShot v) (idx : Fin N) (B : Fin k → Wave n m)
    (F : Wave n m → ℝ) : ∑ i, F (shotProbes U idx B i) = ∑ j, F (fun x y => (v idx : ℂ) * B j x y) := by
  subst hU; rfl

theorem shot_sum_matrices (U : Weights N k) (V : Fin N → Matrix (Fin r) (Fin k) ℂ) (hU : U = .matrices r V) (idx : Fin N)
    (B : Fin k → Wave n m) (F : Wave n m → ℝ) :
    ∑ i, F (shotProbes U idx B i) = ∑ i, F (fun x y => ∑ j, V idx i j * B j x y) := by
  subst hU; rfl

theorem fixedIntensity_diff (M : Fancy n m a b N k) (idx : Fin N) (t : Fin 3 → ℝ) (z : Fin 2 → ℤ) (x0 y0 i j : ℕ)
    (θ : FancyTheta n m H W h w N r k) :
    DifferentiableAt ℝ (fun θ' : FancyTheta n m H W h w N r k => (fixedIntensity (M.withTheta θ') idx t z x0 y0).px i j) θ := by
  have hsel : DWave (fun θ' : FancyTheta n m H W h w N r k =>
      (fun i j => (M.withTheta θ').transmission.px (x0 + i.val) (y0 + j.val) : Wave a b)) θ :=
    fun i j => withTheta_transmission_diff M _ _ θ
  have hd0 := (withTheta_pixTrans_diff (h := h) (w := w) (H := H) (W := W) (r := r) M idx t 0 θ).sub_const ((z 0 : ℝ))
  have hd1 := (withTheta_pixTrans_diff (h := h) (w := w) (H := H) (W := W) (r := r) M idx t 1 θ).sub_const ((z 1 : ℝ))
  have hprop : IsLinearMap ℂ M.propagate := by
    unfold Fancy.propagate
    cases M.nearField
    · exact isLinear_farField
    · exact isLinear_nearField _
  have key : ∀ p : FancyTheta n m H W h w N r k → Wave n m, DWave p θ →
      DWave (fun θ' => M.propagate (fun u v => (M.probeNorm : ℂ) *
        sincFixed M.nearField ((M.withTheta θ').pixTrans idx t 0 - z 0) ((M.withTheta θ').pixTrans idx t 1 - z 1)
          (fun i j => (M.withTheta θ').transmission.px (x0 + i.val) (y0 + j.val))
          (padProbe a b fun u v => p θ' u v * (M.withTheta θ').ramp idx t u v) u v)) θ := by
    intro p hp
    exact ((DWave.sincFixed M.nearField hd0 hd1 hsel
      ((hp.mul (withTheta_ramp_diff M idx t θ)).linear isLinear_padProbe)).linear (isLinear_mulLeft _)).linear hprop
  have hb := fun j => withTheta_basis_diff (h := h) (w := w) (H := H) (W := W) (r := r) M j θ
  unfold fixedIntensity sumModes
  simp only [List.map_ofFn, Function.comp_def, List.sum_ofFn]
  cases hw : M.weights with
  | perShot w0 =>
    have e : ∀ θ' : FancyTheta n m H W h w N r k, (M.withTheta θ').weights = .perShot θ'.2.2.2.1 := by
      intro θ'; unfold Fancy.withTheta; simp only [hw]
    have e2 := fun θ' : FancyTheta n m H W h w N r k => shot_sum_perShot _ _ (e θ') idx (M.withTheta θ').basisProbes
      (fun p => ‖M.propagate (fun u v => (M.probeNorm : ℂ) *
        sincFixed M.nearField ((M.withTheta θ').pixTrans idx t 0 - z 0) ((M.withTheta θ').pixTrans idx t 1 - z 1)
          (fun i j => (M.withTheta θ').transmission.px (x0 + i.val) (y0 + j.val))
          (padProbe a b fun u v => p u v * (M.withTheta θ').ramp idx t u v) u v) i j‖ ^ 2)
    refine DifferentiableAt.congr_of_eventuallyEq ?_ (Filter.Eventually.of_forall e2)
    refine DifferentiableAt.fun_sum fun j' _ => diff_normSq ?_
    refine key (fun θ' x y => (θ'.2.2.2.1 idx : ℂ) * (M.withTheta θ').basisProbes j' x y) ?_ _ _
    intro x y
    refine DifferentiableAt.mul (diff_ofReal ?_) (hb j' x y)
    fun_prop
  | matrices r0 V =>
    have e : ∀ θ' : FancyTheta n m H W h w N r k,
        (M.withTheta θ').weights = .matrices r fun i => Matrix.of (θ'.2.2.2.2.1 i) := by
      intro θ'; unfold Fancy.withTheta; simp only [hw]
    have e2 := fun θ' : FancyTheta n m H W h w N r k => shot_sum_matrices _ _ (e θ') idx (M.withTheta θ').basisProbes
      (fun p => ‖M.propagate (fun u v => (M.probeNorm : ℂ) *
        sincFixed M.nearField ((M.withTheta θ').pixTrans idx t 0 - z 0) ((M.withTheta θ').pixTrans idx t 1 - z 1)
          (fun i j => (M.withTheta θ').transmission.px (x0 + i.val) (y0 + j.val))
          (padProbe a b fun u v => p u v * (M.withTheta θ').ramp idx t u v) u v) i j‖ ^ 2)
    refine DifferentiableAt.congr_of_eventuallyEq ?_ (Filter.Eventually.of_forall e2)
    refine DifferentiableAt.fun_sum fun i' _ => diff_normSq ?_
    refine key (fun θ' x y => ∑ j, θ'.2.2.2.2.1 idx i' j * (M.withTheta θ').basisProbes j x y) ?_ _ _
    intro x y
    refine DifferentiableAt.fun_sum fun j' _ => DifferentiableAt.mul ?_ (hb j' x y)
    fun_prop

theorem meas_diff {E : Type} [NormedAddCommGroup E] [NormedSpace ℝ E] {θ : E} {A B : E → Img ℝ} (o : ℕ) (q : Option (Img ℝ))
    (hA : ∀ i j, DifferentiableAt ℝ (fun e => (A e).px i j) θ) (hB : ∀ i j, DifferentiableAt ℝ (fun e => (B e).px i j) θ)
    (i j : ℕ) :
    DifferentiableAt ℝ (fun e => (measQuadratic { oversampling := o } (B e) q (A e)).px i j) θ := by
  have hbin : ∀ i j, DifferentiableAt ℝ (fun e => (binPixels o (A e)).px i j) θ := by
    intro i j
    unfold binPixels
    by_cases ho : o ≠ 1
    · simp only [if_pos ho, Img.avgPool, Img.sumPool]
      have h1 : DifferentiableAt ℝ (fun e => ∑ u ∈ range o, ∑ v ∈ range o, (A e).px (o * i + u) (o * j + v)) θ :=
        DifferentiableAt.fun_sum fun u _ => DifferentiableAt.fun_sum fun v _ => hA _ _
      simpa only [div_eq_mul_inv] using h1.mul_const _
    · simp only [if_neg ho]; exact hA i j
  unfold measQuadratic readOut saturate cutSlice
  dsimp only
  cases q with
  | none => simp only [Img.zip, Img.map]; exact ((hbin i j).add_const _).fun_add ((hB i j).fun_pow 2)
  | some q => simp only [Img.zip, Img.map]; exact (((hbin i j).add_const _).const_mul _).fun_add ((hB i j).fun_pow 2)

theorem clamp0_diff {E : Type} [NormedAddCommGroup E] [NormedSpace ℝ E] {θ : E} {f : E → ℝ} (s : ℝ)
    (hf : DifferentiableAt ℝ f θ) (h0 : f θ ≠ 0) (hs : f θ ≠ s) : DifferentiableAt ℝ (fun e => clamp0 s (f e)) θ := by
  have hc := hf.continuousAt
  have hmax : ∃ g : E → ℝ, DifferentiableAt ℝ g θ ∧ (g θ ≠ s ∨ g =ᶠ[𝓝 θ] fun _ => g θ) ∧
      ∀ᶠ e in 𝓝 θ, max (f e) 0 = g e := by
    rcases lt_or_gt_of_ne h0 with hneg | hpos
    · refine ⟨fun _ => 0, differentiableAt_const _, Or.inr (Filter.Eventually.of_forall fun _ => rfl), ?_⟩
      filter_upwards [hc.eventually_lt continuousAt_const hneg] with e he
      exact max_eq_right he.le
    · refine ⟨f, hf, Or.inl hs, ?_⟩
      filter_upwards [continuousAt_const.eventually_lt hc hpos] with e he
      exact max_eq_left he.le
  obtain ⟨g, hg, hgs, he⟩ := hmax
  have hgc := hg.continuousAt
  unfold clamp0
  rcases hgs with hgs | hgs
  · rcases lt_or_gt_of_ne hgs with hlt | hgt
    · refine hg.congr_of_eventuallyEq ?_
      filter_upwards [he, hgc.eventually_lt continuousAt_const hlt] with e h1 h2
      rw [h1, min_eq_left h2.le]
    · refine (differentiableAt_const s).congr_of_eventuallyEq ?_
      filter_upwards [he, continuousAt_const.eventually_lt hgc hgt] with e h1 h2
      rw [h1, min_eq_right h2.le]
  · refine (differentiableAt_const (min (g θ) s)).congr_of_eventuallyEq ?_
    filter_upwards [he, hgs] with e h1 h2
    rw [h1, h2]

theorem meas_saturate (sat : Option ℝ) (o : ℕ) (bg : Img ℝ) (q : Option (Img ℝ)) (A : Img ℝ) :
    measQuadratic { saturation := sat, oversampling := o } bg q A =
      saturate sat (measQuadratic { saturation := none, oversampling := o } bg q A) := by
  unfold measQuadratic
  rfl

theorem meas_shape (sat : Option ℝ) (o : ℕ) (bg : Img ℝ) (q : Option (Img ℝ)) (A : Img ℝ) :
    (measQuadratic { saturation := sat, oversampling := o } bg q A).h = (if o ≠ 1 then A.h / o else A.h) ∧
    (measQuadratic { saturation := sat, oversampling := o } bg q A).w = (if o ≠ 1 then A.w / o else A.w) := by
  unfold measQuadratic readOut saturate cutSlice binPixels
  dsimp only
  cases q <;> cases sat <;> by_cases ho : o = 1 <;> simp [Img.zip, Img.map, ho, Img.avgPool, Img.sumPool]

/-- **C100** (differentiability): wherever an exposure can be simulated and is regular, it can be simulated for all nearby
values of all parameters, and every pixel of the simulated pattern is a differentiable function of all the parameters
together: probe, object, background, weights, translation offsets and probe Fourier shifts. -/
theorem fancy_forward_differentiable (M : Fancy n m a b N k) (θ : FancyTheta n m H W h w N r k) (idx : Fin N) (t : Fin 3 → ℝ)
    (Q : Img ℝ) (hQ : (M.withTheta θ).forward idx t = .ok Q) (hr : RegularShot (M.withTheta θ) idx t) :
    ∃ sim : FancyTheta n m H W h w N r k → Img ℝ, sim θ = Q ∧ (∀ θ', (sim θ').h = Q.h ∧ (sim θ').w = Q.w) ∧
      (∀ᶠ θ' in 𝓝 θ, (M.withTheta θ').forward idx t = .ok (sim θ')) ∧
      ∀ i j, DifferentiableAt ℝ (fun θ' => (sim θ').px i j) θ := by
  set z : Fin 2 → ℤ := fun c => ⌊(M.withTheta θ).pixTrans idx t c⌋ with hz
  have hfloor : ∀ᶠ θ' : FancyTheta n m H W h w N r k in 𝓝 θ, ∀ c, ⌊(M.withTheta θ').pixTrans idx t c⌋ = z c := by
    rcases hr.position with hno | hpos
    · refine Filter.Eventually.of_forall fun θ' c => ?_
      have h1 : M.offsets = none := by
        unfold Fancy.withTheta at hno
        cases h : M.offsets with
        | none => rfl
        | some o => rw [h] at hno; simp at hno
      have h2 : (M.withTheta θ').pixTrans idx t = (M.withTheta θ).pixTrans idx t := by
        unfold Fancy.pixTrans Fancy.withTheta
        simp only [h1, Option.map_none]
      rw [hz, h2]
    · rw [Filter.eventually_all]
      exact fun c => floor_eventually (withTheta_pixTrans_diff M idx t c θ).continuousAt (hpos c)
  have hsim : ∀ θ' : FancyTheta n m H W h w N r k, (M.withTheta θ').simulateTranslation = M.simulateTranslation := fun _ => rfl
  have hfs : ∀ θ' : FancyTheta n m H W h w N r k, ((M.withTheta θ').fourierShifts = none ↔ M.fourierShifts = none) := by
    intro θ'; unfold Fancy.withTheta; simp
  have hshape := fun θ' : FancyTheta n m H W h w N r k => withTheta_transmission_shape M θ'
  have hθ := forward_fixed (M.withTheta θ) idx t z fun c => rfl
  rw [hQ] at hθ
  simp only [hsim, hfs, (hshape θ).1, (hshape θ).2] at hθ
  split_ifs at hθ with h1 h2
  obtain rfl := Except.ok.inj hθ
  set x0 := (sliceExtent H (z 0) (z 0 + a)).1
  set y0 := (sliceExtent W (z 1) (z 1 + b)).1
  refine ⟨fun θ' => measQuadratic { saturation := M.saturation, oversampling := M.oversampling } (M.withTheta θ').background M.qe
    (fixedIntensity (M.withTheta θ') idx t z x0 y0), rfl, ?_, ?_, ?_⟩
  · intro θ'
    have h3 := meas_shape M.saturation M.oversampling (M.withTheta θ').background M.qe (fixedIntensity (M.withTheta θ') idx t z x0 y0)
    have h4 := meas_shape M.saturation M.oversampling (M.withTheta θ).background M.qe (fixedIntensity (M.withTheta θ) idx t z x0 y0)
    exact ⟨h3.1.trans h4.1.symm, h3.2.trans h4.2.symm⟩
  · filter_upwards [hfloor] with θ' hθ'
    rw [forward_fixed (M.withTheta θ') idx t z hθ']
    simp only [hsim, hfs, (hshape θ').1, (hshape θ').2]
    rw [if_neg h1, if_pos h2]
    rfl
  · intro i j
    have hd : DifferentiableAt ℝ (fun θ' : FancyTheta n m H W h w N r k =>
        (measQuadratic { oversampling := M.oversampling } (M.withTheta θ').background M.qe
          (fixedIntensity (M.withTheta θ') idx t z x0 y0)).px i j) θ := by
      refine meas_diff _ _ (fun i j => fixedIntensity_diff M idx t z x0 y0 i j θ) (fun i j => ?_) i j
      exact imgOf_diff (fun i j => by fun_prop) i j
    have hs := hr.saturation
    cases hsat : M.saturation with
    | none => exact hd
    | some s =>
      have hraw : Fancy.forward { M.withTheta θ with saturation := none } idx t =
          .ok (measQuadratic { oversampling := M.oversampling } (M.withTheta θ).background M.qe
            (fixedIntensity (M.withTheta θ) idx t z x0 y0)) := by
        rw [forward_fixed { M.withTheta θ with saturation := none } idx t z (fun c => rfl)]
        have e1 : (({ M.withTheta θ with saturation := none } : Fancy n m a b N k)).transmission = (M.withTheta θ).transmission := rfl
        rw [e1]
        simp only [hsim, hfs, (hshape θ).1, (hshape θ).2]
        rw [if_neg h1, if_pos h2]
        rfl
      have h3 := hs s hsat _ hraw i j
      exact clamp0_diff s hd h3.2 h3.1

/-! ### The step of a reconstruction -/

theorem accumChunks_noFault {Θ I P S R : Type} [NormedAddCommGroup Θ] [NormedSpace ℝ Θ] (ph : Physics Θ I P S R) (θ : Θ) :
    ∀ (cs : List (List I × List P)) (acc : Option ℝ × (Θ →L[ℝ] ℝ)), (∀ c ∈ cs, ph.fault θ c.1 c.2 = none) →
      ph.accumChunks θ cs acc = Physics.accumChunks { ph with fault := fun _ _ _ => none } θ cs acc
  | [], _, _ => rfl
  | (i, p) :: cs, acc, h => by
    have h0 : ph.fault θ i p = none := h (i, p) (by simp)
    simp only [Physics.accumChunks, h0]
    exact accumChunks_noFault ph θ cs _ fun c hc => h c (by simp [hc])

theorem LossKind.chunk_append (kind : LossKind) (mask : Option (Fin h × Fin w → Bool))
    (x y : List ((Fin h × Fin w → ℝ) × (Fin h × Fin w → ℝ))) :
    kind.chunk mask (x ++ y) = kind.chunk mask x + kind.chunk mask y := by
  cases kind <;> simp only [LossKind.chunk, Cdtools.amplitudeMse, Cdtools.intensityMse, Cdtools.poissonNll, if_true, Bool.false_eq_true, if_false] <;>
    exact batchSum_append mask _ x y

/-- A pixel of a simulated pattern is positive if the efficiency there and the saturation level are. -/
theorem forward_pos (M : Fancy n m a b N k) (i j : ℕ) (hq : ∀ q, M.qe = some q → 0 < q.px i j)
    (hsat : ∀ s, M.saturation = some s → 0 < s) (idx : Fin N) (t : Fin 3 → ℝ) (Q : Img ℝ) (hQ : M.forward idx t = .ok Q) :
    0 < Q.px i j := by
  unfold Fancy.forward at hQ
  split_ifs at hQ
  cases hw : objWindow a b M.transmission ⌊M.pixTrans idx t 0⌋ ⌊M.pixTrans idx t 1⌋ with
  | error e => simp only [hw] at hQ; cases hQ
  | ok sel =>
    simp only [hw, Except.map] at hQ
    obtain rfl := Except.ok.inj hQ
    generalize hA : sumModes a b _ = A
    have hA0 : ∀ i j, 0 ≤ A.px i j := by
      intro i j
      rw [← hA]
      unfold sumModes
      refine List.sum_nonneg fun x hx => ?_
      obtain ⟨ψ, -, rfl⟩ := List.mem_map.1 hx
      positivity
    have hb := binPixels_nonneg M.oversampling A hA0 i j
    rw [meas_saturate]
    have hraw : 0 < (measQuadratic { saturation := none, oversampling := M.oversampling } M.background M.qe A).px i j := by
      unfold measQuadratic readOut saturate cutSlice
      dsimp only
      cases hqe : M.qe with
      | none => simp only [Img.zip, Img.map]; positivity
      | some q =>
        simp only [Img.zip, Img.map]
        have := hq q hqe
        positivity
    cases hs : M.saturation with
    | none => exact hraw
    | some s =>
      simp only [saturate, Img.map, clamp0]
      exact lt_min (lt_max_of_lt_left hraw) (hsat s hs)

theorem LossKind.one_diff {E : Type} [NormedAddCommGroup E] [NormedSpace ℝ E] {θ : E} (kind : LossKind)
    (mask : Option (Fin h × Fin w → Bool)) (p : Fin h × Fin w → ℝ) (s : E → Fin h × Fin w → ℝ)
    (hs : ∀ x, DifferentiableAt ℝ (fun e => s e x) θ) (hp : kind ≠ .intensityMse → ∀ x, 0 < s θ x) :
    DifferentiableAt ℝ (fun e => kind.chunk mask [(p, s e)]) θ := by
  cases kind
  · simp only [LossKind.chunk, Cdtools.amplitudeMse, if_true, batchSum, List.map_cons, List.map_nil, List.sum_cons, List.sum_nil, add_zero]
    refine DifferentiableAt.fun_sum fun x _ => (((hs x).sqrt ?_).sub_const _).fun_pow 2
    exact (hp (by decide) x).ne'
  · simp only [LossKind.chunk, Cdtools.poissonNll, Bool.false_eq_true, if_false, batchSum, List.map_cons, List.map_nil, List.sum_cons,
      List.sum_nil, add_zero, xlogy_eq]
    refine DifferentiableAt.fun_sum fun x _ => ?_
    have h1 := (hs x).add_const (1e-6 : ℝ)
    have hpos : s θ x + 1e-6 ≠ 0 := by
      have := hp (by decide) x
      positivity
    exact h1.fun_sub ((h1.log hpos).const_mul _)
  · simp only [LossKind.chunk, Cdtools.intensityMse, if_true, batchSum, List.map_cons, List.map_nil, List.sum_cons, List.sum_nil, add_zero]
    exact DifferentiableAt.fun_sum fun x _ => ((hs x).sub_const _).fun_pow 2

/-- The exposure can be simulated in the shape of the data, and is regular. -/
def Trainable (M : Fancy n m a b N k) (h w : ℕ) (e : Fin N × (Fin 3 → ℝ)) : Prop :=
  ∃ Q, M.forward e.1 e.2 = .ok Q ∧ Q.h = h ∧ Q.w = w ∧ RegularShot M e.1 e.2

theorem shotPixels_diff (M : Fancy n m a b N k) (θ : FancyTheta n m H W h w N r k) (e : Fin N × (Fin 3 → ℝ))
    (he : Trainable (M.withTheta θ) h w e) (x : Fin h × Fin w) :
    DifferentiableAt ℝ (fun θ' : FancyTheta n m H W h w N r k => ((M.withTheta θ').shotPixels h w e).getD 0 x) θ := by
  obtain ⟨Q, hQ, hh, hw, hr⟩ := he
  obtain ⟨sim, -, hsh, hev, hd⟩ := fancy_forward_differentiable M θ e.1 e.2 Q hQ hr
  refine (hd x.1 x.2).congr_of_eventuallyEq ?_
  filter_upwards [hev] with θ' hθ'
  have h1 := hsh θ'
  unfold Fancy.shotPixels
  rw [hθ']
  simp only [h1.1, h1.2, hh, hw, and_self, if_true, Option.getD_some]
  rfl

/-- **C100** (the step): one evaluation of the closure of a `FancyPtycho` reconstruction at the parameters `θ`, with any of the
three losses, any mask and any calculation width, returns the loss of the whole minibatch and leaves its exact gradient with
respect to all parameters, provided that every exposure of the minibatch can be simulated and is regular, and (for the
amplitude and the Poisson loss) that efficiencies and saturation level are positive. -/
theorem fancy_step_independent_of_width (M : Fancy n m a b N k) (kind : LossKind) (mask : Option (Fin h × Fin w → Bool))
    (θ : FancyTheta n m H W h w N r k) (cw : ℤ) (hcw : 1 ≤ cw)
    (B : Minibatch (Fin N × (Fin 3 → ℝ)) (Fin h × Fin w → ℝ)) (hB : B.WF)
    (hs : ∀ e ∈ B.inputs, Trainable (M.withTheta θ) h w e)
    (hpos : kind ≠ .intensityMse → (∀ q, M.qe = some q → ∀ i < h, ∀ j < w, 0 < q.px i j) ∧ ∀ s, M.saturation = some s → 0 < s) :
    let L : FancyTheta n m H W h w N r k → ℝ := fun θ' =>
      kind.chunk mask (B.patterns.zip (B.inputs.map fun e => ((M.withTheta θ').shotPixels h w e).getD 0))
    (fancyPhysics M kind mask).closure cw none B θ = .ok (some (L θ), fderiv ℝ L θ) ∧ DifferentiableAt ℝ L θ := by
  intro L
  set ph : Physics (FancyTheta n m H W h w N r k) (Fin N × (Fin 3 → ℝ)) (Fin h × Fin w → ℝ) (Fin h × Fin w → ℝ) Unit :=
    { fancyPhysics M kind mask with fault := fun _ _ _ => none } with hph
  have hadd : ph.DataAdditive := by
    refine ⟨fun θ a b => List.map_append, fun θ a => List.length_map _, fun p p' s s' h1 h2 => ?_⟩
    show kind.chunk mask _ = kind.chunk mask _ + kind.chunk mask _
    rw [List.zip_append h1, LossKind.chunk_append]
  have hd : ph.DiffAt B θ := by
    intro e he
    have hin := hs e.1 (List.of_mem_zip he).1
    have : ph.oneLoss e.1 e.2 = fun θ' => kind.chunk mask [(e.2, ((M.withTheta θ').shotPixels h w e.1).getD 0)] := by
      funext θ'; rfl
    rw [this]
    refine LossKind.one_diff kind mask e.2 _ (fun x => shotPixels_diff M θ e.1 hin x) fun hk x => ?_
    obtain ⟨Q, hQ, hh, hw, -⟩ := hin
    obtain ⟨hp1, hp2⟩ := hpos hk
    have h3 := forward_pos (M.withTheta θ) x.1 x.2 (fun q hq => hp1 q hq x.1 x.1.2 x.2 x.2.2) hp2 e.1.1 e.1.2 Q hQ
    unfold Fancy.shotPixels
    rw [hQ]
    simp only [hh, hw, and_self, if_true, Option.getD_some]
    exact h3
  obtain ⟨cs, hcs, -, hin, -⟩ := chunks_partition_minibatch cw hcw B hB
  have hc : (fancyPhysics M kind mask).closure cw none B θ = ph.closure cw none B θ := by
    unfold Physics.closure
    rw [hcs]
    simp only
    rw [accumChunks_noFault]
    · rfl
    · intro c hc
      refine if_pos fun e he => ?_
      have : e ∈ B.inputs := by
        rw [← hin]
        exact List.mem_flatten.2 ⟨c.1, List.mem_map.2 ⟨c, hc, rfl⟩, he⟩
      obtain ⟨Q, hQ, hh, hw, -⟩ := hs e this
      unfold Fancy.shotPixels
      rw [hQ]
      simp [hh, hw]
  refine ⟨?_, ?_⟩
  · rw [hc, minibatch_step_independent_of_width ph hadd (fun _ _ _ => rfl) cw hcw none B hB θ hd]
    simp only [Physics.regGrad, add_zero]
    rfl
  · have h1 := hadd.differentiableAt (i := B.inputs) (p := B.patterns) hB.2 (fun e he => hd e he)
    exact h1

/-- **C100** (descent): moving the parameters a small enough distance against any direction in which the gradient that the
closure left is positive lowers the loss of the minibatch. -/
theorem fancy_small_step_lowers_loss {E : Type} [NormedAddCommGroup E] [NormedSpace ℝ E] (L : E → ℝ) (θ v : E)
    (hL : DifferentiableAt ℝ L θ) (hv : 0 < fderiv ℝ L θ v) : ∀ᶠ s in 𝓝[>] (0 : ℝ), L (θ - s • v) < L θ := by
  have h1 : HasDerivAt (fun s : ℝ => θ - s • v) (-v) 0 := by
    have := ((hasDerivAt_id (0 : ℝ)).smul_const v).const_sub θ
    simpa using this
  have h2 : HasDerivAt (fun s : ℝ => L (θ - s • v)) (fderiv ℝ L θ (-v)) 0 := by
    have hL' : HasFDerivAt L (fderiv ℝ L θ) (θ - (0 : ℝ) • v) := by simpa using hL.hasFDerivAt
    exact hL'.comp_hasDerivAt (0 : ℝ) h1
  have h3 : fderiv ℝ L θ (-v) < 0 := by rw [map_neg]; linarith
  have h4 := h2.tendsto_slope_zero_right
  have h5 : ∀ᶠ s in 𝓝[>] (0 : ℝ), s⁻¹ • (L (θ - (0 + s) • v) - L (θ - (0 : ℝ) • v)) < 0 := h4.eventually_lt_const h3
  filter_upwards [h5, self_mem_nhdsWithin] with s hs hpos
  have hpos : 0 < s := hpos
  simp only [zero_add, zero_smul, sub_zero, smul_eq_mul] at hs
  have := neg_of_mul_neg_right hs (inv_pos.2 hpos).le
  linarith

/-- The parameters at which C100 and C101 differentiate are those that the simulation reads. -/
theorem withTheta_reads (M : Fancy n m a b N k) (θ : FancyTheta n m H W h w N r k) :
    (M.withTheta θ).probe = θ.1 ∧
    ((M.withTheta θ).obj.h = H ∧ (M.withTheta θ).obj.w = W ∧ ∀ (i : Fin H) (j : Fin W), (M.withTheta θ).obj.px i j = θ.2.1 i j) ∧
    ((M.withTheta θ).background.h = h ∧ (M.withTheta θ).background.w = w ∧
      ∀ (i : Fin h) (j : Fin w), (M.withTheta θ).background.px i j = θ.2.2.1 i j) ∧
    (∀ v, M.weights = .perShot v → (M.withTheta θ).weights = .perShot θ.2.2.2.1) ∧
    (∀ r' V, M.weights = .matrices r' V → (M.withTheta θ).weights = .matrices r fun i => Matrix.of (θ.2.2.2.2.1 i)) ∧
    (M.offsets ≠ none → (M.withTheta θ).offsets = some θ.2.2.2.2.2.1) ∧
    (M.fourierShifts ≠ none → (M.withTheta θ).fourierShifts = some θ.2.2.2.2.2.2) := by
  unfold Fancy.withTheta imgOf
  refine ⟨rfl, ⟨rfl, rfl, fun i j => ?_⟩, ⟨rfl, rfl, fun i j => ?_⟩, fun v hv => ?_, fun r' V hV => ?_, fun ho => ?_, fun hf => ?_⟩
  · exact dif_pos ⟨i.2, j.2⟩
  · exact dif_pos ⟨i.2, j.2⟩
  · simp only [hv]
  · simp only [hV]
  · cases h0 : M.offsets with
    | none => exact absurd h0 ho
    | some o => rfl
  · cases h0 : M.fourierShifts with
    | none => exact absurd h0 hf
    | some o => rfl

theorem accumChunks_fault {Θ I P S R : Type} [NormedAddCommGroup Θ] [NormedSpace ℝ Θ] (ph : Physics Θ I P S R) (θ : Θ) :
    ∀ (cs : List (List I × List P)) (acc : Option ℝ × (Θ →L[ℝ] ℝ)), (∃ c ∈ cs, ph.fault θ c.1 c.2 ≠ none) →
      ∃ e, ph.accumChunks θ cs acc = .error e
  | [], _, h => by obtain ⟨c, hc, -⟩ := h; cases hc
  | (i, p) :: cs, acc, h => by
    unfold Physics.accumChunks
    cases h0 : ph.fault θ i p with
    | some e => exact ⟨e, rfl⟩
    | none =>
      obtain ⟨c, hc, hne⟩ := h
      rcases List.mem_cons.1 hc with rfl | hc
      · exact absurd h0 hne
      · exact accumChunks_fault ph θ cs _ ⟨c, hc, hne⟩

/-- **C100** (no silent failure): if one exposure of the minibatch cannot be simulated in the shape of the data, the step raises; no
loss or gradient is made up for it. -/
theorem fancy_step_raises (M : Fancy n m a b N k) (kind : LossKind) (mask : Option (Fin h × Fin w → Bool))
    (θ : FancyTheta n m H W h w N r k) (cw : ℤ) (hcw : 1 ≤ cw)
    (B : Minibatch (Fin N × (Fin 3 → ℝ)) (Fin h × Fin w → ℝ)) (hB : B.WF) (e : Fin N × (Fin 3 → ℝ)) (he : e ∈ B.inputs)
    (hbad : ∀ Q, (M.withTheta θ).forward e.1 e.2 = .ok Q → ¬ (Q.h = h ∧ Q.w = w)) :
    ∃ x, (fancyPhysics M kind mask).closure cw none B θ = .error x := by
  obtain ⟨cs, hcs, -, hin, -⟩ := chunks_partition_minibatch cw hcw B hB
  rw [← hin] at he
  obtain ⟨c1, hc1, he⟩ := List.mem_flatten.1 he
  obtain ⟨c, hc, rfl⟩ := List.mem_map.1 hc1
  have hnone : (M.withTheta θ).shotPixels h w e = none := by
    unfold Fancy.shotPixels
    cases hQ : (M.withTheta θ).forward e.1 e.2 with
    | error x => rfl
    | ok Q => exact if_neg (hbad Q hQ)
  obtain ⟨x, hx⟩ := accumChunks_fault (fancyPhysics M kind mask) θ cs (none, 0) ⟨c, hc, by
    have : ¬ ∀ e ∈ c.1, ((M.withTheta θ).shotPixels h w e).isSome := by
      intro hall
      have := hall e he
      rw [hnone] at this
      cases this
    show (if ∀ e ∈ c.1, ((M.withTheta θ).shotPixels h w e).isSome then none else some PyExc.runtimeError) ≠ none
    rw [if_neg this]
    simp⟩
  refine ⟨x, ?_⟩
  unfold Physics.closure
  rw [hcs]
  simp only [hx]

/-! ### What an exposure depends on -/

/-- `θ` and `θ'` agree as far as exposure `idx` at pixel position `p` can see: on the probe inside its support, on the object inside
the `a × b` window at the integer part of `p`, and on the exposure's own weights, offset and Fourier shift. (Nothing is said
about the background.) -/
structure AgreeAt (a b : ℕ) (support : ZMod n → ZMod m → Bool) (p : Fin 2 → ℝ) (idx : Fin N) (θ θ' : FancyTheta n m H W h w N r k) :
    Prop where
  probe : ∀ j x y, support x y = true → θ.1 j x y = θ'.1 j x y
  obj : ∀ (i : Fin H) (j : Fin W), ⌊p 0⌋ ≤ (i.val : ℤ) → (i.val : ℤ) < ⌊p 0⌋ + a → ⌊p 1⌋ ≤ (j.val : ℤ) → (j.val : ℤ) < ⌊p 1⌋ + b →
    θ.2.1 i j = θ'.2.1 i j
  weight : θ.2.2.2.1 idx = θ'.2.2.2.1 idx
  weights : θ.2.2.2.2.1 idx = θ'.2.2.2.2.1 idx
  offset : θ.2.2.2.2.2.1 idx = θ'.2.2.2.2.2.1 idx
  shift : θ.2.2.2.2.2.2 idx = θ'.2.2.2.2.2.2 idx

theorem shotProbes_congr (U U' : Weights N k) (B B' : Fin k → Wave n m) (idx : Fin N) (hB : B = B')
    (hU : (∃ v v', U = .perShot v ∧ U' = .perShot v' ∧ v idx = v' idx) ∨
      ∃ r, ∃ V V' : Fin N → Matrix (Fin r) (Fin k) ℂ, U = .matrices r V ∧ U' = .matrices r V' ∧ V idx = V' idx)
    (F : Wave n m → ℝ) : ∑ i, F (shotProbes U idx B i) = ∑ i, F (shotProbes U' idx B' i) := by
  subst hB
  rcases hU with ⟨v, v', h1, h2, h3⟩ | ⟨r, V, V', h1, h2, h3⟩
  · rw [shot_sum_perShot _ _ h1, shot_sum_perShot _ _ h2, h3]
  · rw [shot_sum_matrices _ _ h1, shot_sum_matrices _ _ h2, h3]

/-- **C101.** Changing the probe outside its support, the object outside the window of the exposure, or the weights, offsets and
Fourier shifts of other exposures does not change the simulation of an exposure whose window lies inside the object; and a pixel
of the background only acts on the same pixel of the pattern. -/
theorem fancy_forward_local (M : Fancy n m a b N k) (θ θ' : FancyTheta n m H W h w N r k) (idx : Fin N) (t : Fin 3 → ℝ)
    (hin : ∀ c : Fin 2, 0 ≤ ⌊(M.withTheta θ).pixTrans idx t c⌋)
    (hag : AgreeAt a b M.support ((M.withTheta θ).pixTrans idx t) idx θ θ') (Q : Img ℝ)
    (hQ : (M.withTheta θ).forward idx t = .ok Q) :
    ∃ Q', (M.withTheta θ').forward idx t = .ok Q' ∧ Q'.h = Q.h ∧ Q'.w = Q.w ∧
      ∀ i j, (∀ (hi : i < h) (hj : j < w), θ.2.2.1 ⟨i, hi⟩ ⟨j, hj⟩ = θ'.2.2.1 ⟨i, hi⟩ ⟨j, hj⟩) → Q'.px i j = Q.px i j := by
  have hp : (M.withTheta θ').pixTrans idx t = (M.withTheta θ).pixTrans idx t := by
    unfold Fancy.pixTrans Fancy.withTheta
    cases M.offsets with
    | none => rfl
    | some o => simp only [Option.map_some, hag.offset]
  have hramp : (M.withTheta θ').ramp idx t = (M.withTheta θ).ramp idx t := by
    unfold Fancy.ramp Fancy.withTheta
    cases M.fourierShifts with
    | none => rfl
    | some o => simp only [Option.map_some, hag.shift]
  have hbasis : (M.withTheta θ').basisProbes = (M.withTheta θ).basisProbes := by
    funext j
    rw [Fancy.basisProbes_eq, Fancy.basisProbes_eq]
    unfold Fancy.realSpace Fancy.withTheta
    have : (fun x y => θ'.1 j x y * (if M.support x y = true then 1 else 0) : Wave n m) =
        fun x y => θ.1 j x y * (if M.support x y = true then 1 else 0) := by
      funext x y
      by_cases hsup : M.support x y = true
      · rw [hag.probe j x y hsup]
      · simp [hsup]
    simp only [this]
  have hU : (∃ v v', (M.withTheta θ').weights = .perShot v ∧ (M.withTheta θ).weights = .perShot v' ∧ v idx = v' idx) ∨
      ∃ r, ∃ V V' : Fin N → Matrix (Fin r) (Fin k) ℂ, (M.withTheta θ').weights = .matrices r V ∧
        (M.withTheta θ).weights = .matrices r V' ∧ V idx = V' idx := by
    unfold Fancy.withTheta
    cases M.weights with
    | perShot v => exact Or.inl ⟨_, _, rfl, rfl, hag.weight.symm⟩
    | matrices r0 V => exact Or.inr ⟨_, _, _, rfl, rfl, by rw [hag.weights]⟩
  set z : Fin 2 → ℤ := fun c => ⌊(M.withTheta θ).pixTrans idx t c⌋ with hz
  have hsim : ∀ θ' : FancyTheta n m H W h w N r k, (M.withTheta θ').simulateTranslation = M.simulateTranslation := fun _ => rfl
  have hfs : ∀ θ' : FancyTheta n m H W h w N r k, ((M.withTheta θ').fourierShifts = none ↔ M.fourierShifts = none) := by
    intro θ'; unfold Fancy.withTheta; simp
  have hshape := fun θ' : FancyTheta n m H W h w N r k => withTheta_transmission_shape M θ'
  have hθ := forward_fixed (M.withTheta θ) idx t z fun c => rfl
  rw [hQ] at hθ
  simp only [hsim, hfs, (hshape θ).1, (hshape θ).2] at hθ
  split_ifs at hθ with h1 h2
  obtain rfl := Except.ok.inj hθ
  set x0 := (sliceExtent H (z 0) (z 0 + a)).1 with hx0
  set y0 := (sliceExtent W (z 1) (z 1 + b)).1 with hy0
  have hz0 := hin 0
  have hz1 := hin 1
  have hstart : (x0 : ℤ) = z 0 ∧ (y0 : ℤ) = z 1 := by
    have ha := NeZero.pos a
    have hb := NeZero.pos b
    unfold sliceExtent sliceBound at h2 hx0 hy0
    simp only at h2 hx0 hy0
    have e0 : z 0 = ⌊(M.withTheta θ).pixTrans idx t 0⌋ := rfl
    have e1 : z 1 = ⌊(M.withTheta θ).pixTrans idx t 1⌋ := rfl
    rw [← e0] at hz0
    rw [← e1] at hz1
    rw [if_neg (by omega), if_neg (by omega), if_neg (by omega), if_neg (by omega)] at h2
    rw [if_neg (by omega)] at hx0 hy0
    omega
  have hsel : ∀ (u : ZMod a) (v : ZMod b), (M.withTheta θ').transmission.px (x0 + u.val) (y0 + v.val) =
      (M.withTheta θ).transmission.px (x0 + u.val) (y0 + v.val) := by
    intro u v
    have hu := ZMod.val_lt u
    have hv := ZMod.val_lt v
    have hobj : (imgOf θ'.2.1).px (x0 + u.val) (y0 + v.val) = (imgOf θ.2.1).px (x0 + u.val) (y0 + v.val) := by
      unfold imgOf
      by_cases hlt : x0 + u.val < H ∧ y0 + v.val < W
      · simp only [dif_pos hlt]
        have e0 : z 0 = ⌊(M.withTheta θ).pixTrans idx t 0⌋ := rfl
        have e1 : z 1 = ⌊(M.withTheta θ).pixTrans idx t 1⌋ := rfl
        refine (hag.obj ⟨_, hlt.1⟩ ⟨_, hlt.2⟩ ?_ ?_ ?_ ?_).symm <;> simp only [← e0, ← e1] <;> push_cast <;> omega
      · simp only [dif_neg hlt]
    unfold Fancy.transmission Fancy.withTheta
    cases M.exponentiate <;> cases M.phaseOnly <;> simp [Img.map, hobj]
  have hI : fixedIntensity (M.withTheta θ') idx t z x0 y0 = fixedIntensity (M.withTheta θ) idx t z x0 y0 := by
    unfold fixedIntensity sumModes
    simp only [List.map_ofFn, Function.comp_def, List.sum_ofFn, hp, hramp, hsel]
    congr 1
    funext i j
    exact shotProbes_congr _ _ _ _ idx hbasis hU (fun p => ‖M.propagate (fun u v => (M.probeNorm : ℂ) *
        sincFixed M.nearField ((M.withTheta θ).pixTrans idx t 0 - z 0) ((M.withTheta θ).pixTrans idx t 1 - z 1)
          (fun i j => (M.withTheta θ).transmission.px (x0 + i.val) (y0 + j.val))
          (padProbe a b fun u v => p u v * (M.withTheta θ).ramp idx t u v) u v) i j‖ ^ 2)
  have h3 := meas_shape M.saturation M.oversampling (M.withTheta θ').background M.qe (fixedIntensity (M.withTheta θ) idx t z x0 y0)
  have h4 := meas_shape M.saturation M.oversampling (M.withTheta θ).background M.qe (fixedIntensity (M.withTheta θ) idx t z x0 y0)
  refine ⟨_, ?_, h3.1.trans h4.1.symm, h3.2.trans h4.2.symm, ?_⟩
  · rw [forward_fixed (M.withTheta θ') idx t z (fun c => by rw [hp])]
    simp only [hsim, hfs, (hshape θ').1, (hshape θ').2]
    rw [if_neg h1, if_pos h2, hI]
    rfl
  · intro i j hbg
    have hb : (imgOf θ'.2.2.1).px i j = (imgOf θ.2.2.1).px i j := by
      unfold imgOf
      by_cases hlt : i < h ∧ j < w
      · simp only [dif_pos hlt]; exact (hbg hlt.1 hlt.2).symm
      · simp only [dif_neg hlt]
    unfold measQuadratic saturate
    dsimp only
    unfold Fancy.withTheta
    cases M.qe <;> cases M.saturation <;> simp [Img.zip, Img.map, hb]

/-- **C101** (loss): the loss of a minibatch does not change in such a direction. -/
theorem fancy_loss_local (M : Fancy n m a b N k) (kind : LossKind) (mask : Option (Fin h × Fin w → Bool))
    (θ v : FancyTheta n m H W h w N r k) (B : Minibatch (Fin N × (Fin 3 → ℝ)) (Fin h × Fin w → ℝ))
    (hs : ∀ e ∈ B.inputs, (∃ Q, (M.withTheta θ).forward e.1 e.2 = .ok Q ∧ Q.h = h ∧ Q.w = w) ∧
      (∀ c : Fin 2, 0 ≤ ⌊(M.withTheta θ).pixTrans e.1 e.2 c⌋) ∧ AgreeAt a b M.support ((M.withTheta θ).pixTrans e.1 e.2) e.1 v 0)
    (hbg : ∀ x, Unmasked mask x → v.2.2.1 x.1 x.2 = 0)
    (L : FancyTheta n m H W h w N r k → ℝ) (hL : L = fun θ' =>
      kind.chunk mask (B.patterns.zip (B.inputs.map fun e => ((M.withTheta θ').shotPixels h w e).getD 0))) (s : ℝ) : L (θ + s • v) = L θ := by
  rw [hL]
  have hpix : ∀ e ∈ B.inputs, ∀ x, Unmasked mask x → ((M.withTheta (θ + s • v)).shotPixels h w e).getD 0 x =
      ((M.withTheta θ).shotPixels h w e).getD 0 x := by
    intro e he x hx
    obtain ⟨⟨Q, hQ, hh, hw⟩, hin, hag⟩ := hs e he
    have hag' : AgreeAt a b M.support ((M.withTheta θ).pixTrans e.1 e.2) e.1 θ (θ + s • v) := by
      refine ⟨fun j x y hxy => ?_, fun i j h1 h2 h3 h4 => ?_, ?_, ?_, ?_, ?_⟩
      · simp [hag.probe j x y hxy]
      · simp [hag.obj i j h1 h2 h3 h4]
      · simp [hag.weight]
      · simp [hag.weights]
      · simp [hag.offset]
      · simp [hag.shift]
    obtain ⟨Q', hQ', hh', hw', hpx⟩ := fancy_forward_local M θ (θ + s • v) e.1 e.2 hin hag' Q hQ
    unfold Fancy.shotPixels
    rw [hQ, hQ']
    simp only [hh', hw', hh, hw, and_self, if_true, Option.getD_some]
    refine hpx x.1 x.2 fun hi hj => ?_
    simp [hbg x hx]
  have hc : ∀ (ps : List (Fin h × Fin w → ℝ)) (es : List (Fin N × (Fin 3 → ℝ))), (∀ e ∈ es, e ∈ B.inputs) →
      kind.chunk mask (ps.zip (es.map fun e => ((M.withTheta (θ + s • v)).shotPixels h w e).getD 0)) =
      kind.chunk mask (ps.zip (es.map fun e => ((M.withTheta θ).shotPixels h w e).getD 0)) := by
    intro ps
    induction ps with
    | nil => intro es _; rfl
    | cons p ps ih =>
      intro es hes
      cases es with
      | nil => rfl
      | cons e es =>
        have hone : kind.chunk mask [(p, ((M.withTheta (θ + s • v)).shotPixels h w e).getD 0)] =
            kind.chunk mask [(p, ((M.withTheta θ).shotPixels h w e).getD 0)] := by
          have hpx := hpix e (hes e (by simp))
          cases kind <;>
          · simp only [LossKind.chunk, Cdtools.amplitudeMse, Cdtools.intensityMse, Cdtools.poissonNll, if_true,
              Bool.false_eq_true, if_false, batchSum, List.map_cons, List.map_nil, List.sum_cons, List.sum_nil, add_zero]
            refine sum_congr rfl fun x hx => ?_
            rw [hpx x ((mem_selected mask x).1 hx)]
        have h1 := LossKind.chunk_append kind mask [(p, ((M.withTheta (θ + s • v)).shotPixels h w e).getD 0)]
          (ps.zip (es.map fun e => ((M.withTheta (θ + s • v)).shotPixels h w e).getD 0))
        have h2 := LossKind.chunk_append kind mask [(p, ((M.withTheta θ).shotPixels h w e).getD 0)]
          (ps.zip (es.map fun e => ((M.withTheta θ).shotPixels h w e).getD 0))
        rw [hone, ih es fun e he => hes e (by simp [he])] at h1
        exact h1.trans h2.symm
  exact hc _ _ fun e he => he

/-- **C101** (gradient): the closure leaves no gradient on the probe outside its support, on parts of the object outside all windows of
the minibatch, on weights, offsets and Fourier shifts of exposures that are not in the minibatch, and on the background under
masked pixels: the derivative of the loss of the minibatch in such a direction is zero. -/
theorem fancy_gradient_local (M : Fancy n m a b N k) (kind : LossKind) (mask : Option (Fin h × Fin w → Bool))
    (θ v : FancyTheta n m H W h w N r k) (B : Minibatch (Fin N × (Fin 3 → ℝ)) (Fin h × Fin w → ℝ))
    (hs : ∀ e ∈ B.inputs, (∃ Q, (M.withTheta θ).forward e.1 e.2 = .ok Q ∧ Q.h = h ∧ Q.w = w) ∧
      (∀ c : Fin 2, 0 ≤ ⌊(M.withTheta θ).pixTrans e.1 e.2 c⌋) ∧ AgreeAt a b M.support ((M.withTheta θ).pixTrans e.1 e.2) e.1 v 0)
    (hbg : ∀ x, Unmasked mask x → v.2.2.1 x.1 x.2 = 0)
    (L : FancyTheta n m H W h w N r k → ℝ) (hL : L = fun θ' =>
      kind.chunk mask (B.patterns.zip (B.inputs.map fun e => ((M.withTheta θ').shotPixels h w e).getD 0)))
    (hd : DifferentiableAt ℝ L θ) : fderiv ℝ L θ v = 0 := by
  have hconst : ∀ s : ℝ, L (θ + s • v) = L θ := fun s => fancy_loss_local M kind mask θ v B hs hbg L hL s
  have h1 : HasDerivAt (fun s : ℝ => θ + s • v) v 0 := by
    have := ((hasDerivAt_id (0 : ℝ)).smul_const v).const_add θ
    simpa using this
  have hL' : HasFDerivAt L (fderiv ℝ L θ) (θ + (0 : ℝ) • v) := by simpa using hd.hasFDerivAt
  have h2 := hL'.comp_hasDerivAt (0 : ℝ) h1
  have h3 : (L ∘ fun s : ℝ => θ + s • v) = fun _ => L θ := by funext s; exact hconst s
  rw [h3] at h2
  exact h2.unique (hasDerivAt_const _ _)

/-! ### Non-vacuity -/

/-- Parameters for `toyFancy`. -/
noncomputable def toyTheta : FancyTheta 2 2 5 5 2 2 2 1 1 :=
  (fun _ x y => if x = 0 ∧ y = 0 then 1 else 2, fun i j => (i.val : ℂ) + 2 * j.val + 1, fun _ _ => 1 / 2, fun _ => 1, fun _ _ _ => 1,
    fun _ => ![1 / 4, 1 / 8], fun _ => 0)

theorem toyTheta_pixTrans (i : Fin 2) : (toyFancy.withTheta toyTheta).pixTrans i 0 = ![3 / 2, 5 / 4] := by
  unfold Fancy.pixTrans
  simp only [Fancy.withTheta, toyFancy, toyTheta, translationsToPixel, Matrix.mulVec_zero, Option.map_some]
  funext j; fin_cases j <;> simp <;> norm_num

theorem toyTheta_floor (i : Fin 2) : ⌊(toyFancy.withTheta toyTheta).pixTrans i 0 0⌋ = 1 ∧
    ⌊(toyFancy.withTheta toyTheta).pixTrans i 0 1⌋ = 1 := by
  rw [toyTheta_pixTrans]
  constructor <;> norm_num [Int.floor_eq_iff]

theorem toyTheta_trainable (i : Fin 2) : Trainable (toyFancy.withTheta toyTheta) 2 2 (i, 0) := by
  have hok : ∃ Q, (toyFancy.withTheta toyTheta).forward i 0 = .ok Q := by
    unfold Fancy.forward
    rw [if_neg (by simp [toyFancy, Fancy.withTheta])]
    dsimp only
    rw [(toyTheta_floor i).1, (toyTheta_floor i).2, objWindow_inside]
    · exact ⟨_, rfl⟩
    all_goals
      simp only [(withTheta_transmission_shape toyFancy toyTheta).1, (withTheta_transmission_shape toyFancy toyTheta).2]
      norm_num
  obtain ⟨Q, hQ⟩ := hok
  have hs := forward_shape _ _ _ _ hQ
  simp only [Fancy.withTheta, toyFancy, ne_eq, not_true_eq_false, if_false] at hs
  refine ⟨Q, hQ, hs.1, hs.2, Or.inr fun c z hz => ?_, fun s hs => ?_⟩
  · simp only [toyTheta_pixTrans] at hz
    fin_cases c
    · have : ⌊((3 : ℝ) / 2)⌋ = z := by
        have hz : (3 / 2 : ℝ) = z := by simpa using hz
        rw [hz]; simp
      have h1 : ⌊((3 : ℝ) / 2)⌋ = 1 := by norm_num [Int.floor_eq_iff]
      have hz : (3 / 2 : ℝ) = z := by simpa using hz
      rw [← this, h1] at hz
      norm_num at hz
    · have hz : (5 / 4 : ℝ) = z := by simpa using hz
      have : ⌊((5 : ℝ) / 4)⌋ = z := by rw [hz]; simp
      have h1 : ⌊((5 : ℝ) / 4)⌋ = 1 := by norm_num [Int.floor_eq_iff]
      rw [← this, h1] at hz
      norm_num at hz
  · simp [Fancy.withTheta, toyFancy] at hs

/-- A minibatch of two exposures meets the hypotheses of `fancy_step_independent_of_width` for every loss. -/
example (kind : LossKind) (mask : Option (Fin 2 × Fin 2 → Bool)) (p q : Fin 2 × Fin 2 → ℝ) :
    let B : Minibatch (Fin 2 × (Fin 3 → ℝ)) (Fin 2 × Fin 2 → ℝ) := ⟨[(0, 0), (1, 0)], [p, q]⟩
    ∃ g, (fancyPhysics toyFancy kind mask).closure 1 none B toyTheta = .ok g := by
  intro B
  have := fancy_step_independent_of_width toyFancy kind mask toyTheta 1 le_rfl B ⟨by simp [B], rfl⟩ (by
    intro e he
    simp only [B, List.mem_cons, List.not_mem_nil, or_false] at he
    rcases he with rfl | rfl <;> exact toyTheta_trainable _) (fun _ => ⟨fun q hq => by simp [toyFancy] at hq, fun s hs => by simp [toyFancy] at hs⟩)
  exact ⟨_, this.1⟩

/-- A direction (a corner of the object, the weights of the other exposure) that meets the hypotheses of `fancy_gradient_local`. -/
example : ∃ v : FancyTheta 2 2 5 5 2 2 2 1 1, v ≠ 0 ∧
    AgreeAt 2 2 toyFancy.support ((toyFancy.withTheta toyTheta).pixTrans 0 0) 0 v 0 := by
  refine ⟨(0, fun i j => if i = 0 ∧ j = 0 then 1 else 0, 0, 0, fun i _ _ => if i = 1 then 1 else 0, 0, 0), ?_, ?_⟩
  · intro h
    have := congrFun (congrFun (congrArg (fun v => v.2.1) h) 0) 0
    simp at this
  · refine ⟨fun _ _ _ _ => rfl, fun i j h1 _ _ _ => ?_, rfl, ?_, rfl, rfl⟩
    · rw [(toyTheta_floor 0).1] at h1
      have : i ≠ 0 := by rintro rfl; simp at h1
      simp [this]
    · funext a b; simp

end Cdtools
