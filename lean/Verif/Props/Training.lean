/-
**C104**: gradient steps of `SimplePtycho`, `RPI`, `MultislicePtycho` and `Bragg2DPtycho` reconstructions.
-/
import Verif.Model.Training
import Verif.Props.FancyGradient
import Verif.Props.RpiForward
import Verif.Props.Multislice
import Verif.Props.Bragg
import Verif.Props.Simple

set_option linter.unusedSectionVars false

namespace Cdtools
open Finset Topology

variable {n m a b H W h w N r k l : ℕ} [NeZero n] [NeZero m] [NeZero a] [NeZero b]
variable {E : Type} [NormedAddCommGroup E] [NormedSpace ℝ E]

/-! ### Specification -/

/-- Around `θ` the simulation succeeds in the given shape, its pixels are positive at `θ`, and they are differentiable
functions of all parameters together. -/
def SmoothAt {ε : Type} (h w : ℕ) (f : E → Except ε (Img ℝ)) (θ : E) : Prop :=
  ∃ sim : E → Img ℝ, (∀ᶠ θ' in 𝓝 θ, f θ' = .ok (sim θ')) ∧ (∀ θ', (sim θ').h = h ∧ (sim θ').w = w) ∧
    ∀ i < h, ∀ j < w, 0 < (sim θ).px i j ∧ DifferentiableAt ℝ (fun θ' => (sim θ').px i j) θ

/-! ### The step of a reconstruction with any smooth model -/

/-- **C104** (the step): for a model that simulates every exposure from its own input, one evaluation of the closure, with any
of the three losses, any mask, any calculation width and any regularizer, returns the loss of the whole minibatch and leaves
its exact gradient plus the gradient of the regularizer, if the simulations of all exposures are smooth. -/
theorem smooth_step {ε I R : Type} (sim : E → I → Except ε (Img ℝ)) (kind : LossKind)
    (mask : Option (Fin h × Fin w → Bool)) (reg : Option (R → E → ℝ)) (θ : E) (cw : ℤ) (hcw : 1 ≤ cw) (factor : Option R)
    (B : Minibatch I (Fin h × Fin w → ℝ)) (hB : B.WF) (hs : ∀ e ∈ B.inputs, SmoothAt h w (fun θ' => sim θ' e) θ) :
    let L : E → ℝ := fun θ' => kind.chunk mask (B.patterns.zip (B.inputs.map fun e => (simPixels h w (sim θ' e)).getD 0))
    (shotPhysics sim kind mask reg).closure cw factor B θ =
      .ok (some (L θ), fderiv ℝ L θ + (shotPhysics sim kind mask reg).regGrad factor θ) ∧ DifferentiableAt ℝ L θ := by
  intro L
  set ph : Physics E I (Fin h × Fin w → ℝ) (Fin h × Fin w → ℝ) R :=
    { shotPhysics sim kind mask reg with fault := fun _ _ _ => none } with hph
  have hpix_some : ∀ e ∈ B.inputs, (simPixels h w (sim θ e)).isSome = true := by
    intro e he
    obtain ⟨f, hev, hsh, hd⟩ := hs e he
    have h1 : sim θ e = .ok (f θ) := hev.self_of_nhds
    rw [h1]
    simp only [simPixels, hsh θ, and_self, if_true, Option.isSome_some]
  have hpix : ∀ e ∈ B.inputs, ∀ x : Fin h × Fin w, (simPixels h w (sim θ e)).isSome = true ∧
      0 < (simPixels h w (sim θ e)).getD 0 x ∧
      DifferentiableAt ℝ (fun θ' => (simPixels h w (sim θ' e)).getD 0 x) θ := by
    intro e he x
    obtain ⟨f, hev, hsh, hd⟩ := hs e he
    have h1 : ∀ᶠ θ' in 𝓝 θ, simPixels h w (sim θ' e) = some ((f θ').pixels h w) := by
      filter_upwards [hev] with θ' hθ'
      rw [hθ']
      simp only [simPixels, hsh θ', and_self, if_true]
    have h2 := h1.self_of_nhds
    refine ⟨by rw [h2]; rfl, ?_, ?_⟩
    · rw [h2]
      exact (hd x.1 x.1.2 x.2 x.2.2).1
    · refine (hd x.1 x.1.2 x.2 x.2.2).2.congr_of_eventuallyEq ?_
      filter_upwards [h1] with θ' hθ'
      rw [hθ']
      rfl
  have hadd : ph.DataAdditive := by
    refine ⟨fun θ a b => List.map_append, fun θ a => List.length_map _, fun p p' s s' h1 h2 => ?_⟩
    show kind.chunk mask _ = kind.chunk mask _ + kind.chunk mask _
    rw [List.zip_append h1, LossKind.chunk_append]
  have hd : ph.DiffAt B θ := by
    intro e he
    have hin := hpix e.1 (List.of_mem_zip he).1
    have : ph.oneLoss e.1 e.2 = fun θ' => kind.chunk mask [(e.2, (simPixels h w (sim θ' e.1)).getD 0)] := by
      funext θ'; rfl
    rw [this]
    exact LossKind.one_diff kind mask e.2 _ (fun x => (hin x).2.2) fun hk x => (hin x).2.1
  obtain ⟨cs, hcs, -, hin, -⟩ := chunks_partition_minibatch cw hcw B hB
  have hc : (shotPhysics sim kind mask reg).closure cw factor B θ = ph.closure cw factor B θ := by
    unfold Physics.closure
    rw [hcs]
    simp only
    rw [accumChunks_noFault]
    · rfl
    · intro c hc
      refine if_pos fun e he => ?_
      have hmem : e ∈ B.inputs := by
        rw [← hin]
        exact List.mem_flatten.2 ⟨c.1, List.mem_map.2 ⟨c, hc, rfl⟩, he⟩
      exact (hpix_some e hmem)
  refine ⟨?_, ?_⟩
  · rw [hc, minibatch_step_independent_of_width ph hadd (fun _ _ _ => rfl) cw hcw factor B hB θ hd]
    rfl
  · exact hadd.differentiableAt (i := B.inputs) (p := B.patterns) hB.2 (fun e he => hd e he)

/-- **C104** (no silent failure): if one exposure of the minibatch cannot be simulated in the shape of the data, the step raises;
no loss or gradient is made up for it. -/
theorem smooth_step_raises {ε I R : Type} (sim : E → I → Except ε (Img ℝ)) (kind : LossKind)
    (mask : Option (Fin h × Fin w → Bool)) (reg : Option (R → E → ℝ)) (θ : E) (cw : ℤ) (hcw : 1 ≤ cw) (factor : Option R)
    (B : Minibatch I (Fin h × Fin w → ℝ)) (hB : B.WF) (e : I) (he : e ∈ B.inputs)
    (hbad : ∀ Q, sim θ e = .ok Q → ¬ (Q.h = h ∧ Q.w = w)) :
    ∃ x, (shotPhysics sim kind mask reg).closure cw factor B θ = .error x := by
  obtain ⟨cs, hcs, -, hin, -⟩ := chunks_partition_minibatch cw hcw B hB
  rw [← hin] at he
  obtain ⟨c1, hc1, he⟩ := List.mem_flatten.1 he
  obtain ⟨c, hc, rfl⟩ := List.mem_map.1 hc1
  have hnone : simPixels h w (sim θ e) = none := by
    cases hQ : sim θ e with
    | error x => rfl
    | ok Q => exact if_neg (hbad Q hQ)
  obtain ⟨x, hx⟩ := accumChunks_fault (shotPhysics sim kind mask reg) θ cs (none, 0) ⟨c, hc, by
    have : ¬ ∀ e ∈ c.1, (simPixels h w (sim θ e)).isSome := by
      intro hall
      have := hall e he
      rw [hnone] at this
      cases this
    show (if ∀ e ∈ c.1, (simPixels h w (sim θ e)).isSome then none else some PyExc.runtimeError) ≠ none
    rw [if_neg this]
    simp⟩
  refine ⟨x, ?_⟩
  unfold Physics.closure
  rw [hcs]
  simp only [hx]

/-! ### Detectors -/

/-- A detector that saturates does so at a positive level, and no pixel is exactly at that level. -/
def OffSaturation (saturation : Option ℝ) (unsaturated : Img ℝ) : Prop :=
  ∀ s, saturation = some s → 0 < s ∧ ∀ i j, unsaturated.px i j ≠ s

/-- The detector keeps smoothness. -/
theorem meas_smooth (sat : Option ℝ) (o : ℕ) {θ : E} {A B : E → Img ℝ} (hA0 : ∀ i j, 0 ≤ (A θ).px i j)
    (hA : ∀ i j, DifferentiableAt ℝ (fun e => (A e).px i j) θ) (hB : ∀ i j, DifferentiableAt ℝ (fun e => (B e).px i j) θ)
    (hs : OffSaturation sat (measQuadratic { oversampling := o } (B θ) none (A θ))) (i j : ℕ) :
    0 < (measQuadratic { saturation := sat, oversampling := o } (B θ) none (A θ)).px i j ∧
    DifferentiableAt ℝ (fun e => (measQuadratic { saturation := sat, oversampling := o } (B e) none (A e)).px i j) θ := by
  have hb := binPixels_nonneg o (A θ) hA0 i j
  have hraw : 0 < (measQuadratic { oversampling := o } (B θ) none (A θ)).px i j := by
    unfold measQuadratic readOut saturate cutSlice
    simp only [Img.zip, Img.map]
    positivity
  have hd := meas_diff o none hA hB i j
  simp only [meas_saturate sat]
  cases sat with
  | none => exact ⟨hraw, hd⟩
  | some s =>
    obtain ⟨h1, h2⟩ := hs s rfl
    refine ⟨?_, clamp0_diff s hd hraw.ne' (h2 i j)⟩
    simp only [saturate, Img.map, clamp0]
    exact lt_min (lt_max_of_lt_left hraw) h1

/-! ### SimplePtycho -/

theorem measIntensity_shape (x : Img ℂ) : (measIntensity {} x).h = x.h ∧ (measIntensity {} x).w = x.w := ⟨rfl, rfl⟩

theorem measIntensity_px (x : Img ℂ) (i j : ℕ) : (measIntensity {} x).px i j = ‖x.px i j‖ ^ 2 + 1e-7 := rfl

/-- **C104** (`SimplePtycho`): wherever an exposure can be simulated in the shape of the data, every pixel is positive and a
differentiable function of probe and object. -/
theorem simple_smooth (M : Simple n m) (θ : SimpleTheta n m H W) (t : Fin 3 → ℝ) (Q : Img ℝ)
    (hQ : (M.withTheta θ).forward t = .ok Q) (hh : Q.h = h) (hw : Q.w = w) :
    SmoothAt h w (fun θ' : SimpleTheta n m H W => (M.withTheta θ').forward t) θ := by
  set x := roundHalfEven (M.pixTrans t 0) with hx
  set y := roundHalfEven (M.pixTrans t 1) with hy
  set x0 := (sliceExtent H x (x + n)).1
  set y0 := (sliceExtent W y (y + m)).1
  set wv : SimpleTheta n m H W → Wave n m := fun θ' u v => (M.probeNorm : ℂ) * θ'.1 u v *
          (imgOf θ'.2).px (x0 + u.val) (y0 + v.val) with hwv
  have key : ∀ θ' : SimpleTheta n m H W, (M.withTheta θ').forward t =
      if (sliceExtent H x (x + n)).2 = n ∧ (sliceExtent W y (y + m)).2 = m then
        .ok (measIntensity {} ⟨n, m, fun i j => farField (wv θ') i j⟩)
      else .error "RuntimeError" := by
    intro θ'
    unfold Simple.forward roundExit objWindow
    show Except.map _ (Except.map _ (if (sliceExtent H x (x + n)).2 = n ∧ (sliceExtent W y (y + m)).2 = m then _ else _)) = _
    split_ifs
    · rfl
    · rfl
  have hθ := key θ
  rw [hQ] at hθ
  split_ifs at hθ with h1
  obtain rfl := Except.ok.inj hθ
  rw [(measIntensity_shape _).1] at hh
  rw [(measIntensity_shape _).2] at hw
  refine ⟨fun θ' => measIntensity {} ⟨n, m, fun i j => farField (wv θ') i j⟩, ?_, ?_, ?_⟩
  · exact Filter.Eventually.of_forall fun θ' => (key θ').trans (if_pos h1)
  · exact fun θ' => ⟨hh, hw⟩
  · intro i _ j _
    have hw : DWave wv θ := by
      intro u v
      refine DifferentiableAt.mul (DifferentiableAt.const_mul (by fun_prop) _) ?_
      exact imgOf_diff (fun i j => by fun_prop) _ _
    have hf := hw.linear isLinear_farField
    simp only [measIntensity_px]
    exact ⟨by positivity, (diff_normSq (hf _ _)).add_const _⟩

/-! ### RPI -/

theorem binPixels_diff (o : ℕ) {θ : E} {A : E → Img ℝ} (hA : ∀ i j, DifferentiableAt ℝ (fun e => (A e).px i j) θ) (i j : ℕ) :
    DifferentiableAt ℝ (fun e => (binPixels o (A e)).px i j) θ := by
  unfold binPixels
  by_cases ho : o ≠ 1
  · simp only [if_pos ho, Img.avgPool, Img.sumPool]
    have h1 : DifferentiableAt ℝ (fun e => ∑ u ∈ range o, ∑ v ∈ range o, (A e).px (o * i + u) (o * j + v)) θ :=
      DifferentiableAt.fun_sum fun u _ => DifferentiableAt.fun_sum fun v _ => hA _ _
    simpa only [div_eq_mul_inv] using h1.mul_const _
  · simp only [if_neg ho]; exact hA i j

theorem readOut_shape (o : ℕ) (A : Img ℝ) :
    (readOut { oversampling := o } A).h = (if o ≠ 1 then A.h / o else A.h) ∧
    (readOut { oversampling := o } A).w = (if o ≠ 1 then A.w / o else A.w) := by
  unfold readOut saturate cutSlice binPixels
  by_cases ho : o = 1 <;> simp [Img.map, ho, Img.avgPool, Img.sumPool]

theorem readOut_px (o : ℕ) (A : Img ℝ) (i j : ℕ) :
    (readOut { oversampling := o } A).px i j = (binPixels o A).px i j + 1e-7 := rfl

theorem rpi_visible_diff (M : Rpi n m a b k l) (weightMatrix : Bool) (θ : RpiTheta a b k l) (o : Fin l) :
    DWave (fun θ' : RpiTheta a b k l => (M.withTheta weightMatrix θ').visible o) θ := by
  intro x y
  have h1 : DifferentiableAt ℝ (fun θ' : RpiTheta a b k l => θ'.1 o x y) θ := by fun_prop
  have h2 : DifferentiableAt ℝ (fun θ' : RpiTheta a b k l => (M.withTheta weightMatrix θ').transmission o x y) θ := by
    unfold Rpi.transmission Rpi.withTheta
    cases M.exponentiate
    · exact h1
    · cases M.phaseOnly
      · exact diff_cexp (h1.const_mul _)
      · exact diff_cexp ((diff_ofReal (diff_re h1)).const_mul _)
  exact h2.const_mul (M.support x y : ℂ)

theorem rpi_mixed_diff (M : Rpi n m a b k l) (weightMatrix : Bool) (θ : RpiTheta a b k l) (i : Fin k) :
    DWave (fun θ' : RpiTheta a b k l => (M.withTheta weightMatrix θ').mixedProbes i) θ := by
  intro x y
  unfold Rpi.mixedProbes Rpi.withTheta
  refine DifferentiableAt.fun_sum fun j _ => DifferentiableAt.mul_const ?_ _
  cases weightMatrix
  · exact differentiableAt_const _
  · simp only [if_true, Matrix.of_apply]; fun_prop

theorem rpi_intensity_diff (M : Rpi n m a b k l) (weightMatrix : Bool) (θ : RpiTheta a b k l) (x : ZMod n) (y : ZMod m) :
    DifferentiableAt ℝ (fun θ' : RpiTheta a b k l =>
      rpiIntensity (M.withTheta weightMatrix θ').mixedProbes (M.withTheta weightMatrix θ').visible x y) θ := by
  unfold rpiIntensity
  refine DifferentiableAt.fun_sum fun i _ => DifferentiableAt.fun_sum fun o _ => diff_normSq ?_
  exact (((rpi_mixed_diff M weightMatrix θ i).mul
    ((rpi_visible_diff M weightMatrix θ o).linear isLinear_rpiUpsample)).linear isLinear_farField) x y

/-- **C104** (`RPI`): wherever the pattern can be simulated in the shape of the data and no pixel is at the saturation level,
every pixel is positive and a differentiable function of the object and the weight matrix. -/
theorem rpi_smooth (M : Rpi n m a b k l) (weightMatrix : Bool) (θ : RpiTheta a b k l) (Q : Img ℝ)
    (hQ : (M.withTheta weightMatrix θ).pattern = .ok Q) (hh : Q.h = h) (hw : Q.w = w)
    (hsat : ∀ Q', Rpi.pattern { M.withTheta weightMatrix θ with saturation := none } = .ok Q' → OffSaturation M.saturation Q') :
    SmoothAt h w (fun θ' : RpiTheta a b k l => (M.withTheta weightMatrix θ').pattern) θ := by
  set A : RpiTheta a b k l → Img ℝ := fun θ' => ⟨n, m, fun x y =>
    rpiIntensity (M.withTheta weightMatrix θ').mixedProbes (M.withTheta weightMatrix θ').visible x y⟩ with hA
  set raw : RpiTheta a b k l → Img ℝ := fun θ' => readOut { oversampling := M.oversampling } (A θ') with hraw
  have hrpx : ∀ θ' i j, (raw θ').px i j = (binPixels M.oversampling (A θ')).px i j + 1e-7 := fun θ' i j =>
    readOut_px _ _ i j
  have hrh : ∀ θ', (raw θ').h = (raw θ).h ∧ (raw θ').w = (raw θ).w := by
    intro θ'
    rw [hraw]
    exact ⟨(readOut_shape _ _).1.trans (readOut_shape _ (A θ)).1.symm, (readOut_shape _ _).2.trans (readOut_shape _ (A θ)).2.symm⟩
  have key : ∀ (sat : Option ℝ) (θ' : RpiTheta a b k l), Rpi.pattern { M.withTheta weightMatrix θ' with saturation := sat } =
      match bcDim (raw θ).h M.background.h, bcDim (raw θ).w M.background.w with
      | some h0, some w0 => .ok (saturate sat ⟨h0, w0, fun i j => (raw θ').bget i j + M.background.bget i j ^ 2⟩)
      | _, _ => .error .runtimeError := by
    intro sat θ'
    have h0 : Rpi.pattern { M.withTheta weightMatrix θ' with saturation := sat } =
        (Img.bzip (fun x b => x + b ^ 2) (raw θ') M.background).map (saturate sat) := by
      unfold Rpi.pattern
      simp only [Rpi.sumModes_eq]
      rfl
    rw [h0]
    unfold Img.bzip
    rw [(hrh θ').1, (hrh θ').2]
    cases bcDim (raw θ).h M.background.h <;> cases bcDim (raw θ).w M.background.w <;> rfl
  have hself : ∀ θ', (M.withTheta weightMatrix θ') = { M.withTheta weightMatrix θ' with saturation := M.saturation } := fun _ => rfl
  have hθ := key M.saturation θ
  rw [← hself, hQ] at hθ
  cases h0 : bcDim (raw θ).h M.background.h with
  | none => rw [h0] at hθ; simp at hθ
  | some h1 =>
  cases w0 : bcDim (raw θ).w M.background.w with
  | none => rw [h0, w0] at hθ; simp at hθ
  | some w1 =>
  simp only [h0, w0] at hθ key
  obtain rfl := Except.ok.inj hθ
  have hsh : ∀ X : Img ℝ, (saturate M.saturation X).h = X.h ∧ (saturate M.saturation X).w = X.w := by
    intro X; unfold saturate; cases M.saturation <;> exact ⟨rfl, rfl⟩
  rw [(hsh _).1] at hh
  rw [(hsh _).2] at hw
  refine ⟨fun θ' => saturate M.saturation ⟨h1, w1, fun i j => (raw θ').bget i j + M.background.bget i j ^ 2⟩, ?_, ?_, ?_⟩
  · exact Filter.Eventually.of_forall fun θ' => key M.saturation θ'
  · intro θ'
    exact ⟨(hsh _).1.trans hh, (hsh _).2.trans hw⟩
  · intro i _ j _
    have hA0 : ∀ i j, 0 ≤ (A θ).px i j := by
      intro i j
      simp only [hA, rpiIntensity]
      exact Finset.sum_nonneg fun _ _ => Finset.sum_nonneg fun _ _ => by positivity
    have hpos : ∀ i j, 0 < (raw θ).bget i j + M.background.bget i j ^ 2 := by
      intro i j
      have := binPixels_nonneg M.oversampling (A θ) hA0
      simp only [Img.bget, hrpx]
      have := this (if (raw θ).h = 1 then 0 else i) (if (raw θ).w = 1 then 0 else j)
      positivity
    have hd : DifferentiableAt ℝ (fun θ' => (raw θ').bget i j + M.background.bget i j ^ 2) θ := by
      simp only [Img.bget, (hrh _).1, (hrh _).2, hrpx]
      refine DifferentiableAt.add_const _ (DifferentiableAt.add_const _ (binPixels_diff _ (fun i j => ?_) _ _))
      exact rpi_intensity_diff M weightMatrix θ _ _
    have hs := hsat _ (key none θ)
    cases hsv : M.saturation with
    | none => exact ⟨hpos i j, hd⟩
    | some s =>
      obtain ⟨g1, g2⟩ := hs s hsv
      refine ⟨?_, clamp0_diff s hd (hpos i j).ne' (g2 i j)⟩
      simp only [saturate, Img.map, clamp0]
      exact lt_min (lt_max_of_lt_left (hpos i j)) g1

/-! ### Bragg2DPtycho -/

/-- The integer part of a trained pixel position is not about to change. -/
def OffGrid (offsets : Option (Fin N → Fin 2 → ℝ)) (p : Fin 2 → ℝ) : Prop :=
  offsets = none ∨ ∀ c : Fin 2, ∀ z : ℤ, p c ≠ z

/-- Around such a point the integer parts stay the same. -/
theorem offGrid_floor (o : Option (Fin N → Fin 2 → ℝ)) (θ : E) (base : Fin 2 → ℝ) (scale : ℝ) (idx : Fin N)
    (off : E → Fin N → Fin 2 → ℝ) (hoff : ∀ c, DifferentiableAt ℝ (fun e => off e idx c) θ) (p : E → Fin 2 → ℝ)
    (hp : ∀ e, p e = match o with | none => base | some _ => base + scale • off e idx)
    (hr : OffGrid o (p θ)) :
    (∀ᶠ e in 𝓝 θ, ∀ c, ⌊p e c⌋ = ⌊p θ c⌋) ∧ ∀ c, DifferentiableAt ℝ (fun e => p e c) θ := by
  have hd : ∀ c, DifferentiableAt ℝ (fun e => p e c) θ := by
    intro c
    simp only [hp]
    cases o with
    | none => exact differentiableAt_const _
    | some o =>
      simp only [Pi.add_apply, Pi.smul_apply, smul_eq_mul]
      exact ((hoff c).const_mul _).const_add _
  refine ⟨?_, hd⟩
  rcases hr with rfl | hpos
  · exact Filter.Eventually.of_forall fun e c => by rw [hp e, hp θ]
  · rw [Filter.eventually_all]
    exact fun c => floor_eventually (hd c).continuousAt (hpos c)

/-- **C104** (`Bragg2DPtycho`): wherever an exposure can be simulated in the shape of the data, its trained position is not on
the pixel grid and no pixel is at the saturation level, every pixel is positive and a differentiable function of all
parameters together: probe, object, background, weights and translation offsets. -/
theorem bragg_smooth (M : Bragg n m a b N k) (θ : BraggTheta n m H W h w N k) (idx : Fin N) (t : Fin 3 → ℝ) (Q : Img ℝ)
    (hQ : (M.withTheta θ).forward idx t = .ok Q) (hh : Q.h = h) (hw : Q.w = w)
    (hgrid : OffGrid M.offsets ((M.withTheta θ).pixTrans idx t))
    (hsat : ∀ Q', Bragg.forward ({ M.withTheta θ with saturation := none } : Bragg n m a b N k) idx t = .ok Q' → OffSaturation M.saturation Q') :
    SmoothAt h w (fun θ' : BraggTheta n m H W h w N k => (M.withTheta θ').forward idx t) θ := by
  set z : Fin 2 → ℤ := fun c => ⌊(M.withTheta θ).pixTrans idx t c⌋ with hz
  obtain ⟨hfl, hpd⟩ := offGrid_floor M.offsets θ ((projectToSample M.objBasis t).1 - M.minTranslation) M.translationScale idx
    (fun θ' : BraggTheta n m H W h w N k => θ'.2.2.2.2) (fun c => by fun_prop)
    (fun θ' => (M.withTheta θ').pixTrans idx t) (fun θ' => by
      unfold Bragg.pixTrans Bragg.withTheta
      cases M.offsets <;> rfl) hgrid
  set x0 := (sliceExtent H (z 0) (z 0 + a)).1
  set y0 := (sliceExtent W (z 1) (z 1 + b)).1
  set exit : BraggTheta n m H W h w N k → Fin k → Wave a b := fun θ' j x y => (M.probeNorm : ℂ) *
    sincFixed false ((M.withTheta θ').pixTrans idx t 0 - z 0) ((M.withTheta θ').pixTrans idx t 1 - z 1)
      (fun u v => (imgOf θ'.2.1).px (x0 + u.val) (y0 + v.val))
      (M.illumination (θ'.2.2.2.1 idx) (M.distance t) (θ'.1 j)) x y with hexit
  set A : BraggTheta n m H W h w N k → Img ℝ := fun θ' => sumModes a b (List.ofFn fun j => M.toDetector (exit θ' j)) with hA
  have hwt : M.weights ≠ none := by
    intro h0
    unfold Bragg.forward Bragg.withTheta at hQ
    simp only [h0, Option.map_none] at hQ
    cases hQ
  obtain ⟨w0, hw0⟩ := Option.ne_none_iff_exists'.1 hwt
  have key : ∀ (sat : Option ℝ) (θ' : BraggTheta n m H W h w N k), (∀ c, ⌊(M.withTheta θ').pixTrans idx t c⌋ = z c) →
      Bragg.forward ({ M.withTheta θ' with saturation := sat } : Bragg n m a b N k) idx t =
      if (sliceExtent H (z 0) (z 0 + a)).2 = a ∧ (sliceExtent W (z 1) (z 1 + b)).2 = b then
        .ok (measQuadratic { saturation := sat, oversampling := M.oversampling } (imgOf θ'.2.2.1) none (A θ'))
      else .error "RuntimeError" := by
    intro sat θ' hθ'
    have hwe : (({ M.withTheta θ' with saturation := sat } : Bragg n m a b N k)).weights = some θ'.2.2.2.1 := by
      show M.weights.map _ = _
      rw [hw0]; rfl
    rw [Bragg.forward_eq _ _ hwe]
    have hpt : (({ M.withTheta θ' with saturation := sat } : Bragg n m a b N k)).pixTrans idx t =
        (M.withTheta θ').pixTrans idx t := rfl
    rw [hpt, hθ' 0, hθ' 1]
    have hob : objWindow a b (({ M.withTheta θ' with saturation := sat } : Bragg n m a b N k)).obj (z 0) (z 1) =
        if (sliceExtent H (z 0) (z 0 + a)).2 = a ∧ (sliceExtent W (z 1) (z 1 + b)).2 = b then
          .ok fun u v => (imgOf θ'.2.1).px (x0 + u.val) (y0 + v.val) else .error "RuntimeError" := rfl
    rw [hob]
    split_ifs with h1
    · have e2 : A θ' = ⟨a, b, fun u v => ∑ j, ‖M.toDetector (exit θ' j) u v‖ ^ 2⟩ := by
        simp only [hA, sumModes]
        congr 1
        funext u v
        exact listSum_ofFn _ _ _
      rw [e2]
      have e3 : ∀ j, (({ M.withTheta θ' with saturation := sat } : Bragg n m a b N k)).exitWave θ'.2.2.2.1 idx t
          (fun u v => (imgOf θ'.2.1).px (x0 + u.val) (y0 + v.val)) (θ'.1 j) = exit θ' j := by
        intro j
        unfold Bragg.exitWave sincApply
        rw [hpt]
        simp only [hθ']
        rfl
      refine congrArg (fun I => Except.ok (measQuadratic { saturation := sat, oversampling := M.oversampling } (imgOf θ'.2.2.1)
        none ⟨a, b, I⟩)) (funext fun x => funext fun y => Finset.sum_congr rfl fun j _ => ?_)
      exact congrArg (fun q => ‖M.toDetector q x y‖ ^ 2) (e3 j)
    · rfl
  have hθ := key M.saturation θ fun c => rfl
  have hself : ∀ θ' : BraggTheta n m H W h w N k,
    ({ M.withTheta θ' with saturation := M.saturation } : Bragg n m a b N k) = M.withTheta θ' := fun _ => rfl
  rw [hself, hQ] at hθ
  split_ifs at hθ with h1
  obtain rfl := Except.ok.inj hθ
  have hAs : ∀ θ', (A θ').h = a ∧ (A θ').w = b := fun _ => ⟨rfl, rfl⟩
  rw [(meas_shape _ _ _ _ _).1, (hAs θ).1] at hh
  rw [(meas_shape _ _ _ _ _).2, (hAs θ).2] at hw
  refine ⟨fun θ' => measQuadratic { saturation := M.saturation, oversampling := M.oversampling } (imgOf θ'.2.2.1) none (A θ'),
    ?_, ?_, ?_⟩
  · filter_upwards [hfl] with θ' hθ'
    have := key M.saturation θ' hθ'
    rw [hself, if_pos h1] at this
    exact this
  · intro θ'
    have h3 := meas_shape M.saturation M.oversampling (imgOf θ'.2.2.1) none (A θ')
    rw [(hAs θ').1, (hAs θ').2] at h3
    exact ⟨h3.1.trans hh, h3.2.trans hw⟩
  · intro i _ j _
    have hpx : ∀ θ' u v, (A θ').px u v = ∑ j, ‖M.toDetector (exit θ' j) u v‖ ^ 2 := by
      intro θ' u v
      exact listSum_ofFn _ _ _
    refine meas_smooth M.saturation M.oversampling (A := A) (B := fun θ' : BraggTheta n m H W h w N k => imgOf θ'.2.2.1)
      (fun u v => ?_) (fun u v => ?_) (fun u v => imgOf_diff (fun i j => by fun_prop) u v) ?_ i j
    · rw [hpx]; exact Finset.sum_nonneg fun _ _ => by positivity
    · simp only [hpx]
      refine DifferentiableAt.fun_sum fun j _ => diff_normSq ?_
      have hin : DWave (fun θ' : BraggTheta n m H W h w N k => M.illumination (a := a) (b := b) (θ'.2.2.2.1 idx) (M.distance t) (θ'.1 j)) θ := by
        have hq : DWave (fun θ' : BraggTheta n m H W h w N k =>
            (fun x y => (θ'.2.2.2.1 idx : ℂ) * θ'.1 j x y * (if M.support x y then 1 else 0) : Wave n m)) θ := by
          intro x y
          refine DifferentiableAt.mul_const (DifferentiableAt.mul (diff_ofReal (by fun_prop)) (by fun_prop)) _
        unfold Bragg.illumination
        cases M.propagateProbe
        · exact hq.linear isLinear_padProbe
        · exact (hq.linear (isLinear_nearField _)).linear isLinear_padProbe
      have hex : DWave (fun θ' => exit θ' j) θ :=
        (DWave.sincFixed false ((hpd 0).sub_const _) ((hpd 1).sub_const _)
          (fun u v => imgOf_diff (fun i j => by fun_prop) _ _) hin).linear (isLinear_mulLeft _)
      unfold Bragg.toDetector
      cases M.tilt with
      | none => exact (hex.linear isLinear_farField) _ _
      | some q =>
        have hl := high_na_linear (n := a) (m := b) q.1 (some q.2)
        have hl' : IsLinearMap ℂ fun f : Wave a b => (fun _ _ => highNAFarField q.1 (some q.2) f u v : Wave 1 1) :=
          ⟨fun f g => by funext _ _; exact congrFun (congrFun (hl.map_add f g) u) v,
           fun c f => by funext _ _; exact congrFun (congrFun (hl.map_smul c f) u) v⟩
        exact (hex.linear hl') 0 0
    · exact hsat _ ((key none θ fun c => rfl).trans (if_pos h1))

/-! ### MultislicePtycho -/

theorem mapM_error {α β : Type} (f : α → Except String β) (e : String) (l : List α) (hne : l ≠ [])
    (h : ∀ x ∈ l, f x = .error e) : l.mapM f = .error e := by
  cases l with
  | nil => exact absurd rfl hne
  | cons a l => rw [List.mapM_cons, h a (by simp)]; rfl

/-- The passage through the slices with the subpixel shift given. -/
noncomputable def passFixed (s0 s1 : ℝ) (propagator : Wave a b) (windows : List (Wave a b)) (w : Wave a b) : Wave a b :=
  windows.foldl (fun w sel => nearField propagator (sincFixed false s0 s1 sel w)) w

theorem DWave.passFixed {θ : E} {f g : E → ℝ} (hf : DifferentiableAt ℝ f θ) (hg : DifferentiableAt ℝ g θ) (P : Wave a b) :
    ∀ (sels : List (E → Wave a b)), (∀ s ∈ sels, DWave s θ) → ∀ start : E → Wave a b, DWave start θ →
      DWave (fun e => Cdtools.passFixed (f e) (g e) P (sels.map fun s => s e) (start e)) θ
  | [], _, _, h0 => h0
  | s :: ss, hs, start, h0 => by
    have h1 : DWave (fun e => nearField P (Cdtools.sincFixed false (f e) (g e) (s e) (start e))) θ :=
      (DWave.sincFixed false hf hg (hs s (by simp)) h0).linear (isLinear_nearField P)
    exact DWave.passFixed hf hg P ss (fun x hx => hs x (by simp [hx])) _ h1

theorem multislice_basis_diff {nz : ℕ} (M : Multislice n m a b N k) (j : Fin k) (θ : MultisliceTheta n m nz H W h w N r k) :
    DWave (fun θ' : MultisliceTheta n m nz H W h w N r k => M.realSpace (θ'.1 j)) θ := by
  have h1 : DWave (fun θ' : MultisliceTheta n m nz H W h w N r k => θ'.1 j) θ := by intro x y; fun_prop
  have h2 : DWave (fun θ' : MultisliceTheta n m nz H W h w N r k =>
      (fun x y => θ'.1 j x y * (if M.support x y then 1 else 0) : Wave n m)) θ := h1.linear (isLinear_mulRight _)
  unfold Multislice.realSpace
  cases M.fourierProbe
  · exact h2
  · exact h2.linear isLinear_inverseFarField

/-- **C104** (`MultislicePtycho`): wherever an exposure can be simulated in the shape of the data, its trained position is not on
the pixel grid and no pixel is at the saturation level, every pixel is positive and a differentiable function of all
parameters together: probe, all slices, background, weights and translation offsets. -/
theorem multislice_smooth {nz : ℕ} (M : Multislice n m a b N k) (θ : MultisliceTheta n m nz H W h w N r k) (idx : Fin N)
    (t : Fin 3 → ℝ) (Q : Img ℝ) (hQ : (M.withTheta θ).forward idx t = .ok Q) (hh : Q.h = h) (hw : Q.w = w)
    (hgrid : OffGrid M.offsets ((M.withTheta θ).pixTrans idx t))
    (hsat : ∀ Q', Multislice.forward ({ M.withTheta θ with saturation := none } : Multislice n m a b N k) idx t = .ok Q' →
      OffSaturation M.saturation Q') :
    SmoothAt h w (fun θ' : MultisliceTheta n m nz H W h w N r k => (M.withTheta θ').forward idx t) θ := by
  set z : Fin 2 → ℤ := fun c => ⌊(M.withTheta θ).pixTrans idx t c⌋ with hz
  obtain ⟨hfl, hpd⟩ := offGrid_floor M.offsets θ (translationsToPixel M.objBasis M.normal t - M.minTranslation)
    M.translationScale idx (fun θ' : MultisliceTheta n m nz H W h w N r k => θ'.2.2.2.2.2) (fun c => by fun_prop)
    (fun θ' => (M.withTheta θ').pixTrans idx t) (fun θ' => by
      unfold Multislice.pixTrans Multislice.withTheta
      cases M.offsets <;> rfl) hgrid
  set x0 := (sliceExtent H (z 0) (z 0 + a)).1
  set y0 := (sliceExtent W (z 1) (z 1 + b)).1
  set sel : Fin nz → MultisliceTheta n m nz H W h w N r k → Wave a b := fun s θ' u v =>
    (M.transmission (imgOf (θ'.2.1 s))).px (x0 + u.val) (y0 + v.val) with hsel
  set F : MultisliceTheta n m nz H W h w N r k → Wave n m → Wave a b := fun θ' p =>
    farField (passFixed ((M.withTheta θ').pixTrans idx t 0 - z 0) ((M.withTheta θ').pixTrans idx t 1 - z 1) M.prop
      ((List.ofFn sel).map fun s => s θ') fun x y => (M.probeNorm : ℂ) * padProbe a b (fun x y => p x y * M.ramp t x y) x y) with hF
  set A : MultisliceTheta n m nz H W h w N r k → Img ℝ := fun θ' => ⟨a, b, fun x y =>
    ∑ i, ‖F θ' (shotProbes (M.withTheta θ').effectiveWeights idx (fun j => M.realSpace (θ'.1 j)) i) x y‖ ^ 2⟩ with hA
  have hmap : ∀ θ' : MultisliceTheta n m nz H W h w N r k,
      ((M.withTheta θ').slices.mapM fun o => objWindow a b (M.transmission o) (z 0) (z 1)) =
      if nz = 0 ∨ ((sliceExtent H (z 0) (z 0 + a)).2 = a ∧ (sliceExtent W (z 1) (z 1 + b)).2 = b) then
        .ok ((List.ofFn sel).map fun s => s θ') else .error "RuntimeError" := by
    intro θ'
    have hsl : (M.withTheta θ').slices = List.ofFn fun s => imgOf (θ'.2.1 s) := rfl
    rw [hsl]
    have htr : ∀ s, (M.transmission (imgOf (θ'.2.1 s))).h = H ∧ (M.transmission (imgOf (θ'.2.1 s))).w = W :=
      fun s => transmission_shape M _
    have hob : ∀ s, objWindow a b (M.transmission (imgOf (θ'.2.1 s))) (z 0) (z 1) =
        if (sliceExtent H (z 0) (z 0 + a)).2 = a ∧ (sliceExtent W (z 1) (z 1 + b)).2 = b then .ok (sel s θ')
        else .error "RuntimeError" := by
      intro s
      unfold objWindow
      simp only [(htr s).1, (htr s).2]
      rfl
    split_ifs with hc
    · have : ∀ l : List (Fin nz), ((l.map fun s => imgOf (θ'.2.1 s)).mapM fun o => objWindow a b (M.transmission o) (z 0) (z 1)) =
          .ok (l.map fun s => sel s θ') := by
        intro l
        induction l with
        | nil => rfl
        | cons s l ih =>
          have hc' : (sliceExtent H (z 0) (z 0 + a)).2 = a ∧ (sliceExtent W (z 1) (z 1 + b)).2 = b :=
            hc.resolve_left (by rintro rfl; exact s.elim0)
          rw [List.map_cons, List.mapM_cons, ih, hob s, if_pos hc']
          rfl
      have h2 := this (List.finRange nz)
      rw [List.ofFn_eq_map, List.ofFn_eq_map, List.map_map]
      exact h2
    · push Not at hc
      refine mapM_error _ _ _ ?_ ?_
      · intro h0
        exact hc.1 (by simpa using congrArg List.length h0)
      · intro o ho
        obtain ⟨s, rfl⟩ := (List.mem_ofFn' _ _).1 ho
        rw [hob s, if_neg (fun hh => hc.2 hh.1 hh.2)]
  have key : ∀ (sat : Option ℝ) (θ' : MultisliceTheta n m nz H W h w N r k),
      (∀ c, ⌊(M.withTheta θ').pixTrans idx t c⌋ = z c) →
      Multislice.forward ({ M.withTheta θ' with saturation := sat } : Multislice n m a b N k) idx t =
      if nz = 0 ∨ ((sliceExtent H (z 0) (z 0 + a)).2 = a ∧ (sliceExtent W (z 1) (z 1 + b)).2 = b) then
        if nz ≠ 0 ∧ ¬ (M.propagator.h = a ∧ M.propagator.w = b) then .error "RuntimeError" else
        .ok (measQuadratic { saturation := sat, oversampling := M.oversampling } (imgOf θ'.2.2.1) none (A θ'))
      else .error "RuntimeError" := by
    intro sat θ' hθ'
    have hm := hmap θ'
    have hm' : ((({ M.withTheta θ' with saturation := sat } : Multislice n m a b N k)).slices.mapM fun o => objWindow a b
        ((({ M.withTheta θ' with saturation := sat } : Multislice n m a b N k)).transmission o)
        ⌊(({ M.withTheta θ' with saturation := sat } : Multislice n m a b N k)).pixTrans idx t 0⌋
        ⌊(({ M.withTheta θ' with saturation := sat } : Multislice n m a b N k)).pixTrans idx t 1⌋) =
        if nz = 0 ∨ ((sliceExtent H (z 0) (z 0 + a)).2 = a ∧ (sliceExtent W (z 1) (z 1 + b)).2 = b) then
        .ok ((List.ofFn sel).map fun s => s θ') else .error "RuntimeError" := by
      have h0 : (({ M.withTheta θ' with saturation := sat } : Multislice n m a b N k)).pixTrans idx t =
        (M.withTheta θ').pixTrans idx t := rfl
      rw [h0, hθ' 0, hθ' 1]
      exact hm
    have hnil : (({ M.withTheta θ' with saturation := sat } : Multislice n m a b N k)).slices ≠ [] ↔ nz ≠ 0 := by
      show (List.ofFn fun s => imgOf (θ'.2.1 s)) ≠ [] ↔ _
      rw [ne_eq, ← List.length_eq_zero_iff, List.length_ofFn]
    unfold Multislice.forward
    simp only []
    rw [hm']
    by_cases hc : nz = 0 ∨ ((sliceExtent H (z 0) (z 0 + a)).2 = a ∧ (sliceExtent W (z 1) (z 1 + b)).2 = b)
    · rw [if_pos hc, if_pos hc]
      by_cases hd : nz ≠ 0 ∧ ¬ (M.propagator.h = a ∧ M.propagator.w = b)
      · rw [if_pos hd]
        exact if_pos ⟨hnil.2 hd.1, hd.2⟩
      · rw [if_neg hd]
        refine (if_neg (fun hx => hd ⟨hnil.1 hx.1, hx.2⟩)).trans ?_
        refine congrArg (fun X => Except.ok (measQuadratic { saturation := sat, oversampling := M.oversampling } (imgOf θ'.2.2.1)
          none X)) ?_
        rw [hA]
        unfold sumModes
        refine congrArg (Img.mk a b) (funext fun x => funext fun y => ?_)
        refine (listSum_ofFn _ _ _).trans (Finset.sum_congr rfl fun i _ => ?_)
        refine congrArg (fun q : Wave a b => ‖q x y‖ ^ 2) ?_
        unfold Multislice.toDetector passSlices sincApply
        simp only [hF, passFixed]
        have h0 : (({ M.withTheta θ' with saturation := sat } : Multislice n m a b N k)).pixTrans idx t =
          (M.withTheta θ').pixTrans idx t := rfl
        simp only [h0, hθ']
        rfl
    · rw [if_neg hc, if_neg hc]
  have hself : ∀ θ' : MultisliceTheta n m nz H W h w N r k,
    ({ M.withTheta θ' with saturation := M.saturation } : Multislice n m a b N k) = M.withTheta θ' := fun _ => rfl
  have hθ := key M.saturation θ fun c => rfl
  rw [hself, hQ] at hθ
  split_ifs at hθ with h1 h2
  obtain rfl := Except.ok.inj hθ
  have hAs : ∀ θ', (A θ').h = a ∧ (A θ').w = b := fun _ => ⟨rfl, rfl⟩
  rw [(meas_shape _ _ _ _ _).1, (hAs θ).1] at hh
  rw [(meas_shape _ _ _ _ _).2, (hAs θ).2] at hw
  refine ⟨fun θ' => measQuadratic { saturation := M.saturation, oversampling := M.oversampling } (imgOf θ'.2.2.1) none (A θ'),
    ?_, ?_, ?_⟩
  · filter_upwards [hfl] with θ' hθ'
    have := key M.saturation θ' hθ'
    rw [hself, if_pos h1, if_neg h2] at this
    exact this
  · intro θ'
    have h3 := meas_shape M.saturation M.oversampling (imgOf θ'.2.2.1) none (A θ')
    rw [(hAs θ').1, (hAs θ').2] at h3
    exact ⟨h3.1.trans hh, h3.2.trans hw⟩
  · intro i _ j _
    refine meas_smooth M.saturation M.oversampling (A := A)
      (B := fun θ' : MultisliceTheta n m nz H W h w N r k => imgOf θ'.2.2.1)
      (fun u v => ?_) (fun u v => ?_) (fun u v => imgOf_diff (fun i j => by fun_prop) u v) ?_ i j
    · simp only [hA]; exact Finset.sum_nonneg fun _ _ => by positivity
    · have hsd : ∀ s ∈ List.ofFn sel, DWave s θ := by
        intro s hs
        obtain ⟨q, rfl⟩ := (List.mem_ofFn' _ _).1 hs
        intro u v
        have h5 : DifferentiableAt ℝ (fun θ' : MultisliceTheta n m nz H W h w N r k =>
          (imgOf (θ'.2.1 q)).px (x0 + u.val) (y0 + v.val)) θ := imgOf_diff (fun i j => by fun_prop) _ _
        simp only [hsel]
        unfold Multislice.transmission
        cases M.exponentiate
        · exact h5
        · exact diff_cexp (h5.const_mul _)
      have hFd : ∀ p : MultisliceTheta n m nz H W h w N r k → Wave n m, DWave p θ → DWave (fun θ' => F θ' (p θ')) θ := by
        intro p hp
        have h6 : DWave (fun θ' => (fun x y => (M.probeNorm : ℂ) *
            padProbe a b (fun x y => p θ' x y * M.ramp t x y) x y : Wave a b)) θ :=
          ((hp.linear (isLinear_mulRight (M.ramp t))).linear isLinear_padProbe).linear (isLinear_mulLeft _)
        exact (DWave.passFixed ((hpd 0).sub_const _) ((hpd 1).sub_const _) M.prop _ hsd _ h6).linear isLinear_farField
      have hb := fun j => multislice_basis_diff (h := h) (w := w) (H := H) (W := W) (r := r) (nz := nz) M j θ
      have per : ∀ f : MultisliceTheta n m nz H W h w N r k → Fin N → ℝ, DifferentiableAt ℝ (fun θ' => f θ' idx) θ →
          (∀ θ', (M.withTheta θ').effectiveWeights = .perShot (f θ')) →
          DifferentiableAt ℝ (fun θ' => (A θ').px u v) θ := by
        intro f hf e
        have e2 := fun θ' => shot_sum_perShot _ _ (e θ') idx (fun j => M.realSpace (θ'.1 j)) (fun p => ‖F θ' p u v‖ ^ 2)
        refine DifferentiableAt.congr_of_eventuallyEq ?_ (Filter.Eventually.of_forall e2)
        refine DifferentiableAt.fun_sum fun j' _ => diff_normSq ?_
        refine hFd (fun θ' x y => (f θ' idx : ℂ) * M.realSpace (θ'.1 j') x y) ?_ _ _
        intro x y
        exact DifferentiableAt.mul (diff_ofReal hf) (hb j' x y)
      cases hwt : M.weights with
      | none =>
        refine per (fun _ _ => 1) (differentiableAt_const _) fun θ' => ?_
        unfold Multislice.effectiveWeights Multislice.withTheta
        simp only [hwt, Option.map_none]
      | some W0 =>
        cases W0 with
        | perShot w0 =>
          refine per (fun θ' => θ'.2.2.2.1) (by fun_prop) fun θ' => ?_
          unfold Multislice.effectiveWeights Multislice.withTheta
          simp only [hwt, Option.map_some]
        | matrices r0 V =>
          have e : ∀ θ' : MultisliceTheta n m nz H W h w N r k, (M.withTheta θ').effectiveWeights =
              .matrices r fun i => Matrix.of (θ'.2.2.2.2.1 i) := by
            intro θ'
            unfold Multislice.effectiveWeights Multislice.withTheta
            simp only [hwt, Option.map_some]
          have e2 := fun θ' : MultisliceTheta n m nz H W h w N r k => shot_sum_matrices _ _ (e θ') idx
            (fun j => M.realSpace (θ'.1 j)) (fun p => ‖F θ' p u v‖ ^ 2)
          refine DifferentiableAt.congr_of_eventuallyEq ?_ (Filter.Eventually.of_forall e2)
          refine DifferentiableAt.fun_sum fun i' _ => diff_normSq ?_
          refine hFd (fun θ' x y => ∑ j, θ'.2.2.2.2.1 idx i' j * M.realSpace (θ'.1 j) x y) ?_ _ _
          intro x y
          refine DifferentiableAt.fun_sum fun j' _ => DifferentiableAt.mul ?_ (hb j' x y)
          fun_prop
    · exact hsat _ ((key none θ fun c => rfl).trans ((if_pos h1).trans (if_neg h2)))

/-! ### The steps -/

/-- **C104** (`SimplePtycho`, the step): if every exposure of the minibatch can be simulated in the shape of the data, the closure
returns the amplitude loss of the whole minibatch and leaves its exact gradient with respect to probe and object, whatever
the calculation width. No regularity is needed: the positions are not trained and nothing saturates. -/
theorem simple_step (M : Simple n m) (θ : SimpleTheta n m H W) (cw : ℤ) (hcw : 1 ≤ cw)
    (B : Minibatch (Fin 3 → ℝ) (Fin h × Fin w → ℝ)) (hB : B.WF)
    (hs : ∀ t ∈ B.inputs, ∃ Q, (M.withTheta θ).forward t = .ok Q ∧ Q.h = h ∧ Q.w = w) :
    let L : SimpleTheta n m H W → ℝ := fun θ' =>
      LossKind.amplitudeMse.chunk none (B.patterns.zip (B.inputs.map fun t => (simPixels h w ((M.withTheta θ').forward t)).getD 0))
    (simplePhysics M).closure cw none B θ = .ok (some (L θ), fderiv ℝ L θ) ∧ DifferentiableAt ℝ L θ := by
  have := smooth_step (R := Unit) (fun (θ' : SimpleTheta n m H W) t => (M.withTheta θ').forward t) .amplitudeMse none none θ cw hcw
    none B hB (fun t ht => by
      obtain ⟨Q, h1, h2, h3⟩ := hs t ht
      exact simple_smooth M θ t Q h1 h2 h3)
  simp only [Physics.regGrad, add_zero] at this
  exact this

/-- **C104** (`Bragg2DPtycho`, the step). -/
theorem bragg_step (M : Bragg n m a b N k) (kind : LossKind) (mask : Option (Fin h × Fin w → Bool))
    (θ : BraggTheta n m H W h w N k) (cw : ℤ) (hcw : 1 ≤ cw)
    (B : Minibatch (Fin N × (Fin 3 → ℝ)) (Fin h × Fin w → ℝ)) (hB : B.WF)
    (hs : ∀ e ∈ B.inputs, (∃ Q, (M.withTheta θ).forward e.1 e.2 = .ok Q ∧ Q.h = h ∧ Q.w = w) ∧
      OffGrid M.offsets ((M.withTheta θ).pixTrans e.1 e.2) ∧
      ∀ Q', Bragg.forward ({ M.withTheta θ with saturation := none } : Bragg n m a b N k) e.1 e.2 = .ok Q' →
        OffSaturation M.saturation Q') :
    let L : BraggTheta n m H W h w N k → ℝ := fun θ' =>
      kind.chunk mask (B.patterns.zip (B.inputs.map fun e => (simPixels h w ((M.withTheta θ').forward e.1 e.2)).getD 0))
    (braggPhysics M kind mask).closure cw none B θ = .ok (some (L θ), fderiv ℝ L θ) ∧ DifferentiableAt ℝ L θ := by
  have := smooth_step (R := Unit) (fun (θ' : BraggTheta n m H W h w N k) e => (M.withTheta θ').forward e.1 e.2) kind mask none θ cw hcw
    none B hB (fun e he => by
      obtain ⟨⟨Q, h1, h2, h3⟩, h4, h5⟩ := hs e he
      exact bragg_smooth M θ e.1 e.2 Q h1 h2 h3 h4 h5)
  simp only [Physics.regGrad, add_zero] at this
  exact this

/-- **C104** (`MultislicePtycho`, the step). -/
theorem multislice_step {nz : ℕ} (M : Multislice n m a b N k) (kind : LossKind) (mask : Option (Fin h × Fin w → Bool))
    (θ : MultisliceTheta n m nz H W h w N r k) (cw : ℤ) (hcw : 1 ≤ cw)
    (B : Minibatch (Fin N × (Fin 3 → ℝ)) (Fin h × Fin w → ℝ)) (hB : B.WF)
    (hs : ∀ e ∈ B.inputs, (∃ Q, (M.withTheta θ).forward e.1 e.2 = .ok Q ∧ Q.h = h ∧ Q.w = w) ∧
      OffGrid M.offsets ((M.withTheta θ).pixTrans e.1 e.2) ∧
      ∀ Q', Multislice.forward ({ M.withTheta θ with saturation := none } : Multislice n m a b N k) e.1 e.2 = .ok Q' →
        OffSaturation M.saturation Q') :
    let L : MultisliceTheta n m nz H W h w N r k → ℝ := fun θ' =>
      kind.chunk mask (B.patterns.zip (B.inputs.map fun e => (simPixels h w ((M.withTheta θ').forward e.1 e.2)).getD 0))
    (multislicePhysics M kind mask).closure cw none B θ = .ok (some (L θ), fderiv ℝ L θ) ∧ DifferentiableAt ℝ L θ := by
  have := smooth_step (R := Unit) (fun (θ' : MultisliceTheta n m nz H W h w N r k) e => (M.withTheta θ').forward e.1 e.2) kind mask
    none θ cw hcw none B hB (fun e he => by
      obtain ⟨⟨Q, h1, h2, h3⟩, h4, h5⟩ := hs e he
      exact multislice_smooth M θ e.1 e.2 Q h1 h2 h3 h4 h5)
  simp only [Physics.regGrad, add_zero] at this
  exact this

/-- The power of one object mode. -/
noncomputable def objPower (θ : RpiTheta a b k l) (o : Fin l) : ℝ := ∑ x, ∑ y, ‖θ.1 o x y‖ ^ 2

theorem objPower_diff (θ : RpiTheta a b k l) (o : Fin l) : DifferentiableAt ℝ (fun θ' : RpiTheta a b k l => objPower θ' o) θ := by
  unfold objPower
  exact DifferentiableAt.fun_sum fun x _ => DifferentiableAt.fun_sum fun y _ => diff_normSq (by fun_prop)

/-- **C104** (`RPI`, the step): the closure returns the data loss of the minibatch, without the regularizer, and leaves the exact
gradient of the data loss - plus that of the regularizer, once for the whole minibatch, if factors are given. -/
theorem rpi_step (M : Rpi n m a b k (l + 1)) (weightMatrix : Bool) (kind : LossKind) (mask : Option (Fin h × Fin w → Bool))
    (θ : RpiTheta a b k (l + 1)) (cw : ℤ) (hcw : 1 ≤ cw) (B : Minibatch ℕ (Fin h × Fin w → ℝ)) (hB : B.WF)
    (hs : ∃ Q, (M.withTheta weightMatrix θ).pattern = .ok Q ∧ Q.h = h ∧ Q.w = w)
    (hsat : ∀ Q', Rpi.pattern { M.withTheta weightMatrix θ with saturation := none } = .ok Q' → OffSaturation M.saturation Q') :
    let L : RpiTheta a b k (l + 1) → ℝ := fun θ' =>
      kind.chunk mask (B.patterns.map fun p => (p, (simPixels h w (M.withTheta weightMatrix θ').pattern).getD 0))
    (rpiPhysics M weightMatrix kind mask).closure cw none B θ = .ok (some (L θ), fderiv ℝ L θ) ∧
    (∀ f0 f1 rest, (rpiPhysics M weightMatrix kind mask).closure cw (some (f0 :: f1 :: rest)) B θ =
      .ok (some (L θ), fderiv ℝ (fun θ' => L θ' + (f0 * objPower θ' 0 + f1 * ∑ o : Fin l, objPower θ' o.succ)) θ)) ∧
    DifferentiableAt ℝ L θ := by
  intro L
  have key := fun factor => smooth_step (fun (θ' : RpiTheta a b k (l + 1)) (_ : ℕ) => (M.withTheta weightMatrix θ').pattern) kind mask
    (some fun (factors : List ℝ) (θ' : RpiTheta a b k (l + 1)) =>
      ((M.withTheta weightMatrix θ').regularizer factors).toOption.getD 0) θ cw hcw
    factor B hB (fun e _ => by
      obtain ⟨Q, h1, h2, h3⟩ := hs
      exact rpi_smooth M weightMatrix θ Q h1 h2 h3 hsat)
  have hL : ∀ θ' : RpiTheta a b k (l + 1), kind.chunk mask (B.patterns.zip (B.inputs.map fun _ =>
      (simPixels h w (M.withTheta weightMatrix θ').pattern).getD 0)) = L θ' := by
    intro θ'
    show kind.chunk mask _ = kind.chunk mask _
    have hlen := hB.2
    congr 1
    generalize B.patterns = P at hlen
    generalize B.inputs = I at hlen
    induction P generalizing I with
    | nil => cases I <;> rfl
    | cons p P ih =>
      cases I with
      | nil => simp at hlen
      | cons i I => simp only [List.map_cons, List.zip_cons_cons, ih I (by simpa using hlen)]
  simp only [hL] at key
  refine ⟨?_, fun f0 f1 rest => ?_, (key none).2⟩
  · have := (key none).1
    simp only [Physics.regGrad, add_zero] at this
    exact this
  · refine ((key (some (f0 :: f1 :: rest))).1).trans ?_
    congr 2
    have h2 : (shotPhysics (h := h) (w := w) (fun (θ' : RpiTheta a b k (l + 1)) (_ : ℕ) => (M.withTheta weightMatrix θ').pattern) kind mask
      (some fun (factors : List ℝ) (θ' : RpiTheta a b k (l + 1)) =>
      ((M.withTheta weightMatrix θ').regularizer factors).toOption.getD 0)).regGrad (some (f0 :: f1 :: rest)) θ =
      fderiv ℝ (fun θ' : RpiTheta a b k (l + 1) => f0 * objPower θ' 0 + f1 * ∑ o : Fin l, objPower θ' o.succ) θ := by
      show fderiv ℝ (fun θ' : RpiTheta a b k (l + 1) =>
        ((M.withTheta weightMatrix θ').regularizer (f0 :: f1 :: rest)).toOption.getD 0) θ = _
      congr 1
      funext θ'
      unfold Rpi.regularizer
      by_cases hl : l = 0
      · subst hl
        simp [objPower, Rpi.withTheta, Except.toOption]
      · simp [objPower, Rpi.withTheta, Except.toOption, hl]
    rw [h2, ← fderiv_fun_add (key none).2]
    exact ((objPower_diff θ 0).const_mul _).fun_add ((DifferentiableAt.fun_sum fun o _ => objPower_diff θ o.succ).const_mul _)

/-- A differentiable function that does not change along a line has no derivative in its direction. -/
theorem fderiv_zero_of_invariant (L : E → ℝ) (θ v : E) (hL : DifferentiableAt ℝ L θ) (h : ∀ s : ℝ, L (θ + s • v) = L θ) :
    fderiv ℝ L θ v = 0 := by
  have h1 : HasDerivAt (fun s : ℝ => θ + s • v) v 0 := by
    have := ((hasDerivAt_id (0 : ℝ)).smul_const v).const_add θ
    simpa using this
  have h2 : HasDerivAt (fun s : ℝ => L (θ + s • v)) (fderiv ℝ L θ v) 0 := by
    have hL' : HasFDerivAt L (fderiv ℝ L θ) (θ + (0 : ℝ) • v) := by simpa using hL.hasFDerivAt
    exact hL'.comp_hasDerivAt (0 : ℝ) h1
  simp only [h] at h2
  exact h2.unique (hasDerivAt_const _ _)

/-- **C104** (`RPI`, what the data does not see): the data loss has no gradient with respect to object pixels outside the
support, none with respect to the imaginary part of a phase-only object, and none with respect to the weight matrix if it
is not trained. -/
theorem rpi_gradient_support (M : Rpi n m a b k l) (weightMatrix : Bool) (kind : LossKind) (mask : Option (Fin h × Fin w → Bool))
    (θ v : RpiTheta a b k l) (patterns : List (Fin h × Fin w → ℝ))
    (hobj : ∀ o x y, v.1 o x y = 0 ∨ M.support x y = 0 ∨ (M.exponentiate = true ∧ M.phaseOnly = true ∧ (v.1 o x y).re = 0))
    (hwt : weightMatrix = true → v.2 = 0) :
    let L : RpiTheta a b k l → ℝ := fun θ' =>
      kind.chunk mask (patterns.map fun p => (p, (simPixels h w (M.withTheta weightMatrix θ').pattern).getD 0))
    DifferentiableAt ℝ L θ → fderiv ℝ L θ v = 0 := by
  intro L hL
  refine fderiv_zero_of_invariant L θ v hL fun s => ?_
  have hpat : (M.withTheta weightMatrix (θ + s • v)).pattern = (M.withTheta weightMatrix θ).pattern := by
    refine Rpi.pattern_congr _ _ ⟨rfl, rfl, rfl⟩ fun x y => ?_
    have hvis : (M.withTheta weightMatrix (θ + s • v)).visible = (M.withTheta weightMatrix θ).visible := by
      funext o u w'
      unfold Rpi.visible Rpi.transmission Rpi.withTheta
      simp only [Prod.fst_add, Prod.smul_fst, Pi.add_apply, Pi.smul_apply]
      rcases hobj o u w' with h0 | h0 | ⟨h1, h2, h0⟩
      · simp [h0]
      · simp [h0]
      · simp [h0, h1, h2]
    have hmix : (M.withTheta weightMatrix (θ + s • v)).mixedProbes = (M.withTheta weightMatrix θ).mixedProbes := by
      funext i u w'
      unfold Rpi.mixedProbes Rpi.withTheta
      cases hwm : weightMatrix
      · rfl
      · simp [hwt hwm]
    rw [hvis, hmix]
  show kind.chunk mask _ = kind.chunk mask _
  rw [hpat]

/-- The parameters at which C104 differentiates are those that the simulations read. -/
theorem training_reads {nz : ℕ} (S : Simple n m) (θs : SimpleTheta n m H W) (P : Rpi n m a b k l) (θr : RpiTheta a b k l)
    (M : Multislice n m a b N k) (θm : MultisliceTheta n m nz H W h w N r k) (G : Bragg n m a b N k)
    (θb : BraggTheta n m H W h w N k) :
    ((S.withTheta θs).probe = θs.1 ∧ (S.withTheta θs).obj.h = H ∧ (S.withTheta θs).obj.w = W ∧
      ∀ (i : Fin H) (j : Fin W), (S.withTheta θs).obj.px i j = θs.2 i j) ∧
    (∀ wm, (P.withTheta wm θr).obj = θr.1 ∧
      (P.withTheta wm θr).weights = if wm then Matrix.of θr.2 else P.weights) ∧
    ((M.withTheta θm).probe = θm.1 ∧ (M.withTheta θm).slices.length = nz ∧
      (∀ s : Fin nz, ∃ o, (M.withTheta θm).slices[s.val]? = some o ∧ o.h = H ∧ o.w = W ∧
        ∀ (i : Fin H) (j : Fin W), o.px i j = θm.2.1 s i j) ∧
      ((M.withTheta θm).background.h = h ∧ (M.withTheta θm).background.w = w ∧
        ∀ (i : Fin h) (j : Fin w), (M.withTheta θm).background.px i j = θm.2.2.1 i j) ∧
      (M.weights = none → (M.withTheta θm).weights = none) ∧
      (∀ v, M.weights = some (.perShot v) → (M.withTheta θm).weights = some (.perShot θm.2.2.2.1)) ∧
      (∀ r' V, M.weights = some (.matrices r' V) →
        (M.withTheta θm).weights = some (.matrices r fun i => Matrix.of (θm.2.2.2.2.1 i))) ∧
      (M.offsets ≠ none → (M.withTheta θm).offsets = some θm.2.2.2.2.2)) ∧
    ((G.withTheta θb).probe = θb.1 ∧ ((G.withTheta θb).obj.h = H ∧ (G.withTheta θb).obj.w = W ∧
        ∀ (i : Fin H) (j : Fin W), (G.withTheta θb).obj.px i j = θb.2.1 i j) ∧
      ((G.withTheta θb).background.h = h ∧ (G.withTheta θb).background.w = w ∧
        ∀ (i : Fin h) (j : Fin w), (G.withTheta θb).background.px i j = θb.2.2.1 i j) ∧
      (G.weights ≠ none → (G.withTheta θb).weights = some θb.2.2.2.1) ∧
      (G.offsets ≠ none → (G.withTheta θb).offsets = some θb.2.2.2.2)) := by
  refine ⟨⟨rfl, rfl, rfl, fun i j => dif_pos ⟨i.2, j.2⟩⟩, fun wm => ⟨rfl, rfl⟩,
    ⟨rfl, by simp [Multislice.withTheta], fun s => ⟨imgOf (θm.2.1 s), ?_, rfl, rfl, fun i j => dif_pos ⟨i.2, j.2⟩⟩,
      ⟨rfl, rfl, fun i j => dif_pos ⟨i.2, j.2⟩⟩, fun h0 => ?_, fun v h0 => ?_, fun r' V h0 => ?_, fun h0 => ?_⟩,
    ⟨rfl, ⟨rfl, rfl, fun i j => dif_pos ⟨i.2, j.2⟩⟩, ⟨rfl, rfl, fun i j => dif_pos ⟨i.2, j.2⟩⟩, fun h0 => ?_, fun h0 => ?_⟩⟩
  · unfold Multislice.withTheta
    simp
  · unfold Multislice.withTheta; simp only [h0, Option.map_none]
  · unfold Multislice.withTheta; simp only [h0, Option.map_some]
  · unfold Multislice.withTheta; simp only [h0, Option.map_some]
  · obtain ⟨x, hx⟩ := Option.ne_none_iff_exists'.1 h0
    unfold Multislice.withTheta; simp only [hx, Option.map_some]
  · obtain ⟨x, hx⟩ := Option.ne_none_iff_exists'.1 h0
    unfold Bragg.withTheta; simp only [hx, Option.map_some]
  · obtain ⟨x, hx⟩ := Option.ne_none_iff_exists'.1 h0
    unfold Bragg.withTheta; simp only [hx, Option.map_some]

/-! ### Non-vacuity -/

/-- `toyBragg` with trained offsets. -/
noncomputable def toyBraggOffsets : Bragg 2 2 2 2 1 1 := { toyBragg with offsets := some fun _ _ => 0 }

/-- `toyMultislice` with trained offsets. -/
noncomputable def toyMultisliceOffsets : Multislice 2 1 2 1 1 1 := { toyMultislice [] with offsets := some fun _ _ => 0 }

/-- `toyRpi` with another saturation level. -/
noncomputable def toyRpiSat (e p : Bool) (s : Option ℝ) : Rpi 4 4 2 3 2 2 := { toyRpi e p with saturation := s }

/-- A `SimplePtycho` model at pixel position (1, 0) of a 3 × 1 object: every value of the parameters meets the hypotheses. -/
example (θ : SimpleTheta 2 1 3 1) : ∃ Q, ((⟨fun _ _ => 1, 2, ⟨0, 0, fun _ _ => 0⟩, !![0, -1; -1, 0; 0, 0], ![-1, 0]⟩ :
    Simple 2 1).withTheta θ).forward 0 = .ok Q ∧ Q.h = 2 ∧ Q.w = 1 := by
  set M : Simple 2 1 := ⟨fun _ _ => 1, 2, ⟨0, 0, fun _ _ => 0⟩, !![0, -1; -1, 0; 0, 0], ![-1, 0]⟩ with hM
  have hp : (M.withTheta θ).pixTrans 0 = ![((1 : ℤ) : ℝ), ((0 : ℤ) : ℝ)] := by
    unfold Simple.pixTrans Simple.withTheta
    simp only [hM, translationsToPixel, Matrix.mulVec_zero]
    funext i; fin_cases i <;> simp
  have h := simple_forward (M.withTheta θ) 0 1 0 (by rw [hp]; exact roundHalfEven_int 1) (by rw [hp]; exact roundHalfEven_int 0)
    ⟨by simp [Simple.withTheta, imgOf], by simp [Simple.withTheta, imgOf]⟩
  exact ⟨_, h, rfl, rfl⟩

theorem toyRpi_pattern (e p wm : Bool) (s : Option ℝ) (θ : RpiTheta 2 3 2 2) :
    ∃ Q, ((toyRpiSat e p s).withTheta wm θ).pattern = .ok Q ∧ Q.h = 4 ∧ Q.w = 4 := by
  unfold Rpi.pattern
  refine ⟨_, rfl, ?_, ?_⟩ <;> cases s <;> rfl

/-- An `RPI` model without saturation meets the hypotheses of C104 for all values of the parameters. -/
example (e p wm : Bool) (θ : RpiTheta 2 3 2 2) :
    (∃ Q, ((toyRpiSat e p none).withTheta wm θ).pattern = .ok Q ∧ Q.h = 4 ∧ Q.w = 4) ∧
    ∀ Q', OffSaturation (toyRpiSat e p none).saturation Q' :=
  ⟨toyRpi_pattern e p wm none θ, fun _ s hs => by cases hs⟩

theorem toyBragg_position (θ : BraggTheta 2 2 4 4 2 2 1 1) (hθ : θ.2.2.2.2 = fun _ _ => 1 / 2) :
    (toyBraggOffsets.withTheta θ).pixTrans 0 ![-1, -2, 0] = ![5 / 2, 3 / 2] := by
  have hT : Transverse toyBragg.objBasis ![0, 0, 1] := by
    unfold Transverse
    simp [toyBragg, Vec3.dot, Vec3.cross, col]
  have hu := (project_translations_meet_sample toyBragg.objBasis hT ![-1, -2, 0]).2 ![2, 1] 1 (by
    funext i
    fin_cases i <;> simp [toyBragg, Matrix.mulVec, dotProduct])
  have e : (toyBraggOffsets.withTheta θ).pixTrans 0 ![-1, -2, 0] =
      (projectToSample toyBragg.objBasis ![-1, -2, 0]).1 - 0 + (1 : ℝ) • θ.2.2.2.2 0 := rfl
  rw [e, ← hu.1, hθ]
  funext i
  fin_cases i <;> simp <;> norm_num

theorem half_not_int (z : ℤ) : (5 / 2 : ℝ) ≠ z ∧ (3 / 2 : ℝ) ≠ z ∧ (1 / 2 : ℝ) ≠ z := by
  refine ⟨fun h => ?_, fun h => ?_, fun h => ?_⟩
  · have h1 : (5 : ℝ) = ((2 * z : ℤ) : ℝ) := by push_cast; linarith
    have h2 : (5 : ℤ) = 2 * z := by exact_mod_cast h1
    omega
  · have h1 : (3 : ℝ) = ((2 * z : ℤ) : ℝ) := by push_cast; linarith
    have h2 : (3 : ℤ) = 2 * z := by exact_mod_cast h1
    omega
  · have h1 : (1 : ℝ) = ((2 * z : ℤ) : ℝ) := by push_cast; linarith
    have h2 : (1 : ℤ) = 2 * z := by exact_mod_cast h1
    omega

/-- A `Bragg2DPtycho` model with trained offsets of half a pixel meets the hypotheses, for all values of the other parameters. -/
example (θ : BraggTheta 2 2 4 4 2 2 1 1) (hθ : θ.2.2.2.2 = fun _ _ => 1 / 2) :
    (∃ Q, (toyBraggOffsets.withTheta θ).forward 0 ![-1, -2, 0] = .ok Q ∧ Q.h = 2 ∧ Q.w = 2) ∧
    OffGrid toyBraggOffsets.offsets
      ((toyBraggOffsets.withTheta θ).pixTrans 0 ![-1, -2, 0]) ∧
    ∀ Q', OffSaturation toyBraggOffsets.saturation Q' := by
  have hp := toyBragg_position θ hθ
  refine ⟨?_, Or.inr fun c z => ?_, fun _ s hs => by cases hs⟩
  · rw [Bragg.forward_eq _ θ.2.2.2.1 rfl, hp]
    have f0 : ⌊(![5 / 2, 3 / 2] : Fin 2 → ℝ) 0⌋ = 2 := by
      rw [Int.floor_eq_iff]; constructor <;> norm_num
    have f1 : ⌊(![5 / 2, 3 / 2] : Fin 2 → ℝ) 1⌋ = 1 := by
      rw [Int.floor_eq_iff]; constructor <;> norm_num
    rw [f0, f1, objWindow_inside ⟨by norm_num, by simp [Bragg.withTheta, imgOf]⟩ ⟨by norm_num, by simp [Bragg.withTheta, imgOf]⟩]
    exact ⟨_, rfl, rfl, rfl⟩
  · rw [hp]
    have := half_not_int z
    fin_cases c
    · exact this.1
    · exact this.2.1

/-- A `MultislicePtycho` model of two slices with a trained offset of half a pixel meets the hypotheses, for all values of the
other parameters. -/
example (θ : MultisliceTheta 2 1 2 2 1 2 1 1 1 1) (hθ : θ.2.2.2.2.2 = fun _ => ![0, 1 / 2]) :
    (∃ Q, (toyMultisliceOffsets.withTheta θ).forward 0 0 = .ok Q ∧ Q.h = 2 ∧ Q.w = 1) ∧
    OffGrid toyMultisliceOffsets.offsets
      ((toyMultisliceOffsets.withTheta θ).pixTrans 0 0) ∧
    ∀ Q', OffSaturation toyMultisliceOffsets.saturation Q' := by
  set M := toyMultisliceOffsets.withTheta θ with hM
  have hp : M.pixTrans 0 0 = ![1 / 2, 1 / 2] := by
    have e : M.pixTrans 0 0 = (toyMultislice []).pixTrans 0 0 + (1 : ℝ) • θ.2.2.2.2.2 0 := rfl
    rw [e, toyMultislice_pixTrans, hθ]
    funext i
    fin_cases i <;> simp
  have f : ∀ c, ⌊M.pixTrans 0 0 c⌋ = 0 := by
    intro c
    rw [hp, Int.floor_eq_iff]
    fin_cases c <;> constructor <;> norm_num
  refine ⟨?_, Or.inr fun c z => ?_, fun _ s hs => by cases hs⟩
  · rw [Multislice.forward_eq M 0 0 _ (by
      rw [f 0, f 1]
      exact mapM_ok_map _ (fun o => fun i j => (M.transmission o).px (i.val) (j.val)) _ (by
        intro o ho
        obtain ⟨s, rfl⟩ := (List.mem_ofFn' _ _).1 ho
        rw [objWindow_inside ⟨le_rfl, by simp [transmission_shape, imgOf]⟩ ⟨le_rfl, by simp [transmission_shape, imgOf]⟩]
        simp)) ⟨rfl, rfl⟩]
    exact ⟨_, rfl, rfl, rfl⟩
  · rw [hp]
    have := half_not_int z
    fin_cases c
    · exact this.2.2
    · exact this.2.2

end Cdtools
