/-
**C117**: gradient steps of `Multislice2DPtycho` reconstructions.
-/
import Verif.Model.Training2D
import Verif.Props.Training
import Verif.Props.Multislice2D

set_option linter.unusedSectionVars false

namespace Cdtools
open Finset Topology

variable {n m a b H W h w N r k : ℕ} [NeZero n] [NeZero m] [NeZero a] [NeZero b]
variable {E : Type} [NormedAddCommGroup E] [NormedSpace ℝ E]

/-! ### Specification -/

/-- A trained position is not where the code switches to another window of the object: integers where positions are rounded
down (the first slice with `subpixel`), halves where they are rounded to the nearest (all other slices). -/
def OffSteps (M : Multi2D n m N k) (p : Fin 2 → ℝ) : Prop :=
  M.offsets = none ∨ ∀ c : Fin 2, (M.subpixel = true → ∀ z : ℤ, p c ≠ z) ∧
    ((M.subpixel = false ∨ 2 ≤ M.nz) → ∀ z : ℤ, p c ≠ z + 1 / 2)

/-! ### Lemmas -/

theorem round_eventually {θ : E} {f : E → ℝ} (hf : ContinuousAt f θ) (hz : ∀ z : ℤ, f θ ≠ z + 1 / 2) :
    ∀ᶠ e in 𝓝 θ, roundHalfEven (f e) = roundHalfEven (f θ) := by
  have h1 : ∀ x : ℝ, (∀ z : ℤ, x ≠ z + 1 / 2) → roundHalfEven x = ⌊x + 1 / 2⌋ := by
    intro x hx
    unfold roundHalfEven
    have hl := Int.floor_le x
    have hu := Int.lt_floor_add_one x
    split_ifs with h1 h2
    · symm; rw [Int.floor_eq_iff]; constructor <;> linarith
    · symm; rw [Int.floor_eq_iff]; push_cast; constructor <;> linarith
    · exact absurd (by linarith : x = ⌊x⌋ + 1 / 2) (hx _)
    · exact absurd (by linarith : x = ⌊x⌋ + 1 / 2) (hx _)
  have h2 : ∀ᶠ e in 𝓝 θ, ⌊f e + 1 / 2⌋ = ⌊f θ + 1 / 2⌋ :=
    floor_eventually (f := fun e => f e + 1 / 2) (hf.add continuousAt_const) fun z h => by
      refine hz (z - 1) ?_
      push_cast; linarith
  have h3 : ∀ᶠ e in 𝓝 θ, ∀ z : ℤ, f e ≠ z + 1 / 2 := by
    have hθ : f θ + 1 / 2 ∈ Set.Ioo ((⌊f θ + 1 / 2⌋ : ℤ) : ℝ) (⌊f θ + 1 / 2⌋ + 1) := by
      refine ⟨lt_of_le_of_ne (Int.floor_le _) fun h => hz (⌊f θ + 1 / 2⌋ - 1) ?_, Int.lt_floor_add_one _⟩
      push_cast; linarith
    have hc : ContinuousAt (fun e => f e + 1 / 2) θ := hf.add continuousAt_const
    filter_upwards [hc (isOpen_Ioo.mem_nhds hθ)] with e he z hze
    have h4 : f e + 1 / 2 = ((z + 1 : ℤ) : ℝ) := by push_cast; linarith
    have he' : f e + 1 / 2 ∈ Set.Ioo ((⌊f θ + 1 / 2⌋ : ℤ) : ℝ) (⌊f θ + 1 / 2⌋ + 1) := he
    rw [h4] at he'
    obtain ⟨h5, h6⟩ := he'
    have h7 : ⌊f θ + 1 / 2⌋ < z + 1 := by exact_mod_cast h5
    have h8 : z + 1 < ⌊f θ + 1 / 2⌋ + 1 := by exact_mod_cast h6
    omega
  filter_upwards [h2, h3] with e he he'
  rw [h1 _ he', h1 _ hz, he]

theorem objWindow_smooth {θ : E} {f : E → Img ℂ} (hs : ∀ e, (f e).h = H ∧ (f e).w = W)
    (hd : ∀ i j, DifferentiableAt ℝ (fun e => (f e).px i j) θ) (p q : ℤ) {s : Wave a b} (h : objWindow a b (f θ) p q = .ok s) :
    ∃ G : E → Wave a b, (∀ e, objWindow a b (f e) p q = .ok (G e)) ∧ DWave G θ := by
  unfold objWindow at h ⊢
  simp only [(hs _).1, (hs _).2] at h ⊢
  split_ifs at h with hc
  exact ⟨fun e i j => (f e).px _ _, fun e => if_pos hc, fun i j => hd _ _⟩

/-- A pass through a slice that exists around `θ`, is of a fixed kind there and has a differentiable window; shifted passes only
where the integer parts of the position stay the same. -/
def SmPass (fl : Prop) (F : E → Except String (Pass a b)) (θ : E) : Prop :=
  ∃ (c : Bool) (G : E → Wave a b), (∀ᶠ e in 𝓝 θ, F e = .ok ⟨c, G e⟩) ∧ DWave G θ ∧ (c = true → fl)

theorem mapM_smooth {ι : Type} {fl : Prop} {θ : E} (F : ι → E → Except String (Pass a b)) :
    ∀ (L : List ι), (∀ o ∈ L, ∀ s, F o θ = .ok s → SmPass fl (F o) θ) → ∀ l, L.mapM (fun o => F o θ) = .ok l →
      ∃ P : List (Bool × (E → Wave a b)), (∀ᶠ e in 𝓝 θ, L.mapM (fun o => F o e) = .ok (P.map fun s => ⟨s.1, s.2 e⟩)) ∧
        ∀ s ∈ P, DWave s.2 θ ∧ (s.1 = true → fl)
  | [], _, l, hl => ⟨[], Filter.Eventually.of_forall fun e => rfl, fun s hs => absurd hs (by simp)⟩
  | o :: L, h, l, hl => by
    rw [List.mapM_cons] at hl
    cases h1 : F o θ with
    | error x => rw [h1] at hl; cases hl
    | ok s =>
      rw [h1] at hl
      cases h2 : L.mapM (fun o => F o θ) with
      | error x =>
        have : (Except.error x : Except String (List (Pass a b))) = .ok l := by
          have h3 : (do let r ← L.mapM (fun o => F o θ); pure (s :: r) : Except String _) = .ok l := hl
          rw [h2] at h3
          exact h3
        cases this
      | ok l' =>
        obtain ⟨c, G, e1, d1, f1⟩ := h o (by simp) s h1
        obtain ⟨P, e2, d2⟩ := mapM_smooth F L (fun o ho => h o (by simp [ho])) l' h2
        refine ⟨(c, G) :: P, ?_, ?_⟩
        · filter_upwards [e1, e2] with e he1 he2
          rw [List.mapM_cons, he1]
          have : (do let r ← L.mapM (fun o => F o e); pure ((⟨c, G e⟩ : Pass a b) :: r) : Except String _) =
            .ok (((c, G) :: P).map fun s => ⟨s.1, s.2 e⟩) := by rw [he2]; rfl
          exact this
        · intro s hs
          rcases List.mem_cons.1 hs with rfl | hs
          · exact ⟨d1, f1⟩
          · exact d2 s hs

theorem run_smooth {θ : E} {tr : E → ℝ × ℝ} (h0 : DifferentiableAt ℝ (fun e => (tr e).1) θ) (h1 : DifferentiableAt ℝ (fun e => (tr e).2) θ)
    {c : Bool} {g v : E → Wave a b} (hc : c = true → ∀ᶠ e in 𝓝 θ, ⌊(tr e).1⌋ = ⌊(tr θ).1⌋ ∧ ⌊(tr e).2⌋ = ⌊(tr θ).2⌋)
    (hg : DWave g θ) (hv : DWave v θ) : DWave (fun e => Pass.run (tr e) ⟨c, g e⟩ (v e)) θ := by
  intro x y
  cases c with
  | false => exact (hv x y).mul (hg x y)
  | true =>
    have hd := DWave.sincFixed false (h0.sub_const (⌊(tr θ).1⌋ : ℝ)) (h1.sub_const (⌊(tr θ).2⌋ : ℝ)) hg hv x y
    refine hd.congr_of_eventuallyEq ?_
    filter_upwards [hc rfl] with e he
    unfold Pass.run sincApply
    simp only [he.1, he.2]
    rfl

theorem runPasses_smooth {θ : E} {tr : E → ℝ × ℝ} (h0 : DifferentiableAt ℝ (fun e => (tr e).1) θ)
    (h1 : DifferentiableAt ℝ (fun e => (tr e).2) θ) (prop : Wave a b) :
    ∀ (P : List (Bool × (E → Wave a b))),
      (∀ s ∈ P, DWave s.2 θ ∧ (s.1 = true → ∀ᶠ e in 𝓝 θ, ⌊(tr e).1⌋ = ⌊(tr θ).1⌋ ∧ ⌊(tr e).2⌋ = ⌊(tr θ).2⌋)) →
      ∀ v : E → Wave a b, DWave v θ → DWave (fun e => runPasses (tr e) prop (P.map fun s => ⟨s.1, s.2 e⟩) (v e)) θ
  | [], _, _, hv => hv
  | [s], hs, v, hv => run_smooth h0 h1 (hs s (by simp)).2 (hs s (by simp)).1 hv
  | s :: s' :: P, hs, v, hv => by
    have h2 := (run_smooth h0 h1 (hs s (by simp)).2 (hs s (by simp)).1 hv).linear (isLinear_nearField prop)
    exact runPasses_smooth h0 h1 prop (s' :: P) (fun x hx => hs x (by simp only [List.mem_cons] at hx ⊢; tauto)) _ h2

/-- The intensity of the modes of an exposure. -/
theorem shots_smooth {θ : E} (idx : Fin N) (W1 : E → Weights N k)
    (hW : (∃ v : E → Fin N → ℝ, (∀ e, W1 e = .perShot (v e)) ∧ DifferentiableAt ℝ (fun e => v e idx) θ) ∨
      ∃ V : E → Fin N → Matrix (Fin r) (Fin k) ℂ, (∀ e, W1 e = .matrices r (V e)) ∧ ∀ i j, DifferentiableAt ℝ (fun e => V e idx i j) θ)
    (B : E → Fin k → Wave n m) (hB : ∀ j, DWave (fun e => B e j) θ) (F : E → Wave n m → Wave a b)
    (hF : ∀ p : E → Wave n m, DWave p θ → DWave (fun e => F e (p e)) θ) (x : ZMod a) (y : ZMod b) :
    DifferentiableAt ℝ (fun e => ∑ u, ‖F e (shotProbes (W1 e) idx (B e) u) x y‖ ^ 2) θ := by
  rcases hW with ⟨v, e1, hv⟩ | ⟨V, e1, hV⟩
  · have e2 := fun e => shot_sum_perShot _ _ (e1 e) idx (B e) fun p => ‖F e p x y‖ ^ 2
    refine DifferentiableAt.congr_of_eventuallyEq ?_ (Filter.Eventually.of_forall e2)
    refine DifferentiableAt.fun_sum fun j _ => diff_normSq (hF (fun e x y => (v e idx : ℂ) * B e j x y) ?_ _ _)
    exact fun x y => (diff_ofReal hv).mul (hB j x y)
  · have e2 := fun e => shot_sum_matrices _ _ (e1 e) idx (B e) fun p => ‖F e p x y‖ ^ 2
    refine DifferentiableAt.congr_of_eventuallyEq ?_ (Filter.Eventually.of_forall e2)
    refine DifferentiableAt.fun_sum fun i _ => diff_normSq (hF (fun e x y => ∑ j, V e idx i j * B e j x y) ?_ _ _)
    exact fun x y => DifferentiableAt.fun_sum fun j _ => (hV i j).mul (hB j x y)

/-- The detector with a slice keeps smoothness. -/
theorem meas_slice (sl : Option DetSlice) (sat : Option ℝ) (o : ℕ) (B A : Img ℝ) :
    measQuadratic { slice := sl, saturation := sat, oversampling := o } B none A =
      measQuadratic { saturation := sat, oversampling := 1 } B none (cutSlice sl (binPixels o A)) := by
  unfold measQuadratic readOut
  rfl

theorem meas_slice_smooth (sl : Option DetSlice) (sat : Option ℝ) (o : ℕ) {θ : E} {A B : E → Img ℝ} (hA0 : ∀ i j, 0 ≤ (A θ).px i j)
    (hA : ∀ i j, DifferentiableAt ℝ (fun e => (A e).px i j) θ) (hB : ∀ i j, DifferentiableAt ℝ (fun e => (B e).px i j) θ)
    (hs : OffSaturation sat (measQuadratic { slice := sl, oversampling := o } (B θ) none (A θ))) (i j : ℕ) :
    0 < (measQuadratic { slice := sl, saturation := sat, oversampling := o } (B θ) none (A θ)).px i j ∧
    DifferentiableAt ℝ (fun e => (measQuadratic { slice := sl, saturation := sat, oversampling := o } (B e) none (A e)).px i j) θ := by
  refine meas_smooth sat 1 (A := fun e => cutSlice sl (binPixels o (A e))) (fun i j => ?_) (fun i j => ?_) hB hs i j
  · cases sl with
    | none => exact binPixels_nonneg o _ hA0 i j
    | some s => exact binPixels_nonneg o _ hA0 _ _
  · cases sl with
    | none => exact binPixels_diff o hA i j
    | some s => exact binPixels_diff o hA _ _

theorem meas_slice_shape (sl : Option DetSlice) (sat sat' : Option ℝ) (o : ℕ) (B B' A A' : Img ℝ) (hh : A.h = A'.h) (hw : A.w = A'.w) :
    (measQuadratic { slice := sl, saturation := sat, oversampling := o } B none A).h =
      (measQuadratic { slice := sl, saturation := sat', oversampling := o } B' none A').h ∧
    (measQuadratic { slice := sl, saturation := sat, oversampling := o } B none A).w =
      (measQuadratic { slice := sl, saturation := sat', oversampling := o } B' none A').w := by
  have hb : (binPixels o A).h = (binPixels o A').h ∧ (binPixels o A).w = (binPixels o A').w := by
    unfold binPixels
    split_ifs
    · simp [Img.avgPool, Img.sumPool, hh, hw]
    · exact ⟨hh, hw⟩
  have hc : (cutSlice sl (binPixels o A)).h = (cutSlice sl (binPixels o A')).h ∧
      (cutSlice sl (binPixels o A)).w = (cutSlice sl (binPixels o A')).w := by
    cases sl with
    | none => exact hb
    | some s => simp [cutSlice, Img.slice, hb.1, hb.2]
  rw [meas_slice sl sat o B A, meas_slice sl sat' o B' A']
  have h1 := meas_shape sat 1 B none (cutSlice sl (binPixels o A))
  have h2 := meas_shape sat' 1 B' none (cutSlice sl (binPixels o A'))
  rw [h1.1, h1.2, h2.1, h2.2, hc.1, hc.2]
  exact ⟨rfl, rfl⟩

/-! ### The simulation -/

theorem multi2D_pixTrans {s : ℕ} (M : Multi2D n m N k) (idx : Fin N) (t : Fin 3 → ℝ) (θ' : Multi2DTheta n m s H W h w N r k) :
    (M.withTheta θ').pixTrans idx t = match M.offsets with
      | none => translationsToPixel M.basis M.normal t - M.minTranslation
      | some _ => translationsToPixel M.basis M.normal t - M.minTranslation + M.translationScale • θ'.2.2.2.2.2 idx := by
  unfold Multi2D.pixTrans Multi2D.withTheta
  cases M.offsets <;> rfl

theorem multi2D_pix_diff {s : ℕ} (M : Multi2D n m N k) (idx : Fin N) (t : Fin 3 → ℝ) (θ : Multi2DTheta n m s H W h w N r k) (c : Fin 2) :
    DifferentiableAt ℝ (fun θ' : Multi2DTheta n m s H W h w N r k => (M.withTheta θ').pixTrans idx t c) θ := by
  simp only [multi2D_pixTrans]
  cases M.offsets with
  | none => exact differentiableAt_const _
  | some o =>
    simp only [Pi.add_apply, Pi.smul_apply, smul_eq_mul]
    exact DifferentiableAt.const_add _ (DifferentiableAt.const_mul (by fun_prop) _)

theorem multi2D_floors {s : ℕ} (M : Multi2D n m N k) (idx : Fin N) (t : Fin 3 → ℝ) (θ : Multi2DTheta n m s H W h w N r k)
    (hg : OffSteps M ((M.withTheta θ).pixTrans idx t)) (hsub : M.subpixel = true) (c : Fin 2) :
    ∀ᶠ θ' : Multi2DTheta n m s H W h w N r k in 𝓝 θ, ⌊(M.withTheta θ').pixTrans idx t c⌋ = ⌊(M.withTheta θ).pixTrans idx t c⌋ := by
  rcases hg with h0 | hg
  · refine Filter.Eventually.of_forall fun θ' => ?_
    simp only [multi2D_pixTrans, h0]
  · exact floor_eventually (multi2D_pix_diff M idx t θ c).continuousAt ((hg c).1 hsub)

theorem multi2D_rounds {s : ℕ} (M : Multi2D n m N k) (idx : Fin N) (t : Fin 3 → ℝ) (θ : Multi2DTheta n m s H W h w N r k)
    (hg : OffSteps M ((M.withTheta θ).pixTrans idx t)) (hsub : M.subpixel = false ∨ 2 ≤ M.nz) (c : Fin 2) :
    ∀ᶠ θ' : Multi2DTheta n m s H W h w N r k in 𝓝 θ,
      roundHalfEven ((M.withTheta θ').pixTrans idx t c) = roundHalfEven ((M.withTheta θ).pixTrans idx t c) := by
  rcases hg with h0 | hg
  · refine Filter.Eventually.of_forall fun θ' => ?_
    simp only [multi2D_pixTrans, h0]
  · exact round_eventually (multi2D_pix_diff M idx t θ c).continuousAt ((hg c).2 hsub)

/-- The slices of the loop as functions of the parameters. -/
theorem multi2D_slices {s : ℕ} (M : Multi2D n m N k) :
    (∀ θ' : Multi2DTheta n m s H W h w N r k, (M.withTheta θ').slices = .error "IndexError") ∨
    ∃ q : List (Fin (s + 1)), q.length = M.nz ∧ ∀ θ' : Multi2DTheta n m s H W h w N r k,
      (M.withTheta θ').slices = .ok (q.map fun i => imgOf (θ'.2.1 i)) := by
  cases ho : M.obj with
  | inl o =>
    right
    refine ⟨List.replicate M.nz 0, by simp, fun θ' => ?_⟩
    unfold Multi2D.slices Multi2D.withTheta
    simp only [ho, List.map_replicate]
  | inr l =>
    by_cases hn : M.nz ≤ s + 1
    · right
      refine ⟨(List.finRange (s + 1)).take M.nz, by simp [hn], fun θ' => ?_⟩
      unfold Multi2D.slices Multi2D.withTheta
      simp only [ho, List.length_ofFn, if_pos hn]
      rw [List.ofFn_eq_map, List.map_take]
    · left
      intro θ'
      unfold Multi2D.slices Multi2D.withTheta
      simp only [ho, List.length_ofFn, if_neg hn]

theorem multi2D_transmission_diff (M : Multi2D n m N k) {θ : E} {f : E → Img ℂ} (hf : ∀ i j, DifferentiableAt ℝ (fun e => (f e).px i j) θ)
    (i j : ℕ) : DifferentiableAt ℝ (fun e => (M.transmission (f e)).px i j) θ := by
  unfold Multi2D.transmission
  cases M.exponentiate
  · exact hf i j
  · cases M.phaseOnly
    · exact diff_cexp ((hf i j).const_mul _)
    · exact diff_cexp ((diff_ofReal (diff_re (hf i j))).const_mul _)

theorem map_ok {α β : Type} {x : Except String α} {f : α → β} {y : β} (h : x.map f = .ok y) : ∃ z, x = .ok z := by
  cases x with
  | error e => cases h
  | ok z => exact ⟨z, rfl⟩

theorem multi2D_pass1 {s : ℕ} (M : Multi2D n m N k) (idx : Fin N) (t : Fin 3 → ℝ) (θ : Multi2DTheta n m s H W h w N r k)
    (hg : OffSteps M ((M.withTheta θ).pixTrans idx t)) (o : Fin (s + 1) × ℕ) (ho : o.2 < M.nz) (s0 : Pass n m)
    (h0 : M.pass1 ((M.withTheta θ).pixTrans idx t 0, (M.withTheta θ).pixTrans idx t 1) (imgOf (θ.2.1 o.1), o.2) = .ok s0) :
    SmPass (M.subpixel = true) (fun θ' : Multi2DTheta n m s H W h w N r k =>
      M.pass1 ((M.withTheta θ').pixTrans idx t 0, (M.withTheta θ').pixTrans idx t 1) (imgOf (θ'.2.1 o.1), o.2)) θ := by
  have hd : ∀ i j, DifferentiableAt ℝ (fun θ' : Multi2DTheta n m s H W h w N r k => (M.transmission (imgOf (θ'.2.1 o.1))).px i j) θ :=
    multi2D_transmission_diff M fun i j => imgOf_diff (fun i j => by fun_prop) i j
  have hs := fun θ' : Multi2DTheta n m s H W h w N r k => M.transmission_shape (imgOf (θ'.2.1 o.1))
  unfold Multi2D.pass1 at h0 ⊢
  by_cases hc : o.2 = 0 ∧ M.subpixel = true
  · simp only [if_pos hc] at h0 ⊢
    obtain ⟨z, hz⟩ := map_ok h0
    obtain ⟨G, e, d⟩ := objWindow_smooth (H := H) (W := W) hs hd _ _ hz
    refine ⟨true, G, ?_, d, fun _ => hc.2⟩
    filter_upwards [multi2D_floors M idx t θ hg hc.2 0, multi2D_floors M idx t θ hg hc.2 1] with θ' h1 h2
    rw [h1, h2, e]
    rfl
  · simp only [if_neg hc] at h0 ⊢
    have hr : M.subpixel = false ∨ 2 ≤ M.nz := by
      cases hsub : M.subpixel with
      | false => exact .inl rfl
      | true => exact .inr (by have : o.2 ≠ 0 := fun h => hc ⟨h, hsub⟩
                               omega)
    obtain ⟨z, hz⟩ := map_ok h0
    obtain ⟨G, e, d⟩ := objWindow_smooth (H := H) (W := W) hs hd _ _ hz
    refine ⟨false, G, ?_, d, fun h => absurd h (by simp)⟩
    filter_upwards [multi2D_rounds M idx t θ hg hr 0, multi2D_rounds M idx t θ hg hr 1] with θ' h1 h2
    rw [h1, h2, e]
    rfl

theorem multi2D_pass2 {s : ℕ} (M : Multi2D n m N k) (idx : Fin N) (t : Fin 3 → ℝ) (θ : Multi2DTheta n m s H W h w N r k)
    (hg : OffSteps M ((M.withTheta θ).pixTrans idx t)) (o : Fin (s + 1) × ℕ) (ho : o.2 < M.nz) (s0 : Pass (2 * n) (2 * m))
    (h0 : M.pass2 ((M.withTheta θ).pixTrans idx t 0, (M.withTheta θ).pixTrans idx t 1) (imgOf (θ.2.1 o.1), o.2) = .ok s0) :
    SmPass (M.subpixel = true) (fun θ' : Multi2DTheta n m s H W h w N r k =>
      M.pass2 ((M.withTheta θ').pixTrans idx t 0, (M.withTheta θ').pixTrans idx t 1) (imgOf (θ'.2.1 o.1), o.2)) θ := by
  have hd : ∀ i j, DifferentiableAt ℝ (fun θ' : Multi2DTheta n m s H W h w N r k => (M.transmission (imgOf (θ'.2.1 o.1))).px i j) θ :=
    multi2D_transmission_diff M fun i j => imgOf_diff (fun i j => by fun_prop) i j
  have hs := fun θ' : Multi2DTheta n m s H W h w N r k => M.transmission_shape (imgOf (θ'.2.1 o.1))
  unfold Multi2D.pass2 at h0 ⊢
  by_cases hc : o.2 = 0 ∧ M.subpixel = true
  · simp only [if_pos hc] at h0 ⊢
    obtain ⟨z, hz⟩ := map_ok h0
    obtain ⟨G, e, d⟩ := objWindow_smooth (H := H) (W := W) hs hd _ _ hz
    refine ⟨true, G, ?_, d, fun _ => hc.2⟩
    filter_upwards [multi2D_floors M idx t θ hg hc.2 0, multi2D_floors M idx t θ hg hc.2 1] with θ' h1 h2
    rw [h1, h2, e]
    rfl
  · simp only [if_neg hc] at h0 ⊢
    have hr : M.subpixel = false ∨ 2 ≤ M.nz := by
      cases hsub : M.subpixel with
      | false => exact .inl rfl
      | true => exact .inr (by have : o.2 ≠ 0 := fun h => hc ⟨h, hsub⟩
                               omega)
    obtain ⟨z, hz⟩ := map_ok h0
    obtain ⟨G, e, d⟩ := objWindow_smooth (H := H) (W := W) hs hd _ _ hz
    refine ⟨false, fun θ' => fourierUpsample 2 true (G θ'), ?_, d.linear (isLinear_fourierUpsample 2 true), fun h => absurd h (by simp)⟩
    filter_upwards [multi2D_rounds M idx t θ hg hr 0, multi2D_rounds M idx t θ hg hr 1] with θ' h1 h2
    rw [h1, h2, e]
    rfl

theorem zipIdx_mapM {α β γ : Type} (q : List α) (f : α → β) (g : β × ℕ → Except String γ) :
    (q.map f).zipIdx.mapM g = q.zipIdx.mapM fun o => g (f o.1, o.2) := by
  rw [List.zipIdx_map, List.mapM_map]
  rfl

/-- The weights with the values of the parameters. -/
theorem multi2D_weights {s : ℕ} (M : Multi2D n m N k) (W0 : Weights N k) (hW : M.weights = some W0) (idx : Fin N)
    (θ : Multi2DTheta n m s H W h w N r k) :
    ∃ W1 : Multi2DTheta n m s H W h w N r k → Weights N k, (∀ θ', (M.withTheta θ').weights = some (W1 θ')) ∧
      ((∃ v : Multi2DTheta n m s H W h w N r k → Fin N → ℝ, (∀ e, W1 e = .perShot (v e)) ∧ DifferentiableAt ℝ (fun e => v e idx) θ) ∨
      ∃ V : Multi2DTheta n m s H W h w N r k → Fin N → Matrix (Fin r) (Fin k) ℂ, (∀ e, W1 e = .matrices r (V e)) ∧
        ∀ i j, DifferentiableAt ℝ (fun e => V e idx i j) θ) := by
  cases W0 with
  | perShot v0 =>
    refine ⟨fun θ' => .perShot θ'.2.2.2.1, fun θ' => ?_, .inl ⟨fun θ' => θ'.2.2.2.1, fun _ => rfl, by fun_prop⟩⟩
    unfold Multi2D.withTheta
    simp only [hW, Option.map_some]
  | matrices r0 V0 =>
    refine ⟨fun θ' => .matrices r fun i => Matrix.of (θ'.2.2.2.2.1 i), fun θ' => ?_,
      .inr ⟨fun θ' i => Matrix.of (θ'.2.2.2.2.1 i), fun _ => rfl, fun i j => ?_⟩⟩
    · unfold Multi2D.withTheta
      simp only [hW, Option.map_some]
    · simp only [Matrix.of_apply]
      fun_prop

/-- **C117** (differentiability): wherever an exposure can be simulated in the shape of the data, its trained position is not where
another window of the object begins and no pixel is at the saturation level, every pixel is positive and a differentiable function
of all parameters together: probe, object, background, weights and translation offsets; with and without aliasing prevention and
subpixel shifts, for any number of slices. -/
theorem multi2D_smooth {s : ℕ} (M : Multi2D n m N k) (θ : Multi2DTheta n m s H W h w N r k) (idx : Fin N)
    (t : Fin 3 → ℝ) (Q : Img ℝ) (hQ : (M.withTheta θ).forward idx t = .ok Q) (hh : Q.h = h) (hw : Q.w = w)
    (hgrid : OffSteps M ((M.withTheta θ).pixTrans idx t))
    (hsat : ∀ Q', Multi2D.forward ({ M.withTheta θ with saturation := none } : Multi2D n m N k) idx t = .ok Q' →
      OffSaturation M.saturation Q') :
    SmoothAt h w (fun θ' : Multi2DTheta n m s H W h w N r k => (M.withTheta θ').forward idx t) θ := by
  cases hW : M.weights with
  | none =>
    have : (M.withTheta θ).weights = none := by
      unfold Multi2D.withTheta
      simp only [hW, Option.map_none]
    unfold Multi2D.forward at hQ
    simp only [this] at hQ
    cases hQ
  | some W0 =>
  obtain ⟨W1, hW1, hWd⟩ := multi2D_weights M W0 hW idx θ
  rcases multi2D_slices (H := H) (W := W) (h := h) (w := w) (r := r) (s := s) M with hbad | ⟨q, hq, hsl⟩
  · unfold Multi2D.forward at hQ
    simp only [hW1, hbad, Except.bind] at hQ
    cases hQ
  have hlt : ∀ o ∈ q.zipIdx, o.2 < M.nz := fun o ho => by
    have := List.snd_lt_of_mem_zipIdx ho
    omega
  set tr : Multi2DTheta n m s H W h w N r k → ℝ × ℝ := fun θ' => ((M.withTheta θ').pixTrans idx t 0, (M.withTheta θ').pixTrans idx t 1)
    with htr
  have hfl : M.subpixel = true → ∀ᶠ θ' in 𝓝 θ, ⌊(tr θ').1⌋ = ⌊(tr θ).1⌋ ∧ ⌊(tr θ').2⌋ = ⌊(tr θ).2⌋ := fun hs =>
    (multi2D_floors M idx t θ hgrid hs 0).and (multi2D_floors M idx t θ hgrid hs 1)
  have t0 : DifferentiableAt ℝ (fun θ' => (tr θ').1) θ := multi2D_pix_diff M idx t θ 0
  have t1 : DifferentiableAt ℝ (fun θ' => (tr θ').2) θ := multi2D_pix_diff M idx t θ 1
  have hB : ∀ j, DWave (fun θ' : Multi2DTheta n m s H W h w N r k => M.realSpace (θ'.1 j)) θ := fun j =>
    DWave.linear M.isLinear_realSpace (fun x y => by fun_prop)
  -- the last steps, given the map from the probes of the exposure to the detector
  have finish : ∀ F : Multi2DTheta n m s H W h w N r k → Wave n m → Wave n m,
      (∀ p : Multi2DTheta n m s H W h w N r k → Wave n m, DWave p θ → DWave (fun θ' => F θ' (p θ')) θ) →
      (∀ sat, ∀ᶠ θ' in 𝓝 θ, Multi2D.forward ({ M.withTheta θ' with saturation := sat } : Multi2D n m N k) idx t =
        .ok (measQuadratic { slice := M.detectorSlice, saturation := sat, oversampling := M.oversampling } (imgOf θ'.2.2.1) none
          ⟨n, m, fun x y => ∑ u, ‖F θ' (shotProbes (W1 θ') idx (fun j => M.realSpace (θ'.1 j)) u) x y‖ ^ 2⟩)) →
      SmoothAt h w (fun θ' : Multi2DTheta n m s H W h w N r k => (M.withTheta θ').forward idx t) θ := by
    intro F hF hev
    have e1 := (hev M.saturation).self_of_nhds
    have e2 : (M.withTheta θ).forward idx t = _ := e1
    rw [hQ] at e2
    have e3 := Except.ok.inj e2
    refine ⟨fun θ' => measQuadratic { slice := M.detectorSlice, saturation := M.saturation, oversampling := M.oversampling } (imgOf θ'.2.2.1) none
          ⟨n, m, fun x y => ∑ u, ‖F θ' (shotProbes (W1 θ') idx (fun j => M.realSpace (θ'.1 j)) u) x y‖ ^ 2⟩, hev M.saturation, fun θ' => ?_,
          fun i _ j _ => ?_⟩
    · have h3 := meas_slice_shape M.detectorSlice M.saturation M.saturation M.oversampling (imgOf θ'.2.2.1) (imgOf θ.2.2.1)
        ⟨n, m, fun x y => ∑ u, ‖F θ' (shotProbes (W1 θ') idx (fun j => M.realSpace (θ'.1 j)) u) x y‖ ^ 2⟩
        ⟨n, m, fun x y => ∑ u, ‖F θ (shotProbes (W1 θ) idx (fun j => M.realSpace (θ.1 j)) u) x y‖ ^ 2⟩ rfl rfl
      rw [← e3] at h3
      exact ⟨h3.1.trans hh, h3.2.trans hw⟩
    · refine meas_slice_smooth M.detectorSlice M.saturation M.oversampling
        (A := fun θ' => ⟨n, m, fun x y => ∑ u, ‖F θ' (shotProbes (W1 θ') idx (fun j => M.realSpace (θ'.1 j)) u) x y‖ ^ 2⟩)
        (B := fun θ' : Multi2DTheta n m s H W h w N r k => imgOf θ'.2.2.1)
        (fun i j => by dsimp only; exact Finset.sum_nonneg fun _ _ => sq_nonneg _)
        (fun i j => shots_smooth idx W1 hWd (fun θ' j => M.realSpace (θ'.1 j)) hB F hF _ _)
        (fun i j => imgOf_diff (fun i j => by fun_prop) i j) ?_ i j
      exact hsat _ (hev none).self_of_nhds
  have hpn : ∀ p : Multi2DTheta n m s H W h w N r k → Wave n m, DWave p θ →
      DWave (fun θ' => (fun x y => (M.probeNorm : ℂ) * p θ' x y : Wave n m)) θ := fun p hp => hp.linear (isLinear_mulLeft _)
  cases hpa : M.preventAliasing with
  | false =>
    have hl0 : ∃ l, q.zipIdx.mapM (fun o => M.pass1 (tr θ) (imgOf (θ.2.1 o.1), o.2)) = .ok l := by
      have h5 := hQ
      unfold Multi2D.forward at h5
      have hpa' : (M.withTheta θ).preventAliasing = false := hpa
      simp only [hW1, hsl, Except.bind, hpa', Bool.false_eq_true, if_false] at h5
      obtain ⟨l, hl⟩ := map_ok h5
      rw [zipIdx_mapM] at hl
      exact ⟨l, hl⟩
    obtain ⟨l, hl⟩ := hl0
    obtain ⟨P, eP, dP⟩ := mapM_smooth (fl := M.subpixel = true) (θ := θ)
      (fun (o : Fin (s + 1) × ℕ) (θ' : Multi2DTheta n m s H W h w N r k) => M.pass1 (tr θ') (imgOf (θ'.2.1 o.1), o.2)) q.zipIdx
      (fun o ho s0 h0 => multi2D_pass1 M idx t θ hgrid o (hlt o ho) s0 h0) l hl
    refine finish (fun θ' p => farField (runPasses (tr θ') M.prop1 (P.map fun s => ⟨s.1, s.2 θ'⟩) fun x y => (M.probeNorm : ℂ) * p x y))
      (fun p hp => ?_) (fun sat => ?_)
    · exact (runPasses_smooth t0 t1 M.prop1 P (fun s hs => ⟨(dP s hs).1, fun h => hfl ((dP s hs).2 h)⟩) _ (hpn p hp)).linear isLinear_farField
    · filter_upwards [eP] with θ' he
      exact Multi2D.forward_plain ({ M.withTheta θ' with saturation := sat } : Multi2D n m N k) (W1 θ') (hW1 θ') hpa _ (hsl θ') idx t _
        ((zipIdx_mapM q (fun i => imgOf (θ'.2.1 i)) _).trans he)
  | true =>
    have hl0 : ∃ l, q.zipIdx.mapM (fun o => M.pass2 (tr θ) (imgOf (θ.2.1 o.1), o.2)) = .ok l := by
      have h5 := hQ
      unfold Multi2D.forward at h5
      have hpa' : (M.withTheta θ).preventAliasing = true := hpa
      simp only [hW1, hsl, Except.bind, hpa', if_true] at h5
      obtain ⟨l, hl⟩ := map_ok h5
      rw [zipIdx_mapM] at hl
      exact ⟨l, hl⟩
    obtain ⟨l, hl⟩ := hl0
    obtain ⟨P, eP, dP⟩ := mapM_smooth (fl := M.subpixel = true) (θ := θ)
      (fun (o : Fin (s + 1) × ℕ) (θ' : Multi2DTheta n m s H W h w N r k) => M.pass2 (tr θ') (imgOf (θ'.2.1 o.1), o.2)) q.zipIdx
      (fun o ho s0 h0 => multi2D_pass2 M idx t θ hgrid o (hlt o ho) s0 h0) l hl
    refine finish (fun θ' p => M.detect2 (tr θ') (P.map fun s => ⟨s.1, s.2 θ'⟩) fun x y => (M.probeNorm : ℂ) * p x y)
      (fun p hp x y => ?_) (fun sat => ?_)
    · exact ((runPasses_smooth t0 t1 M.prop2 P (fun s hs => ⟨(dP s hs).1, fun h => hfl ((dP s hs).2 h)⟩) _
        ((hpn p hp).linear (isLinear_fourierUpsample 2 false))).linear isLinear_farField) _ _
    · filter_upwards [eP] with θ' he
      exact Multi2D.forward_doubled ({ M.withTheta θ' with saturation := sat } : Multi2D n m N k) (W1 θ') (hW1 θ') hpa _ (hsl θ') idx t _
        ((zipIdx_mapM q (fun i => imgOf (θ'.2.1 i)) _).trans he)

/-- **C117** (the step): one evaluation of a minibatch returns its loss and leaves the exact gradient with respect to all parameters. -/
theorem multi2D_step {s : ℕ} (M : Multi2D n m N k) (kind : LossKind) (mask : Option (Fin h × Fin w → Bool))
    (θ : Multi2DTheta n m s H W h w N r k) (cw : ℤ) (hcw : 1 ≤ cw)
    (B : Minibatch (Fin N × (Fin 3 → ℝ)) (Fin h × Fin w → ℝ)) (hB : B.WF)
    (hs : ∀ e ∈ B.inputs, (∃ Q, (M.withTheta θ).forward e.1 e.2 = .ok Q ∧ Q.h = h ∧ Q.w = w) ∧
      OffSteps M ((M.withTheta θ).pixTrans e.1 e.2) ∧
      ∀ Q', Multi2D.forward ({ M.withTheta θ with saturation := none } : Multi2D n m N k) e.1 e.2 = .ok Q' →
        OffSaturation M.saturation Q') :
    let L : Multi2DTheta n m s H W h w N r k → ℝ := fun θ' =>
      kind.chunk mask (B.patterns.zip (B.inputs.map fun e => (simPixels h w ((M.withTheta θ').forward e.1 e.2)).getD 0))
    (multi2DPhysics M kind mask).closure cw none B θ = .ok (some (L θ), fderiv ℝ L θ) ∧ DifferentiableAt ℝ L θ := by
  have := smooth_step (R := Unit) (fun (θ' : Multi2DTheta n m s H W h w N r k) e => (M.withTheta θ').forward e.1 e.2) kind mask
    none θ cw hcw none B hB (fun e he => by
      obtain ⟨⟨Q, h1, h2, h3⟩, h4, h5⟩ := hs e he
      exact multi2D_smooth M θ e.1 e.2 Q h1 h2 h3 h4 h5)
  simp only [Physics.regGrad, add_zero] at this
  exact this

/-- **C117** (faults): if an exposure of a minibatch cannot be simulated in the shape of the data, the evaluation raises. -/
theorem multi2D_step_raises {s : ℕ} (M : Multi2D n m N k) (kind : LossKind) (mask : Option (Fin h × Fin w → Bool))
    (θ : Multi2DTheta n m s H W h w N r k) (cw : ℤ) (hcw : 1 ≤ cw)
    (B : Minibatch (Fin N × (Fin 3 → ℝ)) (Fin h × Fin w → ℝ)) (hB : B.WF) (e : Fin N × (Fin 3 → ℝ)) (he : e ∈ B.inputs)
    (hbad : ∀ Q, (M.withTheta θ).forward e.1 e.2 = .ok Q → ¬ (Q.h = h ∧ Q.w = w)) :
    ∃ x, (multi2DPhysics M kind mask).closure cw none B θ = .error x := by
  unfold multi2DPhysics
  apply smooth_step_raises _ kind mask none θ cw hcw none B hB e he
  intro Q hQ
  exact hbad Q hQ

/-- The parameters at which C117 differentiates are those that the simulation reads, and nothing else of the model changes. -/
theorem multi2D_reads {s : ℕ} (M : Multi2D n m N k) (θ : Multi2DTheta n m s H W h w N r k) :
    (M.withTheta θ).probe = θ.1 ∧
    (∀ o, M.obj = .inl o → ∃ o', (M.withTheta θ).obj = .inl o' ∧ o'.h = H ∧ o'.w = W ∧
      ∀ (i : Fin H) (j : Fin W), o'.px i j = θ.2.1 0 i j) ∧
    (∀ l, M.obj = .inr l → ∃ l', (M.withTheta θ).obj = .inr l' ∧ l'.length = s + 1 ∧
      ∀ c : Fin (s + 1), ∃ o', l'[c.val]? = some o' ∧ o'.h = H ∧ o'.w = W ∧
        ∀ (i : Fin H) (j : Fin W), o'.px i j = θ.2.1 c i j) ∧
    ((M.withTheta θ).background.h = h ∧ (M.withTheta θ).background.w = w ∧
      ∀ (i : Fin h) (j : Fin w), (M.withTheta θ).background.px i j = θ.2.2.1 i j) ∧
    (M.weights = none → (M.withTheta θ).weights = none) ∧
    (∀ v, M.weights = some (.perShot v) → (M.withTheta θ).weights = some (.perShot θ.2.2.2.1)) ∧
    (∀ r' V, M.weights = some (.matrices r' V) →
      (M.withTheta θ).weights = some (.matrices r fun i => Matrix.of (θ.2.2.2.2.1 i))) ∧
    (M.offsets = none → (M.withTheta θ).offsets = none) ∧
    (M.offsets ≠ none → (M.withTheta θ).offsets = some θ.2.2.2.2.2) ∧
    ({ M.withTheta θ with
        probe := M.probe, obj := M.obj, background := M.background, weights := M.weights, offsets := M.offsets } :
      Multi2D n m N k) = M := by
  refine ⟨rfl, fun o ho => ⟨imgOf (θ.2.1 0), ?_, rfl, rfl, fun i j => dif_pos ⟨i.2, j.2⟩⟩,
    fun l hl => ⟨List.ofFn fun i => imgOf (θ.2.1 i), ?_, by simp, fun c => ⟨imgOf (θ.2.1 c), by rw [List.getElem?_ofFn, dif_pos c.2], rfl, rfl,
      fun i j => dif_pos ⟨i.2, j.2⟩⟩⟩, ⟨rfl, rfl, fun i j => dif_pos ⟨i.2, j.2⟩⟩, fun h0 => ?_, fun v h0 => ?_,
    fun r' V h0 => ?_, fun h0 => ?_, fun h0 => ?_, rfl⟩
  · simp only [Multi2D.withTheta, ho]
  · simp only [Multi2D.withTheta, hl]
  · simp only [Multi2D.withTheta, h0, Option.map_none]
  · simp only [Multi2D.withTheta, h0, Option.map_some]
  · simp only [Multi2D.withTheta, h0, Option.map_some]
  · simp only [Multi2D.withTheta, h0, Option.map_none]
  · obtain ⟨o, ho⟩ := Option.ne_none_iff_exists'.1 h0
    simp only [Multi2D.withTheta, ho, Option.map_some]

/-! ### Without subpixel shifts the positions are not trained -/

theorem runPasses_rounded {tr tr' : ℝ × ℝ} (P : Wave a b) : ∀ (l : List (Pass a b)) (_ : ∀ s ∈ l, s.sinc = false) (v : Wave a b),
    runPasses tr P l v = runPasses tr' P l v
  | [], _, _ => rfl
  | [s], hs, v => by
    simp only [runPasses, Pass.run, hs s List.mem_cons_self, Bool.false_eq_true, if_false]
  | s :: s' :: l, hs, v => by
    simp only [runPasses, Pass.run, hs s List.mem_cons_self, Bool.false_eq_true, if_false]
    exact runPasses_rounded P (s' :: l) (fun x hx => hs x (List.mem_cons_of_mem _ hx)) _

theorem mapM_rounded {α : Type} (F : α → Except String (Pass a b)) (hF : ∀ x s, F x = .ok s → s.sinc = false) :
    ∀ (q : List α) (l : List (Pass a b)), q.mapM F = .ok l → ∀ s ∈ l, s.sinc = false := by
  intro q
  induction q with
  | nil =>
    intro l hl s hs
    cases hl
    cases hs
  | cons x q ih =>
    intro l hl s hs
    rw [List.mapM_cons] at hl
    cases hx : F x with
    | error e => rw [hx] at hl; cases hl
    | ok y =>
      rw [hx] at hl
      cases hq : q.mapM F with
      | error e => rw [hq] at hl; cases hl
      | ok z =>
        rw [hq] at hl
        have hl' : y :: z = l := Except.ok.inj hl
        subst hl'
        rcases List.mem_cons.1 hs with rfl | hs
        · exact hF x _ hx
        · exact ih z hq s hs

/-- Without subpixel shifts, only the rounded position of an exposure matters. -/
theorem multi2D_forward_rounded (M : Multi2D n m N k) (hsub : M.subpixel = false) (o : Option (Fin N → Fin 2 → ℝ)) (idx : Fin N)
    (t : Fin 3 → ℝ)
    (hr : ∀ c, roundHalfEven (Multi2D.pixTrans ({ M with offsets := o } : Multi2D n m N k) idx t c) = roundHalfEven (M.pixTrans idx t c)) :
    Multi2D.forward ({ M with offsets := o } : Multi2D n m N k) idx t = M.forward idx t := by
  set M' : Multi2D n m N k := { M with offsets := o } with hM'
  have e1 : M'.pass1 (M'.pixTrans idx t 0, M'.pixTrans idx t 1) = M.pass1 (M.pixTrans idx t 0, M.pixTrans idx t 1) := by
    funext x
    have hs' : M'.subpixel = false := hsub
    have ht : M'.transmission x.1 = M.transmission x.1 := rfl
    unfold Multi2D.pass1
    simp only [hsub, hs', Bool.false_eq_true, and_false, if_false, hr, ht]
  have e2 : M'.pass2 (M'.pixTrans idx t 0, M'.pixTrans idx t 1) = M.pass2 (M.pixTrans idx t 0, M.pixTrans idx t 1) := by
    funext x
    have hs' : M'.subpixel = false := hsub
    have ht : M'.transmission x.1 = M.transmission x.1 := rfl
    unfold Multi2D.pass2
    simp only [hsub, hs', Bool.false_eq_true, and_false, if_false, hr, ht]
  have f1 : ∀ tr x s, M.pass1 tr x = .ok s → s.sinc = false := by
    intro tr x s hs
    unfold Multi2D.pass1 at hs
    simp only [hsub, Bool.false_eq_true, and_false, if_false] at hs
    cases hw : objWindow n m (M.transmission x.1) (roundHalfEven tr.1) (roundHalfEven tr.2) with
    | error e => rw [hw] at hs; cases hs
    | ok y => rw [hw] at hs; cases hs; rfl
  have f2 : ∀ tr x s, M.pass2 tr x = .ok s → s.sinc = false := by
    intro tr x s hs
    unfold Multi2D.pass2 at hs
    simp only [hsub, Bool.false_eq_true, and_false, if_false] at hs
    cases hw : objWindow n m (M.transmission x.1) (roundHalfEven tr.1) (roundHalfEven tr.2) with
    | error e => rw [hw] at hs; cases hs
    | ok y => rw [hw] at hs; cases hs; rfl
  have ew : M'.weights = M.weights := rfl
  have es : M'.slices = M.slices := rfl
  have ep : M'.preventAliasing = M.preventAliasing := rfl
  have r1 : M'.prop1 = M.prop1 := rfl
  have r2 : M'.prop2 = M.prop2 := rfl
  have r3 : M'.probeNorm = M.probeNorm := rfl
  have r4 : M'.realSpace = M.realSpace := rfl
  have r5 : M'.probe = M.probe := rfl
  have r6 : M'.measure = M.measure := rfl
  clear_value M'
  unfold Multi2D.forward
  simp only [e1, e2, ew, es, ep, r4, r5, r6]
  rcases M.weights with _ | W0
  · rfl
  rcases M.slices with e | sl
  · simp only [Except.bind]
  simp only [Except.bind]
  cases M.preventAliasing with
  | true =>
    simp only [if_true]
    rcases hl : sl.zipIdx.mapM (M.pass2 (M.pixTrans idx t 0, M.pixTrans idx t 1)) with e | l
    · simp only [Except.map]
    · have hl' := mapM_rounded _ (f2 _) _ _ hl
      simp only [Except.map, Multi2D.toDetector2, r2, r3]
      simp only [runPasses_rounded (tr := (M'.pixTrans idx t 0, M'.pixTrans idx t 1))
        (tr' := (M.pixTrans idx t 0, M.pixTrans idx t 1)) _ l hl']
  | false =>
    simp only [Bool.false_eq_true, if_false]
    rcases hl : sl.zipIdx.mapM (M.pass1 (M.pixTrans idx t 0, M.pixTrans idx t 1)) with e | l
    · simp only [Except.map]
    · have hl' := mapM_rounded _ (f1 _) _ _ hl
      simp only [Except.map, Multi2D.toDetector1, r1, r3]
      simp only [runPasses_rounded (tr := (M'.pixTrans idx t 0, M'.pixTrans idx t 1))
        (tr' := (M.pixTrans idx t 0, M.pixTrans idx t 1)) _ l hl']

theorem fderiv_dir_zero (L : E → ℝ) (θ v : E) (hd : DifferentiableAt ℝ L θ)
    (hev : ∀ᶠ θ' in 𝓝 θ, ∀ x : ℝ, θ' = θ + x • v → L θ' = L θ) : fderiv ℝ L θ v = 0 := by
  have h1 : HasDerivAt (fun x : ℝ => L (θ + x • v)) (fderiv ℝ L θ v) 0 := by
    have h2 : HasFDerivAt L (fderiv ℝ L θ) (θ + (0 : ℝ) • v) := by rw [zero_smul, add_zero]; exact hd.hasFDerivAt
    have h3 : HasDerivAt (fun x : ℝ => θ + x • v) v 0 := by
      simpa using ((hasDerivAt_id (0 : ℝ)).smul_const v).const_add θ
    exact h2.comp_hasDerivAt 0 h3
  have hc : Filter.Tendsto (fun x : ℝ => θ + x • v) (𝓝 0) (𝓝 θ) := by
    have : Continuous fun x : ℝ => θ + x • v := by fun_prop
    simpa using this.tendsto 0
  have hconst : (fun x : ℝ => L (θ + x • v)) =ᶠ[𝓝 0] fun _ => L θ := by
    filter_upwards [hc.eventually hev] with x hx
    exact hx x rfl
  exact h1.unique ((hasDerivAt_const (0 : ℝ) (L θ)).congr_of_eventuallyEq hconst)

/-- **C117** (finding): without subpixel shifts the gradient of every minibatch loss with respect to the translation offsets
vanishes, whatever the positions' errors: the offsets are parameters, but never refined. -/
theorem multi2D_offsets_untrained {s : ℕ} (M : Multi2D n m N k) (hsub : M.subpixel = false) (kind : LossKind)
    (mask : Option (Fin h × Fin w → Bool)) (θ : Multi2DTheta n m s H W h w N r k)
    (B : Minibatch (Fin N × (Fin 3 → ℝ)) (Fin h × Fin w → ℝ))
    (hs : ∀ e ∈ B.inputs, OffSteps M ((M.withTheta θ).pixTrans e.1 e.2))
    (hd : DifferentiableAt ℝ (fun θ' : Multi2DTheta n m s H W h w N r k =>
      kind.chunk mask (B.patterns.zip (B.inputs.map fun e => (simPixels h w ((M.withTheta θ').forward e.1 e.2)).getD 0))) θ)
    (δ : Fin N → Fin 2 → ℝ) :
    fderiv ℝ (fun θ' : Multi2DTheta n m s H W h w N r k =>
      kind.chunk mask (B.patterns.zip (B.inputs.map fun e => (simPixels h w ((M.withTheta θ').forward e.1 e.2)).getD 0))) θ
      (0, 0, 0, 0, 0, δ) = 0 := by
  set L : Multi2DTheta n m s H W h w N r k → ℝ := fun θ' =>
      kind.chunk mask (B.patterns.zip (B.inputs.map fun e => (simPixels h w ((M.withTheta θ').forward e.1 e.2)).getD 0)) with hL
  set v : Multi2DTheta n m s H W h w N r k := (0, 0, 0, 0, 0, δ) with hv
  have hev : ∀ᶠ θ' : Multi2DTheta n m s H W h w N r k in 𝓝 θ, ∀ e ∈ B.inputs, ∀ c,
      roundHalfEven ((M.withTheta θ').pixTrans e.1 e.2 c) = roundHalfEven ((M.withTheta θ).pixTrans e.1 e.2 c) := by
    have : ∀ l : List (Fin N × (Fin 3 → ℝ)), (∀ e ∈ l, OffSteps M ((M.withTheta θ).pixTrans e.1 e.2)) →
      ∀ᶠ θ' : Multi2DTheta n m s H W h w N r k in 𝓝 θ, ∀ e ∈ l, ∀ c,
      roundHalfEven ((M.withTheta θ').pixTrans e.1 e.2 c) = roundHalfEven ((M.withTheta θ).pixTrans e.1 e.2 c) := by
      intro l
      induction l with
      | nil => intro _; exact Filter.Eventually.of_forall fun _ e he => by cases he
      | cons x l ih =>
        intro hl
        filter_upwards [ih fun e he => hl e (List.mem_cons_of_mem _ he),
          multi2D_rounds M x.1 x.2 θ (hl x List.mem_cons_self) (.inl hsub) 0,
          multi2D_rounds M x.1 x.2 θ (hl x List.mem_cons_self) (.inl hsub) 1] with θ' g g0 g1 e he c
        rcases List.mem_cons.1 he with rfl | he
        · fin_cases c
          · exact g0
          · exact g1
        · exact g e he c
    exact this B.inputs hs
  refine fderiv_dir_zero L θ v hd ?_
  filter_upwards [hev] with θ' hx x hθ'
  simp only [hL]
  congr 2
  refine List.map_congr_left fun e he => ?_
  congr 2
  have e0 : M.withTheta θ' = ({ M.withTheta θ with offsets := M.offsets.map fun _ => θ'.2.2.2.2.2 } : Multi2D n m N k) := by
    have g1 : θ'.1 = θ.1 := by rw [hθ']; show θ.1 + x • (0 : Fin k → Wave n m) = θ.1; rw [smul_zero, add_zero]
    have g2 : θ'.2.1 = θ.2.1 := by
      rw [hθ']; show θ.2.1 + x • (0 : Fin (s + 1) → Fin H → Fin W → ℂ) = θ.2.1; rw [smul_zero, add_zero]
    have g3 : θ'.2.2.1 = θ.2.2.1 := by
      rw [hθ']; show θ.2.2.1 + x • (0 : Fin h → Fin w → ℝ) = θ.2.2.1; rw [smul_zero, add_zero]
    have g4 : θ'.2.2.2.1 = θ.2.2.2.1 := by
      rw [hθ']; show θ.2.2.2.1 + x • (0 : Fin N → ℝ) = θ.2.2.2.1; rw [smul_zero, add_zero]
    have g5 : θ'.2.2.2.2.1 = θ.2.2.2.2.1 := by
      rw [hθ']; show θ.2.2.2.2.1 + x • (0 : Fin N → Fin r → Fin k → ℂ) = θ.2.2.2.2.1; rw [smul_zero, add_zero]
    unfold Multi2D.withTheta
    rw [g1, g2, g3, g4, g5]
  have hx' := hx e he
  rw [e0] at hx' ⊢
  exact multi2D_forward_rounded (M.withTheta θ) hsub _ e.1 e.2 hx'

/-! ### Non-vacuity -/

/-- Values of the parameters for the toy model: a transparent object, one mode, one exposure, trained offset (1/4, 1/4). -/
noncomputable def toyMulti2DTheta : Multi2DTheta 2 2 0 9 9 2 2 1 1 1 :=
  (fun _ x y => if x = 0 ∧ y = 0 then 1 else 2, fun _ _ _ => 1, fun _ _ => 0, fun _ => 1, fun _ _ _ => 2, fun _ _ => 1 / 4)

theorem toyMulti2D_theta_pos (c : Fin 2) : ((toyMulti2D false false).withTheta toyMulti2DTheta).pixTrans 0 0 c = 1 / 4 := by
  rw [multi2D_pixTrans]
  simp only [toyMulti2D, translationsToPixel, Matrix.mulVec_zero, toyMulti2DTheta]
  fin_cases c <;> simp

/-- The toy exposure can be simulated in the shape of the data, and its trained position is off the steps. -/
theorem toyMulti2D_theta_ok :
    (∃ Q, ((toyMulti2D false false).withTheta toyMulti2DTheta).forward 0 0 = .ok Q ∧ Q.h = 2 ∧ Q.w = 2) ∧
      OffSteps (toyMulti2D false false) (((toyMulti2D false false).withTheta toyMulti2DTheta).pixTrans 0 0) := by
  constructor
  · set M := (toyMulti2D false false).withTheta toyMulti2DTheta with hM
    have hp : Multi2D.pixTrans ({ M with offsets := none } : Multi2D 2 2 1 1) 0 0 = ![((0 : ℕ) : ℝ), ((0 : ℕ) : ℝ)] := by
      unfold Multi2D.pixTrans
      simp only [hM, Multi2D.withTheta, toyMulti2D, translationsToPixel, Matrix.mulVec_zero]
      funext i; fin_cases i <;> simp
    have h0 := multi2D_forward_integer ({ M with offsets := none } : Multi2D 2 2 1 1)
      (.matrices 1 fun _ => Matrix.of fun _ _ => 2) rfl rfl
      (List.replicate 2 (imgOf fun _ _ => 1 : Img ℂ)) rfl 0 0 0 0 hp (by
        intro o ho
        obtain rfl := List.eq_of_mem_replicate ho
        exact ⟨by norm_num [imgOf], by norm_num [imgOf]⟩)
    have hr : roundHalfEven (1 / 4) = 0 := by
      have hf : ⌊(1 / 4 : ℝ)⌋ = 0 := by rw [Int.floor_eq_zero_iff]; constructor <;> norm_num
      unfold roundHalfEven
      rw [hf]
      norm_num
    rw [multi2D_forward_rounded M rfl none 0 0 (fun c => by
      rw [toyMulti2D_theta_pos c, hp, hr]
      have := roundHalfEven_int 0
      fin_cases c <;> simpa using this)] at h0
    exact ⟨_, h0, rfl, rfl⟩
  · refine .inr fun c => ⟨fun h => absurd h (by decide), fun _ z hz => ?_⟩
    rw [toyMulti2D_theta_pos] at hz
    have h1 : (1 : ℝ) = 4 * z + 2 := by linarith
    have h2 : (1 : ℤ) = 4 * z + 2 := by exact_mod_cast h1
    omega

/-- The hypotheses of `multi2D_step` and `multi2D_offsets_untrained` are met by a minibatch of one exposure. -/
example (y : Fin 2 × Fin 2 → ℝ) (δ : Fin 1 → Fin 2 → ℝ) :
    let B : Minibatch (Fin 1 × (Fin 3 → ℝ)) (Fin 2 × Fin 2 → ℝ) := ⟨[(0, 0)], [y]⟩
    let L : Multi2DTheta 2 2 0 9 9 2 2 1 1 1 → ℝ := fun θ' => LossKind.amplitudeMse.chunk none
      (B.patterns.zip (B.inputs.map fun e => (simPixels 2 2 (((toyMulti2D false false).withTheta θ').forward e.1 e.2)).getD 0))
    (multi2DPhysics (toyMulti2D false false) .amplitudeMse none).closure 1 none B toyMulti2DTheta =
      .ok (some (L toyMulti2DTheta), fderiv ℝ L toyMulti2DTheta) ∧ fderiv ℝ L toyMulti2DTheta (0, 0, 0, 0, 0, δ) = 0 := by
  intro B L
  have hin : ∀ e ∈ B.inputs, e = (0, 0) := fun e he => by simpa [B] using he
  have h1 := multi2D_step (toyMulti2D false false) .amplitudeMse none toyMulti2DTheta 1 le_rfl B ⟨by simp [B], rfl⟩
    (fun e he => by
      rw [hin e he]
      exact ⟨toyMulti2D_theta_ok.1, toyMulti2D_theta_ok.2, fun Q' _ s hs => by cases hs⟩)
  refine ⟨h1.1, multi2D_offsets_untrained (toyMulti2D false false) rfl .amplitudeMse none toyMulti2DTheta B (fun e he => ?_) h1.2 δ⟩
  rw [hin e he]
  exact toyMulti2D_theta_ok.2

end Cdtools
