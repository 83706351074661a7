/-
C88: the model that made the data is a minimum of the losses.
-/
import Verif.Model.ModelLoss
import Verif.Props.Losses
import Verif.Props.Measurements
import Verif.Props.SimDataset
import Verif.Props.FancyForward
import Verif.Props.Interactions
import Verif.Lemmas.Chunks
import Mathlib.Analysis.SpecialFunctions.Sqrt
import Mathlib.Analysis.SpecialFunctions.Log.Deriv

set_option linter.unusedSectionVars false
set_option linter.unusedSimpArgs false

namespace Cdtools
open Finset

variable {I T : Type} {h w : ℕ}

/-! ### Specification -/

/-- The model, in the state it has at each minibatch, can simulate all exposures of the minibatch, in the shape of the data. -/
def CanSimulate (h w : ℕ) (S : List ((I → T → Except String (Img ℝ)) × List (DataShot I T))) : Prop :=
  ∀ s ∈ S, ∀ e ∈ s.2, ∃ Q, s.1 e.index e.translation = .ok Q ∧ Q.h = h ∧ Q.w = w

/-- All measured and all simulated intensities are non-negative. -/
def NonnegIntensities (h w : ℕ) (S : List ((I → T → Except String (Img ℝ)) × List (DataShot I T))) : Prop :=
  ∀ s ∈ S, ∀ e ∈ s.2, ∀ p : Fin h × Fin w, 0 ≤ e.pattern.px p.1 p.2 ∧
    ∀ Q, s.1 e.index e.translation = .ok Q → 0 ≤ Q.px p.1 p.2

/-- At every minibatch the simulation agrees with the data on the unmasked pixels. -/
def Reproduces (mask : Option (Fin h × Fin w → Bool)) (S : List ((I → T → Except String (Img ℝ)) × List (DataShot I T))) : Prop :=
  ∀ s ∈ S, ∀ e ∈ s.2, ∀ Q, s.1 e.index e.translation = .ok Q → ∀ p, Unmasked mask p → e.pattern.px p.1 p.2 = Q.px p.1 p.2

/-! ### Losses of minibatches -/

/-- The simulation of an exposure, if there is one. -/
noncomputable def simOf (f : I → T → Except String (Img ℝ)) (e : DataShot I T) : Img ℝ :=
  match f e.index e.translation with
  | .ok Q => Q
  | .error _ => ⟨0, 0, fun _ _ => 0⟩

/-- The pairs (data, simulation) of a minibatch. -/
noncomputable def pairsOf (h w : ℕ) (s : (I → T → Except String (Img ℝ)) × List (DataShot I T)) :
    List ((Fin h × Fin w → ℝ) × (Fin h × Fin w → ℝ)) :=
  s.2.map fun e => (e.pattern.pixels h w, (simOf s.1 e).pixels h w)

theorem chunkPairs_ok (f : I → T → Except String (Img ℝ)) (c : List (DataShot I T))
    (hc : ∀ e ∈ c, ∃ Q, f e.index e.translation = .ok Q ∧ Q.h = h ∧ Q.w = w) :
    chunkPairs h w f c = .ok (pairsOf h w (f, c)) := by
  have hs : ∀ e ∈ c, f e.index e.translation = .ok (simOf f e) := by
    intro e he
    obtain ⟨Q, hQ, -⟩ := hc e he
    unfold simOf
    rw [hQ]
  unfold chunkPairs
  rw [mapM_ok_map _ (simOf f) c hs]
  show (if _ then _ else _) = _
  rw [if_pos]
  · unfold pairsOf
    rw [List.zipWith_map_right, List.zipWith_self]
  · intro s hs'
    obtain ⟨e, he, rfl⟩ := List.mem_map.1 hs'
    obtain ⟨Q, hQ, h1⟩ := hc e he
    have := hs e he
    rw [hQ] at this
    rw [← Except.ok.inj this]
    exact h1

theorem minibatchLoss_ok (loss : List ((Fin h × Fin w → ℝ) × (Fin h × Fin w → ℝ)) → ℝ)
    (hl : ∀ b b', loss (b ++ b') = loss b + loss b') (h0 : loss [] = 0)
    (f : I → T → Except String (Img ℝ)) (width : ℕ) (hw : 1 ≤ width) (batch : List (DataShot I T))
    (hc : ∀ e ∈ batch, ∃ Q, f e.index e.translation = .ok Q ∧ Q.h = h ∧ Q.w = w) :
    minibatchLoss h w loss f width batch = .ok (loss (pairsOf h w (f, batch))) := by
  have hflat := pyChunks_flatten batch.length width hw batch le_rfl
  unfold minibatchLoss
  rw [mapM_ok_map _ (fun c => loss (pairsOf h w (f, c)))]
  · show Except.ok _ = _
    refine congrArg _ ?_
    conv_rhs => rw [← hflat]
    generalize pyChunks batch.length width batch = L
    induction L with
    | nil => simp [pairsOf, h0]
    | cons c L ih =>
      rw [List.map_cons, List.sum_cons, ih, List.flatten_cons]
      unfold pairsOf
      rw [List.map_append, hl]
  · intro c hcm
    rw [chunkPairs_ok f c]
    · rfl
    · intro e he
      refine hc e ?_
      rw [← hflat]
      exact List.mem_flatten.2 ⟨c, hcm, he⟩

theorem recordedLoss_ok {N : Type} (acc : N → List (Fin h × Fin w → ℝ) → N) (norm : N → ℝ → N × ℝ) (n0 : N)
    (loss : List ((Fin h × Fin w → ℝ) × (Fin h × Fin w → ℝ)) → ℝ)
    (hl : ∀ b b', loss (b ++ b') = loss b + loss b') (h0 : loss [] = 0) (width : ℕ) (hw : 1 ≤ width)
    (S : List ((I → T → Except String (Img ℝ)) × List (DataShot I T))) (hS : CanSimulate h w S) :
    recordedLoss h w acc norm n0 loss width S = .ok (lossEpoch (N := N)
      (fun n (b : List ((Fin h × Fin w → ℝ) × (Fin h × Fin w → ℝ))) => acc n (b.map (·.1))) norm loss n0
      (S.map (pairsOf h w))) := by
  unfold recordedLoss
  rw [mapM_ok_map _ (fun s => loss (pairsOf h w s)) S fun s hs => minibatchLoss_ok loss hl h0 s.1 width hw s.2 (hS s hs)]
  show Except.ok _ = _
  refine congrArg _ ?_
  unfold lossEpoch
  rw [List.foldl_map, List.map_map]
  refine congrArg₂ norm ?_ rfl
  refine congrArg (fun g => List.foldl g n0 S) ?_
  funext n s
  simp only [pairsOf, List.map_map, Function.comp_def]

/-! ### C88 -/

theorem simOf_eq {f : I → T → Except String (Img ℝ)} {e : DataShot I T} {Q : Img ℝ}
    (hQ : f e.index e.translation = .ok Q) : simOf f e = Q := by
  unfold simOf; rw [hQ]

theorem reproduces_iff (mask : Option (Fin h × Fin w → Bool))
    (S : List ((I → T → Except String (Img ℝ)) × List (DataShot I T))) (hS : CanSimulate h w S) :
    Reproduces mask S ↔ ∀ x ∈ (S.map (pairsOf h w)).flatten, ∀ p, Unmasked mask p → x.1 p = x.2 p := by
  constructor
  · intro hr x hx p hp
    obtain ⟨b, hb, hx⟩ := List.mem_flatten.1 hx
    obtain ⟨s, hs, rfl⟩ := List.mem_map.1 hb
    obtain ⟨e, he, rfl⟩ := List.mem_map.1 hx
    obtain ⟨Q, hQ, -⟩ := hS s hs e he
    show e.pattern.px p.1 p.2 = (simOf s.1 e).px p.1 p.2
    rw [simOf_eq hQ]
    exact hr s hs e he Q hQ p hp
  · intro hr s hs e he Q hQ p hp
    have := hr _ (List.mem_flatten.2 ⟨_, List.mem_map.2 ⟨s, hs, rfl⟩, List.mem_map.2 ⟨e, he, rfl⟩⟩) p hp
    change e.pattern.px p.1 p.2 = (simOf s.1 e).px p.1 p.2 at this
    rwa [simOf_eq hQ] at this

theorem flatten_nonneg (S : List ((I → T → Except String (Img ℝ)) × List (DataShot I T))) (hS : CanSimulate h w S)
    (hn : NonnegIntensities h w S) : ∀ x ∈ (S.map (pairsOf h w)).flatten, ∀ p, 0 ≤ x.1 p ∧ 0 ≤ x.2 p := by
  intro x hx p
  obtain ⟨b, hb, hx⟩ := List.mem_flatten.1 hx
  obtain ⟨s, hs, rfl⟩ := List.mem_map.1 hb
  obtain ⟨e, he, rfl⟩ := List.mem_map.1 hx
  obtain ⟨Q, hQ, -⟩ := hS s hs e he
  refine ⟨(hn s hs e he p).1, ?_⟩
  show 0 ≤ (simOf s.1 e).px p.1 p.2
  rw [simOf_eq hQ]
  exact (hn s hs e he p).2 Q hQ

theorem div_pos_eq_zero {a c : ℝ} (hc : 0 < c) : a / c = 0 ↔ a = 0 := by
  rw [div_eq_zero_iff]
  exact or_iff_left hc.ne'

/-- **C88** (amplitude and intensity): whatever the state of the model at each minibatch, the calculation width and the
division in minibatches, the recorded loss is never negative, and it is zero if and only if at every minibatch the model
reproduced the data on all unmasked pixels. -/
theorem recorded_loss_zero_iff (kind : LossKind) (hk : kind ≠ .poissonNll) (mask : Option (Fin h × Fin w → Bool))
    (hm : 0 < unmaskedCount mask) (width : ℕ) (hw : 1 ≤ width)
    (S : List ((I → T → Except String (Img ℝ)) × List (DataShot I T))) (hne : ∃ s ∈ S, s.2 ≠ [])
    (hS : CanSimulate h w S) (hn : NonnegIntensities h w S) :
    ∃ r, kind.recorded h w mask width S = .ok r ∧ 0 ≤ r ∧ (r = 0 ↔ Reproduces mask S) := by
  have hlen : 0 < (S.map (pairsOf h w)).flatten.length := by
    obtain ⟨s, hs, hs2⟩ := hne
    obtain ⟨e, he⟩ := List.exists_mem_of_ne_nil _ hs2
    exact List.length_pos_of_mem
      (List.mem_flatten.2 ⟨_, List.mem_map.2 ⟨s, hs, rfl⟩, List.mem_map.2 ⟨e, he, rfl⟩⟩)
  have hc : (0 : ℝ) < (((S.map (pairsOf h w)).flatten.length * unmaskedCount mask : ℕ) : ℝ) := by
    exact_mod_cast Nat.mul_pos hlen hm
  cases kind with
  | poissonNll => exact absurd rfl hk
  | amplitudeMse =>
    have hl : ∀ b b', amplitudeMse mask true (b ++ b') = amplitudeMse mask true b + amplitudeMse mask true b' := by
      intro b b'
      simp only [amplitudeMse, if_true]
      exact batchSum_append mask _ b b'
    have h0 : amplitudeMse mask true [] = 0 := by simp [amplitudeMse, batchSum]
    refine ⟨_, (by unfold LossKind.recorded; dsimp only; rw [recordedLoss_ok (CountNorm.accumulate mask) CountNorm.normalize {} _ hl h0 width hw S hS]; rfl), ?_⟩
    dsimp only
    rw [recorded_loss_independent_of_batching mask _ hl h0]
    obtain ⟨d1, d2, -⟩ := amplitude_mse_distance mask _ (flatten_nonneg S hS hn)
    exact ⟨div_nonneg d1 hc.le, by rw [div_pos_eq_zero hc, d2, ← reproduces_iff mask S hS]⟩
  | intensityMse =>
    have hl : ∀ b b', intensityMse mask true (b ++ b') = intensityMse mask true b + intensityMse mask true b' := by
      intro b b'
      simp only [intensityMse, if_true]
      exact batchSum_append mask _ b b'
    have h0 : intensityMse mask true [] = 0 := by simp [intensityMse, batchSum]
    refine ⟨_, (by unfold LossKind.recorded; dsimp only; rw [recordedLoss_ok (CountNorm.accumulate mask) CountNorm.normalize {} _ hl h0 width hw S hS]; rfl), ?_⟩
    dsimp only
    rw [recorded_loss_independent_of_batching mask _ hl h0]
    obtain ⟨d1, d2, -⟩ := intensity_mse_distance mask (S.map (pairsOf h w)).flatten
    exact ⟨div_nonneg d1 hc.le, by rw [div_pos_eq_zero hc, d2, ← reproduces_iff mask S hS]⟩

/-- **C88** (Poisson): if at every minibatch the model reproduces the data on the unmasked pixels the recorded loss is zero;
whatever the model, it is at least minus `1e-6` per unmasked pixel, over half the number of pixels with at least one count. -/
theorem recorded_poisson_truth (mask : Option (Fin h × Fin w → Bool)) (width : ℕ) (hw : 1 ≤ width)
    (S : List ((I → T → Except String (Img ℝ)) × List (DataShot I T)))
    (hS : CanSimulate h w S) (hn : NonnegIntensities h w S) :
    ∃ r, LossKind.poissonNll.recorded h w mask width S = .ok r ∧ (Reproduces mask S → r = 0) ∧
      - (1e-6 * (((S.map fun s => s.2.length).sum : ℕ) * unmaskedCount mask)) /
        (0.5 * brightCount mask ((S.map fun s => s.2.map fun e => e.pattern.pixels h w).flatten)) ≤ r := by
  have hl : ∀ b b', poissonNll mask (1e-6) false (b ++ b') = poissonNll mask (1e-6) false b + poissonNll mask (1e-6) false b' := by
    intro b b'
    simp only [poissonNll, Bool.false_eq_true, if_false]
    exact batchSum_append mask _ b b'
  have h0 : poissonNll mask (1e-6) false [] = 0 := by simp [poissonNll, batchSum]
  refine ⟨_, (by unfold LossKind.recorded; dsimp only; rw [recordedLoss_ok (PoissonNorm.accumulate mask) PoissonNorm.normalize {} _ hl h0 width hw S hS]; rfl), ?_⟩
  dsimp only
  obtain ⟨e1, e2⟩ := normalized_poisson_partial mask (S.map (pairsOf h w)) (fun b hb x hx =>
    flatten_nonneg S hS hn x (List.mem_flatten.2 ⟨b, hb, hx⟩))
  have hd : (S.map (pairsOf h w)).flatten.map (·.1) = (S.map fun s => s.2.map fun e => e.pattern.pixels h w).flatten := by
    rw [List.map_flatten, List.map_map]
    refine congrArg (fun g => (List.map g S).flatten) ?_
    funext s
    simp only [pairsOf, List.map_map, Function.comp_def]
  constructor
  · intro hr
    rw [reproduces_iff mask S hS] at hr
    rw [e1]
    have : poissonNll mask (1e-6) false (S.map (pairsOf h w)).flatten =
        poissonNll mask (1e-6) false (((S.map (pairsOf h w)).flatten.map (·.1)).map fun p => (p, p)) := by
      generalize (S.map (pairsOf h w)).flatten = L at hr
      simp only [poissonNll, Bool.false_eq_true, if_false]
      refine batchSum_congr mask _ _ _ ?_
      unfold AgreeOnUnmasked
      rw [List.map_map]
      induction L with
      | nil => exact List.Forall₂.nil
      | cons x L ih =>
        refine List.Forall₂.cons (fun p hp => ⟨rfl, ?_⟩) (ih fun y hy => hr y (List.mem_cons_of_mem _ hy))
        exact (hr x List.mem_cons_self p hp).symm
    rw [this, sub_self, zero_div]
  · refine le_trans (le_of_eq ?_) e2
    rw [hd]
    congr 3
    rw [List.length_flatten, List.map_map]
    refine congrArg (fun z : ℕ => (z : ℝ) * (unmaskedCount mask : ℝ)) (congrArg List.sum ?_)
    refine List.map_congr_left fun s _ => ?_
    simp

/-! ### Simulated data -/

variable {n m a b N k : ℕ} [NeZero n] [NeZero m] [NeZero a] [NeZero b]

/-- All predictions of a model have one shape. -/
theorem forward_shape (M : Fancy n m a b N k) (idx : Fin N) (t : Fin 3 → ℝ) (Q : Img ℝ) (hQ : M.forward idx t = .ok Q) :
    Q.h = (if M.oversampling ≠ 1 then a / M.oversampling else a) ∧
    Q.w = (if M.oversampling ≠ 1 then b / M.oversampling else b) := by
  unfold Fancy.forward at hQ
  split_ifs at hQ
  cases hw : objWindow a b M.transmission ⌊M.pixTrans idx t 0⌋ ⌊M.pixTrans idx t 1⌋ with
  | error e => simp only [hw] at hQ; cases hQ
  | ok sel =>
    simp only [hw, Except.map] at hQ
    obtain rfl := Except.ok.inj hQ
    unfold measQuadratic readOut saturate cutSlice binPixels sumModes
    dsimp only
    cases M.qe <;> cases M.saturation <;> by_cases ho : M.oversampling = 1 <;>
      simp [Img.zip, Img.map, ho, Img.avgPool, Img.sumPool]

/-- The predictions of a model with non-negative efficiencies and saturation are non-negative. -/
theorem forward_nonneg (M : Fancy n m a b N k) (hq : ∀ q, M.qe = some q → ∀ i j, 0 ≤ q.px i j)
    (hsat : ∀ s, M.saturation = some s → 0 ≤ s) (idx : Fin N) (t : Fin 3 → ℝ) (Q : Img ℝ) (hQ : M.forward idx t = .ok Q)
    (i j : ℕ) : 0 ≤ Q.px i j := by
  unfold Fancy.forward at hQ
  split_ifs at hQ
  cases hw : objWindow a b M.transmission ⌊M.pixTrans idx t 0⌋ ⌊M.pixTrans idx t 1⌋ with
  | error e => simp only [hw] at hQ; cases hQ
  | ok sel =>
    simp only [hw, Except.map] at hQ
    obtain rfl := Except.ok.inj hQ
    generalize hA : sumModes a b _ = A
    have hA0 : ∀ i j, 0 ≤ A.px i j := by
      intro i j
      rw [← hA]
      unfold sumModes
      refine List.sum_nonneg fun x hx => ?_
      obtain ⟨ψ, -, rfl⟩ := List.mem_map.1 hx
      positivity
    have hb := binPixels_nonneg M.oversampling A hA0
    unfold measQuadratic
    cases hs : M.saturation with
    | some s => exact saturate_nonneg s (hsat s hs) _ i j
    | none =>
      unfold readOut saturate cutSlice
      dsimp only
      cases hqe : M.qe with
      | none =>
        simp only [Img.zip, Img.map]
        have := hb i j
        positivity
      | some q =>
        simp only [Img.zip, Img.map]
        have := hb i j
        have := hq q hqe i j
        positivity

/-- **C88** for `FancyPtycho`: let `sim_to_dataset` simulate data from a model `M`. On any division of any selection of its
exposures into minibatches, with any mask and calculation width, `M` has recorded loss zero for the three losses; and any
models `M'` of the same detector shape (one for every minibatch), with or without other modes, object size or corrections,
record a loss which for amplitudes and intensities is not lower. -/
theorem simulated_data_truth (M : Fancy n m a b N k) (hq : ∀ q, M.qe = some q → ∀ i j, 0 ≤ q.px i j)
    (hsat : ∀ s, M.saturation = some s → 0 ≤ s) (indices : List (Fin N)) (translations : List (Fin 3 → ℝ))
    (hlen : indices.length = translations.length) (hne : indices ≠ []) (fragment : Option ℤ)
    (hf : ∀ f, fragment = some f → 0 < f) (ps : List (Img ℝ)) (hps : simPatterns M.forward indices translations fragment = .ok ps)
    (p0 : Img ℝ) (hp0 : p0 ∈ ps) (mask : Option (Fin p0.h × Fin p0.w → Bool)) (hm : 0 < unmaskedCount mask)
    (width : ℕ) (hw : 1 ≤ width) (batches : List (List (DataShot (Fin N) (Fin 3 → ℝ)))) (hb : ∃ B ∈ batches, B ≠ [])
    (hB : ∀ B ∈ batches, ∀ e ∈ B, ∃ (j : ℕ) (h1 : j < indices.length) (h2 : j < translations.length) (h3 : j < ps.length),
      e = ⟨indices[j], translations[j], ps[j]⟩) :
    (∀ kind : LossKind, kind.recorded p0.h p0.w mask width (batches.map fun B => (M.forward, B)) = .ok 0) ∧
    (∀ (kind : LossKind) (S : List ((Fin N → (Fin 3 → ℝ) → Except String (Img ℝ)) × List (DataShot (Fin N) (Fin 3 → ℝ)))),
      kind ≠ .poissonNll → S.map (·.2) = batches → CanSimulate p0.h p0.w S →
      (∀ s ∈ S, ∀ e ∈ s.2, ∀ Q, s.1 e.index e.translation = .ok Q → ∀ i j, 0 ≤ Q.px i j) →
      ∃ r, kind.recorded p0.h p0.w mask width S = .ok r ∧ 0 ≤ r ∧ (r = 0 ↔ Reproduces mask S)) := by
  obtain ⟨hl, hpat⟩ := sim_to_dataset_patterns M indices translations hlen hne fragment hf ps hps
  have hfor : ∀ B ∈ batches, ∀ e ∈ B, M.forward e.index e.translation = .ok e.pattern := by
    intro B hBm e he
    obtain ⟨j, h1, h2, h3, rfl⟩ := hB B hBm e he
    exact hpat j h1 h2 h3
  have hshape : ∀ e : DataShot (Fin N) (Fin 3 → ℝ), M.forward e.index e.translation = .ok e.pattern →
      e.pattern.h = p0.h ∧ e.pattern.w = p0.w := by
    intro e he
    obtain ⟨j, hj, rfl⟩ := List.mem_iff_getElem.1 hp0
    have h1 : j < indices.length := by omega
    have h2 : j < translations.length := by omega
    have s1 := forward_shape M _ _ _ he
    have s2 := forward_shape M _ _ _ (hpat j h1 h2 hj)
    exact ⟨s1.1.trans s2.1.symm, s1.2.trans s2.2.symm⟩
  have hT : CanSimulate p0.h p0.w (batches.map fun B => (M.forward, B)) := by
    intro s hs e he
    obtain ⟨B, hBm, rfl⟩ := List.mem_map.1 hs
    exact ⟨_, hfor B hBm e he, hshape e (hfor B hBm e he)⟩
  have hTn : NonnegIntensities p0.h p0.w (batches.map fun B => (M.forward, B)) := by
    intro s hs e he p
    obtain ⟨B, hBm, rfl⟩ := List.mem_map.1 hs
    exact ⟨forward_nonneg M hq hsat _ _ _ (hfor B hBm e he) _ _, fun Q hQ => forward_nonneg M hq hsat _ _ Q hQ _ _⟩
  have hTr : Reproduces mask (batches.map fun B => (M.forward, B)) := by
    intro s hs e he Q hQ p _
    obtain ⟨B, hBm, rfl⟩ := List.mem_map.1 hs
    have := hfor B hBm e he
    rw [show (M.forward, B).1 = M.forward from rfl, this] at hQ
    rw [Except.ok.inj hQ]
  have hTe : ∃ s ∈ batches.map fun B => (M.forward, B), s.2 ≠ [] := by
    obtain ⟨B, hBm, hBn⟩ := hb
    exact ⟨_, List.mem_map.2 ⟨B, hBm, rfl⟩, hBn⟩
  constructor
  · intro kind
    by_cases hk : kind = .poissonNll
    · subst hk
      obtain ⟨r, h1, h2, -⟩ := recorded_poisson_truth mask width hw _ hT hTn
      rw [h1, h2 hTr]
    · obtain ⟨r, h1, -, h2⟩ := recorded_loss_zero_iff kind hk mask hm width hw _ hTe hT hTn
      rw [h1, h2.2 hTr]
  · intro kind S hk hSb hS hSn
    refine recorded_loss_zero_iff kind hk mask hm width hw S ?_ hS ?_
    · obtain ⟨B, hBm, hBn⟩ := hb
      rw [← hSb] at hBm
      obtain ⟨s, hs, rfl⟩ := List.mem_map.1 hBm
      exact ⟨s, hs, hBn⟩
    · intro s hs e he p
      have hBm : s.2 ∈ batches := by rw [← hSb]; exact List.mem_map.2 ⟨s, hs, rfl⟩
      exact ⟨forward_nonneg M hq hsat _ _ _ (hfor _ hBm e he) _ _, fun Q hQ => hSn s hs e he Q hQ _ _⟩

/-! ### Gradients -/

section gradient
variable {κ : Type} [Fintype κ]

theorem hasDerivAt_batchSum (mask : Option (κ → Bool)) (f : ℝ → ℝ → ℝ) (g : ℝ → ℝ) (θ : ℝ)
    (b : List ((κ → ℝ) × (ℝ → κ → ℝ) × (κ → ℝ)))
    (hd : ∀ x ∈ b, ∀ p, Unmasked mask p → HasDerivAt (fun s => f (x.1 p) (x.2.1 s p)) (g (x.1 p) * x.2.2 p) θ) :
    HasDerivAt (fun s => batchSum mask f (b.map fun x => (x.1, x.2.1 s)))
      (b.map fun x => ∑ p ∈ selectedPixels mask, g (x.1 p) * x.2.2 p).sum θ := by
  induction b with
  | nil =>
    simp only [batchSum, List.map_nil, List.sum_nil]
    exact hasDerivAt_const θ 0
  | cons x b ih =>
    have e : (fun s => batchSum mask f ((x :: b).map fun x => (x.1, x.2.1 s))) =
        fun s => (∑ p ∈ selectedPixels mask, f (x.1 p) (x.2.1 s p)) + batchSum mask f (b.map fun x => (x.1, x.2.1 s)) := by
      funext s; simp [batchSum]
    rw [e, List.map_cons, List.sum_cons]
    refine HasDerivAt.add ?_ (ih fun y hy => hd y (List.mem_cons_of_mem _ hy))
    exact HasDerivAt.fun_sum fun p hp => hd x List.mem_cons_self p ((mem_selected _ _).1 hp)

/-- **C88** (gradient): let the simulated patterns of a minibatch depend differentiably on a parameter `s`, and agree with the
data, on the unmasked pixels, at `s = θ`. Then the derivative of the intensity loss at `θ` is zero; that of the amplitude
loss too if the intensities are positive there; that of the Poisson loss with `eps` is the sum of `eps / (data + eps)` times
the derivatives of the unmasked pixels, thus not zero. A triple is: data, simulation, derivatives of the pixels. -/
theorem gradient_at_truth (mask : Option (κ → Bool)) (θ eps : ℝ) (he : 0 < eps)
    (b : List ((κ → ℝ) × (ℝ → κ → ℝ) × (κ → ℝ)))
    (hd : ∀ x ∈ b, ∀ p, Unmasked mask p → HasDerivAt (fun s => x.2.1 s p) (x.2.2 p) θ)
    (ht : ∀ x ∈ b, ∀ p, Unmasked mask p → x.2.1 θ p = x.1 p) (h0 : ∀ x ∈ b, ∀ p, Unmasked mask p → 0 ≤ x.1 p) :
    HasDerivAt (fun s => intensityMse mask true (b.map fun x => (x.1, x.2.1 s))) 0 θ ∧
    ((∀ x ∈ b, ∀ p, Unmasked mask p → 0 < x.1 p) →
      HasDerivAt (fun s => amplitudeMse mask true (b.map fun x => (x.1, x.2.1 s))) 0 θ) ∧
    HasDerivAt (fun s => poissonNll mask eps false (b.map fun x => (x.1, x.2.1 s)))
      (b.map fun x => ∑ p ∈ selectedPixels mask, eps / (x.1 p + eps) * x.2.2 p).sum θ := by
  have zero : ∀ b : List ((κ → ℝ) × (ℝ → κ → ℝ) × (κ → ℝ)), (b.map fun x => ∑ p ∈ selectedPixels mask, (0 : ℝ) * x.2.2 p).sum = 0 := by
    intro b; simp
  refine ⟨?_, fun hpos => ?_, ?_⟩
  · simp only [intensityMse, if_true]
    rw [← zero b]
    refine hasDerivAt_batchSum mask (fun i s => (s - i) ^ 2) (fun _ => 0) θ b fun x hx p hp => ?_
    have := ((hd x hx p hp).sub_const (x.1 p)).fun_pow 2
    rw [ht x hx p hp] at this
    simpa using this
  · simp only [amplitudeMse, if_true]
    rw [← zero b]
    refine hasDerivAt_batchSum mask (fun i s => (Real.sqrt s - Real.sqrt i) ^ 2) (fun _ => 0) θ b fun x hx p hp => ?_
    have hne : x.2.1 θ p ≠ 0 := by rw [ht x hx p hp]; exact (hpos x hx p hp).ne'
    have := (((hd x hx p hp).sqrt hne).sub_const (Real.sqrt (x.1 p))).fun_pow 2
    rw [ht x hx p hp] at this
    simpa using this
  · simp only [poissonNll, Bool.false_eq_true, if_false]
    refine hasDerivAt_batchSum mask (fun i s => s + eps - xlogy i (s + eps)) (fun i => eps / (i + eps)) θ b fun x hx p hp => ?_
    simp only [xlogy_eq]
    have hpos : x.2.1 θ p + eps ≠ 0 := by
      rw [ht x hx p hp]
      have := h0 x hx p hp
      positivity
    have h1 := (hd x hx p hp).add_const eps
    have h2 := h1.sub ((h1.log hpos).const_mul (x.1 p))
    refine h2.congr_deriv ?_
    rw [ht x hx p hp] at hpos ⊢
    field_simp
    ring

end gradient

/-! ### Non-vacuity -/

theorem toyFancy_forward (i : Fin 2) : ∃ Q, toyFancy.forward i 0 = .ok Q := by
  have hp : toyFancy.pixTrans i 0 = ![3 / 2, 5 / 4] := by
    unfold Fancy.pixTrans
    simp only [toyFancy, translationsToPixel, Matrix.mulVec_zero]
    funext j; fin_cases j <;> simp <;> norm_num
  unfold Fancy.forward
  rw [if_neg (by simp [toyFancy])]
  dsimp only
  rw [hp]
  have f0 : ⌊(![3 / 2, 5 / 4] : Fin 2 → ℝ) 0⌋ = 1 := by norm_num [Int.floor_eq_iff]
  have f1 : ⌊(![3 / 2, 5 / 4] : Fin 2 → ℝ) 1⌋ = 1 := by norm_num [Int.floor_eq_iff]
  rw [f0, f1, objWindow_inside]
  · exact ⟨_, rfl⟩
  all_goals simp [toyFancy, Fancy.transmission]

/-- Data of two exposures simulated from `toyFancy`, in two minibatches: all hypotheses of `simulated_data_truth` hold. -/
example : ∃ ps : List (Img ℝ), simPatterns toyFancy.forward [0, 1] [0, 0] none = .ok ps ∧ (∃ p0, p0 ∈ ps ∧ p0.h = 2 ∧ p0.w = 2 ∧
    0 < unmaskedCount (none : Option (Fin p0.h × Fin p0.w → Bool))) := by
  obtain ⟨Q0, h0⟩ := toyFancy_forward 0
  obtain ⟨Q1, h1⟩ := toyFancy_forward 1
  have s0 := forward_shape _ _ _ _ h0
  simp [toyFancy] at s0
  refine ⟨[Q0, Q1], ?_, Q0, by simp, s0.1, s0.2, ?_⟩
  · rw [sim_to_dataset_in_order _ _ _ (by rfl) (by simp) _ (by rintro w h; cases h)]
    simp only [List.zipWith_cons_cons, List.zipWith_nil_left, h0, h1, List.mapM_cons, List.mapM_nil, id]
    rfl
  · classical
    unfold unmaskedCount
    refine Finset.card_pos.2 ?_
    refine ⟨(⟨0, by omega⟩, ⟨0, by omega⟩), ?_⟩
    exact Finset.mem_filter.2 ⟨Finset.mem_univ _, fun m hm => by cases hm⟩

/-- A batch and a path of simulations that meet the hypotheses of `gradient_at_truth`. -/
example : ∃ b : List ((Fin 1 → ℝ) × (ℝ → Fin 1 → ℝ) × (Fin 1 → ℝ)), b ≠ [] ∧
    (∀ x ∈ b, ∀ p, HasDerivAt (fun s => x.2.1 s p) (x.2.2 p) 2) ∧ (∀ x ∈ b, ∀ p, x.2.1 2 p = x.1 p ∧ 0 < x.1 p) := by
  refine ⟨[(fun _ => 4, fun s _ => s ^ 2, fun _ => 4)], by simp, ?_, ?_⟩
  · intro x hx p
    simp only [List.mem_singleton] at hx
    subst hx
    have := hasDerivAt_pow 2 (2 : ℝ)
    norm_num at this
    exact this
  · intro x hx p
    simp only [List.mem_singleton] at hx
    subst hx
    norm_num

end Cdtools
