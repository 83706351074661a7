/-
C72: the forward model of `RPI` (`models/rpi.py:487-570`).
-/
import Verif.Model.RpiModel
import Verif.Lemmas.FancyLinear
import Verif.Props.Rpi
import Verif.Props.Measurements

set_option linter.unusedSectionVars false

namespace Cdtools
open Finset Matrix

variable {n m a b k l : ℕ} [NeZero n] [NeZero m] [NeZero a] [NeZero b]

/-! ### Specification -/

/-- The intensity on the detector: the sum over all probe modes and all object modes of the squared modulus of the far
field of (probe mode) × (upsampled object mode within the support). -/
noncomputable def rpiIntensity (probes : Fin k → Wave n m) (objs : Fin l → Wave a b) (x : ZMod n) (y : ZMod m) : ℝ :=
  ∑ i, ∑ o, ‖farField (fun u v => probes i u v * rpiUpsample n m (objs o) u v) x y‖ ^ 2

/-- The illuminated part of the object. -/
noncomputable def Rpi.visible (M : Rpi n m a b k l) (o : Fin l) : Wave a b := fun x y =>
  (M.support x y : ℂ) * M.transmission o x y

/-- Two models with the same detector settings. -/
def SameDetector (M : Rpi n m a b k l) {k' l' : ℕ} {a' b' : ℕ} (M' : Rpi n m a' b' k' l') : Prop :=
  M'.background = M.background ∧ M'.saturation = M.saturation ∧ M'.oversampling = M.oversampling

/-! ### Lemmas -/

theorem flatten_ofFn_sum {α : Type} (f : Fin k → Fin l → α) (g : α → ℝ) :
    ((List.ofFn fun i => List.ofFn fun o => f i o).flatten.map g).sum = ∑ i, ∑ o, g (f i o) := by
  rw [List.map_flatten, List.sum_flatten, List.map_map, List.map_ofFn, List.sum_ofFn]
  refine sum_congr rfl fun i _ => ?_
  simp only [Function.comp_apply, List.map_ofFn, List.sum_ofFn]

theorem Rpi.sumModes_eq (M : Rpi n m a b k l) :
    sumModes n m (M.exitWaves.map fun w => fun x y => farField w x y) =
      ⟨n, m, fun x y => rpiIntensity M.mixedProbes M.visible x y⟩ := by
  unfold sumModes
  congr 1
  funext x y
  rw [List.map_map]
  unfold Rpi.exitWaves rpiIntensity
  rw [flatten_ofFn_sum]
  rfl

theorem Rpi.pattern_congr {a' b' : ℕ} [NeZero a'] [NeZero b'] {k' l' : ℕ} (M : Rpi n m a b k l)
    (M' : Rpi n m a' b' k' l') (hd : SameDetector M M')
    (h : ∀ x y, rpiIntensity M'.mixedProbes M'.visible x y = rpiIntensity M.mixedProbes M.visible x y) :
    M'.pattern = M.pattern := by
  unfold Rpi.pattern
  simp only [Rpi.sumModes_eq, h, hd.1, hd.2.1, hd.2.2]

theorem isLinear_rpiUpsample : IsLinearMap ℂ (rpiUpsample n m : Wave a b → Wave n m) := by
  have hpad : IsLinearMap ℂ fun X : Wave a b => (fun k l =>
      if n / 2 - a / 2 ≤ k.val ∧ k.val < n / 2 - a / 2 + a ∧ m / 2 - b / 2 ≤ l.val ∧ l.val < m / 2 - b / 2 + b then
        X ((k.val - (n / 2 - a / 2) : ℕ) : ZMod a) ((l.val - (m / 2 - b / 2) : ℕ) : ZMod b) else 0 : Wave n m) := by
    constructor
    · intro p q; funext x y; simp only [Pi.add_apply]; split_ifs <;> simp
    · intro c p; funext x y; simp only [Pi.smul_apply, smul_eq_mul]; split_ifs <;> simp
  have h := isLinear_comp (isLinear_mulLeft (n := n) (m := m) (Real.sqrt ((n * m : ℝ) / (a * b)) : ℂ))
    (isLinear_comp isLinear_inverseFarField (isLinear_comp hpad isLinear_farField))
  exact h

/-- A matrix with orthonormal columns preserves the sum of squares. -/
theorem isometry_sum_sq {r s : ℕ} (U : Matrix (Fin r) (Fin s) ℂ) (hU : Uᴴ * U = 1) (z : Fin s → ℂ) :
    ∑ i, ‖∑ j, U i j * z j‖ ^ 2 = ∑ j, ‖z j‖ ^ 2 := by
  have key : ∀ {t : ℕ} (w : Fin t → ℂ), ((∑ i, ‖w i‖ ^ 2 : ℝ) : ℂ) = star w ⬝ᵥ w := by
    intro t w
    rw [dotProduct, Complex.ofReal_sum]
    refine sum_congr rfl fun i _ => ?_
    rw [Pi.star_apply, Complex.star_def, ← Complex.normSq_eq_conj_mul_self, Complex.normSq_eq_norm_sq]
  have h1 := key (U.mulVec z)
  rw [star_mulVec, ← dotProduct_mulVec, mulVec_mulVec, hU, one_mulVec, ← key] at h1
  exact_mod_cast h1

/-! ### C72 -/

/-- **C72** (the model): when the background has the shape of the detector, `forward(i)` is, for every `i`, the
quadratic-background measurement (`measurement_in_range`, `oversampling_averages_blocks`) of the incoherent sum over all
pairs of a probe mode and an object mode; -/
theorem rpi_forward_pattern (M : Rpi n m a b k l) (i : ℕ) {h w : ℕ} (hh : (binPixels M.oversampling (⟨n, m, fun _ _ => 0⟩ : Img ℝ)).h = h)
    (hw : (binPixels M.oversampling (⟨n, m, fun _ _ => 0⟩ : Img ℝ)).w = w) (hb : M.background.h = h ∧ M.background.w = w) :
    ∃ p, M.forward (.one i) = .ok (.pattern p) ∧
      p.Same (measQuadratic { saturation := M.saturation, oversampling := M.oversampling } M.background none
        ⟨n, m, fun x y => rpiIntensity M.mixedProbes M.visible x y⟩) := by
  have hs : ∀ (A : Img ℝ), A.h = n → A.w = m → (binPixels M.oversampling A).h = h ∧ (binPixels M.oversampling A).w = w := by
    intro A h1 h2
    rw [← hh, ← hw]
    unfold binPixels
    split_ifs
    · exact ⟨by simp [Img.avgPool, h1], by simp [Img.avgPool, h2]⟩
    · exact ⟨h1, h2⟩
  set A : Img ℝ := ⟨n, m, fun x y => rpiIntensity M.mixedProbes M.visible x y⟩ with hA
  obtain ⟨h1, h2⟩ := hs A rfl rfl
  have hraw : (readOut { oversampling := M.oversampling } A).h = h ∧ (readOut { oversampling := M.oversampling } A).w = w := by
    simp only [readOut, saturate, cutSlice, Img.map]; exact ⟨h1, h2⟩
  unfold Rpi.forward Rpi.pattern
  simp only [Rpi.sumModes_eq]
  rw [← hA]
  unfold Img.bzip
  rw [hraw.1, hraw.2, hb.1, hb.2]
  simp only [bcDim, if_true]
  refine ⟨_, rfl, ?_⟩
  have hz : ∀ {x : ℕ} {y : ℕ}, x < y → (if y = 1 then 0 else x) = x := by
    intro x y hxy; split_ifs with hy <;> omega
  unfold measQuadratic Img.Same
  rcases M.saturation with _ | s
  · simp only [saturate, Img.zip, Except.map]
    refine ⟨hraw.1.symm, hraw.2.symm, fun x hx y hy => ?_⟩
    simp only [Img.bget, hraw.1, hraw.2, hb.1, hb.2, hz hx, hz hy]
  · simp only [saturate, Img.zip, Img.map, Except.map]
    refine ⟨hraw.1.symm, hraw.2.symm, fun x hx y hy => ?_⟩
    simp only [Img.bget, hraw.1, hraw.2, hb.1, hb.2, hz hx, hz hy]

/-- … and a list of `N` indices simulates `N` copies of it, whatever the indices are. (They come with an extra leading
axis of length one.) -/
theorem rpi_forward_batch (M : Rpi n m a b k l) (i : ℕ) :
    (∀ j, M.forward (.one j) = M.forward (.one i)) ∧
    (∀ p, M.forward (.one i) = .ok (.pattern p) →
      ∀ is, M.forward (.many is) = .ok (.grid [List.replicate is.length p])) ∧
    (∀ e, M.forward (.one i) = .error e → ∀ is, M.forward (.many is) = .error e) := by
  unfold Rpi.forward
  rcases hp : M.pattern with e | q
  · simp [Except.map]
  · refine ⟨fun _ => rfl, fun p h is => ?_, fun e h => by simp [Except.map] at h⟩
    simp only [Except.map, Except.ok.injEq, RpiData.pattern.injEq] at h ⊢
    rw [h, List.map_const']

/-- Equal patterns mean equal simulations, for every index argument. -/
theorem Rpi.forward_congr {a' b' : ℕ} [NeZero a'] [NeZero b'] {k' l' : ℕ} (M : Rpi n m a b k l)
    (M' : Rpi n m a' b' k' l') (hd : SameDetector M M')
    (h : ∀ x y, rpiIntensity M'.mixedProbes M'.visible x y = rpiIntensity M.mixedProbes M.visible x y)
    (index : RpiIndex) : M'.forward index = M.forward index := by
  unfold Rpi.forward
  rw [M.pattern_congr M' hd h]

/-- **C72** (support): object pixels outside the support have no influence on any simulated pattern. -/
theorem rpi_support (M : Rpi n m a b k l) (obj' : Fin l → Wave a b)
    (h : ∀ o x y, M.support x y ≠ 0 → obj' o x y = M.obj o x y) (index : RpiIndex) :
    ({ M with obj := obj' } : Rpi n m a b k l).forward index = M.forward index := by
  refine M.forward_congr { M with obj := obj' } ⟨rfl, rfl, rfl⟩ (fun x y => ?_) index
  have : ({ M with obj := obj' } : Rpi n m a b k l).visible = M.visible := by
    funext o u v
    unfold Rpi.visible Rpi.transmission
    by_cases hs : M.support u v = 0
    · simp [hs]
    · simp only [h o u v hs]
  rw [this]
  rfl

theorem rpiIntensity_probes {k' : ℕ} (U : Matrix (Fin k') (Fin k) ℂ) (hU : Uᴴ * U = 1) (probes : Fin k → Wave n m)
    (objs : Fin l → Wave a b) (x : ZMod n) (y : ZMod m) :
    rpiIntensity (fun i u v => ∑ j, U i j * probes j u v) objs x y = rpiIntensity probes objs x y := by
  unfold rpiIntensity
  rw [sum_comm, sum_comm (s := univ) (t := univ) (f := fun i o =>
    ‖farField (fun u v => probes i u v * rpiUpsample n m (objs o) u v) x y‖ ^ 2)]
  refine sum_congr rfl fun o _ => ?_
  rw [← isometry_sum_sq U hU]
  refine sum_congr rfl fun i _ => ?_
  have hL := isLinear_sum (isLinear_comp isLinear_farField (isLinear_mulRight (rpiUpsample n m (objs o)))) univ (U i) probes
  rw [congrFun (congrFun hL x) y]

theorem rpiIntensity_objs {l' : ℕ} (V : Matrix (Fin l') (Fin l) ℂ) (hV : Vᴴ * V = 1) (probes : Fin k → Wave n m)
    (objs : Fin l → Wave a b) (x : ZMod n) (y : ZMod m) :
    rpiIntensity probes (fun i u v => ∑ j, V i j * objs j u v) x y = rpiIntensity probes objs x y := by
  unfold rpiIntensity
  refine sum_congr rfl fun i _ => ?_
  rw [← isometry_sum_sq V hV]
  refine sum_congr rfl fun o _ => ?_
  have hL := isLinear_sum (isLinear_comp isLinear_farField (isLinear_comp (isLinear_mulRight' (probes i))
    (isLinear_rpiUpsample (n := n) (m := m) (a := a) (b := b)))) univ (V o) objs
  rw [congrFun (congrFun hL x) y]

/-- **C72** (probe modes): multiplying the weight matrix from the left by a unitary matrix, which mixes the incoherent
probe modes, changes no pattern. -/
theorem rpi_weights_mixing (M : Rpi n m a b k l) (U : Matrix (Fin k) (Fin k) ℂ) (hU : Uᴴ * U = 1) (index : RpiIndex) :
    ({ M with weights := U * M.weights } : Rpi n m a b k l).forward index = M.forward index := by
  refine M.forward_congr { M with weights := U * M.weights } ⟨rfl, rfl, rfl⟩ (fun x y => ?_) index
  have : ({ M with weights := U * M.weights } : Rpi n m a b k l).mixedProbes =
      fun i u v => ∑ j, U i j * M.mixedProbes j u v := by
    funext i u v
    simp only [Rpi.mixedProbes, Matrix.mul_apply, sum_mul, mul_sum]
    rw [sum_comm]
    exact sum_congr rfl fun j _ => sum_congr rfl fun j' _ => by ring
  rw [this]
  exact rpiIntensity_probes U hU _ _ x y

/-- **C72** (object modes): so does mixing the incoherent object modes of a model that is not exponentiated by a matrix
with orthonormal columns (a unitary, or the addition of zero modes). -/
theorem rpi_object_mixing {l' : ℕ} (M : Rpi n m a b k l) (he : M.exponentiate = false) (V : Matrix (Fin l') (Fin l) ℂ)
    (hV : Vᴴ * V = 1) (index : RpiIndex) :
    (⟨M.probe, M.weights, fun i u v => ∑ j, V i j * M.obj j u v, M.support, false, M.phaseOnly, M.background,
      M.saturation, M.oversampling⟩ : Rpi n m a b k l').forward index = M.forward index := by
  set M' : Rpi n m a b k l' := ⟨M.probe, M.weights, fun i u v => ∑ j, V i j * M.obj j u v, M.support, false,
    M.phaseOnly, M.background, M.saturation, M.oversampling⟩ with hM
  refine M.forward_congr M' ⟨rfl, rfl, rfl⟩ (fun x y => ?_) index
  have : M'.visible = fun i u v => ∑ j, V i j * M.visible j u v := by
    funext i u v
    simp only [Rpi.visible, Rpi.transmission, hM, he, Bool.false_eq_true, if_false, mul_sum]
    exact sum_congr rfl fun j _ => by ring
  rw [this]
  exact rpiIntensity_objs V hV _ _ x y

/-- **C72** (scale): only the product of probe and object matters, up to a phase: multiplying the probe by `c` and a model
that is not exponentiated by `d` with `|c d| = 1` changes no pattern. -/
theorem rpi_scale_gauge (M : Rpi n m a b k l) (he : M.exponentiate = false) (c d : ℂ) (hcd : ‖c * d‖ = 1)
    (index : RpiIndex) :
    ({ M with probe := fun j u v => c * M.probe j u v, obj := fun o u v => d * M.obj o u v } : Rpi n m a b k l).forward
      index = M.forward index := by
  set M' : Rpi n m a b k l :=
    { M with probe := fun j u v => c * M.probe j u v, obj := fun o u v => d * M.obj o u v } with hM
  refine M.forward_congr M' ⟨rfl, rfl, rfl⟩ (fun x y => ?_) index
  unfold rpiIntensity
  refine sum_congr rfl fun i _ => sum_congr rfl fun o _ => ?_
  have h1 : M'.visible o = d • M.visible o := by
    funext u v
    simp only [Rpi.visible, Rpi.transmission, hM, he, Bool.false_eq_true, if_false, Pi.smul_apply, smul_eq_mul]
    ring
  have h2 : M'.mixedProbes i = fun u v => c * M.mixedProbes i u v := by
    funext u v
    simp only [Rpi.mixedProbes, hM, mul_sum]
    exact sum_congr rfl fun j _ => by ring
  rw [h1, h2, isLinear_rpiUpsample.map_smul]
  have h3 : (fun u v => c * M.mixedProbes i u v * (d • rpiUpsample n m (M.visible o)) u v) =
      (c * d) • fun u v => M.mixedProbes i u v * rpiUpsample n m (M.visible o) u v := by
    funext u v
    simp only [Pi.smul_apply, smul_eq_mul]
    ring
  rw [h3, isLinear_farField.map_smul]
  simp only [Pi.smul_apply, smul_eq_mul]
  rw [norm_mul, hcd, one_mul]

/-- **C72** (exponentiated objects): a real constant added to the object of an exponentiated model changes no pattern;
for a `phase_only` model the imaginary part of the object is irrelevant, and its transmission has modulus 1. -/
theorem rpi_exponentiated (M : Rpi n m a b k l) (he : M.exponentiate = true) (index : RpiIndex) :
    (∀ c : ℝ, ({ M with obj := fun o u v => M.obj o u v + c } : Rpi n m a b k l).forward index = M.forward index) ∧
    (M.phaseOnly = true →
      (∀ f : Fin l → ZMod a → ZMod b → ℝ, ({ M with obj := fun o u v => ((M.obj o u v).re : ℂ) + f o u v * Complex.I } :
        Rpi n m a b k l).forward index = M.forward index) ∧
      ∀ o u v, ‖M.transmission o u v‖ = 1) := by
  refine ⟨fun c => ?_, fun hp => ⟨fun f => ?_, fun o u v => ?_⟩⟩
  · set M' : Rpi n m a b k l := { M with obj := fun o u v => M.obj o u v + c } with hM
    refine M.forward_congr M' ⟨rfl, rfl, rfl⟩ (fun x y => ?_) index
    unfold rpiIntensity
    refine sum_congr rfl fun i _ => sum_congr rfl fun o _ => ?_
    have h1 : M'.visible o = Complex.exp (Complex.I * c) • M.visible o := by
      funext u v
      simp only [Rpi.visible, Rpi.transmission, hM, he, if_true, Pi.smul_apply, smul_eq_mul]
      split_ifs
      · rw [Complex.add_re, Complex.ofReal_re, Complex.ofReal_add, mul_add, Complex.exp_add]; ring
      · rw [mul_add, Complex.exp_add]; ring
    rw [h1, isLinear_rpiUpsample.map_smul]
    have h3 : (fun u v => M'.mixedProbes i u v * (Complex.exp (Complex.I * c) • rpiUpsample n m (M.visible o)) u v) =
        Complex.exp (Complex.I * c) • fun u v => M.mixedProbes i u v * rpiUpsample n m (M.visible o) u v := by
      funext u v
      simp only [Pi.smul_apply, smul_eq_mul, Rpi.mixedProbes, hM]
      ring
    rw [h3, isLinear_farField.map_smul]
    simp only [Pi.smul_apply, smul_eq_mul]
    rw [norm_mul, mul_comm Complex.I, Complex.norm_exp_ofReal_mul_I, one_mul]
  · refine M.forward_congr { M with obj := fun o u v => ((M.obj o u v).re : ℂ) + f o u v * Complex.I }
      ⟨rfl, rfl, rfl⟩ (fun x y => ?_) index
    have : ({ M with obj := fun o u v => ((M.obj o u v).re : ℂ) + f o u v * Complex.I } : Rpi n m a b k l).visible =
        M.visible := by
      funext o u v
      simp [Rpi.visible, Rpi.transmission, he, hp]
    rw [this]
    rfl
  · simp only [Rpi.transmission, he, hp, if_true]
    rw [mul_comm, Complex.norm_exp_ofReal_mul_I]

/-- **C72** (empty object): a fully transmitting object in full support lets the probe through: the intensity on the
detector is that of the far field of the probe modes, and its total is the power of the probe. -/
theorem rpi_uniform_object (M : Rpi n m a b k 1) (ha : a ≤ n) (hb : b ≤ m) (he : M.exponentiate = false)
    (hobj : ∀ u v, M.obj 0 u v = 1) (hs : ∀ u v, M.support u v = 1) (hw : M.weights = 1) :
    (∀ x y, rpiIntensity M.mixedProbes M.visible x y = ∑ i, ‖farField (M.probe i) x y‖ ^ 2) ∧
    ∑ x, ∑ y, rpiIntensity M.mixedProbes M.visible x y = ∑ i, power (M.probe i) := by
  have hv : M.visible 0 = fun _ _ => 1 := by
    funext u v
    simp [Rpi.visible, Rpi.transmission, he, hobj, hs]
  have hp : ∀ i, M.mixedProbes i = M.probe i := by
    intro i; funext u v
    simp [Rpi.mixedProbes, hw, Matrix.one_apply]
  have h1 : ∀ x y, rpiIntensity M.mixedProbes M.visible x y = ∑ i, ‖farField (M.probe i) x y‖ ^ 2 := by
    intro x y
    unfold rpiIntensity
    refine sum_congr rfl fun i _ => ?_
    rw [Fin.sum_univ_one, hv, (rpi_interaction_preserves ha hb fun _ _ => 1).2.2 1, hp]
    simp only [mul_one]
  refine ⟨h1, ?_⟩
  simp only [h1]
  have : ∀ i, power (M.probe i) = ∑ x, ∑ y, ‖farField (M.probe i) x y‖ ^ 2 := by
    intro i; rw [← far_field_unitary.2.2.1]; rfl
  simp only [this]
  rw [sum_comm (s := (univ : Finset (Fin k)))]
  refine sum_congr rfl fun x _ => ?_
  rw [sum_comm]

/-- **C72** (regularizer): with non-negative factors the penalty is non-negative, it vanishes with positive factors
exactly for a vanishing object, and several object modes need two factors. -/
theorem rpi_regularizer (M : Rpi n m a b k (l + 1)) (f0 f1 : ℝ) :
    (0 ≤ f0 → 0 ≤ f1 → ∃ r, M.regularizer [f0, f1] = .ok r ∧ 0 ≤ r) ∧
    (0 < f0 → 0 < f1 → (M.regularizer [f0, f1] = .ok 0 ↔ ∀ o x y, M.obj o x y = 0)) ∧
    ((∃ e, M.regularizer [f0] = .error e) ↔ l ≠ 0) := by
  have hp : ∀ o, 0 ≤ ∑ x, ∑ y, ‖M.obj o x y‖ ^ 2 := fun o => sum_nonneg fun _ _ => sum_nonneg fun _ _ => by positivity
  have hz : ∀ o, (∑ x, ∑ y, ‖M.obj o x y‖ ^ 2 = 0) ↔ ∀ x y, M.obj o x y = 0 := by
    intro o
    rw [sum_eq_zero_iff_of_nonneg fun _ _ => sum_nonneg fun _ _ => by positivity]
    refine ⟨fun h x y => ?_, fun h x _ => sum_eq_zero fun y _ => by simp [h]⟩
    have := (sum_eq_zero_iff_of_nonneg (fun _ _ => by positivity)).1 (h x (mem_univ x)) y (mem_univ y)
    simpa using this
  unfold Rpi.regularizer
  by_cases hl : l = 0
  · subst hl
    simp only [if_true, Except.ok.injEq]
    refine ⟨fun h0 _ => ⟨_, rfl, mul_nonneg h0 (hp 0)⟩, fun h0 _ => ?_, by simp⟩
    rw [mul_eq_zero, or_iff_right h0.ne', hz]
    refine ⟨fun h o => ?_, fun h => h 0⟩
    have e : o = 0 := Fin.ext (by omega)
    rw [e]; exact h
  · simp only [if_neg hl, Except.ok.injEq]
    have hq : 0 ≤ ∑ o : Fin l, ∑ x, ∑ y, ‖M.obj o.succ x y‖ ^ 2 := sum_nonneg fun o _ => hp o.succ
    refine ⟨fun h0 h1 => ⟨_, rfl, add_nonneg (mul_nonneg h0 (hp 0)) (mul_nonneg h1 hq)⟩, fun h0 h1 => ?_, by simp [hl]⟩
    rw [add_eq_zero_iff_of_nonneg (mul_nonneg h0.le (hp 0)) (mul_nonneg h1.le hq), mul_eq_zero, or_iff_right h0.ne',
      mul_eq_zero, or_iff_right h1.ne', hz, sum_eq_zero_iff_of_nonneg fun o _ => hp _]
    constructor
    · rintro ⟨h, h'⟩ o
      induction o using Fin.cases with
      | zero => exact h
      | succ o => exact (hz _).1 (h' o (mem_univ o))
    · intro h
      exact ⟨h 0, fun o _ => (hz _).2 (h _)⟩

/-! ### The hypotheses can be met -/

/-- Two probe modes on a 4 × 4 grid, two object modes on a 2 × 3 grid. -/
noncomputable def toyRpi (e p : Bool) : Rpi 4 4 2 3 2 2 where
  probe := fun i x y => (x.val : ℂ) + i.val * y.val * Complex.I
  weights := 1
  obj := fun o x y => o.val + x.val + y.val * Complex.I
  support := fun x _ => if x = 0 then 1 else 0
  exponentiate := e
  phaseOnly := p
  background := ⟨4, 4, fun _ _ => 1⟩
  saturation := some 100
  oversampling := 1

example : ∃ p, (toyRpi true true).forward (.many [5, 7]) = .ok (.grid [[p, p]]) := by
  obtain ⟨p, hp, -⟩ := rpi_forward_pattern (toyRpi true true) 0 (h := 4) (w := 4) (by simp [toyRpi, binPixels])
    (by simp [toyRpi, binPixels]) ⟨rfl, rfl⟩
  exact ⟨p, (rpi_forward_batch _ 0).2.1 p hp [5, 7]⟩

/-- A unitary matrix that is not diagonal. -/
example : ((!![0, 1; 1, 0] : Matrix (Fin 2) (Fin 2) ℂ)ᴴ * !![0, 1; 1, 0] = 1) := by
  ext i j; fin_cases i <;> fin_cases j <;> simp [Matrix.mul_apply, Fin.sum_univ_two]

end Cdtools
