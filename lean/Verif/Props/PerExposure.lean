/-
C84, continued: the per-exposure views of probes that are defined in Fourier space, amplitudes and phases together, and the
total intensities beside them.
-/
import Verif.Props.CenterProbes
import Verif.Props.TidyProbes
import Verif.Lemmas.FancyLinear

set_option linter.unusedSectionVars false
set_option linter.unusedSimpArgs false

namespace Cdtools
open Finset ZMod

variable {n m a b N k : ℕ} [NeZero n] [NeZero m] [NeZero a] [NeZero b]

/-- What is orthogonalized for the images: the light of the exposure at the sample, or its far field if the probe is
defined in Fourier space. -/
theorem variationProbes_eq {r : ℕ} (M : Fancy n m a b N k) (V : Fin N → Matrix (Fin r) (Fin k) ℂ) (idx : Fin N) (i : Fin r) :
    M.variationProbes V idx i =
      if M.fourierProbe then farField (shotProbes (.matrices r V) idx M.basisProbes i)
      else shotProbes (.matrices r V) idx M.basisProbes i := by
  by_cases hf : M.fourierProbe = true
  · rw [if_pos hf]
    have hs : shotProbes (.matrices r V) idx M.basisProbes i =
        ∑ j, V idx i j • inverseFarField (fun x y => M.probe j x y * (if M.support x y then 1 else 0)) := by
      funext x y
      rw [Finset.sum_apply, Finset.sum_apply]
      refine sum_congr rfl fun j _ => ?_
      simp only [Fancy.basisProbes, hf, if_true]
      rfl
    have hl := map_sum (IsLinearMap.mk' (farField : Wave n m → Wave n m) isLinear_farField)
      (fun j => V idx i j • inverseFarField (fun x y => M.probe j x y * (if M.support x y then 1 else 0))) univ
    rw [hs]
    refine Eq.trans ?_ hl.symm
    funext x y
    rw [Finset.sum_apply, Finset.sum_apply]
    refine sum_congr rfl fun j _ => ?_
    rw [_root_.map_smul, IsLinearMap.mk'_apply, far_field_unitary.2.1]
    rfl
  · rw [if_neg hf]
    funext x y
    simp only [Fancy.variationProbes, shotProbes, Fancy.basisProbes, hf]
    rfl

/-- **C84.** The amplitude and the phase images of an exposure together show its whole light field: the modes
`amplitude * exp(i phase)` have the mutual coherence of the light of the exposure between any two pixels - at the sample, or
in the far field if the probe is defined in Fourier space. For all linear algebra libraries, models, weight matrices,
exposures and pixels. -/
theorem wavefront_variation_coherence {r : ℕ} (la : LinAlg) (M : Fancy n m a b N k)
    (V : Fin N → Matrix (Fin r) (Fin k) ℂ) (hV : M.weights = .matrices r V) (idx : Fin N)
    (x x' : ZMod n) (y y' : ZMod m) :
    (∑ i, star (M.variationAmplitudes la V idx i x y * Complex.exp (M.variationPhases la V idx i x y * Complex.I)) *
        (M.variationAmplitudes la V idx i x' y' * Complex.exp (M.variationPhases la V idx i x' y' * Complex.I))) =
      ∑ i, star ((if M.fourierProbe then farField (shotProbes M.weights idx M.basisProbes i)
          else shotProbes M.weights idx M.basisProbes i) x y) *
        (if M.fourierProbe then farField (shotProbes M.weights idx M.basisProbes i)
          else shotProbes M.weights idx M.basisProbes i) x' y' := by
  have hc := (orthogonalize_probes_correct la (flatten2 (M.variationProbes V idx))).coherence (flat n m (x, y)) (flat n m (x', y'))
  have hk : ∀ i x y, (M.variationAmplitudes la V idx i x y : ℂ) * Complex.exp (M.variationPhases la V idx i x y * Complex.I) =
      (orthogonalizeProbes la (flatten2 (M.variationProbes V idx))).1 i (flat n m (x, y)) := by
    intro i x y
    exact Complex.norm_mul_exp_arg_mul_I _
  simp only [hk]
  rw [hV]
  simp only [← variationProbes_eq]
  have : ∀ i x y, flatten2 (M.variationProbes V idx) i (flat n m (x, y)) = M.variationProbes V idx i x y := by
    intro i x y; simp [flatten2]
  unfold mutualCoherence at hc
  simp only [this] at hc
  exact hc

theorem variation_values_power {r : ℕ} (P : Fin k → Wave n m) (V : Fin N → Matrix (Fin r) (Fin k) ℂ) (idx : Fin N) :
    variationValues P V idx = stackPower (shotProbes (.matrices r V) idx P) := by
  have hG : (Matrix.of fun u v => ∑ x, ∑ y, P u x y * (starRingEnd ℂ) (P v x y)) =
      flatten2 P * (flatten2 P).conjTranspose := by
    ext u v
    rw [← waveInner_eq]
    rfl
  have h2 : V idx * (flatten2 P * (flatten2 P).conjTranspose) * (V idx).conjTranspose =
      flatten2 (shotProbes (.matrices r V) idx P) * (flatten2 (shotProbes (.matrices r V) idx P)).conjTranspose := by
    rw [flatten2_shot_matrices, Matrix.conjTranspose_mul]
    simp only [Matrix.mul_assoc]
  unfold variationValues stackPower
  refine sum_congr rfl fun i _ => ?_
  have h3 := congrFun (congrFun h2 i) i
  rw [← waveInner_eq, ← power_eq_inner, ← hG] at h3
  rw [← Complex.ofReal_re (power _), ← h3]
  rfl

/-- **C84.** The numbers that `plot_wavefront_variation` shows beside the images, if the basis probes are dark outside the
support: for a multislice model the power of the light of the exposure at the sample, for `FancyPtycho` this power relative
to that of the basis probes; also for probes that are defined in Fourier space. -/
theorem wavefront_variation_values {r : ℕ} (M : Fancy n m a b N k) (V : Fin N → Matrix (Fin r) (Fin k) ℂ)
    (hV : M.weights = .matrices r V) (hd : ∀ j x y, M.support x y = false → M.probe j x y = 0) (idx : Fin N) :
    variationValues M.probe V idx = stackPower (shotProbes M.weights idx M.basisProbes) ∧
    (stackPower M.probe ≠ 0 → probeIntensities M.probe M.weights idx =
      stackPower (shotProbes M.weights idx M.basisProbes) / stackPower M.probe) := by
  have hb : ∀ i, M.variationProbes V idx i = shotProbes (.matrices r V) idx M.probe i := by
    intro i
    funext x y
    refine sum_congr rfl fun j _ => ?_
    by_cases h : M.support x y = true
    · rw [if_pos h, mul_one]
    · rw [hd j x y (by simpa using h), zero_mul]
  have hp : stackPower (shotProbes (.matrices r V) idx M.probe) = stackPower (shotProbes (.matrices r V) idx M.basisProbes) := by
    unfold stackPower
    refine sum_congr rfl fun i _ => ?_
    rw [← hb i, variationProbes_eq]
    split_ifs
    · exact far_field_unitary.2.2.1 _
    · rfl
  rw [hV]
  exact ⟨(variation_values_power _ V idx).trans hp, fun h => by rw [probe_intensities_correct _ _ _ h, hp]⟩

/-- **C84, violated part.** Light of the basis probes outside the support is counted although it never reaches the sample. -/
theorem wavefront_variation_support_violated :
    ∃ (M : Fancy 2 2 2 2 1 1) (V : Fin 1 → Matrix (Fin 1) (Fin 1) ℂ), M.weights = .matrices 1 V ∧
      stackPower (shotProbes M.weights 0 M.basisProbes) = 0 ∧ variationValues M.probe V 0 = 4 ∧
      probeIntensities M.probe M.weights 0 = 1 := by
  refine ⟨{
      probe := fun _ _ _ => 1, probeNorm := 1, support := fun _ _ => false, weights := .matrices 1 fun _ => 1,
      fourierProbe := false, obj := ⟨2, 2, fun _ _ => 1⟩, exponentiate := false, phaseOnly := false, nearField := false,
      propagator := fun _ _ => 1, objBasis := 0, detBasis := 0, normal := 0, minTranslation := 0, translationScale := 1,
      offsets := none, fourierShifts := none, simulateTranslation := false, oversampling := 1,
      background := ⟨2, 2, fun _ _ => 0⟩, qe := none, saturation := none }, fun _ => 1, rfl, ?_, ?_, ?_⟩
  · simp [stackPower, power, shotProbes, Fancy.basisProbes]
  · simp [variationValues, ZMod.card]
    norm_num
  · simp [probeIntensities, ZMod.card, Matrix.trace]

/-- Non-vacuity: two exposures with different mixtures of two modes that fill the support. -/
example : ∃ (M : Fancy 2 2 2 2 2 2) (V : Fin 2 → Matrix (Fin 1) (Fin 2) ℂ), M.weights = .matrices 1 V ∧ M.fourierProbe = true ∧
    (∀ j x y, M.support x y = false → M.probe j x y = 0) ∧ stackPower M.probe ≠ 0 ∧ V 0 ≠ V 1 := by
  refine ⟨{
      probe := fun j x y => if x = 0 then j.val + 1 else 0, probeNorm := 1, support := fun x _ => decide (x = 0),
      weights := .matrices 1 fun s => !![(s.val : ℂ), 1],
      fourierProbe := true, obj := ⟨2, 2, fun _ _ => 1⟩, exponentiate := false, phaseOnly := false, nearField := false,
      propagator := fun _ _ => 1, objBasis := 0, detBasis := 0, normal := 0, minTranslation := 0, translationScale := 1,
      offsets := none, fourierShifts := none, simulateTranslation := false, oversampling := 1,
      background := ⟨2, 2, fun _ _ => 0⟩, qe := none, saturation := none }, fun s => !![(s.val : ℂ), 1], rfl, rfl, ?_, ?_, ?_⟩
  · intro j x y h
    have : ¬ x = 0 := by simpa using h
    simp [this]
  · have hu : (univ : Finset (ZMod 2)) = {0, 1} := rfl
    have z01 : (0 : ZMod 2) ≠ 1 := by decide
    simp only [stackPower, power, Fin.sum_univ_two, hu, sum_pair z01]
    norm_num
  · intro h
    have := congrFun (congrFun h 0) 0
    simp at this

end Cdtools
