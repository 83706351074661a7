/- Linearity of the operations of the forward model in the probe. -/
import Verif.Model.FancyPtycho
import Verif.Props.Propagators
import Verif.Props.Modes

set_option linter.unusedSectionVars false

namespace Cdtools
open Finset Matrix

variable {n m a b N k : ℕ} [NeZero n] [NeZero m] [NeZero a] [NeZero b]

theorem isLinear_fft2 : IsLinearMap ℂ (fft2 : Wave n m → Wave n m) := by
  constructor
  · intro p q; funext x y
    simp only [fft2, Pi.add_apply, mul_add, add_mul, sum_add_distrib]
  · intro c p; funext x y
    simp only [fft2, Pi.smul_apply, smul_eq_mul, mul_sum]
    refine sum_congr rfl fun i _ => sum_congr rfl fun j _ => by ring

theorem isLinear_ifft2 : IsLinearMap ℂ (ifft2 : Wave n m → Wave n m) := by
  constructor
  · intro p q; funext x y
    simp only [ifft2, Pi.add_apply, mul_add, add_mul, sum_add_distrib, add_div]
  · intro c p; funext x y
    simp only [ifft2, Pi.smul_apply, smul_eq_mul, mul_sum, mul_div_assoc', mul_left_comm]

theorem isLinear_fftshift2 : IsLinearMap ℂ (fftshift2 : Wave n m → Wave n m) := ⟨fun _ _ => rfl, fun _ _ => rfl⟩

theorem isLinear_ifftshift2 : IsLinearMap ℂ (ifftshift2 : Wave n m → Wave n m) := ⟨fun _ _ => rfl, fun _ _ => rfl⟩

theorem isLinear_mulRight (w : Wave n m) : IsLinearMap ℂ (fun p : Wave n m => (fun x y => p x y * w x y : Wave n m)) := by
  constructor
  · intro p q; funext x y; simp only [Pi.add_apply, add_mul]
  · intro c p; funext x y; simp only [Pi.smul_apply, smul_eq_mul]; ring

theorem isLinear_mulLeft (c : ℂ) : IsLinearMap ℂ (fun p : Wave n m => (fun x y => c * p x y : Wave n m)) := by
  constructor
  · intro p q; funext x y; simp only [Pi.add_apply, mul_add]
  · intro d p; funext x y; simp only [Pi.smul_apply, smul_eq_mul]; ring

theorem isLinear_comp {α β γ : Type} [AddCommMonoid α] [AddCommMonoid β] [AddCommMonoid γ] [Module ℂ α]
    [Module ℂ β] [Module ℂ γ] {f : β → γ} {g : α → β} (hf : IsLinearMap ℂ f) (hg : IsLinearMap ℂ g) :
    IsLinearMap ℂ fun x => f (g x) :=
  ((hf.mk' f).comp (hg.mk' g)).isLinear

theorem isLinear_mulRight' (w : Wave n m) :
    IsLinearMap ℂ (fun p : Wave n m => (fun x y => w x y * p x y : Wave n m)) := by
  constructor
  · intro p q; funext x y; simp only [Pi.add_apply, mul_add]
  · intro c p; funext x y; simp only [Pi.smul_apply, smul_eq_mul]; ring

theorem isLinear_farField : IsLinearMap ℂ (farField : Wave n m → Wave n m) := by
  have h : IsLinearMap ℂ fun p : Wave n m =>
      fftshift2 (fun x y => fft2 (ifftshift2 p) x y * ((Real.sqrt (n * m) : ℂ))⁻¹ : Wave n m) :=
    isLinear_comp isLinear_fftshift2 (isLinear_comp (isLinear_mulRight fun _ _ => ((Real.sqrt (n * m) : ℂ))⁻¹)
      (isLinear_comp isLinear_fft2 isLinear_ifftshift2))
  exact h

theorem isLinear_inverseFarField : IsLinearMap ℂ (inverseFarField : Wave n m → Wave n m) := by
  have h := isLinear_comp isLinear_fftshift2 (isLinear_comp (isLinear_mulRight (n := n) (m := m) fun _ _ => (Real.sqrt (n * m) : ℂ))
      (isLinear_comp isLinear_ifft2 isLinear_ifftshift2))
  exact h

theorem isLinear_nearField (q : Wave n m) : IsLinearMap ℂ (nearField q) := by
  have h := isLinear_comp isLinear_ifft2 (isLinear_comp (isLinear_mulRight' q) isLinear_fft2)
  exact h

theorem isLinear_sincApply (sb : Bool) (tr : ℝ × ℝ) (sel : Wave n m) : IsLinearMap ℂ (sincApply sb tr sel) := by
  have h1 := isLinear_comp (isLinear_mulRight sel) (isLinear_comp isLinear_ifft2 (isLinear_comp isLinear_ifftshift2
      (isLinear_comp (isLinear_mulRight (phaseMask (n := n) (m := m) (tr.1 - ⌊tr.1⌋) (tr.2 - ⌊tr.2⌋)))
        (isLinear_comp isLinear_fftshift2 isLinear_fft2))))
  cases sb
  · exact h1
  · have h2 := isLinear_comp isLinear_ifft2 (isLinear_comp isLinear_ifftshift2
      (isLinear_comp (isLinear_mulRight fun x y => (starRingEnd ℂ) (phaseMask (n := n) (m := m) (tr.1 - ⌊tr.1⌋) (tr.2 - ⌊tr.2⌋) x y))
        (isLinear_comp isLinear_fftshift2 (isLinear_comp isLinear_fft2 h1))))
    exact h2

theorem isLinear_padProbe : IsLinearMap ℂ (padProbe a b : Wave n m → Wave a b) := by
  suffices h : IsLinearMap ℂ fun p : Wave n m => (fun x y =>
    if (a - n) / 2 ≤ x.val ∧ x.val < (a - n) / 2 + n ∧ (b - m) / 2 ≤ y.val ∧ y.val < (b - m) / 2 + m then
      farField p ((x.val - (a - n) / 2 : ℕ) : ZMod n) ((y.val - (b - m) / 2 : ℕ) : ZMod m) else 0 : Wave a b) by
    have h2 := isLinear_comp isLinear_inverseFarField h
    exact h2
  constructor
  · intro p q; funext x y
    simp only [Pi.add_apply, isLinear_farField.map_add]
    split_ifs <;> simp
  · intro c p; funext x y
    simp only [Pi.smul_apply, isLinear_farField.map_smul]
    split_ifs <;> simp

/-- The basis probe that one stored array gives. -/
noncomputable def Fancy.realSpace (M : Fancy n m a b N k) (p : Wave n m) : Wave n m :=
  let q : Wave n m := fun x y => p x y * (if M.support x y then 1 else 0)
  if M.fourierProbe then inverseFarField q else q

theorem Fancy.basisProbes_eq (M : Fancy n m a b N k) (j : Fin k) : M.basisProbes j = M.realSpace (M.probe j) := rfl

theorem Fancy.isLinear_realSpace (M : Fancy n m a b N k) : IsLinearMap ℂ M.realSpace := by
  unfold Fancy.realSpace
  cases M.fourierProbe
  · exact isLinear_mulRight _
  · exact isLinear_comp isLinear_inverseFarField (isLinear_mulRight _)

theorem Fancy.isLinear_toDetector (M : Fancy n m a b N k) (idx : Fin N) (t : Fin 3 → ℝ) (sel : Wave a b) :
    IsLinearMap ℂ (M.toDetector idx t sel) := by
  have hp : IsLinearMap ℂ M.propagate := by
    unfold Fancy.propagate
    cases M.nearField
    · exact isLinear_farField
    · exact isLinear_nearField _
  have h := isLinear_comp hp (isLinear_comp (isLinear_mulLeft (M.probeNorm : ℂ))
    (isLinear_comp (isLinear_sincApply M.nearField (M.pixTrans idx t 0, M.pixTrans idx t 1) sel)
      (isLinear_comp isLinear_padProbe (isLinear_mulRight (M.ramp idx t)))))
  exact h

/-- A linear map commutes with the weighted sums of the modes. -/
theorem isLinear_sum {L : Wave n m → Wave a b} (hL : IsLinearMap ℂ L) {ι : Type} (s : Finset ι) (c : ι → ℂ)
    (P : ι → Wave n m) : L (fun x y => ∑ j ∈ s, c j * P j x y) = fun x y => ∑ j ∈ s, c j * L (P j) x y := by
  have h1 : (fun x y => ∑ j ∈ s, c j * P j x y : Wave n m) = ∑ j ∈ s, c j • P j := by
    funext x y; simp [Finset.sum_apply]
  rw [h1]
  have := map_sum (hL.mk' L) (fun j => c j • P j) s
  simp only [IsLinearMap.mk'_apply] at this
  rw [this]
  funext x y
  simp [Finset.sum_apply, hL.map_smul]

theorem flatten2_unflatten2 (P : Matrix (Fin k) (Fin (n * m)) ℂ) : flatten2 (unflatten2 P : Fin k → Wave n m) = P := by
  ext i x
  simp [flatten2, unflatten2]

theorem unflatten2_flatten2 (P : Fin k → Wave n m) : unflatten2 (flatten2 P) = P := by
  funext i x y
  simp [flatten2, unflatten2]

theorem sum_flat {M : Type} [AddCommMonoid M] (f : ZMod n → ZMod m → M) :
    ∑ s : Fin (n * m), f ((flat n m).symm s).1 ((flat n m).symm s).2 = ∑ x, ∑ y, f x y := by
  rw [← Fintype.sum_prod_type', ← Equiv.sum_comp (flat n m).symm]

/-- The intensity behind a linear map depends on the modes through their mutual coherence only. -/
theorem sum_modes_of_coherence {L : Wave n m → Wave a b} (hL : IsLinearMap ℂ L) {k k' : ℕ}
    {P : Fin k → Wave n m} {Q : Fin k' → Wave n m}
    (h : mutualCoherence (flatten2 P) = mutualCoherence (flatten2 Q)) (x : ZMod a) (y : ZMod b) :
    ∑ i, ‖L (P i) x y‖ ^ 2 = ∑ i, ‖L (Q i) x y‖ ^ 2 := by
  classical
  let δ : Fin (n * m) → Wave n m := fun s u v => if flat n m (u, v) = s then 1 else 0
  let T : Matrix (Fin 1) (Fin (n * m)) ℂ := Matrix.of fun _ s => L (δ s) x y
  have key : ∀ p : Wave n m, L p x y = ∑ s, T 0 s * p ((flat n m).symm s).1 ((flat n m).symm s).2 := by
    intro p
    have hp : p = fun u v => ∑ s, p ((flat n m).symm s).1 ((flat n m).symm s).2 * δ s u v := by
      funext u v
      simp only [δ, mul_ite, mul_one, mul_zero]
      rw [Finset.sum_ite_eq]
      simp
    conv_lhs => rw [hp]
    rw [isLinear_sum hL]
    exact sum_congr rfl fun s _ => mul_comm _ _
  have := congrFun (measured_of_coherence T h) 0
  unfold measured at this
  simpa only [key, flatten2, Matrix.of_apply] using this

end Cdtools
