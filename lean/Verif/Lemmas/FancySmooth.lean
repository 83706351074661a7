/- Differentiability of the operations of the forward model. -/
import Verif.Lemmas.FancyLinear
import Mathlib.Analysis.Calculus.FDeriv.Add
import Mathlib.Analysis.Calculus.FDeriv.Mul
import Mathlib.Analysis.Calculus.FDeriv.Pi
import Mathlib.Analysis.InnerProductSpace.Calculus
import Mathlib.Analysis.SpecialFunctions.ExpDeriv
import Mathlib.Analysis.Complex.RealDeriv
import Mathlib.Topology.Algebra.Module.FiniteDimension

set_option linter.unusedSectionVars false

namespace Cdtools
open Finset Topology

variable {E : Type} [NormedAddCommGroup E] [NormedSpace ℝ E] {θ : E}
variable {n m a b N k : ℕ} [NeZero n] [NeZero m] [NeZero a] [NeZero b]

/-- Every sample of the wave field is differentiable in the parameters. -/
def DWave (w : E → Wave n m) (θ : E) : Prop := ∀ x y, DifferentiableAt ℝ (fun e => w e x y) θ

theorem DWave.const (w : Wave n m) : DWave (fun _ : E => w) θ := fun _ _ => differentiableAt_const _

theorem DWave.mul {v w : E → Wave n m} (hv : DWave v θ) (hw : DWave w θ) : DWave (fun e x y => v e x y * w e x y) θ :=
  fun x y => (hv x y).mul (hw x y)

theorem DWave.linear {L : Wave n m → Wave a b} (hL : IsLinearMap ℂ L) {w : E → Wave n m} (hw : DWave w θ) :
    DWave (fun e => L (w e)) θ := by
  have h1 : DifferentiableAt ℝ w θ := by
    rw [differentiableAt_pi]; intro x
    rw [differentiableAt_pi]; intro y
    exact hw x y
  let L' : Wave n m →L[ℝ] Wave a b := ((hL.mk' L).restrictScalars ℝ).toContinuousLinearMap
  have h2 : DifferentiableAt ℝ (fun e => L' (w e)) θ := L'.differentiableAt.comp θ h1
  intro x y
  exact differentiableAt_pi.1 (differentiableAt_pi.1 h2 x) y

theorem DWave.conj {w : E → Wave n m} (hw : DWave w θ) : DWave (fun e x y => (starRingEnd ℂ) (w e x y)) θ :=
  fun x y => (Complex.conjCLE.toContinuousLinearMap.differentiableAt (x := w θ x y)).comp θ (hw x y)

theorem diff_ofReal {f : E → ℝ} (hf : DifferentiableAt ℝ f θ) : DifferentiableAt ℝ (fun e => (f e : ℂ)) θ :=
  (Complex.ofRealCLM.differentiableAt (x := f θ)).comp θ hf

theorem diff_re {f : E → ℂ} (hf : DifferentiableAt ℝ f θ) : DifferentiableAt ℝ (fun e => (f e).re) θ :=
  (Complex.reCLM.differentiableAt (x := f θ)).comp θ hf

theorem diff_cexp {f : E → ℂ} (hf : DifferentiableAt ℝ f θ) : DifferentiableAt ℝ (fun e => Complex.exp (f e)) θ :=
  hf.cexp

theorem diff_normSq {f : E → ℂ} (hf : DifferentiableAt ℝ f θ) : DifferentiableAt ℝ (fun e => ‖f e‖ ^ 2) θ :=
  hf.norm_sq ℝ

theorem DWave.phaseMask {f g : E → ℝ} (hf : DifferentiableAt ℝ f θ) (hg : DifferentiableAt ℝ g θ) :
    DWave (fun e => (Cdtools.phaseMask (f e) (g e) : Wave n m)) θ := by
  intro x y
  unfold Cdtools.phaseMask
  refine diff_cexp (DifferentiableAt.const_mul ?_ _)
  have h1 : DifferentiableAt ℝ (fun e => (f e : ℂ)) θ := diff_ofReal hf
  have h2 : DifferentiableAt ℝ (fun e => (g e : ℂ)) θ := diff_ofReal hg
  have h1' := h1.fun_neg.mul_const (2 * Real.pi * ((x.val : ℂ) - ((n / 2 : ℕ) : ℂ)) / n)
  have h2' := h2.mul_const (2 * Real.pi * ((y.val : ℂ) - ((m / 2 : ℕ) : ℂ)) / m)
  exact h1'.fun_sub h2'

/-- `sincApply` with the subpixel shift given. -/
noncomputable def sincFixed (shiftBack : Bool) (s0 s1 : ℝ) (sel probe : Wave n m) : Wave n m :=
  let mask : Wave n m := Cdtools.phaseMask s0 s1
  let shifted := ifft2 (ifftshift2 fun x y => fftshift2 (fft2 probe) x y * mask x y)
  let output : Wave n m := fun i j => shifted i j * sel i j
  if shiftBack then
    ifft2 (ifftshift2 fun x y => fftshift2 (fft2 output) x y * (starRingEnd ℂ) (mask x y))
  else output

theorem DWave.sincFixed (sb : Bool) {f g : E → ℝ} (hf : DifferentiableAt ℝ f θ) (hg : DifferentiableAt ℝ g θ)
    {sel probe : E → Wave n m} (hs : DWave sel θ) (hp : DWave probe θ) :
    DWave (fun e => Cdtools.sincFixed sb (f e) (g e) (sel e) (probe e)) θ := by
  have hm : DWave (fun e => (Cdtools.phaseMask (f e) (g e) : Wave n m)) θ := .phaseMask hf hg
  have h1 := (((hp.linear isLinear_fft2).linear isLinear_fftshift2).mul hm).linear isLinear_ifftshift2
  have h2 := (h1.linear isLinear_ifft2).mul hs
  cases sb
  · exact h2
  · exact ((((h2.linear isLinear_fft2).linear isLinear_fftshift2).mul hm.conj).linear isLinear_ifftshift2).linear isLinear_ifft2

/-- Away from the integers the integer part is locally constant. -/
theorem floor_eventually {f : E → ℝ} (hf : ContinuousAt f θ) (hz : ∀ z : ℤ, f θ ≠ z) : ∀ᶠ e in 𝓝 θ, ⌊f e⌋ = ⌊f θ⌋ := by
  have h1 : f θ ∈ Set.Ioo ((⌊f θ⌋ : ℤ) : ℝ) (⌊f θ⌋ + 1) :=
    ⟨lt_of_le_of_ne (Int.floor_le _) (hz _).symm, Int.lt_floor_add_one _⟩
  filter_upwards [hf (isOpen_Ioo.mem_nhds h1)] with e he
  exact Int.floor_eq_iff.2 ⟨he.1.le, he.2⟩

end Cdtools
