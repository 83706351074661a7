/-
C106: what a line search sees of the closure of `reconstructors/base.py:176-224` (`LBFGS_optimize` with
`line_search_fn='strong_wolfe'`, `lbfgs.py:51-143`).
-/
import Verif.Props.Reconstructor
import Mathlib.Analysis.Calculus.Deriv.Slope
import Mathlib.Analysis.Calculus.Deriv.Pow
import Mathlib.Analysis.Calculus.Deriv.Comp
import Mathlib.Analysis.Calculus.Deriv.Mul
import Mathlib.Analysis.Calculus.Deriv.Add

set_option linter.unusedSectionVars false

namespace Cdtools
open Filter Topology

variable {Θ I P S R : Type} [NormedAddCommGroup Θ] [NormedSpace ℝ Θ]

/-! ### Specification -/

/-- The condition of sufficient decrease of a line search from `θ` along `d` for the step length `t`, with the values and gradients
reported by `closure` (`1e-4` for `c` in `torch.optim.lbfgs._strong_wolfe`). -/
def SufficientDecrease (closure : Θ → Except PyExc (Option ℝ × (Θ →L[ℝ] ℝ))) (c : ℝ) (θ d : Θ) (t : ℝ) : Prop :=
  ∃ v v' g g', closure θ = .ok (some v, g) ∧ closure (θ + t • d) = .ok (some v', g') ∧ v' ≤ v + c * t * g d

/-- `d` is a direction of descent for the reported gradient. -/
def DescentDirection (closure : Θ → Except PyExc (Option ℝ × (Θ →L[ℝ] ℝ))) (θ d : Θ) : Prop :=
  ∃ v g, closure θ = .ok (v, g) ∧ g d < 0

/-! ### C106 -/

/-- A differentiable function decreases sufficiently along a descent direction, for all small steps. -/
theorem armijo_small (L : Θ → ℝ) (θ d : Θ) (hL : DifferentiableAt ℝ L θ) (hd : fderiv ℝ L θ d < 0) (c : ℝ) (hc : c < 1) :
    ∃ ε > 0, ∀ t, 0 < t → t < ε → L (θ + t • d) ≤ L θ + c * t * fderiv ℝ L θ d := by
  have hline : HasDerivAt (fun t : ℝ => L (θ + t • d)) (fderiv ℝ L θ d) 0 := by
    have h1 : HasFDerivAt L (fderiv ℝ L θ) (θ + (0 : ℝ) • d) := by simpa using hL.hasFDerivAt
    have h2 : HasDerivAt (fun t : ℝ => θ + t • d) d 0 := by
      simpa using ((hasDerivAt_id (0 : ℝ)).smul_const d).const_add θ
    exact h1.comp_hasDerivAt 0 h2
  have hlim := hline.tendsto_slope_zero_right
  have hlt : fderiv ℝ L θ d < c * fderiv ℝ L θ d := by nlinarith
  have hev := hlim.eventually (gt_mem_nhds hlt)
  rw [eventually_nhdsWithin_iff, Metric.eventually_nhds_iff] at hev
  obtain ⟨ε, hε, h⟩ := hev
  refine ⟨ε, hε, fun t h0 h1 => ?_⟩
  have := h (y := t) (by rw [Real.dist_eq, sub_zero, abs_of_pos h0]; exact h1) h0
  simp only [zero_add, zero_smul, add_zero, smul_eq_mul] at this
  have h2 := (mul_lt_mul_iff_right₀ h0).2 this
  rw [mul_inv_cancel_left₀ h0.ne'] at h2
  nlinarith

/-- **C106** (without regularization): whether no factor is given or the model has no regularizer, the values and gradients that
the optimizer sees are those of one function, the data loss of the minibatch; so along every descent direction all small steps
decrease the value sufficiently. -/
theorem line_search_unregularized (ph : Physics Θ I P S R) (h : ph.DataAdditive) (hf : ph.FaultFree) (cw : ℤ) (hcw : 1 ≤ cw)
    (reg : Option R) (hreg : reg = none ∨ ph.regularizer = none) (b : Minibatch I P) (hb : b.WF) (hd : ∀ θ, ph.DiffAt b θ) :
    (∀ θ, ph.closure cw reg b θ = .ok (some (ph.fullLoss b θ), fderiv ℝ (ph.fullLoss b) θ)) ∧
    ∀ (c : ℝ), c < 1 → ∀ θ d, DifferentiableAt ℝ (ph.fullLoss b) θ → DescentDirection (ph.closure cw reg b) θ d →
      ∃ ε > 0, ∀ t, 0 < t → t < ε → SufficientDecrease (ph.closure cw reg b) c θ d t := by
  have hzero : ∀ θ, ph.regGrad reg θ = 0 := by
    intro θ
    unfold Physics.regGrad
    rcases hreg with rfl | hr
    · rfl
    · rw [hr]; cases reg <;> rfl
  have hcl : ∀ θ, ph.closure cw reg b θ = .ok (some (ph.fullLoss b θ), fderiv ℝ (ph.fullLoss b) θ) := by
    intro θ
    rw [minibatch_step_independent_of_width ph h hf cw hcw reg b hb θ (hd θ), hzero, add_zero]
    rfl
  refine ⟨hcl, ?_⟩
  rintro c hc θ d hL ⟨v, g, hg, hneg⟩
  rw [hcl] at hg
  obtain ⟨rfl, rfl⟩ := Prod.mk.inj (Except.ok.inj hg)
  obtain ⟨ε, hε, hdec⟩ := armijo_small (ph.fullLoss b) θ d hL hneg c hc
  exact ⟨ε, hε, fun t h0 h1 => ⟨_, _, _, _, hcl θ, hcl _, hdec t h0 h1⟩⟩

/-- **C106, violated part**: with a regularization factor the gradient is that of the sum of data loss and regularizer, but the
value is the data loss alone. At a minimum of the data loss, whatever the factor, no step of any length along any direction of descent
decreases the value sufficiently, although for the sum that is minimized all small steps do. -/
theorem line_search_regularized_violated (ph : Physics Θ I P S R) (h : ph.DataAdditive) (hf : ph.FaultFree) (cw : ℤ) (hcw : 1 ≤ cw)
    (f : R → Θ → ℝ) (hreg : ph.regularizer = some f) (r : R) (b : Minibatch I P) (hb : b.WF) (hd : ∀ θ, ph.DiffAt b θ)
    (θ d : Θ) (hmin : ∀ θ', ph.fullLoss b θ ≤ ph.fullLoss b θ') (hL : DifferentiableAt ℝ (ph.fullLoss b) θ)
    (hfr : DifferentiableAt ℝ (f r) θ) (hdesc : DescentDirection (ph.closure cw (some r) b) θ d) (c : ℝ) (hc : 0 < c) :
    (∀ t, 0 < t → ¬ SufficientDecrease (ph.closure cw (some r) b) c θ d t) ∧
    (c < 1 → ∃ ε > 0, ∀ t, 0 < t → t < ε →
      ph.fullLoss b (θ + t • d) + f r (θ + t • d) ≤
        ph.fullLoss b θ + f r θ + c * t * fderiv ℝ (fun θ' => ph.fullLoss b θ' + f r θ') θ d) := by
  have hcl : ∀ θ, ph.closure cw (some r) b θ =
      .ok (some (ph.fullLoss b θ), fderiv ℝ (ph.fullLoss b) θ + fderiv ℝ (f r) θ) := by
    intro θ
    rw [minibatch_step_independent_of_width ph h hf cw hcw (some r) b hb θ (hd θ)]
    unfold Physics.regGrad
    rw [hreg]
    rfl
  obtain ⟨v, g, hg, hneg⟩ := hdesc
  rw [hcl] at hg
  obtain ⟨rfl, rfl⟩ := Prod.mk.inj (Except.ok.inj hg)
  constructor
  · rintro t ht ⟨v, v', g, g', h0, h1, hle⟩
    rw [hcl] at h0 h1
    obtain ⟨e0, rfl⟩ := Prod.mk.inj (Except.ok.inj h0)
    obtain ⟨e1, -⟩ := Prod.mk.inj (Except.ok.inj h1)
    obtain rfl := Option.some.inj e0
    obtain rfl := Option.some.inj e1
    have := hmin (θ + t • d)
    have : c * t * (fderiv ℝ (ph.fullLoss b) θ + fderiv ℝ (f r) θ) d < 0 :=
      mul_neg_of_pos_of_neg (by positivity) hneg
    linarith
  · intro hc1
    have e : fderiv ℝ (fun θ' => ph.fullLoss b θ' + f r θ') θ = fderiv ℝ (ph.fullLoss b) θ + fderiv ℝ (f r) θ :=
      fderiv_add hL hfr
    exact armijo_small (fun θ' => ph.fullLoss b θ' + f r θ') θ d (hL.add hfr) (by rw [e]; exact hneg) c hc1

/-- The toy model at its exact solution: the data loss vanishes, the ridge pulls, and `-1` is a direction of descent. -/
example : (∀ θ', toyPhysics.fullLoss toyBatch 2 ≤ toyPhysics.fullLoss toyBatch θ') ∧
    DifferentiableAt ℝ (toyPhysics.fullLoss toyBatch) 2 ∧ DifferentiableAt ℝ (fun θ : ℝ => (3 : ℝ) * θ) 2 ∧
    DescentDirection (toyPhysics.closure 2 (some 3) toyBatch) 2 (-1) := by
  have hval : ∀ θ : ℝ, toyPhysics.fullLoss toyBatch θ =
      (2 - θ * 1) ^ 2 + (4 - θ * 2) ^ 2 + (6 - θ * 3) ^ 2 + (8 - θ * 4) ^ 2 + (10 - θ * 5) ^ 2 := by
    intro θ; simp [Physics.fullLoss, toyPhysics, toyBatch]; ring
  have hfun : toyPhysics.fullLoss toyBatch = fun θ : ℝ => 55 * (2 - θ) ^ 2 := by
    funext θ; rw [hval]; ring
  have hder : HasDerivAt (fun θ : ℝ => 55 * (2 - θ) ^ 2) 0 2 := by
    have h1 : HasDerivAt (fun θ : ℝ => 2 - θ) (-1) 2 := by simpa using (hasDerivAt_id (2 : ℝ)).const_sub 2
    have := (h1.pow 2).const_mul 55
    simpa using this
  have hreg : HasDerivAt (fun θ : ℝ => (3 : ℝ) * θ) 3 2 := by simpa using (hasDerivAt_id (2 : ℝ)).const_mul 3
  refine ⟨fun θ' => ?_, ?_, by fun_prop, ?_⟩
  · rw [hfun]; norm_num; positivity
  · rw [hfun]; fun_prop
  · refine ⟨_, _, minibatch_step_independent_of_width toyPhysics toy_additive toy_faultFree 2 (by norm_num) (some 3) toyBatch
      toyBatch_wf 2 (toy_diff _ _), ?_⟩
    have e1 : fderiv ℝ (fun θ' => toyPhysics.loss toyBatch.patterns (toyPhysics.forward θ' toyBatch.inputs)) 2 =
        fderiv ℝ (fun θ : ℝ => 55 * (2 - θ) ^ 2) 2 := congrArg (fun f => fderiv ℝ f 2) hfun
    have e2 : toyPhysics.regGrad (some 3) 2 = fderiv ℝ (fun θ : ℝ => (3 : ℝ) * θ) 2 := rfl
    rw [e1, e2, hder.hasFDerivAt.fderiv, hreg.hasFDerivAt.fderiv]
    norm_num

end Cdtools
