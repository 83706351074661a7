/-
**C119**: what a step of the Adam and SGD reconstructors does to the parameters.
-/
import Mathlib.Analysis.Calculus.Deriv.Pi
import Verif.Model.Descent
import Verif.Props.LineSearch

set_option linter.unusedSectionVars false

namespace Cdtools
open Finset Topology

variable {ι : Type} [Fintype ι] [DecidableEq ι]

/-! ### Specification -/

/-- A loss does not depend on a coordinate. -/
def Ignores (L : (ι → ℝ) → ℝ) (i : ι) : Prop := ∀ θ x, L (Function.update θ i x) = L θ

/-- Hyperparameters for which Adam is meant: `0 ≤ β₁ < 1`, `β₁² < β₂ < 1` (the defaults are 0.9 and 0.999), `eps > 0`. -/
structure AdamHyper.Proper (hp : AdamHyper) : Prop where
  beta1 : 0 ≤ hp.beta1 ∧ hp.beta1 < 1
  beta2 : hp.beta1 ^ 2 < hp.beta2 ∧ hp.beta2 < 1
  eps : 0 < hp.eps

/-! ### Coordinates that no loss depends on -/

theorem gradOf_ignores {L : (ι → ℝ) → ℝ} {i : ι} (h : Ignores L i) (θ : ι → ℝ) : gradOf L θ i = 0 := by
  unfold gradOf
  rw [show (fun x => L (Function.update θ i x)) = fun _ => L θ from funext (h θ)]
  exact deriv_const _ _

/-- Where the loss is differentiable the partial derivatives are the components of its gradient. -/
theorem gradOf_eq_fderiv {L : (ι → ℝ) → ℝ} {θ : ι → ℝ} (hL : DifferentiableAt ℝ L θ) (i : ι) :
    gradOf L θ i = fderiv ℝ L θ (Pi.single i 1) := by
  have h1 : HasFDerivAt L (fderiv ℝ L θ) (Function.update θ i (θ i)) := by rw [Function.update_eq_self]; exact hL.hasFDerivAt
  have h2 : HasDerivAt (fun x => Function.update θ i x) (Pi.single i 1) (θ i) := by
    exact hasDerivAt_update θ i (θ i)
  exact (h1.comp_hasDerivAt (θ i) h2).deriv

/-- **C119** (unseen parameters): a coordinate that none of the minibatch losses depends on (an object pixel that no exposure
illuminates, C101, a rounded translation offset, C117) keeps its value to the last bit, in any number of steps of Adam, with any
hyperparameters, changed between the steps as one likes. -/
theorem adam_unseen (group : ι → String) (i : ι) : ∀ (steps : List (AdamHyper × ((ι → ℝ) → ℝ)))
    (_ : ∀ x ∈ steps, Ignores x.2 i) (θ : ι → ℝ), (adamRun group steps (AdamMemory.start, θ)).2 i = θ i := by
  have key : ∀ (steps : List (AdamHyper × ((ι → ℝ) → ℝ))) (_ : ∀ x ∈ steps, Ignores x.2 i) (s : AdamMemory ι × (ι → ℝ)),
      s.1.avg i = 0 → (adamRun group steps s).2 i = s.2 i := by
    intro steps
    induction steps with
    | nil => intro _ s _; rfl
    | cons x steps ih =>
      intro hx s hs
      have hg := gradOf_ignores (hx x List.mem_cons_self) s.2
      obtain ⟨hp, L⟩ := x
      show (adamRun group steps (adamUpdate hp group (gradOf L s.2) s)).2 i = _
      have ha : (adamUpdate hp group (gradOf L s.2) s).1.avg i = 0 := by
        show hp.beta1 * s.1.avg i + (1 - hp.beta1) * gradOf L s.2 i = 0
        rw [hs, show gradOf L s.2 i = 0 from hg]; ring
      rw [ih (fun y hy => hx y (List.mem_cons_of_mem _ hy)) _ ha]
      show s.2 i - _ * ((adamUpdate hp group (gradOf L s.2) s).1.avg i / _) = s.2 i
      rw [ha, zero_div, mul_zero, sub_zero]
  exact fun steps h θ => key steps h (AdamMemory.start, θ) rfl

/-- **C119** (unseen parameters, SGD): the same without weight decay. -/
theorem sgd_unseen (group : ι → String) (i : ι) : ∀ (steps : List (SgdHyper × ((ι → ℝ) → ℝ)))
    (_ : ∀ x ∈ steps, Ignores x.2 i ∧ x.1.weightDecay = 0) (θ : ι → ℝ), (sgdRun group steps (none, θ)).2 i = θ i := by
  have key : ∀ (steps : List (SgdHyper × ((ι → ℝ) → ℝ))) (_ : ∀ x ∈ steps, Ignores x.2 i ∧ x.1.weightDecay = 0)
      (s : Option (ι → ℝ) × (ι → ℝ)), (∀ b, s.1 = some b → b i = 0) → (sgdRun group steps s).2 i = s.2 i := by
    intro steps
    induction steps with
    | nil => intro _ s _; rfl
    | cons x steps ih =>
      intro hx s hs
      have hg := gradOf_ignores (hx x List.mem_cons_self).1 s.2
      have hw := (hx x List.mem_cons_self).2
      obtain ⟨hp, L⟩ := x
      have hg' : gradOf L s.2 i = 0 := hg
      have hw' : hp.weightDecay = 0 := hw
      show (sgdRun group steps (sgdUpdate hp group (gradOf L s.2) s)).2 i = _
      have hboth : (∀ b, (sgdUpdate hp group (gradOf L s.2) s).1 = some b → b i = 0) ∧
          (sgdUpdate hp group (gradOf L s.2) s).2 i = s.2 i := by
        obtain ⟨b, θ⟩ := s
        unfold sgdUpdate
        by_cases hm : hp.momentum = 0
        · simp only [hm, if_true]
          refine ⟨hs, ?_⟩
          simp [hg', hw']
        · simp only [hm, if_false]
          have hbuf : sgdBuffer hp (fun i => gradOf L θ i + hp.weightDecay * θ i) b i = 0 := by
            cases b with
            | none => simp [sgdBuffer, hg', hw']
            | some b => simp [sgdBuffer, hg', hw', hs b rfl]
          refine ⟨fun b' hb' => ?_, ?_⟩
          · rw [← Option.some.inj hb']
            exact hbuf
          · cases hp.nesterov with
            | true =>
              simp only [if_true]
              rw [hbuf, hg', hw']
              ring
            | false =>
              simp only [Bool.false_eq_true, if_false]
              rw [hbuf]
              ring
      rw [ih (fun y hy => hx y (List.mem_cons_of_mem _ hy)) _ hboth.1]
      exact hboth.2
  exact fun steps h θ => key steps h (none, θ) fun b hb => by cases hb

/-- **C119 fails** with weight decay: SGD shrinks parameters that no exposure depends on, in every step by the same factor. -/
theorem sgd_weight_decay_violated (group : ι → String) (i : ι) (hp : SgdHyper) (hm : hp.momentum = 0) (L : (ι → ℝ) → ℝ)
    (hL : Ignores L i) (θ : ι → ℝ) (k : ℕ) :
    (sgdRun group (List.replicate k (hp, L)) (none, θ)).2 i =
      (1 - groupLr hp.factors hp.lr (group i) * hp.weightDecay) ^ k * θ i := by
  induction k generalizing θ with
  | zero => simp [sgdRun]
  | succ k ih =>
    have h1 : sgdUpdate hp group (gradOf L θ) (none, θ) =
        (none, fun i => θ i - groupLr hp.factors hp.lr (group i) * (gradOf L θ i + hp.weightDecay * θ i)) := by
      unfold sgdUpdate
      simp only [hm, if_true]
    rw [List.replicate_succ]
    show (sgdRun group (List.replicate k (hp, L)) (sgdUpdate hp group (gradOf L θ) (none, θ))).2 i = _
    rw [h1, ih]
    rw [gradOf_ignores hL]
    ring

/-- **C119** (frozen parameters): a parameter with the learning rate factor 0 never moves, in any history of Adam or SGD. -/
theorem frozen_parameter (group : ι → String) (i : ι) :
    (∀ (steps : List (AdamHyper × ((ι → ℝ) → ℝ))) (_ : ∀ x ∈ steps, x.1.factors.lookup (group i) = some 0)
      (s : AdamMemory ι × (ι → ℝ)), (adamRun group steps s).2 i = s.2 i) ∧
    (∀ (steps : List (SgdHyper × ((ι → ℝ) → ℝ))) (_ : ∀ x ∈ steps, x.1.factors.lookup (group i) = some 0)
      (s : Option (ι → ℝ) × (ι → ℝ)), (sgdRun group steps s).2 i = s.2 i) := by
  constructor
  · intro steps
    induction steps with
    | nil => intro _ s; rfl
    | cons x steps ih =>
      intro hx s
      obtain ⟨hp, L⟩ := x
      have hf : hp.factors.lookup (group i) = some 0 := hx _ List.mem_cons_self
      show (adamRun group steps (adamUpdate hp group (gradOf L s.2) s)).2 i = _
      rw [ih (fun y hy => hx y (List.mem_cons_of_mem _ hy))]
      unfold adamUpdate groupLr
      simp [hf]
  · intro steps
    induction steps with
    | nil => intro _ s; rfl
    | cons x steps ih =>
      intro hx s
      obtain ⟨hp, L⟩ := x
      have hf : hp.factors.lookup (group i) = some 0 := hx _ List.mem_cons_self
      show (sgdRun group steps (sgdUpdate hp group (gradOf L s.2) s)).2 i = _
      rw [ih (fun y hy => hx y (List.mem_cons_of_mem _ hy))]
      unfold sgdUpdate groupLr
      split_ifs <;> simp [hf]

/-! ### The first step goes downhill -/

theorem groupLr_mul (factors : List (String × ℝ)) (lr c : ℝ) (name : String) :
    groupLr factors (c * lr) name = c * groupLr factors lr name := by
  unfold groupLr
  cases factors.lookup name with
  | none => rfl
  | some f => exact mul_assoc _ _ _

theorem fderiv_sum (L : (ι → ℝ) → ℝ) (θ d : ι → ℝ) (hL : DifferentiableAt ℝ L θ) : fderiv ℝ L θ d = ∑ i, d i * gradOf L θ i := by
  conv_lhs => rw [← Finset.univ_sum_single d]
  rw [map_sum]
  refine Finset.sum_congr rfl fun i _ => ?_
  have : (Pi.single i (d i) : ι → ℝ) = d i • Pi.single i 1 := by
    rw [← Pi.single_smul, smul_eq_mul, mul_one]
  rw [this, map_smul, smul_eq_mul, gradOf_eq_fderiv hL]

/-- **C119** (size of the first step): in its first step Adam moves every coordinate against its gradient, by at most the learning
rate of its parameter, whatever the size of the loss. -/
theorem adam_first_step (hp : AdamHyper) (h1 : hp.beta1 < 1) (h2 : hp.beta2 < 1) (group : ι → String) (g θ : ι → ℝ) (i : ι) :
    (adamUpdate hp group g (AdamMemory.start, θ)).2 i = θ i - groupLr hp.factors hp.lr (group i) * (g i / (|g i| + hp.eps)) := by
  have e1 : 1 - hp.beta1 ≠ 0 := by linarith
  have p2 : 0 < 1 - hp.beta2 := by linarith
  have hv : 0 ≤ (1 - hp.beta2) * g i ^ 2 := mul_nonneg p2.le (sq_nonneg _)
  have hs : Real.sqrt (hp.beta2 * 0 + (1 - hp.beta2) * g i ^ 2) / Real.sqrt (1 - hp.beta2 ^ (0 + 1)) = |g i| := by
    rw [mul_zero, zero_add, zero_add, pow_one, Real.sqrt_mul p2.le, Real.sqrt_sq_eq_abs]
    exact mul_div_cancel_left₀ _ (Real.sqrt_pos.2 p2).ne'
  have hu : (adamUpdate hp group g (AdamMemory.start, θ)).2 i = θ i - groupLr hp.factors hp.lr (group i) / (1 - hp.beta1 ^ (0 + 1)) *
      ((hp.beta1 * 0 + (1 - hp.beta1) * g i) / (Real.sqrt (hp.beta2 * 0 + (1 - hp.beta2) * g i ^ 2) / Real.sqrt (1 - hp.beta2 ^ (0 + 1)) +
        hp.eps)) := by
    unfold adamUpdate
    simp only [AdamMemory.start]
    cases hp.amsgrad with
    | false => rfl
    | true =>
      simp only [if_true]
      rw [max_eq_right (show 0 ≤ hp.beta2 * 0 + (1 - hp.beta2) * g i ^ 2 by rw [mul_zero, zero_add]; exact hv)]
  rw [hu]
  rw [hs, zero_add, pow_one]
  field_simp
  ring

/-- A step along a direction of descent lowers the loss if it is short enough. -/
theorem short_step (L : (ι → ℝ) → ℝ) (θ d : ι → ℝ) (hL : DifferentiableAt ℝ L θ) (hd : ∑ i, d i * gradOf L θ i < 0) :
    ∃ ε > 0, ∀ t, 0 < t → t < ε → L (fun i => θ i + t * d i) < L θ := by
  rw [← fderiv_sum L θ d hL] at hd
  obtain ⟨ε, hε, h⟩ := armijo_small L θ d hL hd (1 / 2) (by norm_num)
  refine ⟨ε, hε, fun t h0 h1 => ?_⟩
  have h2 := h t h0 h1
  have h3 : (1 / 2 : ℝ) * t * fderiv ℝ L θ d < 0 := mul_neg_of_pos_of_neg (by positivity) hd
  have h4 : (θ + t • d) = fun i => θ i + t * d i := rfl
  rw [h4] at h2
  linarith

/-- **C119** (downhill): the first step of Adam, and of SGD with any momentum, plain or Nesterov, without weight decay, lowers the loss of
its minibatch for every learning rate that is small enough, unless the gradient vanishes in all parameters that are trained; the learning
rate factors may be anything not negative. -/
theorem first_step_downhill (group : ι → String) (factors : List (String × ℝ)) (L : (ι → ℝ) → ℝ) (θ : ι → ℝ) (hL : DifferentiableAt ℝ L θ)
    (hf : ∀ i, 0 ≤ groupLr factors 1 (group i)) (hg : ∃ i, 0 < groupLr factors 1 (group i) ∧ gradOf L θ i ≠ 0) :
    (∀ beta1 beta2 eps amsgrad, beta1 < 1 → beta2 < 1 → 0 ≤ eps → ∃ ε > 0, ∀ lr, 0 < lr → lr < ε →
      L (adamRun group [(⟨lr, beta1, beta2, amsgrad, factors, eps⟩, L)] (AdamMemory.start, θ)).2 < L θ) ∧
    (∀ momentum dampening nesterov, 0 ≤ momentum → ∃ ε > 0, ∀ lr, 0 < lr → lr < ε →
      L (sgdRun group [(⟨lr, momentum, dampening, 0, nesterov, factors⟩, L)] (none, θ)).2 < L θ) := by
  obtain ⟨i0, hi0, hgi0⟩ := hg
  have hlr : ∀ lr i, groupLr factors lr (group i) = lr * groupLr factors 1 (group i) := fun lr i => by
    rw [← groupLr_mul, mul_one]
  constructor
  · intro beta1 beta2 eps amsgrad h1 h2 he
    obtain ⟨ε, hε, h⟩ := short_step L θ (fun i => -(groupLr factors 1 (group i) * (gradOf L θ i / (|gradOf L θ i| + eps)))) hL (by
      have hle : ∀ i, -(groupLr factors 1 (group i) * (gradOf L θ i / (|gradOf L θ i| + eps))) * gradOf L θ i =
          -(groupLr factors 1 (group i) * (gradOf L θ i ^ 2 / (|gradOf L θ i| + eps))) := fun i => by ring
      simp only [hle, Finset.sum_neg_distrib]
      rw [neg_lt_zero]
      refine Finset.sum_pos' (fun i _ => mul_nonneg (hf i) (div_nonneg (sq_nonneg _) (by positivity))) ⟨i0, Finset.mem_univ _, ?_⟩
      have : 0 < |gradOf L θ i0| := abs_pos.2 hgi0
      positivity)
    refine ⟨ε, hε, fun lr q0 q1 => ?_⟩
    have := h lr q0 q1
    refine lt_of_eq_of_lt ?_ this
    show L (adamUpdate _ group (gradOf L θ) (AdamMemory.start, θ)).2 = _
    congr 1
    funext i
    rw [adam_first_step _ h1 h2]
    rw [hlr]
    ring
  · intro momentum dampening nesterov hm
    set c : ℝ := if momentum = 0 then 1 else if nesterov then 1 + momentum else 1 with hc
    have hcpos : 0 < c := by
      rw [hc]
      split_ifs <;> linarith
    obtain ⟨ε, hε, h⟩ := short_step L θ (fun i => -(groupLr factors 1 (group i) * (c * gradOf L θ i))) hL (by
      have hle : ∀ i, -(groupLr factors 1 (group i) * (c * gradOf L θ i)) * gradOf L θ i =
          -(groupLr factors 1 (group i) * (c * gradOf L θ i ^ 2)) := fun i => by ring
      simp only [hle, Finset.sum_neg_distrib]
      rw [neg_lt_zero]
      refine Finset.sum_pos' (fun i _ => mul_nonneg (hf i) (mul_nonneg hcpos.le (sq_nonneg _))) ⟨i0, Finset.mem_univ _, ?_⟩
      have : 0 < gradOf L θ i0 ^ 2 := by positivity
      positivity)
    refine ⟨ε, hε, fun lr q0 q1 => ?_⟩
    have := h lr q0 q1
    refine lt_of_eq_of_lt ?_ this
    show L (sgdUpdate _ group (gradOf L θ) (none, θ)).2 = _
    congr 1
    funext i
    unfold sgdUpdate
    by_cases hm0 : momentum = 0
    · simp only [hm0, if_true] at hc ⊢
      rw [hlr, hc]
      ring
    · cases nesterov with
      | true =>
        simp only [hm0, if_false, if_true, sgdBuffer] at hc ⊢
        rw [hlr, hc]
        ring
      | false =>
        simp only [hm0, if_false, Bool.false_eq_true, sgdBuffer] at hc ⊢
        rw [hlr, hc]
        ring

/-! ### The size of every step of Adam -/

/-- The averages of Adam: the square of the mean of the gradients is bounded by the mean of their squares. -/
structure AdamMemory.Bounded (b1 b2 : ℝ) (s : AdamMemory ι) : Prop where
  sq : ∀ i, 0 ≤ s.avgSq i
  mean : ∀ i, s.avg i ^ 2 ≤ (1 - b1) ^ 2 / ((1 - b2) * (1 - b1 ^ 2 / b2)) * s.avgSq i

theorem AdamMemory.Bounded.update {hp : AdamHyper} (h : hp.Proper) (group : ι → String) (g : ι → ℝ) {s : AdamMemory ι × (ι → ℝ)}
    (hs : s.1.Bounded hp.beta1 hp.beta2) : (adamUpdate hp group g s).1.Bounded hp.beta1 hp.beta2 := by
  obtain ⟨⟨b10, b11⟩, ⟨b20, b21⟩, -⟩ := h
  have b2pos : 0 < hp.beta2 := lt_of_le_of_lt (sq_nonneg _) b20
  have hr : 0 < 1 - hp.beta1 ^ 2 / hp.beta2 := by
    rw [sub_pos, div_lt_one b2pos]; exact b20
  have p2 : 0 < 1 - hp.beta2 := by linarith
  constructor
  · intro i
    show 0 ≤ hp.beta2 * s.1.avgSq i + (1 - hp.beta2) * g i ^ 2
    have := hs.sq i
    positivity
  · intro i
    show (hp.beta1 * s.1.avg i + (1 - hp.beta1) * g i) ^ 2 ≤ _ * (hp.beta2 * s.1.avgSq i + (1 - hp.beta2) * g i ^ 2)
    set K := (1 - hp.beta1) ^ 2 / ((1 - hp.beta2) * (1 - hp.beta1 ^ 2 / hp.beta2)) with hK
    have hm := hs.mean i
    rw [← hK] at hm
    -- the two squares with weights `r` and `1 - r`
    have hy : K * ((1 - hp.beta2) * g i ^ 2) = ((1 - hp.beta1) * g i) ^ 2 / (1 - hp.beta1 ^ 2 / hp.beta2) := by
      rw [hK]
      field_simp
    have hx : hp.beta2 * s.1.avg i ^ 2 ≤ K * (hp.beta2 * s.1.avgSq i) := by
      calc hp.beta2 * s.1.avg i ^ 2 ≤ hp.beta2 * (K * s.1.avgSq i) := mul_le_mul_of_nonneg_left hm b2pos.le
        _ = _ := by ring
    have key : (hp.beta1 * s.1.avg i + (1 - hp.beta1) * g i) ^ 2 ≤
        hp.beta2 * s.1.avg i ^ 2 + ((1 - hp.beta1) * g i) ^ 2 / (1 - hp.beta1 ^ 2 / hp.beta2) := by
      set x := s.1.avg i
      set y := (1 - hp.beta1) * g i
      have e : 1 - hp.beta1 ^ 2 / hp.beta2 = (hp.beta2 - hp.beta1 ^ 2) / hp.beta2 := by field_simp
      have hd : 0 < hp.beta2 - hp.beta1 ^ 2 := by linarith
      rw [e, ← sub_nonneg]
      have : hp.beta2 * x ^ 2 + y ^ 2 / ((hp.beta2 - hp.beta1 ^ 2) / hp.beta2) - (hp.beta1 * x + y) ^ 2 =
          ((hp.beta2 - hp.beta1 ^ 2) * x - hp.beta1 * y) ^ 2 / (hp.beta2 - hp.beta1 ^ 2) := by
        field_simp
        ring
      rw [this]
      positivity
    calc _ ≤ _ := key
      _ ≤ K * (hp.beta2 * s.1.avgSq i) + K * ((1 - hp.beta2) * g i ^ 2) := by rw [hy]; linarith
      _ = _ := by ring

theorem adamRun_bounded (group : ι → String) (b1 b2 : ℝ) : ∀ (steps : List (AdamHyper × ((ι → ℝ) → ℝ)))
    (_ : ∀ x ∈ steps, x.1.Proper ∧ x.1.beta1 = b1 ∧ x.1.beta2 = b2) (s : AdamMemory ι × (ι → ℝ)) (_ : s.1.Bounded b1 b2),
    (adamRun group steps s).1.Bounded b1 b2
  | [], _, s, hs => hs
  | (hp, L) :: steps, h, s, hs => by
    obtain ⟨h1, e1, e2⟩ := h _ List.mem_cons_self
    refine adamRun_bounded group b1 b2 steps (fun x hx => h x (List.mem_cons_of_mem _ hx)) _ ?_
    have e1' : hp.beta1 = b1 := e1
    have e2' : hp.beta2 = b2 := e2
    rw [← e1', ← e2'] at hs ⊢
    exact hs.update h1 group _

/-- **C119** (size of every step): after any history of minibatches with the same `betas`, the next step of Adam moves no coordinate by more
than the learning rate of its parameter times `1 / sqrt ((1 - β₂) (1 - β₁² / β₂))` (72.7 for the defaults), with or without AMSGrad,
however large the gradients are. -/
theorem adam_step_bounded (group : ι → String) (steps : List (AdamHyper × ((ι → ℝ) → ℝ))) (hp : AdamHyper) (L : (ι → ℝ) → ℝ)
    (h : ∀ x ∈ (hp, L) :: steps, x.1.Proper ∧ x.1.beta1 = hp.beta1 ∧ x.1.beta2 = hp.beta2) (θ : ι → ℝ) (i : ι) :
    |(adamRun group (steps ++ [(hp, L)]) (AdamMemory.start, θ)).2 i - (adamRun group steps (AdamMemory.start, θ)).2 i| ≤
      |groupLr hp.factors hp.lr (group i)| / √((1 - hp.beta2) * (1 - hp.beta1 ^ 2 / hp.beta2)) := by
  have happ : ∀ (l : List (AdamHyper × ((ι → ℝ) → ℝ))) (s : AdamMemory ι × (ι → ℝ)), adamRun group (l ++ [(hp, L)]) s =
      adamUpdate hp group (gradOf L (adamRun group l s).2) (adamRun group l s) := by
    intro l
    induction l with
    | nil => intro s; rfl
    | cons x l ih => intro s; exact ih _
  rw [happ]
  have hb : (adamRun group steps (AdamMemory.start, θ)).1.Bounded hp.beta1 hp.beta2 :=
    adamRun_bounded group _ _ steps (fun x hx => h x (List.mem_cons_of_mem _ hx)) _
      ⟨fun _ => le_rfl, fun i => by simp [AdamMemory.start]⟩
  have hpr : hp.Proper := (h _ List.mem_cons_self).1
  generalize adamRun group steps (AdamMemory.start, θ) = s at hb ⊢
  set g := gradOf L s.2
  have hb' := hb.update hpr group g
  obtain ⟨⟨b10, b11⟩, ⟨b20, b21⟩, heps⟩ := hpr
  have b2pos : 0 < hp.beta2 := lt_of_le_of_lt (sq_nonneg _) b20
  have hr : 0 < 1 - hp.beta1 ^ 2 / hp.beta2 := by rw [sub_pos, div_lt_one b2pos]; exact b20
  have p2 : 0 < 1 - hp.beta2 := by linarith
  set u := adamUpdate hp group g s with hu
  set t := s.1.step + 1 with ht
  have hc1 : hp.beta1 ^ t ≤ hp.beta1 := by
    calc hp.beta1 ^ t ≤ hp.beta1 ^ 1 := pow_le_pow_of_le_one b10 b11.le (by omega)
      _ = _ := pow_one _
  have hc2 : 0 < 1 - hp.beta2 ^ t := by
    have : hp.beta2 ^ t ≤ hp.beta2 ^ 1 := pow_le_pow_of_le_one b2pos.le b21.le (by omega)
    rw [pow_one] at this
    linarith
  have hc2' : √(1 - hp.beta2 ^ t) ≤ 1 := by
    have : 0 ≤ hp.beta2 ^ t := by positivity
    exact Real.sqrt_le_one.2 (by linarith)
  set V := if hp.amsgrad then u.1.maxSq i else u.1.avgSq i with hV
  have hVle : u.1.avgSq i ≤ V := by
    rw [hV]
    split_ifs with ha
    · rw [hu]
      unfold adamUpdate
      simp only [ha, if_true]
      exact le_max_right _ _
    · exact le_rfl
  have hdiff : u.2 i - s.2 i = -(groupLr hp.factors hp.lr (group i) / (1 - hp.beta1 ^ t) * (u.1.avg i / (√V / √(1 - hp.beta2 ^ t) + hp.eps))) := by
    have e : u.2 i = s.2 i - groupLr hp.factors hp.lr (group i) / (1 - hp.beta1 ^ t) *
        (u.1.avg i / (√V / √(1 - hp.beta2 ^ t) + hp.eps)) := by
      rw [hV, hu, ht]
      unfold adamUpdate
      cases hp.amsgrad <;> rfl
    rw [e]
    ring
  set C := √((1 - hp.beta2) * (1 - hp.beta1 ^ 2 / hp.beta2)) with hC
  have hCpos : 0 < C := Real.sqrt_pos.2 (mul_pos p2 hr)
  have havg : |u.1.avg i| ≤ (1 - hp.beta1) / C * √V := by
    have h1 := hb'.mean i
    have h2 : u.1.avg i ^ 2 ≤ ((1 - hp.beta1) / C * √V) ^ 2 := by
      rw [mul_pow, div_pow, hC, Real.sq_sqrt (mul_pos p2 hr).le, Real.sq_sqrt (le_trans (hb'.sq i) hVle)]
      refine le_trans h1 (mul_le_mul_of_nonneg_left hVle ?_)
      have := mul_pos p2 hr
      positivity
    exact abs_le_of_sq_le_sq h2 (by have : 0 ≤ 1 - hp.beta1 := by linarith
                                    positivity)
  have hden : √V ≤ √V / √(1 - hp.beta2 ^ t) + hp.eps := by
    have h1 : √V ≤ √V / √(1 - hp.beta2 ^ t) := by
      rw [le_div_iff₀ (Real.sqrt_pos.2 hc2)]
      exact mul_le_of_le_one_right (Real.sqrt_nonneg _) hc2'
    linarith
  have hdpos : 0 < √V / √(1 - hp.beta2 ^ t) + hp.eps := by positivity
  rw [hdiff, abs_neg, abs_mul, abs_div, abs_div, abs_of_pos hdpos, abs_of_pos (show 0 < 1 - hp.beta1 ^ t by linarith)]
  have h1 : |u.1.avg i| / (√V / √(1 - hp.beta2 ^ t) + hp.eps) ≤ (1 - hp.beta1) / C := by
    rw [div_le_iff₀ hdpos]
    refine le_trans havg (mul_le_mul_of_nonneg_left hden ?_)
    have : 0 ≤ 1 - hp.beta1 := by linarith
    positivity
  have h2 : |groupLr hp.factors hp.lr (group i)| / (1 - hp.beta1 ^ t) ≤ |groupLr hp.factors hp.lr (group i)| / (1 - hp.beta1) :=
    div_le_div_of_nonneg_left (abs_nonneg _) (by linarith) (by linarith)
  calc _ ≤ |groupLr hp.factors hp.lr (group i)| / (1 - hp.beta1) * ((1 - hp.beta1) / C) :=
        mul_le_mul h2 h1 (by positivity) (div_nonneg (abs_nonneg _) (by linarith))
    _ = _ := by
      have : 1 - hp.beta1 ≠ 0 := by linarith
      field_simp

/-! ### The bias corrections -/

theorem gradOf_linear (w : ι → ℝ) (c : ℝ) (θ : ι → ℝ) : gradOf (fun θ => c + ∑ i, w i * θ i) θ = w := by
  funext i
  have h1 : HasFDerivAt (fun θ : ι → ℝ => c + ∑ i, w i * θ i)
      (∑ i, w i • (ContinuousLinearMap.proj i : (ι → ℝ) →L[ℝ] ℝ)) θ := by
    have h2 : HasFDerivAt (fun θ : ι → ℝ => ∑ i, w i * θ i) (∑ i, w i • (ContinuousLinearMap.proj i : (ι → ℝ) →L[ℝ] ℝ)) θ := by
      have := HasFDerivAt.sum (u := Finset.univ) (A := fun i (θ : ι → ℝ) => w i * θ i)
        (A' := fun i => w i • (ContinuousLinearMap.proj i : (ι → ℝ) →L[ℝ] ℝ)) (x := θ) fun i _ =>
        ((ContinuousLinearMap.proj (R := ℝ) (φ := fun _ : ι => ℝ) i).hasFDerivAt (x := θ)).const_mul (w i)
      have e : (∑ i, fun θ : ι → ℝ => w i * θ i) = fun θ => ∑ i, w i * θ i := by funext θ; simp
      rwa [e] at this
    exact h2.const_add c
  rw [gradOf_eq_fderiv h1.differentiableAt, h1.fderiv]
  simp [Pi.single_apply]

/-- **C119** (bias corrections): on a loss with a constant gradient every step of Adam, not only the first, moves every coordinate by the
same amount, the learning rate (up to `eps`), with or without AMSGrad. -/
theorem adam_constant_gradient (hp : AdamHyper) (h1 : 0 ≤ hp.beta1 ∧ hp.beta1 < 1) (h2 : 0 ≤ hp.beta2 ∧ hp.beta2 < 1) (group : ι → String)
    (w : ι → ℝ) (c : ℝ) (θ : ι → ℝ) (n : ℕ) (i : ι) :
    (adamRun group (List.replicate n (hp, fun θ => c + ∑ i, w i * θ i)) (AdamMemory.start, θ)).2 i =
      θ i - n * (groupLr hp.factors hp.lr (group i) * (w i / (|w i| + hp.eps))) := by
  have key : ∀ (n t : ℕ) (s : AdamMemory ι × (ι → ℝ)), s.1.step = t → (∀ i, s.1.avg i = (1 - hp.beta1 ^ t) * w i) →
      (∀ i, s.1.avgSq i = (1 - hp.beta2 ^ t) * w i ^ 2) → (hp.amsgrad = true → ∀ i, s.1.maxSq i = (1 - hp.beta2 ^ t) * w i ^ 2) →
      (adamRun group (List.replicate n (hp, fun θ => c + ∑ i, w i * θ i)) s).2 i =
        s.2 i - n * (groupLr hp.factors hp.lr (group i) * (w i / (|w i| + hp.eps))) := by
    intro n
    induction n with
    | zero => intro t s _ _ _ _; simp [adamRun]
    | succ n ih =>
      intro t s ht ha hq hm
      rw [List.replicate_succ]
      show (adamRun group _ (adamUpdate hp group (gradOf (fun θ => c + ∑ i, w i * θ i) s.2) s)).2 i = _
      rw [gradOf_linear]
      have ea : ∀ i, hp.beta1 * s.1.avg i + (1 - hp.beta1) * w i = (1 - hp.beta1 ^ (t + 1)) * w i := fun i => by rw [ha, pow_succ]; ring
      have eq : ∀ i, hp.beta2 * s.1.avgSq i + (1 - hp.beta2) * w i ^ 2 = (1 - hp.beta2 ^ (t + 1)) * w i ^ 2 := fun i => by
        rw [hq, pow_succ]; ring
      have em : hp.amsgrad = true → ∀ i, max (s.1.maxSq i) (hp.beta2 * s.1.avgSq i + (1 - hp.beta2) * w i ^ 2) =
          (1 - hp.beta2 ^ (t + 1)) * w i ^ 2 := fun h i => by
        rw [hm h, eq]
        refine max_eq_right (mul_le_mul_of_nonneg_right ?_ (sq_nonneg _))
        have : hp.beta2 ^ (t + 1) ≤ hp.beta2 ^ t := pow_le_pow_of_le_one h2.1 h2.2.le (by omega)
        linarith
      have c1 : 1 - hp.beta1 ^ (t + 1) ≠ 0 := by
        have : hp.beta1 ^ (t + 1) < 1 := pow_lt_one₀ h1.1 h1.2 (by omega)
        linarith
      have c2 : 0 < 1 - hp.beta2 ^ (t + 1) := by
        have : hp.beta2 ^ (t + 1) < 1 := pow_lt_one₀ h2.1 h2.2 (by omega)
        linarith
      have hd : √((1 - hp.beta2 ^ (t + 1)) * w i ^ 2) / √(1 - hp.beta2 ^ (t + 1)) = |w i| := by
        rw [Real.sqrt_mul c2.le, Real.sqrt_sq_eq_abs]
        exact mul_div_cancel_left₀ _ (Real.sqrt_pos.2 c2).ne'
      have hstep : (adamUpdate hp group w s).2 i = s.2 i - groupLr hp.factors hp.lr (group i) * (w i / (|w i| + hp.eps)) := by
        have h3 : (adamUpdate hp group w s).2 i = s.2 i - groupLr hp.factors hp.lr (group i) / (1 - hp.beta1 ^ (t + 1)) *
            ((1 - hp.beta1 ^ (t + 1)) * w i / (√((1 - hp.beta2 ^ (t + 1)) * w i ^ 2) / √(1 - hp.beta2 ^ (t + 1)) + hp.eps)) := by
          unfold adamUpdate
          simp only [ht]
          cases hams : hp.amsgrad with
          | false => simp only [Bool.false_eq_true, if_false, ea, eq]
          | true => simp only [if_true, ea, em hams]
        rw [h3, hd]
        field_simp
      rw [ih (t + 1) (adamUpdate hp group w s) (by show s.1.step + 1 = _; rw [ht]) ea eq
        (fun h i => by
          have : (adamUpdate hp group w s).1.maxSq i = max (s.1.maxSq i) (hp.beta2 * s.1.avgSq i + (1 - hp.beta2) * w i ^ 2) := by
            unfold adamUpdate
            simp only [h, if_true]
          rw [this, em h]), hstep]
      push_cast
      ring
  exact key n 0 (AdamMemory.start, θ) rfl (fun _ => by simp [AdamMemory.start]) (fun _ => by simp [AdamMemory.start])
    (fun _ _ => by simp [AdamMemory.start])

/-! ### The scale of the loss -/

theorem gradOf_const_mul (c : ℝ) (L : (ι → ℝ) → ℝ) (θ : ι → ℝ) : gradOf (fun θ => c * L θ) θ = fun i => c * gradOf L θ i := by
  funext i
  exact deriv_const_mul_field c

/-- **C119** (the scale of the loss, Adam): multiplying all losses by a positive constant and `eps` with them changes nothing; so, up to
`eps`, the normalization of the loss has no influence on an Adam reconstruction. -/
theorem adam_loss_scale (group : ι → String) (c : ℝ) (hc : 0 < c) (steps : List (AdamHyper × ((ι → ℝ) → ℝ))) (θ : ι → ℝ) :
    (adamRun group (steps.map fun x => ({ x.1 with eps := c * x.1.eps }, fun θ => c * x.2 θ)) (AdamMemory.start, θ)).2 =
      (adamRun group steps (AdamMemory.start, θ)).2 := by
  have key : ∀ (steps : List (AdamHyper × ((ι → ℝ) → ℝ))) (m : AdamMemory ι) (θ : ι → ℝ),
      (adamRun group (steps.map fun x => ({ x.1 with eps := c * x.1.eps }, fun θ => c * x.2 θ))
        (⟨m.step, fun i => c * m.avg i, fun i => c ^ 2 * m.avgSq i, fun i => c ^ 2 * m.maxSq i⟩, θ)).2 = (adamRun group steps (m, θ)).2 := by
    intro steps
    induction steps with
    | nil => intro m θ; rfl
    | cons x steps ih =>
      intro m θ
      obtain ⟨hp, L⟩ := x
      show (adamRun group _ (adamUpdate { hp with eps := c * hp.eps } group (gradOf (fun θ => c * L θ) θ)
        (⟨m.step, fun i => c * m.avg i, fun i => c ^ 2 * m.avgSq i, fun i => c ^ 2 * m.maxSq i⟩, θ))).2 =
        (adamRun group steps (adamUpdate hp group (gradOf L θ) (m, θ))).2
      rw [gradOf_const_mul c]
      rw [show adamUpdate hp group (gradOf L θ) (m, θ) =
        ((adamUpdate hp group (gradOf L θ) (m, θ)).1, (adamUpdate hp group (gradOf L θ) (m, θ)).2) from rfl, ← ih]
      congr 2
      have e1 : ∀ i, hp.beta1 * (c * m.avg i) + (1 - hp.beta1) * (c * gradOf L θ i) =
          c * (hp.beta1 * m.avg i + (1 - hp.beta1) * gradOf L θ i) := fun i => by ring
      have e2 : ∀ i, hp.beta2 * (c ^ 2 * m.avgSq i) + (1 - hp.beta2) * (c * gradOf L θ i) ^ 2 =
          c ^ 2 * (hp.beta2 * m.avgSq i + (1 - hp.beta2) * gradOf L θ i ^ 2) := fun i => by ring
      have e3 : ∀ x y : ℝ, max (c ^ 2 * x) (c ^ 2 * y) = c ^ 2 * max x y := fun x y => (mul_max_of_nonneg _ _ (sq_nonneg c)).symm
      have e4 : ∀ x : ℝ, √(c ^ 2 * x) = c * √x := fun x => by rw [Real.sqrt_mul (sq_nonneg c), Real.sqrt_sq hc.le]
      have e5 : ∀ x y d : ℝ, c * x / (c * y / d + c * hp.eps) = x / (y / d + hp.eps) := fun x y d => by
        rw [mul_div_assoc c y, ← mul_add, mul_div_mul_left _ _ hc.ne']
      unfold adamUpdate
      cases hp.amsgrad with
      | false =>
        simp only [Bool.false_eq_true, if_false, e1, e2, e4]
        refine Prod.ext rfl (funext fun i => ?_)
        show θ i - _ = θ i - _
        rw [e5]
      | true =>
        simp only [if_true, e1, e2, e3, e4]
        refine Prod.ext rfl (funext fun i => ?_)
        show θ i - _ = θ i - _
        rw [e5]
  have h0 := key steps AdamMemory.start θ
  simpa [AdamMemory.start] using h0

/-- **C119** (the scale of the loss, SGD): without weight decay, multiplying all losses by a constant is the same as multiplying the
learning rates by it; so the useful learning rates of SGD depend on the normalization of the loss. -/
theorem sgd_loss_scale (group : ι → String) (c : ℝ) (steps : List (SgdHyper × ((ι → ℝ) → ℝ)))
    (hw : ∀ x ∈ steps, x.1.weightDecay = 0) (θ : ι → ℝ) :
    (sgdRun group (steps.map fun x => (x.1, fun θ => c * x.2 θ)) (none, θ)).2 =
      (sgdRun group (steps.map fun x => ({ x.1 with lr := c * x.1.lr }, x.2)) (none, θ)).2 := by
  have key : ∀ (steps : List (SgdHyper × ((ι → ℝ) → ℝ))) (_ : ∀ x ∈ steps, x.1.weightDecay = 0) (b : Option (ι → ℝ)) (θ : ι → ℝ),
      (sgdRun group (steps.map fun x => (x.1, fun θ => c * x.2 θ)) (b.map fun b i => c * b i, θ)).2 =
        (sgdRun group (steps.map fun x => ({ x.1 with lr := c * x.1.lr }, x.2)) (b, θ)).2 := by
    intro steps
    induction steps with
    | nil => intro _ b θ; rfl
    | cons x steps ih =>
      intro hx b θ
      have hw : x.1.weightDecay = 0 := hx x List.mem_cons_self
      obtain ⟨hp, L⟩ := x
      replace hw : hp.weightDecay = 0 := hw
      show (sgdRun group _ (sgdUpdate hp group (gradOf (fun θ => c * L θ) θ) (b.map fun b i => c * b i, θ))).2 =
        (sgdRun group _ (sgdUpdate { hp with lr := c * hp.lr } group (gradOf L θ) (b, θ))).2
      rw [gradOf_const_mul c]
      have hstep : sgdUpdate hp group (fun i => c * gradOf L θ i) (b.map fun b i => c * b i, θ) =
          ((sgdUpdate { hp with lr := c * hp.lr } group (gradOf L θ) (b, θ)).1.map fun b i => c * b i,
            (sgdUpdate { hp with lr := c * hp.lr } group (gradOf L θ) (b, θ)).2) := by
        have hlr : ∀ (d : ι → ℝ) (b : Option (ι → ℝ)), sgdBuffer { hp with lr := c * hp.lr } d b = sgdBuffer hp d b := fun d b => by
          cases b <;> rfl
        unfold sgdUpdate
        by_cases hm : hp.momentum = 0
        · simp only [hm, if_true]
          refine Prod.ext rfl (funext fun i => ?_)
          show θ i - _ = θ i - _
          rw [groupLr_mul, hw]; ring
        · simp only [hm, if_false, hlr]
          have hbuf : ∀ i, sgdBuffer hp (fun i => c * gradOf L θ i + hp.weightDecay * θ i) (b.map fun b i => c * b i) i =
              c * sgdBuffer hp (fun i => gradOf L θ i + hp.weightDecay * θ i) b i := fun i => by
            cases b with
            | none => simp [sgdBuffer, hw]
            | some b => simp [sgdBuffer, hw]; ring
          refine Prod.ext ?_ (funext fun i => ?_)
          · exact congrArg some (funext fun i => hbuf i)
          · cases hp.nesterov with
            | true =>
              simp only [if_true]
              rw [hbuf, groupLr_mul, hw]; ring
            | false =>
              simp only [Bool.false_eq_true, if_false]
              rw [hbuf, groupLr_mul]; ring
      rw [hstep, ih (fun y hy => hx y (List.mem_cons_of_mem _ hy))]
  exact key steps hw none θ

/-- Non-vacuity of C119: two parameters, the loss sees one of them only, the defaults of the reconstructors; the first step moves it by the
learning rate (up to `eps`) towards the minimum and leaves the other one. -/
example : ∃ (L : (Fin 2 → ℝ) → ℝ) (hp : AdamHyper), hp.Proper ∧ Ignores L 1 ∧ ¬ Ignores L 0 ∧ gradOf L (fun _ => 3) 0 = 6 := by
  refine ⟨fun θ => θ 0 ^ 2, ⟨0.005, 0.9, 0.999, false, [], 1e-8⟩, ⟨by norm_num, by norm_num, by norm_num⟩, fun θ x => by simp, fun h => ?_, ?_⟩
  · have := h (fun _ => 0) 1
    simp at this
  · have h1 : HasFDerivAt (fun θ : Fin 2 → ℝ => θ 0 ^ 2) ((2 * (3 : ℝ)) • (ContinuousLinearMap.proj 0 : (Fin 2 → ℝ) →L[ℝ] ℝ)) (fun _ => 3) := by
      have := (ContinuousLinearMap.proj (R := ℝ) (φ := fun _ : Fin 2 => ℝ) 0).hasFDerivAt (x := fun _ => (3 : ℝ))
      simpa using this.pow 2
    rw [gradOf_eq_fderiv h1.differentiableAt, h1.fderiv]
    simp
    norm_num

end Cdtools
