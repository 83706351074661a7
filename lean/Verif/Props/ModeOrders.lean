/-
C45 (subdominant modes): enumeration of the mode orders and normalization.
-/
import Verif.Model.Initializers
import Verif.Props.Propagators
import Mathlib.Tactic.Linarith
import Mathlib.Tactic.Ring
import Mathlib.Tactic.FieldSimp

set_option linter.unusedSectionVars false
set_option linter.unusedSimpArgs false

namespace Cdtools
open Finset ZMod

variable {n m : ℕ} [NeZero n] [NeZero m]

/-- Position of an order in the enumeration by total degree, then first index: before `(a, b)` come
the `2 + 3 + … + (a+b)` orders of smaller positive degree and the `a` orders `(0, ·) … (a-1, ·)`. -/
def orderRank (p : ℕ × ℕ) : ℕ := (p.1 + p.2) * (p.1 + p.2 + 1) / 2 + p.1

theorem rank_step (p : ℕ × ℕ) :
    orderRank (if p.2 = 0 then (0, p.1 + 1) else (p.1 + 1, p.2 - 1)) = orderRank p + 1 := by
  obtain ⟨a, b⟩ := p
  unfold orderRank
  split
  · rename_i h
    simp only at h
    subst h
    simp only [Nat.add_zero, Nat.zero_add]
    have : (a + 1) * (a + 1 + 1) = a * (a + 1) + 2 * (a + 1) := by ring
    omega
  · rename_i h
    simp only at h
    simp only [show a + 1 + (b - 1) = a + b by omega]
    omega

theorem rank_degree {p q : ℕ × ℕ} (h : p.1 + p.2 < q.1 + q.2) : orderRank p < orderRank q := by
  unfold orderRank
  have h1 : (p.1 + p.2 + 1) * (p.1 + p.2 + 2) ≤ (q.1 + q.2) * (q.1 + q.2 + 1) :=
    Nat.mul_le_mul h (by omega)
  have h2 : (p.1 + p.2 + 1) * (p.1 + p.2 + 2) = (p.1 + p.2) * (p.1 + p.2 + 1) + 2 * (p.1 + p.2 + 1) := by
    ring
  have := p.2.zero_le
  omega

theorem rank_inj {p q : ℕ × ℕ} (h : orderRank p = orderRank q) : p = q := by
  rcases lt_trichotomy (p.1 + p.2) (q.1 + q.2) with hd | hd | hd
  · exact absurd h (rank_degree hd).ne
  · unfold orderRank at h
    rw [hd] at h
    have h1 : p.1 = q.1 := by omega
    exact Prod.ext h1 (by omega)
  · exact absurd h (rank_degree hd).ne'

theorem makeOrdersFrom_spec (r : ℕ) : ∀ i k, k ≤ i →
    (makeOrdersFrom r i k).length = r ∧
    ∀ t (h : t < (makeOrdersFrom r i k).length),
      orderRank ((makeOrdersFrom r i k)[t]) = orderRank (k, i - k) + t := by
  induction r with
  | zero => intro i k _; exact ⟨rfl, fun t h => absurd h (by simp [makeOrdersFrom])⟩
  | succ r ih =>
    intro i k hk
    by_cases hki : k < i
    · have he : makeOrdersFrom (r + 1) i k = (k, i - k) :: makeOrdersFrom r i (k + 1) := by
        rw [makeOrdersFrom, if_pos hki]
      simp only [he]
      obtain ⟨hl, hr⟩ := ih i (k + 1) hki
      refine ⟨by simp [hl], fun t h => ?_⟩
      cases t with
      | zero => simp
      | succ t =>
        simp only [List.getElem_cons_succ]
        rw [hr t (by simpa using h)]
        have := rank_step (k, i - k)
        rw [if_neg (by simp only; omega)] at this
        simp only at this
        rw [show i - (k + 1) = i - k - 1 by omega, this]
        omega
    · have he : makeOrdersFrom (r + 1) i k = (k, i - k) :: makeOrdersFrom r (i + 1) 0 := by
        rw [makeOrdersFrom, if_neg hki]
      simp only [he]
      obtain ⟨hl, hr⟩ := ih (i + 1) 0 (Nat.zero_le _)
      refine ⟨by simp [hl], fun t h => ?_⟩
      cases t with
      | zero => simp
      | succ t =>
        simp only [List.getElem_cons_succ]
        rw [hr t (by simpa using h)]
        have := rank_step (k, i - k)
        rw [if_pos (by simp only; omega)] at this
        simp only at this
        rw [show i + 1 - 0 = k + 1 by omega, this]
        omega

/-- **C45** (mode orders): for every number of modes up to 1024 the enumeration has exactly that many
orders, all different, by increasing total order, never the dominant mode's `(0, 0)`, and skips
none: whenever an order is used, every order of smaller positive total degree is used too. Above
1024 it raises `KeyError`. -/
theorem mode_orders (N : ℕ) :
    (1024 < N → makeOrders N = .error "KeyError") ∧
    (N ≤ 1024 → ∃ l, makeOrders N = .ok l ∧ l.length = N ∧ l.Nodup ∧
      l.Pairwise (fun p q => p.1 + p.2 ≤ q.1 + q.2) ∧
      (∀ p ∈ l, 1 ≤ p.1 + p.2) ∧
      (∀ p ∈ l, ∀ q : ℕ × ℕ, 1 ≤ q.1 + q.2 → q.1 + q.2 < p.1 + p.2 → q ∈ l)) := by
  refine ⟨fun h => by simp [makeOrders, h], fun h => ⟨makeOrdersFrom N 1 0, ?_, ?_⟩⟩
  · unfold makeOrders
    rw [if_neg (by omega)]
  obtain ⟨hl, hr⟩ := makeOrdersFrom_spec N 1 0 (by omega)
  have hr' : ∀ t (h : t < (makeOrdersFrom N 1 0).length),
      orderRank ((makeOrdersFrom N 1 0)[t]) = 1 + t := by
    intro t h; rw [hr t h]; simp [orderRank]
  clear hr
  generalize makeOrdersFrom N 1 0 = l at hl hr'
  refine ⟨hl, ?_, ?_, ?_, ?_⟩
  · rw [List.nodup_iff_pairwise_ne, List.pairwise_iff_getElem]
    intro i j hi hj hij he
    have := congrArg orderRank he
    rw [hr', hr'] at this
    omega
  · rw [List.pairwise_iff_getElem]
    intro i j hi hj hij
    by_contra hc
    have := rank_degree (not_le.1 hc)
    rw [hr', hr'] at this
    omega
  · intro p hp
    obtain ⟨t, ht, rfl⟩ := List.getElem_of_mem hp
    have := hr' t ht
    by_contra hc
    have h0 : l[t].1 = 0 := by omega
    have h1 : l[t].2 = 0 := by omega
    simp [orderRank, h0, h1] at this
    omega
  · intro p hp q hq hd
    obtain ⟨t, ht, rfl⟩ := List.getElem_of_mem hp
    have h1 := rank_degree hd
    rw [hr' t ht] at h1
    have hpos : 1 ≤ orderRank q := by
      have := rank_degree (p := (0, 0)) (q := q) (by simp only; omega)
      omega
    have hlt : orderRank q - 1 < l.length := by omega
    have : l[orderRank q - 1] = q := rank_inj (by rw [hr']; omega)
    rw [← this]
    exact List.getElem_mem _

/-- Non-vacuity: seven modes. -/
example : makeOrders 7 = .ok [(0, 1), (1, 0), (0, 2), (1, 1), (2, 0), (0, 3), (1, 2)] := by decide

/-! ### Normalization -/

theorem farField_scale (c : ℂ) (w : Wave n m) :
    farField (fun i j => c * w i j) = fun i j => c * farField w i j := by
  funext i j
  have := (far_field_unitary (n := n) (m := m)).2.2.2.2.1 w w c 0 i j
  simpa using this

theorem inverseFarField_scale (c : ℂ) (w : Wave n m) :
    inverseFarField (fun i j => c * w i j) = fun i j => c * inverseFarField w i j := by
  have h : w = farField (inverseFarField w) := (far_field_unitary.2.1 w).symm
  conv_lhs => rw [h]
  rw [← farField_scale, far_field_unitary.1]

theorem derivativeMode_scale (circ : Bool) (c : ℂ) (dom : Wave n m) (o : ℕ × ℕ) :
    derivativeMode circ (fun i j => c * dom i j) o = fun i j => c * derivativeMode circ dom o i j := by
  unfold derivativeMode
  rw [farField_scale, ← inverseFarField_scale]
  congr 1
  funext k l
  ring

/-- Doubling (scaling by `s`) the dominant mode quadruples (scales by `s²`) the modes. -/
theorem subdominantMode_scale (circ : Bool) {s : ℝ} (hs : 0 < s) (dom : Wave n m) (o : ℕ × ℕ)
    (i : ZMod n) (j : ZMod m) :
    subdominantMode circ (fun i j => (s : ℂ) * dom i j) o i j =
      (s ^ 2 : ℝ) * subdominantMode circ dom o i j := by
  unfold subdominantMode
  rw [derivativeMode_scale]
  simp only [norm_mul, Complex.norm_real, Real.norm_of_nonneg hs.le, mul_pow, ← mul_sum]
  by_cases h : ∑ i, ∑ j, ‖derivativeMode circ dom o i j‖ = 0
  · simp [h]
  · have h' : ((∑ i, ∑ j, ‖derivativeMode circ dom o i j‖ : ℝ) : ℂ) ≠ 0 := by exact_mod_cast h
    have hs' : (s : ℂ) ≠ 0 := by exact_mod_cast hs.ne'
    push_cast at h' ⊢
    field_simp

theorem power_scale (s : ℝ) (w : Wave n m) : power (fun i j => (s : ℂ) * w i j) = s ^ 2 * power w := by
  unfold power
  simp only [norm_mul, Complex.norm_real, mul_pow, Real.norm_eq_abs, sq_abs, ← mul_sum]

/-- **C45** (negation): the modes are documented to have the intensity of the dominant mode. For every
dominant mode and every mode that does not vanish, some rescaling of the dominant mode gives a mode
with a different intensity. -/
theorem subdominant_power_violated (circ : Bool) (dom : Wave n m) (o : ℕ × ℕ)
    (h : power (subdominantMode circ dom o) ≠ 0) :
    ∃ s : ℝ, 0 < s ∧ power (subdominantMode circ (fun i j => (s : ℂ) * dom i j) o) ≠
      power (fun i j => (s : ℂ) * dom i j) := by
  by_contra hc
  push Not at hc
  have h1 := hc 1 one_pos
  have h2 := hc 2 two_pos
  have e : ∀ s : ℝ, 0 < s → subdominantMode circ (fun i j => (s : ℂ) * dom i j) o =
      fun i j => ((s ^ 2 : ℝ) : ℂ) * subdominantMode circ dom o i j := by
    intro s hs; funext i j; exact subdominantMode_scale circ hs dom o i j
  rw [e 1 one_pos, power_scale, power_scale] at h1
  rw [e 2 two_pos, power_scale, power_scale] at h2
  apply h
  nlinarith

theorem subdominant_norm (circ : Bool) (dom : Wave n m) (o : ℕ × ℕ)
    (h : derivativeMode circ dom o ≠ 0) :
    ∑ i, ∑ j, ‖subdominantMode circ dom o i j‖ = power dom := by
  unfold subdominantMode
  have hp : 0 ≤ ∑ i, ∑ j, ‖dom i j‖ ^ 2 :=
    sum_nonneg fun i _ => sum_nonneg fun j _ => by positivity
  have hq : 0 ≤ ∑ i, ∑ j, ‖derivativeMode circ dom o i j‖ :=
    sum_nonneg fun i _ => sum_nonneg fun j _ => norm_nonneg _
  simp only [norm_mul, Complex.norm_real, Real.norm_of_nonneg (div_nonneg hp hq), ← sum_mul]
  have hne : ∑ i, ∑ j, ‖derivativeMode circ dom o i j‖ ≠ 0 := by
    intro h0
    apply h
    funext i j
    have h1 := (sum_eq_zero_iff_of_nonneg fun i _ => sum_nonneg fun j _ => norm_nonneg
      (derivativeMode circ dom o i j)).1 h0 i (mem_univ i)
    have h2 := (sum_eq_zero_iff_of_nonneg fun j _ => norm_nonneg _).1 h1 j (mem_univ j)
    simpa using h2
  rw [mul_div_assoc', mul_comm, mul_div_assoc, div_self hne, mul_one]
  rfl

/-- **C45** (what holds): for every dominant mode and every number of modes between 1 and 1024, one
mode per enumerated order is returned; each that does not vanish has far field proportional to the
order's polynomial times the dominant mode's far field, with a non-negative real constant, and the
sum of its *moduli* (not their squares, as documented) is the dominant mode's intensity. Missing: the
documented intensity, see `subdominant_power_violated`. -/
theorem subdominant_modes_partial (circ : Bool) (dom : Wave n m) (N : ℕ) (h1 : 1 ≤ N) (h2 : N ≤ 1024) :
    ∃ modes orders, generateSubdominantModes dom N circ = .ok modes ∧ makeOrders N = .ok orders ∧
      modes.length = N ∧
      ∀ t (ht : t < modes.length) (ht' : t < orders.length),
        (∃ c : ℝ, 0 ≤ c ∧ ∀ k l, farField modes[t] k l =
          c * (orderMask circ orders[t].1 orders[t].2 k l * farField dom k l)) ∧
        (modes[t] ≠ 0 → ∑ i, ∑ j, ‖modes[t] i j‖ = power dom) := by
  obtain ⟨l, hl, hlen, -⟩ := (mode_orders N).2 h2
  refine ⟨l.map (subdominantMode circ dom), l, ?_, hl, by simp [hlen], ?_⟩
  · unfold generateSubdominantModes
    rw [hl]
    cases l with
    | nil => simp at hlen; omega
    | cons o os => rfl
  · intro t ht ht'
    simp only [List.getElem_map]
    generalize l[t] = o
    constructor
    · refine ⟨(∑ i, ∑ j, ‖dom i j‖ ^ 2) / (∑ i, ∑ j, ‖derivativeMode circ dom o i j‖),
        div_nonneg (sum_nonneg fun i _ => sum_nonneg fun j _ => by positivity)
          (sum_nonneg fun i _ => sum_nonneg fun j _ => norm_nonneg _), fun k l => ?_⟩
      have e : subdominantMode circ dom o = fun i j =>
          (((∑ i, ∑ j, ‖dom i j‖ ^ 2) / (∑ i, ∑ j, ‖derivativeMode circ dom o i j‖) : ℝ) : ℂ) *
          derivativeMode circ dom o i j := by
        funext i j; unfold subdominantMode; rw [mul_comm]
      rw [e, farField_scale]
      unfold derivativeMode
      rw [far_field_unitary.2.1]
    · intro hne
      refine subdominant_norm circ dom o fun h0 => hne ?_
      funext i j
      unfold subdominantMode
      rw [h0]
      simp

/-- **C45**, the other numbers: no modes is a `RuntimeError` of `stack`, more than 1024 a `KeyError`. -/
theorem subdominant_modes_limits (circ : Bool) (dom : Wave n m) (N : ℕ) :
    generateSubdominantModes dom 0 circ = .error "RuntimeError" ∧
    (1024 < N → generateSubdominantModes dom N circ = .error "KeyError") := by
  refine ⟨by simp [generateSubdominantModes, makeOrders, makeOrdersFrom], fun h => ?_⟩
  unfold generateSubdominantModes
  rw [(mode_orders N).1 h]

/-- **C45** (the polynomials): the mode of order `(p, q)` has the far field of the dominant mode times `x ^ p * y ^ q`, with
`x`, `y` the distances from the central pixel of the detector, or times `(x + i y) ^ p * (x - i y) ^ q` for circular modes,
up to a non-negative factor. -/
theorem subdominant_polynomials (dom : Wave n m) (p q : ℕ) :
    (∃ c : ℝ, 0 ≤ c ∧ ∀ k l, farField (subdominantMode false dom (p, q)) k l =
      c * ((k.val : ℂ) - (n / 2 : ℕ)) ^ p * ((l.val : ℂ) - (m / 2 : ℕ)) ^ q * farField dom k l) ∧
    (∃ c : ℝ, 0 ≤ c ∧ ∀ k l, farField (subdominantMode true dom (p, q)) k l =
      c * (((k.val : ℂ) - (n / 2 : ℕ)) + Complex.I * ((l.val : ℂ) - (m / 2 : ℕ))) ^ p *
        (((k.val : ℂ) - (n / 2 : ℕ)) - Complex.I * ((l.val : ℂ) - (m / 2 : ℕ))) ^ q * farField dom k l) := by
  have key : ∀ circ : Bool, ∃ c : ℝ, 0 ≤ c ∧ ∀ k l, farField (subdominantMode circ dom (p, q)) k l =
      c * (orderMask circ p q k l * farField dom k l) := by
    intro circ
    refine ⟨(∑ i, ∑ j, ‖dom i j‖ ^ 2) / (∑ i, ∑ j, ‖derivativeMode circ dom (p, q) i j‖),
      div_nonneg (sum_nonneg fun i _ => sum_nonneg fun j _ => by positivity)
        (sum_nonneg fun i _ => sum_nonneg fun j _ => norm_nonneg _), fun k l => ?_⟩
    have e : subdominantMode circ dom (p, q) = fun i j =>
        (((∑ i, ∑ j, ‖dom i j‖ ^ 2) / (∑ i, ∑ j, ‖derivativeMode circ dom (p, q) i j‖) : ℝ) : ℂ) *
        derivativeMode circ dom (p, q) i j := by
      funext i j; unfold subdominantMode; rw [mul_comm]
    rw [e, farField_scale]
    unfold derivativeMode
    rw [far_field_unitary.2.1]
  obtain ⟨c, hc, h⟩ := key false
  obtain ⟨c', hc', h'⟩ := key true
  refine ⟨⟨c, hc, fun k l => ?_⟩, ⟨c', hc', fun k l => ?_⟩⟩
  · rw [h]; simp only [orderMask, Bool.false_eq_true, if_false]; ring
  · rw [h']; simp only [orderMask, if_true]; ring

theorem power_pos_of_ne {w : Wave n m} (h : w ≠ 0) : power w ≠ 0 := by
  intro h0
  apply h
  unfold power at h0
  funext i j
  have h1 := (sum_eq_zero_iff_of_nonneg fun i _ => sum_nonneg fun j _ => sq_nonneg
    ‖w i j‖).1 h0 i (mem_univ i)
  have h2 := (sum_eq_zero_iff_of_nonneg fun j _ => sq_nonneg _).1 h1 j (mem_univ j)
  simpa using h2

/-- Non-vacuity: the dominant mode whose far field is a single spot at pixel (0, 0) of a 2 × 2 array
has a non-vanishing first mode, of both kinds. -/
example (circ : Bool) :
    power (subdominantMode (n := 2) (m := 2) circ
      (inverseFarField fun k l => if k = 0 ∧ l = 0 then 1 else 0) (0, 1)) ≠ 0 := by
  set d : Wave 2 2 := inverseFarField fun k l => if k = 0 ∧ l = 0 then 1 else 0 with hd
  have hfd : farField d = fun k l => if k = 0 ∧ l = 0 then 1 else 0 := by
    rw [hd, far_field_unitary.2.1]
  have hdm : derivativeMode circ d (0, 1) ≠ 0 := by
    intro h0
    have := congrArg (fun w => farField w 0 0) h0
    simp only [derivativeMode, far_field_unitary.2.1, hfd] at this
    have hz : farField (0 : Wave 2 2) 0 0 = 0 := by
      have := farField_scale (n := 2) (m := 2) 0 0
      have h := congrFun (congrFun this 0) 0
      simp only [zero_mul] at h
      exact h
    rw [hz] at this
    cases circ <;> simp [orderMask, Complex.ext_iff] at this
  have hne : d ≠ 0 := by
    intro h0
    have : farField d 0 0 = 1 := by rw [hfd]; simp
    rw [h0] at this
    have hz := farField_scale (n := 2) (m := 2) 0 0
    have h := congrFun (congrFun hz 0) 0
    simp only [zero_mul] at h
    have h' : farField (0 : Wave 2 2) 0 0 = 0 := h
    rw [h'] at this
    exact zero_ne_one this
  intro h0
  have hs := subdominant_norm circ d (0, 1) hdm
  have : subdominantMode circ d (0, 1) = 0 := by
    by_contra hc; exact power_pos_of_ne hc h0
  rw [this] at hs
  simp at hs
  exact power_pos_of_ne hne hs.symm

end Cdtools
