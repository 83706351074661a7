/-
**C51**: mode power fractions and von Neumann entropy are functions of the normalized density matrix.
-/
import Verif.Props.Modes
import Mathlib.LinearAlgebra.Matrix.Charpoly.Basic
import Mathlib.Data.List.Sort
import Mathlib.Analysis.Matrix.Order

set_option linter.unusedSectionVars false

namespace Cdtools
open Finset Matrix Polynomial
open scoped ComplexOrder

variable {l x w k k' : ℕ}

/-! ### Specification -/

/-- A finite sequence continued by zeros, to compare sequences of different lengths. -/
def padded (f : Fin k → ℝ) (i : ℕ) : ℝ := if h : i < k then f ⟨i, h⟩ else 0

/-- The Shannon entropy of the distribution proportional to `e`. -/
noncomputable def shannon (e : Fin k → ℝ) : ℝ := ∑ i, Real.negMulLog (e i / ∑ j, e j)

/-! ### Sorted spectra are determined by the density matrix -/

theorem ofFn_padded (f : Fin k → ℝ) (r i : ℕ) :
    (List.ofFn f ++ List.replicate r 0).getD i 0 = padded f i := by
  unfold padded
  split
  · rename_i h
    rw [List.getD_eq_getElem?_getD, List.getElem?_append_left (by simpa using h)]
    simp [h]
  · rename_i h
    rw [List.getD_eq_getElem?_getD, List.getElem?_append_right (by simpa using h)]
    rw [List.length_ofFn, List.getElem?_replicate]
    split <;> rfl

theorem sorted_append {f : Fin k → ℝ} (hf : Antitone f) (h0 : ∀ i, 0 ≤ f i) (r : ℕ) :
    (List.ofFn f ++ List.replicate r 0).Pairwise (· ≥ ·) := by
  rw [List.pairwise_append]
  refine ⟨hf.sortedGE_ofFn.pairwise, by simp [List.pairwise_replicate], ?_⟩
  intro a ha b hb
  rw [List.mem_ofFn] at ha
  obtain ⟨i, rfl⟩ := ha
  rw [List.mem_replicate] at hb
  rw [hb.2]
  exact h0 i

/-- Two orthogonal stacks with the same mutual coherence have the same sorted powers. -/
theorem gram_unique {B : Matrix (Fin k) (Fin x) ℂ} {B' : Matrix (Fin k') (Fin x) ℂ} {s : Fin k → ℝ}
    {s' : Fin k' → ℝ} (hB : B * Bᴴ = diagonal (fun i => (s i : ℂ)))
    (hB' : B' * B'ᴴ = diagonal (fun i => (s' i : ℂ))) (h : Bᴴ * B = B'ᴴ * B') (hs : Antitone s)
    (hs' : Antitone s') (h0 : ∀ i, 0 ≤ s i) (h0' : ∀ i, 0 ≤ s' i) (i : ℕ) : padded s i = padded s' i := by
  have c1 := charpoly_mul_comm' B Bᴴ
  have c2 := charpoly_mul_comm' B' B'ᴴ
  rw [hB, charpoly_diagonal, Fintype.card_fin, Fintype.card_fin] at c1
  rw [hB', charpoly_diagonal, Fintype.card_fin, Fintype.card_fin, ← h] at c2
  have c3 : (X : ℂ[X]) ^ x * (X ^ k' * ∏ i, (X - C (s i : ℂ))) =
      X ^ x * (X ^ k * ∏ i, (X - C (s' i : ℂ))) := by
    linear_combination (X : ℂ[X]) ^ k' * c1 - (X : ℂ[X]) ^ k * c2
  have c4 := (isRegular_X_pow x).left c3
  have prodEq : ∀ {k : ℕ} (s : Fin k → ℝ) (r : ℕ), (X : ℂ[X]) ^ r * ∏ i, (X - C (s i : ℂ)) =
      (((Multiset.replicate r (0 : ℝ) + (univ : Finset (Fin k)).val.map s).map fun t : ℝ => (t : ℂ)).map
        fun a => X - C a).prod := by
    intro k s r
    rw [Multiset.map_add, Multiset.map_add, Multiset.prod_add, Multiset.map_replicate,
      Multiset.map_replicate, Multiset.prod_replicate, Multiset.map_map, Multiset.map_map]
    simp only [Complex.ofReal_zero, C_0, sub_zero]
    rfl
  rw [prodEq, prodEq] at c4
  have c5 := congrArg Polynomial.roots c4
  rw [roots_multiset_prod_X_sub_C, roots_multiset_prod_X_sub_C] at c5
  have c6 := Multiset.map_injective Complex.ofReal_injective c5
  have c7 : ((List.ofFn s ++ List.replicate k' 0 : List ℝ) : Multiset ℝ) =
      ((List.ofFn s' ++ List.replicate k 0 : List ℝ) : Multiset ℝ) := by
    rw [← Multiset.coe_add, ← Multiset.coe_add, ← Fin.univ_val_map, ← Fin.univ_val_map,
      Multiset.coe_replicate, Multiset.coe_replicate, add_comm, c6, add_comm]
  have c8 := List.Perm.eq_of_pairwise' (sorted_append hs h0 k') (sorted_append hs' h0' k)
    (Multiset.coe_eq_coe.1 c7)
  rw [← ofFn_padded s k', c8, ofFn_padded]

/-! ### Power fractions -/

theorem powerFractions_eq (P : Matrix (Fin k) (Fin x) ℂ) (i : Fin k) :
    powerFractions P i = modePower P i / ∑ j, modePower P j := rfl

theorem modePower_nonneg (P : Matrix (Fin k) (Fin x) ℂ) (i : Fin k) : 0 ≤ modePower P i :=
  sum_nonneg fun _ _ => sq_nonneg _

/-- **C51** (fractions of given modes): not negative, and summing to one unless there is no power. -/
theorem power_fractions_distribution (P : Matrix (Fin k) (Fin x) ℂ) :
    (∀ i, 0 ≤ powerFractions P i) ∧ (P ≠ 0 → ∑ i, powerFractions P i = 1) := by
  refine ⟨fun i => div_nonneg (modePower_nonneg P i) (sum_nonneg fun i _ => modePower_nonneg P i), ?_⟩
  intro h
  simp only [powerFractions_eq]
  rw [← sum_div]
  refine div_self fun h0 => h ?_
  ext i j
  have h1 := (sum_eq_zero_iff_of_nonneg fun i _ => modePower_nonneg P i).1 h0 i (mem_univ _)
  have h2 := (sum_eq_zero_iff_of_nonneg fun j _ => sq_nonneg _).1 h1 j (mem_univ _)
  simpa using h2

theorem gram_diag {B : Matrix (Fin k) (Fin x) ℂ} (h : ∀ i j, i ≠ j → ∑ a, B i a * star (B j a) = 0) :
    B * Bᴴ = diagonal (fun i => (modePower B i : ℂ)) := by
  ext i j
  rw [mul_apply, diagonal_apply]
  split
  · rename_i hij
    subst hij
    unfold modePower
    push_cast
    exact sum_congr rfl fun a _ => by rw [conjTranspose_apply, ← Complex.mul_conj']; rfl
  · rename_i hij
    exact h i j hij

/-- Two stacks of orthogonal, sorted modes whose mutual coherences are proportional have the same power
fractions. -/
theorem fractions_unique {B : Matrix (Fin k) (Fin x) ℂ} {B' : Matrix (Fin k') (Fin x) ℂ} {c : ℝ} (hc : 0 < c)
    (h : ∀ i j, i ≠ j → ∑ a, B i a * star (B j a) = 0)
    (h' : ∀ i j, i ≠ j → ∑ a, B' i a * star (B' j a) = 0)
    (hs : ∀ i j, i ≤ j → modePower B j ≤ modePower B i)
    (hs' : ∀ i j, i ≤ j → modePower B' j ≤ modePower B' i)
    (hJ : ∀ a b, mutualCoherence B a b = c * mutualCoherence B' a b) (i : ℕ) :
    padded (powerFractions B) i = padded (powerFractions B') i := by
  have g1 := gram_diag h
  have g2 := gram_diag h'
  have hsq : ((Real.sqrt c : ℝ) : ℂ) * ((Real.sqrt c : ℝ) : ℂ) = (c : ℂ) := by
    rw [← Complex.ofReal_mul, Real.mul_self_sqrt hc.le]
  have hconj : (((Real.sqrt c : ℝ) : ℂ) • B')ᴴ = ((Real.sqrt c : ℝ) : ℂ) • B'ᴴ := by
    rw [conjTranspose_smul]; congr 1; simp
  have g3 : (((Real.sqrt c : ℝ) : ℂ) • B') * (((Real.sqrt c : ℝ) : ℂ) • B')ᴴ =
      diagonal (fun i => ((c * modePower B' i : ℝ) : ℂ)) := by
    rw [hconj, Matrix.smul_mul, Matrix.mul_smul, smul_smul, hsq, g2]
    ext i j
    by_cases hij : i = j
    · subst hij; simp
    · simp [hij]
  have hJ' : Bᴴ * B = (((Real.sqrt c : ℝ) : ℂ) • B')ᴴ * (((Real.sqrt c : ℝ) : ℂ) • B') := by
    rw [hconj, Matrix.smul_mul, Matrix.mul_smul, smul_smul, hsq, ← mutualCoherence_eq,
      ← mutualCoherence_eq]
    ext a b
    exact hJ a b
  have u := gram_unique g1 g3 hJ' (fun i j hij => hs i j hij)
    (fun i j hij => mul_le_mul_of_nonneg_left (hs' i j hij) hc.le) (modePower_nonneg B)
    (fun i => mul_nonneg hc.le (modePower_nonneg B' i))
  have tot : ∑ j, modePower B j = c * ∑ j, modePower B' j := by
    have key : ∀ {k : ℕ} (P : Matrix (Fin k) (Fin x) ℂ),
        ((∑ i, modePower P i : ℝ) : ℂ) = ∑ a, mutualCoherence P a a := by
      intro k P
      unfold modePower mutualCoherence
      push_cast
      rw [sum_comm]
      exact sum_congr rfl fun a _ => sum_congr rfl fun i _ => by rw [← Complex.conj_mul']; rfl
    have e : ((∑ j, modePower B j : ℝ) : ℂ) = ((c * ∑ j, modePower B' j : ℝ) : ℂ) := by
      rw [key, Complex.ofReal_mul, key, mul_sum]
      exact sum_congr rfl fun a _ => hJ a a
    exact_mod_cast e
  have hu := u i
  unfold padded at hu ⊢
  have hcancel : ∀ y : ℝ, y / ∑ j, modePower B' j = c * y / ∑ j, modePower B j := fun y => by
    rw [tot, mul_div_mul_left _ _ hc.ne']
  split <;> split
  · rename_i h1 h2
    rw [dif_pos h1, dif_pos h2] at hu
    rw [powerFractions_eq, powerFractions_eq, hu, hcancel]
  · rename_i h1 h2
    rw [dif_pos h1, dif_neg h2] at hu
    rw [powerFractions_eq, hu, zero_div]
  · rename_i h1 h2
    rw [dif_neg h1, dif_pos h2] at hu
    simp only at hu
    rw [powerFractions_eq, hcancel, ← hu, zero_div]
  · rfl

/-- **C51** (power fractions): the result depends only on the normalized density matrix: any two probes
whose mutual coherences are proportional - whatever the numbers of modes, the way the state is broken
down into modes, the overall scale, and the linear algebra library - have the same power fractions, up
to trailing zeros. -/
theorem power_fractions_invariant (la la' : LinAlg) {l' : ℕ} {P : Matrix (Fin l) (Fin x) ℂ}
    {Q : Matrix (Fin l') (Fin x) ℂ} {c : ℝ} (hc : 0 < c)
    (h : ∀ a b, mutualCoherence P a b = c * mutualCoherence Q a b) (i : ℕ) :
    padded (calcModePowerFractions la P) i = padded (calcModePowerFractions la' Q) i := by
  have o1 := orthogonalize_probes_correct la P
  have o2 := orthogonalize_probes_correct la' Q
  exact fractions_unique hc o1.orthogonal o2.orthogonal o1.sorted o2.sorted
    (fun a b => by rw [o1.coherence, o2.coherence, h]) i

/-- **C51** (with weights): the fractions of the light field `weight_matrix @ probes`. -/
theorem power_fractions_weights (la la' : LinAlg) (P : Matrix (Fin l) (Fin x) ℂ)
    (W : Matrix (Fin w) (Fin l) ℂ) (i : ℕ) :
    padded (calcModePowerFractionsW la P W) i = padded (calcModePowerFractions la' (W * P)) i := by
  have o1 := orthogonalize_probes_weights_correct la P W
  have o2 := orthogonalize_probes_correct la' (W * P)
  exact fractions_unique one_pos o1.orthogonal o2.orthogonal o1.sorted o2.sorted
    (fun a b => by rw [o1.coherence, o2.coherence]; simp) i

/-- **C51** (preorthogonalized input): `assume_preorthogonalized` gives the same fractions for modes that
are orthogonal and sorted, with and without weights. -/
theorem power_fractions_preorthogonalized (la : LinAlg) (P : Matrix (Fin l) (Fin x) ℂ)
    (W : Matrix (Fin w) (Fin l) ℂ) :
    ((∀ i j, i ≠ j → ∑ a, P i a * star (P j a) = 0) → (∀ i j, i ≤ j → modePower P j ≤ modePower P i) →
      ∀ i, padded (calcModePowerFractionsPre P) i = padded (calcModePowerFractions la P) i) ∧
    ((∀ i j, i ≠ j → ∑ a, (W * P) i a * star ((W * P) j a) = 0) →
      (∀ i j, i ≤ j → modePower (W * P) j ≤ modePower (W * P) i) →
      ∀ i, padded (calcModePowerFractionsPreW P W) i = padded (calcModePowerFractionsW la P W) i) := by
  have hWP : (fun m j => ∑ i, W m i * P i j : Matrix (Fin w) (Fin x) ℂ) = W * P := by
    ext i j; rw [mul_apply]
  refine ⟨fun h1 h2 i => ?_, fun h1 h2 i => ?_⟩
  · have o := orthogonalize_probes_correct la P
    exact fractions_unique one_pos h1 o.orthogonal h2 o.sorted (fun a b => by rw [o.coherence]; simp) i
  · have o := orthogonalize_probes_weights_correct la P W
    unfold calcModePowerFractionsPreW
    rw [hWP]
    exact fractions_unique one_pos h1 o.orthogonal h2 o.sorted (fun a b => by rw [o.coherence]; simp) i

/-- **C51** (fractions): the fractions of the orthogonalized modes are a probability distribution. -/
theorem power_fractions_sum (la : LinAlg) (P : Matrix (Fin l) (Fin x) ℂ) (h : P ≠ 0) :
    (∀ i, 0 ≤ calcModePowerFractions la P i) ∧ ∑ i, calcModePowerFractions la P i = 1 := by
  have d := power_fractions_distribution (orthogonalizeProbes la P).1
  refine ⟨d.1, d.2 fun h0 => h ?_⟩
  ext m a
  rw [← (orthogonalize_probes_correct la P).reexpressed, h0]
  simp

/-! ### von Neumann entropy -/

theorem xlogx_eq (y : ℝ) : -xlogx y = Real.negMulLog y := by
  unfold xlogx Real.negMulLog; ring

theorem vnEntropyStack_eq (e : Fin k → ℝ) : vnEntropyStack e = shannon e := by
  unfold vnEntropyStack shannon
  rw [← sum_neg_distrib]
  exact sum_congr rfl fun i _ => xlogx_eq _

/-- The eigenvalues of a Hermitian matrix are unique up to order. -/
theorem eigh_unique {A : Matrix (Fin k) (Fin k) ℂ} {U U' : Matrix (Fin k) (Fin k) ℂ} {e e' : Fin k → ℝ}
    (h : IsEigh A U e) (h' : IsEigh A U' e') :
    (univ : Finset (Fin k)).val.map e = (univ : Finset (Fin k)).val.map e' := by
  have key : ∀ {U : Matrix (Fin k) (Fin k) ℂ} {e : Fin k → ℝ}, IsEigh A U e → A.charpoly.roots =
      ((univ : Finset (Fin k)).val.map e).map fun t : ℝ => (t : ℂ) := by
    intro U e h
    rw [h.eq, charpoly_mul_comm, ← Matrix.mul_assoc, h.unitary, Matrix.one_mul, charpoly_diagonal,
      Multiset.map_map]
    have := roots_multiset_prod_X_sub_C ((univ : Finset (Fin k)).val.map fun i => (e i : ℂ))
    rw [Multiset.map_map] at this
    exact this
  exact Multiset.map_injective Complex.ofReal_injective ((key h).symm.trans (key h'))

theorem sum_of_eigs {e e' : Fin k → ℝ} (h : (univ : Finset (Fin k)).val.map e = univ.val.map e')
    (f : ℝ → ℝ) : ∑ i, f (e i) = ∑ i, f (e' i) := by
  have := congrArg (fun m => (m.map f).sum) h
  simp only [Multiset.map_map] at this
  exact this

theorem shannon_of_eigs {e e' : Fin k → ℝ} (h : (univ : Finset (Fin k)).val.map e = univ.val.map e') :
    shannon e = shannon e' := by
  have h1 : ∑ j, e j = ∑ j, e' j := sum_of_eigs h id
  unfold shannon
  rw [h1]
  exact sum_of_eigs h fun t => Real.negMulLog (t / ∑ j, e' j)

/-- **C51** (entropy, definition): every entry of the result for a stack is the Shannon entropy of the
normalized eigenvalues of the matrix, whichever eigendecomposition is used to compute it. -/
theorem vn_entropy_definition (la : LinAlg) (As : List (Matrix (Fin k) (Fin k) ℂ))
    (hA : ∀ A ∈ As, Aᴴ = A) :
    (calcVnEntropyStack la As).length = As.length ∧
    ∀ i (h : i < As.length) (U : Matrix (Fin k) (Fin k) ℂ) (e : Fin k → ℝ), IsEigh As[i] U e →
      (calcVnEntropyStack la As)[i]? = some (shannon e) := by
  refine ⟨by simp [calcVnEntropyStack], fun i h U e he => ?_⟩
  unfold calcVnEntropyStack
  rw [List.getElem?_map, List.getElem?_eq_getElem h]
  simp only [Option.map_some, Option.some.injEq]
  rw [vnEntropyStack_eq]
  exact shannon_of_eigs (eigh_unique (la.eigh_spec _ (hA _ (List.getElem_mem h))) he)

theorem shannon_scale {c : ℝ} (hc : 0 < c) (e : Fin k → ℝ) : shannon (fun i => c * e i) = shannon e := by
  unfold shannon
  refine sum_congr rfl fun i _ => ?_
  rw [← mul_sum, mul_div_mul_left _ _ hc.ne']

/-- **C51** (entropy, invariance): scaling the matrix by a positive constant, or changing the orthonormal
basis, does not change the entropy computed in a stack. -/
theorem vn_entropy_invariant (la la' : LinAlg) {A W : Matrix (Fin k) (Fin k) ℂ} (hA : Aᴴ = A)
    (hW : Wᴴ * W = 1) {c : ℝ} (hc : 0 < c) :
    calcVnEntropyStack la [(c : ℂ) • (W * A * Wᴴ)] = calcVnEntropyStack la' [A] := by
  have h := la'.eigh_spec A hA
  have hB : ((c : ℂ) • (W * A * Wᴴ))ᴴ = (c : ℂ) • (W * A * Wᴴ) := by
    rw [conjTranspose_smul, conjTranspose_mul, conjTranspose_mul, conjTranspose_conjTranspose, hA,
      Matrix.mul_assoc]
    simp
  have h2 : IsEigh ((c : ℂ) • (W * A * Wᴴ)) (W * (la'.eigh A).2) (fun i => c * (la'.eigh A).1 i) := by
    refine ⟨?_, ?_⟩
    · have hd : diagonal (fun i => ((c * (la'.eigh A).1 i : ℝ) : ℂ)) =
          (c : ℂ) • diagonal (fun i => ((la'.eigh A).1 i : ℂ)) := by
        ext i j
        by_cases hij : i = j
        · subst hij; simp
        · simp [hij]
      rw [hd, Matrix.mul_smul, Matrix.smul_mul, conjTranspose_mul]
      congr 1
      conv_lhs => rw [h.eq]
      simp only [Matrix.mul_assoc]
    · rw [conjTranspose_mul, Matrix.mul_assoc, ← Matrix.mul_assoc Wᴴ, hW, Matrix.one_mul, h.unitary]
  unfold calcVnEntropyStack
  simp only [List.map_cons, List.map_nil]
  rw [vnEntropyStack_eq, vnEntropyStack_eq,
    shannon_of_eigs (eigh_unique (la.eigh_spec _ hB) h2), shannon_scale hc]

/-- **C51** (entropy, range): for eigenvalues of a density matrix (not negative, not all zero) the entropy
lies between 0 and the logarithm of the dimension, and it is 0 exactly for a pure state, all of whose
power is in one eigenvalue. -/
theorem shannon_range {e : Fin k → ℝ} (h0 : ∀ i, 0 ≤ e i) (hpos : 0 < ∑ j, e j) :
    0 ≤ shannon e ∧ shannon e ≤ Real.log k ∧ (shannon e = 0 ↔ ∃ i, ∀ j, j ≠ i → e j = 0) := by
  set T := ∑ j, e j with hT
  have hp0 : ∀ i, 0 ≤ e i / T := fun i => div_nonneg (h0 i) hpos.le
  have hp1 : ∀ i, e i / T ≤ 1 := fun i => by
    rw [div_le_one hpos, hT]; exact single_le_sum (fun j _ => h0 j) (mem_univ i)
  have hsum : ∑ i, e i / T = 1 := by rw [← sum_div, ← hT, div_self hpos.ne']
  have hterm : ∀ i, 0 ≤ Real.negMulLog (e i / T) := fun i => Real.negMulLog_nonneg (hp0 i) (hp1 i)
  have hk : 0 < k := by
    rcases Nat.eq_zero_or_pos k with rfl | h
    · simp at hT; rw [hT] at hpos; exact absurd hpos (lt_irrefl _)
    · exact h
  have hkr : (0 : ℝ) < k := by exact_mod_cast hk
  refine ⟨sum_nonneg fun i _ => hterm i, ?_, ?_⟩
  · have hle : ∀ i, Real.negMulLog (e i / T) ≤ e i / T * Real.log k + (1 / k - e i / T) := by
      intro i
      have hpi := hp0 i
      generalize e i / T = p at hpi ⊢
      rcases hpi.eq_or_lt with h | h
      · rw [← h]; simp
      · have hl := Real.log_le_sub_one_of_pos (x := 1 / (k * p)) (by positivity)
        rw [Real.log_div one_ne_zero (by positivity), Real.log_one, Real.log_mul hkr.ne' h.ne'] at hl
        have := mul_le_mul_of_nonneg_left hl h.le
        have e2 : p * (1 / (k * p) - 1) = 1 / k - p := by field_simp
        rw [e2] at this
        unfold Real.negMulLog
        linarith
    have := sum_le_sum fun i (_ : i ∈ (univ : Finset (Fin k))) => hle i
    rw [sum_add_distrib, ← sum_mul, hsum, sum_sub_distrib, hsum] at this
    simp only [sum_const, card_univ, Fintype.card_fin, nsmul_eq_mul, one_mul] at this
    rw [mul_one_div_cancel hkr.ne', sub_self, add_zero] at this
    exact this
  · constructor
    · intro h
      have hz := fun i => (sum_eq_zero_iff_of_nonneg fun i _ => hterm i).1 h i (mem_univ i)
      obtain ⟨i, -, hi⟩ := exists_ne_zero_of_sum_ne_zero (by rw [hsum]; exact one_ne_zero)
      have hone : e i / T = 1 := by
        have := hz i
        unfold Real.negMulLog at this
        have hlog : Real.log (e i / T) = 0 := by
          rcases mul_eq_zero.1 this with h | h
          · exact absurd (neg_eq_zero.1 h) hi
          · exact h
        rcases Real.log_eq_zero.1 hlog with h | h | h
        · exact absurd h hi
        · exact h
        · have := hp0 i; rw [h] at this; linarith
      refine ⟨i, fun j hj => ?_⟩
      have hsub : e i / T + e j / T ≤ ∑ i, e i / T := by
        have e2 := sum_pair (f := fun a => e a / T) hj.symm
        rw [← e2]
        exact sum_le_sum_of_subset_of_nonneg (subset_univ _) fun a _ _ => hp0 a
      rw [hsum, hone] at hsub
      have : e j / T = 0 := le_antisymm (by linarith) (hp0 j)
      rcases div_eq_zero_iff.1 this with h | h
      · exact h
      · exact absurd h hpos.ne'
    · rintro ⟨i, hi⟩
      have hTi : T = e i := by
        rw [hT]; exact sum_eq_single i (fun j _ hj => hi j hj) (fun h => absurd (mem_univ i) h)
      unfold shannon
      rw [← hT, sum_eq_single i (fun j _ hj => by rw [hi j hj]; simp) (fun h => absurd (mem_univ i) h),
        ← hTi, div_self hpos.ne']
      simp

theorem eigh_nonneg {A U : Matrix (Fin k) (Fin k) ℂ} {e : Fin k → ℝ} (h : IsEigh A U e)
    (hA : A.PosSemidef) (i : Fin k) : 0 ≤ e i := by
  have h1 : Uᴴ * A * U = diagonal (fun i => (e i : ℂ)) := by
    rw [h.eq]
    simp only [Matrix.mul_assoc]
    rw [h.unitary, Matrix.mul_one, ← Matrix.mul_assoc, h.unitary, Matrix.one_mul]
  have h2 := (hA.conjTranspose_mul_mul_same U).diag_nonneg (i := i)
  rw [h1, diagonal_apply_eq] at h2
  exact Complex.zero_le_real.1 h2

theorem eigh_trace {A U : Matrix (Fin k) (Fin k) ℂ} {e : Fin k → ℝ} (h : IsEigh A U e) :
    trace A = ((∑ i, e i : ℝ) : ℂ) := by
  rw [h.eq, trace_mul_comm, ← Matrix.mul_assoc, h.unitary, Matrix.one_mul, trace_diagonal]
  push_cast
  rfl

/-- **C51** (entropy of a stack, range): for every positive semidefinite matrix with positive trace the
entropy computed in a stack lies between 0 and the logarithm of the dimension. -/
theorem vn_entropy_range (la : LinAlg) {A : Matrix (Fin k) (Fin k) ℂ} (hA : A.PosSemidef)
    (ht : A.trace ≠ 0) : ∃ s, calcVnEntropyStack la [A] = [s] ∧ 0 ≤ s ∧ s ≤ Real.log k := by
  have h := la.eigh_spec A hA.isHermitian
  have h0 := fun i => eigh_nonneg h hA i
  have hT : 0 < ∑ i, (la.eigh A).1 i := by
    refine lt_of_le_of_ne (sum_nonneg fun i _ => h0 i) fun h' => ht ?_
    rw [eigh_trace h, ← h']; simp
  refine ⟨shannon (la.eigh A).1, ?_, (shannon_range h0 hT).1, (shannon_range h0 hT).2.1⟩
  simp [calcVnEntropyStack, vnEntropyStack_eq]

/-- **C51** (entropy, pure states): the entropy of the projector on any non-zero vector, of any norm, is
zero in a stack. -/
theorem vn_entropy_pure (la : LinAlg) (v : Fin k → ℂ) (hv : v ≠ 0) :
    calcVnEntropyStack la [Matrix.of fun i j => v i * star (v j)] = [0] := by
  set A : Matrix (Fin k) (Fin k) ℂ := Matrix.of fun i j => v i * star (v j) with hAdef
  have hform : A = (Matrix.of fun (_ : Fin 1) j => star (v j))ᴴ * (Matrix.of fun (_ : Fin 1) j => star (v j)) := by
    ext i j; rw [mul_apply]; simp [hAdef]
  have hA : A.PosSemidef := by rw [hform]; exact posSemidef_conjTranspose_mul_self _
  have h := la.eigh_spec A hA.isHermitian
  have h0 := fun i => eigh_nonneg h hA i
  have htr : trace A = ((∑ i, ‖v i‖ ^ 2 : ℝ) : ℂ) := by
    rw [trace]; push_cast
    exact sum_congr rfl fun i _ => by rw [diag_apply, hAdef, of_apply, ← Complex.mul_conj']; rfl
  have hTeq : ∑ i, (la.eigh A).1 i = ∑ i, ‖v i‖ ^ 2 := by
    have := (eigh_trace h).symm.trans htr
    exact_mod_cast this
  have hvpos : 0 < ∑ i, ‖v i‖ ^ 2 := by
    refine lt_of_le_of_ne (sum_nonneg fun i _ => sq_nonneg _) fun h' => hv ?_
    funext i
    have := (sum_eq_zero_iff_of_nonneg fun i _ => sq_nonneg _).1 h'.symm i (mem_univ _)
    simpa using this
  have hT : 0 < ∑ i, (la.eigh A).1 i := by rw [hTeq]; exact hvpos
  -- the square of the matrix is the trace times the matrix
  have hsq : A * A = trace A • A := by
    ext i j
    rw [mul_apply, Matrix.smul_apply, smul_eq_mul, htr]
    simp only [hAdef, of_apply]
    push_cast
    rw [sum_mul]
    refine sum_congr rfl fun a _ => ?_
    rw [← Complex.mul_conj', Complex.star_def]
    ring
  have hd : ∀ i, (la.eigh A).1 i * (la.eigh A).1 i = (∑ j, (la.eigh A).1 j) * (la.eigh A).1 i := by
    intro i
    have hdiag : (la.eigh A).2ᴴ * A * (la.eigh A).2 = diagonal (fun i => ((la.eigh A).1 i : ℂ)) := by
      conv_lhs => enter [1, 2]; rw [h.eq]
      simp only [Matrix.mul_assoc]
      rw [h.unitary, Matrix.mul_one, ← Matrix.mul_assoc, h.unitary, Matrix.one_mul]
    have huu : (la.eigh A).2 * (la.eigh A).2ᴴ = 1 := mul_eq_one_comm.1 h.unitary
    have e1 : (la.eigh A).2ᴴ * (A * A) * (la.eigh A).2 =
        diagonal (fun i => ((la.eigh A).1 i : ℂ)) * diagonal (fun i => ((la.eigh A).1 i : ℂ)) := by
      rw [← hdiag]
      simp only [Matrix.mul_assoc]
      rw [← Matrix.mul_assoc (la.eigh A).2 (la.eigh A).2ᴴ, huu, Matrix.one_mul]
    rw [hsq, Matrix.mul_smul, Matrix.smul_mul, hdiag, diagonal_mul_diagonal] at e1
    have := congrFun (congrFun e1 i) i
    rw [Matrix.smul_apply, diagonal_apply_eq, diagonal_apply_eq, eigh_trace h, smul_eq_mul] at this
    exact_mod_cast this.symm
  have hcase : ∀ i, (la.eigh A).1 i = 0 ∨ (la.eigh A).1 i = ∑ j, (la.eigh A).1 j := by
    intro i
    rcases eq_or_ne ((la.eigh A).1 i) 0 with h | h
    · exact Or.inl h
    · exact Or.inr (mul_right_cancel₀ h (hd i))
  have hzero : shannon (la.eigh A).1 = 0 := by
    unfold shannon
    refine sum_eq_zero fun i _ => ?_
    rcases hcase i with h | h
    · rw [h]; simp
    · rw [h, div_self hT.ne']; simp
  simp [calcVnEntropyStack, vnEntropyStack_eq, hzero]

/-- **C51** (single matrices, what holds): the value for a single matrix is the entropy computed for it
in a stack minus the logarithm of its trace; so they agree exactly when the trace is one. Missing:
agreement for other traces, which fails, see `vn_entropy_single_violated`. -/
theorem vn_entropy_single_partial (la : LinAlg) {A : Matrix (Fin k) (Fin k) ℂ} (hA : A.PosSemidef)
    {T : ℝ} (hT : 0 < T) (ht : A.trace = T) :
    ∃ s, calcVnEntropyStack la [A] = [s] ∧ calcVnEntropySingle la A = s - Real.log T := by
  have h := la.eigh_spec A hA.isHermitian
  have h0 := fun i => eigh_nonneg h hA i
  have hTeq : ∑ i, (la.eigh A).1 i = T := by
    have := (eigh_trace h).symm.trans ht
    exact_mod_cast this
  refine ⟨shannon (la.eigh A).1, by simp [calcVnEntropyStack, vnEntropyStack_eq], ?_⟩
  unfold calcVnEntropySingle vnEntropySingle shannon
  rw [hTeq]
  have e : ∀ i, Real.negMulLog ((la.eigh A).1 i / T) =
      -(xlogx ((la.eigh A).1 i)) / T + (la.eigh A).1 i / T * Real.log T := by
    intro i
    rcases (h0 i).eq_or_lt with h | h
    · rw [← h]; simp [xlogx]
    · unfold Real.negMulLog xlogx
      rw [Real.log_div h.ne' hT.ne']
      ring
  rw [sum_congr rfl fun i _ => e i, sum_add_distrib, ← sum_mul, ← sum_div, ← sum_div, hTeq,
    div_self hT.ne', sum_neg_distrib]
  ring

/-- **C51** (negation): the 1×1 density matrix `[2]` is a pure state, with entropy 0 in a stack, but as a
single matrix it gets the negative entropy `-log 2`. -/
theorem vn_entropy_single_violated (la : LinAlg) :
    ∃ A : Matrix (Fin 1) (Fin 1) ℂ, A.PosSemidef ∧ calcVnEntropyStack la [A] = [0] ∧
      calcVnEntropySingle la A < 0 := by
  let A : Matrix (Fin 1) (Fin 1) ℂ := diagonal fun _ => 2
  have hA : A.PosSemidef := PosSemidef.diagonal fun _ => by
    change (0 : ℂ) ≤ 2
    exact_mod_cast Complex.zero_le_real.2 (by norm_num : (0 : ℝ) ≤ 2)
  obtain ⟨s, h1, h2⟩ := vn_entropy_single_partial la hA (T := 2) (by norm_num) (by simp [A])
  obtain ⟨s', h3, h4, h5⟩ := vn_entropy_range la hA (by simp [A])
  have hs : s' = 0 := le_antisymm (by simpa using h5) h4
  rw [h1] at h3
  simp only [List.cons.injEq, and_true] at h3
  refine ⟨A, hA, by rw [h1, h3, hs], ?_⟩
  rw [h2, h3, hs, zero_sub]
  exact neg_neg_of_pos (Real.log_pos (by norm_num))

/-- Non-vacuity: two equal orthogonal modes share the power. -/
example (la : LinAlg) (i : Fin 2) : padded (calcModePowerFractions la (1 : Matrix (Fin 2) (Fin 2) ℂ)) i = 1 / 2 := by
  rw [← (power_fractions_preorthogonalized la (1 : Matrix (Fin 2) (Fin 2) ℂ) (1 : Matrix (Fin 2) (Fin 2) ℂ)).1]
  · unfold padded calcModePowerFractionsPre powerFractions
    rw [dif_pos i.2]
    fin_cases i <;> simp [Fin.sum_univ_two, one_apply] <;> norm_num
  · intro i j hij
    fin_cases i <;> fin_cases j <;> simp [Fin.sum_univ_two, one_apply] at hij ⊢
  · intro i j _
    fin_cases i <;> fin_cases j <;> simp [modePower, Fin.sum_univ_two, one_apply]

end Cdtools
