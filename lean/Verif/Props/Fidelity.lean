/-
**C49**: `calc_rms_error`, `calc_fidelity` and `calc_generalized_rms_error`.
-/
import Verif.Props.Modes
import Mathlib.Analysis.Matrix.Order

set_option linter.unusedSectionVars false

namespace Cdtools
open Finset Matrix
open scoped MatrixOrder ComplexOrder

variable {x a b c k : ℕ}

/-! ### Specification -/

/-- The density matrix of a stack of modes. -/
def densityMatrix (F : Matrix (Fin k) (Fin x) ℂ) : Matrix (Fin x) (Fin x) ℂ :=
  Matrix.of fun i j => mutualCoherence F i j

/-- `R` is the positive semidefinite square root of `A`. -/
def IsPsdSqrt (R A : Matrix (Fin k) (Fin k) ℂ) : Prop := R.PosSemidef ∧ R * R = A

/-- The power of a stack of modes. -/
noncomputable def totalPower (F : Matrix (Fin k) (Fin x) ℂ) : ℝ := ∑ i, ∑ j, ‖F i j‖ ^ 2

/-- The mean squared distance of two fields after multiplying the second by `γ`. -/
noncomputable def meanSqDist (γ : ℂ) (f g : Fin x → ℂ) : ℝ := (∑ j, ‖f j - γ * g j‖ ^ 2) / x

/-! ### Square roots and singular values -/

theorem densityMatrix_eq (F : Matrix (Fin k) (Fin x) ℂ) : densityMatrix F = Fᴴ * F := by
  ext i j; rw [mul_apply]; rfl

theorem psdSqrt_unique {P Q A : Matrix (Fin k) (Fin k) ℂ} (hP : IsPsdSqrt P A) (hQ : IsPsdSqrt Q A) :
    P = Q :=
  (CFC.mul_self_eq_mul_self_iff P Q hP.1.nonneg hQ.1.nonneg).1 (hP.2.trans hQ.2.symm)

theorem psd_diag {S : Fin k → ℝ} (h : ∀ i, 0 ≤ S i) :
    (diagonal (fun i => (S i : ℂ))).PosSemidef :=
  PosSemidef.diagonal (fun i => by simpa using Complex.zero_le_real.2 (h i))

/-- Every positive semidefinite matrix has a square root. -/
theorem psdSqrt_exists (B : Matrix (Fin c) (Fin k) ℂ) : ∃ R, IsPsdSqrt R (Bᴴ * B) := by
  obtain ⟨U, S, V, h, -⟩ := exists_svd B
  refine ⟨Vᴴ * diagonal (fun i => (S i : ℂ)) * V, (psd_diag h.nonneg).conjTranspose_mul_mul_same V, ?_⟩
  have hd : (diagonal (fun i => (S i : ℂ)))ᴴ = diagonal (fun i => (S i : ℂ)) := by
    rw [diagonal_conjTranspose]; congr 1; ext i; simp
  conv_rhs => rw [h.eq, conjTranspose_mul, conjTranspose_mul, hd]
  simp only [Matrix.mul_assoc]
  rw [← Matrix.mul_assoc V, h.right, Matrix.one_mul, ← Matrix.mul_assoc Uᴴ, h.left, Matrix.one_mul]

/-- The sum of the singular values is the trace of the root of `N Nᴴ`. -/
theorem nuclear_left {N : Matrix (Fin a) (Fin b) ℂ} {U : Matrix (Fin a) (Fin k) ℂ} {S : Fin k → ℝ}
    {V : Matrix (Fin k) (Fin b) ℂ} (h : IsSVD N U S V) {R : Matrix (Fin a) (Fin a) ℂ}
    (hR : IsPsdSqrt R (N * Nᴴ)) : ((∑ i, S i : ℝ) : ℂ) = trace R := by
  have hd : (diagonal (fun i => (S i : ℂ)))ᴴ = diagonal (fun i => (S i : ℂ)) := by
    rw [diagonal_conjTranspose]; congr 1; ext i; simp
  have h1 : IsPsdSqrt (U * diagonal (fun i => (S i : ℂ)) * Uᴴ) (N * Nᴴ) := by
    refine ⟨(psd_diag h.nonneg).mul_mul_conjTranspose_same U, ?_⟩
    conv_rhs => rw [h.eq, conjTranspose_mul, conjTranspose_mul, hd]
    simp only [Matrix.mul_assoc]
    rw [← Matrix.mul_assoc V, h.right, Matrix.one_mul, ← Matrix.mul_assoc Uᴴ U, h.left, Matrix.one_mul]
  rw [psdSqrt_unique hR h1, trace_mul_comm, ← Matrix.mul_assoc, h.left, Matrix.one_mul, trace_diagonal]
  push_cast
  rfl

theorem svd_conjTranspose {N : Matrix (Fin a) (Fin b) ℂ} {U : Matrix (Fin a) (Fin k) ℂ} {S : Fin k → ℝ}
    {V : Matrix (Fin k) (Fin b) ℂ} (h : IsSVD N U S V) : IsSVD Nᴴ Vᴴ S Uᴴ := by
  refine ⟨?_, by rw [conjTranspose_conjTranspose, h.right],
    by rw [conjTranspose_conjTranspose, h.left], h.nonneg⟩
  have hd : (diagonal (fun i => (S i : ℂ)))ᴴ = diagonal (fun i => (S i : ℂ)) := by
    rw [diagonal_conjTranspose]; congr 1; ext i; simp
  conv_lhs => rw [h.eq, conjTranspose_mul, conjTranspose_mul, hd]
  rw [Matrix.mul_assoc]

theorem nuclear_right {N : Matrix (Fin a) (Fin b) ℂ} {U : Matrix (Fin a) (Fin k) ℂ} {S : Fin k → ℝ}
    {V : Matrix (Fin k) (Fin b) ℂ} (h : IsSVD N U S V) {R : Matrix (Fin b) (Fin b) ℂ}
    (hR : IsPsdSqrt R (Nᴴ * N)) : ((∑ i, S i : ℝ) : ℂ) = trace R :=
  nuclear_left (svd_conjTranspose h) (by rwa [conjTranspose_conjTranspose])

/-- The matrix whose singular values `calc_fidelity` sums, transposed. -/
theorem svd_overlap (la : LinAlg) (F1 : Matrix (Fin a) (Fin x) ℂ) (F2 : Matrix (Fin b) (Fin x) ℂ) :
    IsSVD (F1 * F2ᴴ) (la.svd (overlapMatrix F1 F2)).2.2ᵀ (la.svd (overlapMatrix F1 F2)).2.1
      (la.svd (overlapMatrix F1 F2)).1ᵀ := by
  have h := la.svd_spec (overlapMatrix F1 F2)
  have he : (overlapMatrix F1 F2)ᵀ = F1 * F2ᴴ := by
    ext i j; rw [mul_apply]; rfl
  generalize la.svd (overlapMatrix F1 F2) = s at *
  have conjT : ∀ {p q : ℕ} (A : Matrix (Fin p) (Fin q) ℂ), Aᵀᴴ = Aᴴᵀ := fun A => rfl
  refine ⟨?_, ?_, ?_, h.nonneg⟩
  · rw [← he]
    conv_lhs => rw [h.eq]
    rw [transpose_mul, transpose_mul, diagonal_transpose, Matrix.mul_assoc]
  · rw [conjT, ← transpose_mul, h.right, transpose_one]
  · rw [conjT, ← transpose_mul, h.left, transpose_one]

/-! ### calc_fidelity -/

/-- **C49** (fidelity, definition): for all stacks of modes, with any number of modes each, and
whatever decompositions the library returns, `calc_fidelity` is the documented
`trace(sqrt(sqrt(dm_1) dm_2 sqrt(dm_1)))**2`. -/
theorem fidelity_definition (la : LinAlg) (F1 : Matrix (Fin a) (Fin x) ℂ) (F2 : Matrix (Fin b) (Fin x) ℂ)
    {P Q : Matrix (Fin x) (Fin x) ℂ} (hP : IsPsdSqrt P (densityMatrix F1))
    (hQ : IsPsdSqrt Q (P * densityMatrix F2 * P)) :
    (calcFidelity la F1 F2 : ℂ) = trace Q ^ 2 := by
  have hPh : Pᴴ = P := hP.1.isHermitian
  -- a root of `N Nᴴ` with `N = P F2ᴴ`
  obtain ⟨U, S, V, h, -⟩ := exists_svd (P * F2ᴴ)
  have hQ' : IsPsdSqrt Q ((P * F2ᴴ) * (P * F2ᴴ)ᴴ) := by
    rw [conjTranspose_mul, conjTranspose_conjTranspose, hPh]
    rwa [densityMatrix_eq, ← Matrix.mul_assoc, Matrix.mul_assoc] at hQ
  have e1 := nuclear_left h hQ'
  -- the roots of `Nᴴ N` agree for `N = F1 F2ᴴ` and `N = P F2ᴴ`
  obtain ⟨R, hR⟩ := psdSqrt_exists (F1 * F2ᴴ)
  have e2 := nuclear_right (svd_overlap la F1 F2) hR
  have hR' : IsPsdSqrt R ((P * F2ᴴ)ᴴ * (P * F2ᴴ)) := by
    have : (F1 * F2ᴴ)ᴴ * (F1 * F2ᴴ) = (P * F2ᴴ)ᴴ * (P * F2ᴴ) := by
      rw [conjTranspose_mul, conjTranspose_mul, conjTranspose_conjTranspose, hPh, Matrix.mul_assoc,
        ← Matrix.mul_assoc F1ᴴ, ← densityMatrix_eq, ← hP.2]
      simp only [Matrix.mul_assoc]
    rwa [this] at hR
  have e3 := nuclear_right h hR'
  unfold calcFidelity
  rw [Complex.ofReal_pow, e2, ← e3, e1]

/-- **C49** (fidelity, invariance): the fidelity depends on the modes only through their density
matrices: it is the same for all mode decompositions (unitary mixings, added zero modes, ...) of the
same density matrices, and for every implementation of the SVD. -/
theorem fidelity_invariant (la la' : LinAlg) {a' b' : ℕ} {F1 : Matrix (Fin a) (Fin x) ℂ}
    {F2 : Matrix (Fin b) (Fin x) ℂ} {G1 : Matrix (Fin a') (Fin x) ℂ} {G2 : Matrix (Fin b') (Fin x) ℂ}
    (h1 : densityMatrix F1 = densityMatrix G1) (h2 : densityMatrix F2 = densityMatrix G2) :
    calcFidelity la F1 F2 = calcFidelity la' G1 G2 := by
  obtain ⟨P, hP⟩ := psdSqrt_exists F1
  have hP1 : IsPsdSqrt P (densityMatrix F1) := by rwa [densityMatrix_eq]
  obtain ⟨Q, hQ⟩ := psdSqrt_exists (F2 * P)
  have hPh : Pᴴ = P := hP.1.isHermitian
  have hQ1 : IsPsdSqrt Q (P * densityMatrix F2 * P) := by
    rw [conjTranspose_mul, hPh] at hQ
    rwa [densityMatrix_eq, Matrix.mul_assoc, Matrix.mul_assoc, ← Matrix.mul_assoc]
  have e1 := fidelity_definition la F1 F2 hP1 hQ1
  have e2 := fidelity_definition la' G1 G2 (h1 ▸ hP1) (h2 ▸ hQ1)
  exact_mod_cast e1.trans e2.symm

/-- Mixing the modes by a matrix with orthonormal columns does not change the density matrix. -/
theorem densityMatrix_mix (W : Matrix (Fin c) (Fin a) ℂ) (hW : Wᴴ * W = 1) (F : Matrix (Fin a) (Fin x) ℂ) :
    densityMatrix (W * F) = densityMatrix F := by
  rw [densityMatrix_eq, densityMatrix_eq, conjTranspose_mul, Matrix.mul_assoc, ← Matrix.mul_assoc Wᴴ, hW,
    Matrix.one_mul]

/-! ### The distance identity -/

theorem totalPower_trace (A : Matrix (Fin k) (Fin x) ℂ) : (totalPower A : ℂ) = trace (Aᴴ * A) := by
  unfold totalPower
  rw [trace, sum_comm]
  push_cast
  refine sum_congr rfl fun j _ => ?_
  rw [diag_apply, mul_apply]
  exact sum_congr rfl fun i _ => by rw [conjTranspose_apply, ← Complex.conj_mul']; rfl

theorem totalPower_nonneg (A : Matrix (Fin k) (Fin x) ℂ) : 0 ≤ totalPower A :=
  sum_nonneg fun _ _ => sum_nonneg fun _ _ => sq_nonneg _

theorem totalPower_eq_zero {A : Matrix (Fin k) (Fin x) ℂ} (h : totalPower A = 0) : A = 0 := by
  ext i j
  have h1 := (sum_eq_zero_iff_of_nonneg fun i _ => sum_nonneg fun j _ => sq_nonneg _).1 h i (mem_univ _)
  have h2 := (sum_eq_zero_iff_of_nonneg fun j _ => sq_nonneg _).1 h1 j (mem_univ _)
  simpa using h2

theorem mixer_identity {F1 : Matrix (Fin a) (Fin x) ℂ} {F2 : Matrix (Fin b) (Fin x) ℂ}
    {U : Matrix (Fin a) (Fin k) ℂ} {S : Fin k → ℝ} {V : Matrix (Fin k) (Fin b) ℂ}
    (h : IsSVD (F1 * F2ᴴ) U S V) :
    trace (Vᴴ * Uᴴ * (F1 * F2ᴴ)) = ((∑ i, S i : ℝ) : ℂ) := by
  rw [h.eq]
  simp only [Matrix.mul_assoc]
  rw [← Matrix.mul_assoc Uᴴ, h.left, Matrix.one_mul, trace_mul_comm, Matrix.mul_assoc, h.right,
    Matrix.mul_one, trace_diagonal]
  push_cast
  rfl

/-- The mixing `W = Vᴴ Uᴴ` brings the first stack closest to the second one; what remains. -/
theorem distance_identity {F1 : Matrix (Fin a) (Fin x) ℂ} {F2 : Matrix (Fin b) (Fin x) ℂ}
    {U : Matrix (Fin a) (Fin k) ℂ} {S : Fin k → ℝ} {V : Matrix (Fin k) (Fin b) ℂ}
    (h : IsSVD (F1 * F2ᴴ) U S V) :
    totalPower F1 + totalPower F2 - 2 * ∑ i, S i =
      totalPower (Vᴴ * Uᴴ * F1 - F2) + totalPower (F1 - U * Uᴴ * F1) := by
  have hm := mixer_identity h
  have hW : (Vᴴ * Uᴴ)ᴴ * (Vᴴ * Uᴴ) = U * Uᴴ := by
    rw [conjTranspose_mul, conjTranspose_conjTranspose, conjTranspose_conjTranspose]
    simp only [Matrix.mul_assoc]
    rw [← Matrix.mul_assoc V, h.right, Matrix.one_mul]
  have hE : (U * Uᴴ)ᴴ * (U * Uᴴ) = U * Uᴴ := by
    rw [conjTranspose_mul, conjTranspose_conjTranspose]
    simp only [Matrix.mul_assoc]
    rw [← Matrix.mul_assoc Uᴴ U, h.left, Matrix.one_mul]
  have hEh : (U * Uᴴ)ᴴ = U * Uᴴ := by rw [conjTranspose_mul, conjTranspose_conjTranspose]
  generalize Vᴴ * Uᴴ = W at *
  generalize U * Uᴴ = E at *
  have t1 : trace (F2ᴴ * (W * F1)) = ((∑ i, S i : ℝ) : ℂ) := by
    rw [trace_mul_comm, Matrix.mul_assoc, hm]
  have t2 : trace ((W * F1)ᴴ * F2) = ((∑ i, S i : ℝ) : ℂ) := by
    have : (W * F1)ᴴ * F2 = (F2ᴴ * (W * F1))ᴴ := by
      rw [conjTranspose_mul F2ᴴ, conjTranspose_conjTranspose]
    rw [this, trace_conjTranspose, t1]
    simp
  have t3 : trace ((W * F1)ᴴ * (W * F1)) = trace (F1ᴴ * (E * F1)) := by
    rw [conjTranspose_mul, Matrix.mul_assoc, ← Matrix.mul_assoc Wᴴ, hW]
  have t4 : trace ((E * F1)ᴴ * (E * F1)) = trace (F1ᴴ * (E * F1)) := by
    rw [conjTranspose_mul, Matrix.mul_assoc, ← Matrix.mul_assoc Eᴴ, hE]
  have t5 : trace ((E * F1)ᴴ * F1) = trace (F1ᴴ * (E * F1)) := by
    rw [conjTranspose_mul, hEh, Matrix.mul_assoc]
  have goal : ((totalPower F1 + totalPower F2 - 2 * ∑ i, S i : ℝ) : ℂ) =
      ((totalPower (W * F1 - F2) + totalPower (F1 - E * F1) : ℝ) : ℂ) := by
    rw [Complex.ofReal_sub, Complex.ofReal_add, Complex.ofReal_add, totalPower_trace, totalPower_trace,
      totalPower_trace, totalPower_trace, Complex.ofReal_mul]
    simp only [conjTranspose_sub, Matrix.sub_mul, Matrix.mul_sub, trace_sub]
    rw [t1, t2, t3, t4, t5]
    push_cast
    ring
  exact_mod_cast goal

theorem sqrt_fidelity (la : LinAlg) (F1 : Matrix (Fin a) (Fin x) ℂ) (F2 : Matrix (Fin b) (Fin x) ℂ) :
    Real.sqrt (calcFidelity la F1 F2) = ∑ i, (la.svd (overlapMatrix F1 F2)).2.1 i :=
  Real.sqrt_sq (sum_nonneg fun i _ => (la.svd_spec (overlapMatrix F1 F2)).nonneg i)

/-- **C49** (fidelity, range): the fidelity lies between 0 and the product of the powers. -/
theorem fidelity_range (la : LinAlg) (F1 : Matrix (Fin a) (Fin x) ℂ) (F2 : Matrix (Fin b) (Fin x) ℂ) :
    0 ≤ calcFidelity la F1 F2 ∧ calcFidelity la F1 F2 ≤ totalPower F1 * totalPower F2 := by
  refine ⟨sq_nonneg _, ?_⟩
  have h := svd_overlap la F1 F2
  unfold calcFidelity
  generalize (la.svd (overlapMatrix F1 F2)).2.1 = S at *
  generalize (la.svd (overlapMatrix F1 F2)).2.2ᵀ = U at *
  generalize (la.svd (overlapMatrix F1 F2)).1ᵀ = V at *
  have hS : 0 ≤ ∑ i, S i := sum_nonneg fun i _ => h.nonneg i
  -- for every `t`: `t² p₁ + p₂ - 2 t s ≥ 0`
  have key : ∀ t : ℝ, 0 ≤ t → 0 ≤ t ^ 2 * totalPower F1 + totalPower F2 - 2 * (t * ∑ i, S i) := by
    intro t ht
    have hsvd : IsSVD (((t : ℂ) • F1) * F2ᴴ) U (fun i => t * S i) V := by
      refine ⟨?_, h.left, h.right, fun i => mul_nonneg ht (h.nonneg i)⟩
      rw [Matrix.smul_mul, h.eq]
      have : diagonal (fun i => ((t * S i : ℝ) : ℂ)) = (t : ℂ) • diagonal (fun i => (S i : ℂ)) := by
        ext i j
        by_cases hij : i = j
        · subst hij; simp
        · simp [hij]
      rw [this, Matrix.mul_smul, Matrix.smul_mul]
    have e := distance_identity hsvd
    have hp : totalPower ((t : ℂ) • F1) = t ^ 2 * totalPower F1 := by
      unfold totalPower
      rw [mul_sum]
      refine sum_congr rfl fun i _ => ?_
      rw [mul_sum]
      refine sum_congr rfl fun j _ => ?_
      rw [Matrix.smul_apply, smul_eq_mul, norm_mul, Complex.norm_real, mul_pow, Real.norm_eq_abs, sq_abs]
    rw [hp, ← mul_sum] at e
    rw [e]
    exact add_nonneg (totalPower_nonneg _) (totalPower_nonneg _)
  have p1 := totalPower_nonneg F1
  have p2 := totalPower_nonneg F2
  generalize totalPower F1 = A at *
  generalize totalPower F2 = B at *
  generalize ∑ i, S i = s at *
  rcases p1.eq_or_lt with h0 | h0
  · -- no power in the first stack
    have : s = 0 := by
      by_contra hs
      have hs : 0 < s := lt_of_le_of_ne hS (Ne.symm hs)
      have := key ((B + 1) / s) (by positivity)
      rw [← h0, mul_zero, zero_add, div_mul_cancel₀ _ hs.ne'] at this
      linarith
    rw [this, ← h0]; simp
  · have := key (s / A) (by positivity)
    have h2 : (s / A) ^ 2 * A = s ^ 2 / A := by field_simp
    have h3 : s / A * s = s ^ 2 / A := by ring
    rw [h2, h3] at this
    have h4 : s ^ 2 / A ≤ B := by linarith
    rw [div_le_iff₀ h0] at h4
    linarith

/-! ### calc_generalized_rms_error -/

/-- The generalized squared error, not normalized, is a sum of squares. -/
theorem generalizedRmsSq_eq (la : LinAlg) (F1 : Matrix (Fin a) (Fin x) ℂ) (F2 : Matrix (Fin b) (Fin x) ℂ) :
    generalizedRmsSq la false F1 F2 =
      (totalPower F1 + totalPower F2 - 2 * Real.sqrt (calcFidelity la F1 F2)) / x := by
  unfold generalizedRmsSq
  simp only [Bool.false_eq_true, if_false]
  rw [Real.sqrt_div (show 0 ≤ calcFidelity la F1 F2 from sq_nonneg _), Real.sqrt_sq (Nat.cast_nonneg x)]
  unfold totalPower
  ring

/-- **C49** (generalized error, well defined): the argument of the square root is never negative. -/
theorem generalized_rms_nonneg (la : LinAlg) (norm : Bool) (F1 : Matrix (Fin a) (Fin x) ℂ)
    (F2 : Matrix (Fin b) (Fin x) ℂ) : 0 ≤ generalizedRmsSq la norm F1 F2 := by
  have h0 : 0 ≤ generalizedRmsSq la false F1 F2 := by
    rw [generalizedRmsSq_eq, sqrt_fidelity, distance_identity (svd_overlap la F1 F2)]
    exact div_nonneg (add_nonneg (totalPower_nonneg _) (totalPower_nonneg _)) (Nat.cast_nonneg x)
  cases norm
  · exact h0
  · unfold generalizedRmsSq at h0 ⊢
    simp only [Bool.false_eq_true, if_false] at h0
    simp only [if_true]
    exact div_nonneg h0 (div_nonneg (totalPower_nonneg F1) (Nat.cast_nonneg x))

/-- **C49** (generalized error, invariance): the generalized error is the same for all mode
decompositions of the same density matrices. -/
theorem generalized_rms_invariant (la la' : LinAlg) (norm : Bool) {a' b' : ℕ}
    {F1 : Matrix (Fin a) (Fin x) ℂ} {F2 : Matrix (Fin b) (Fin x) ℂ}
    {G1 : Matrix (Fin a') (Fin x) ℂ} {G2 : Matrix (Fin b') (Fin x) ℂ}
    (h1 : densityMatrix F1 = densityMatrix G1) (h2 : densityMatrix F2 = densityMatrix G2) :
    generalizedRms la norm F1 F2 = generalizedRms la' norm G1 G2 := by
  have key : ∀ {k k' : ℕ} {F : Matrix (Fin k) (Fin x) ℂ} {G : Matrix (Fin k') (Fin x) ℂ},
      densityMatrix F = densityMatrix G → totalPower F = totalPower G := by
    intro k k' F G h
    have : (totalPower F : ℂ) = totalPower G := by
      rw [totalPower_trace, totalPower_trace, ← densityMatrix_eq, h, densityMatrix_eq]
    exact_mod_cast this
  have e1 := key h1
  have e2 := key h2
  unfold totalPower at e1 e2
  unfold generalizedRms generalizedRmsSq
  rw [fidelity_invariant la la' h1 h2, e1, e2]

/-- **C49** (generalized error, definiteness): the generalized error is zero exactly when the two stacks
of modes have the same density matrix. -/
theorem generalized_rms_zero_iff (la : LinAlg) (hx : 0 < x) (F1 : Matrix (Fin a) (Fin x) ℂ)
    (F2 : Matrix (Fin b) (Fin x) ℂ) :
    generalizedRms la false F1 F2 = 0 ↔ densityMatrix F1 = densityMatrix F2 := by
  have hxr : (0 : ℝ) < x := by exact_mod_cast hx
  constructor
  · intro h
    unfold generalizedRms at h
    rw [Real.sqrt_eq_zero (generalized_rms_nonneg la false F1 F2), generalizedRmsSq_eq, sqrt_fidelity,
      div_eq_zero_iff, or_iff_left hxr.ne'] at h
    have hs := svd_overlap la F1 F2
    rw [distance_identity hs] at h
    have n1 := totalPower_nonneg ((la.svd (overlapMatrix F1 F2)).1ᵀᴴ *
      (la.svd (overlapMatrix F1 F2)).2.2ᵀᴴ * F1 - F2)
    have n2 := totalPower_nonneg (F1 - (la.svd (overlapMatrix F1 F2)).2.2ᵀ *
      (la.svd (overlapMatrix F1 F2)).2.2ᵀᴴ * F1)
    have z1 := totalPower_eq_zero (le_antisymm (by linarith) n1)
    have z2 := totalPower_eq_zero (le_antisymm (by linarith) n2)
    generalize (la.svd (overlapMatrix F1 F2)).2.1 = S at *
    generalize (la.svd (overlapMatrix F1 F2)).2.2ᵀ = U at *
    generalize (la.svd (overlapMatrix F1 F2)).1ᵀ = V at *
    have z1' : F2 = Vᴴ * Uᴴ * F1 := (sub_eq_zero.1 z1).symm
    have z2' : U * Uᴴ * F1 = F1 := (sub_eq_zero.1 z2).symm
    rw [densityMatrix_eq, densityMatrix_eq, z1', conjTranspose_mul, conjTranspose_mul,
      conjTranspose_conjTranspose, conjTranspose_conjTranspose]
    simp only [Matrix.mul_assoc]
    rw [← Matrix.mul_assoc V, hs.right, Matrix.one_mul]
    conv_lhs => rw [← z2']
    simp only [Matrix.mul_assoc]
    conv_lhs => rw [← Matrix.mul_assoc U, z2']
    rw [← Matrix.mul_assoc U, z2']
  · intro h
    rw [generalized_rms_invariant la la false (G1 := F1) (G2 := F1) rfl h.symm]
    -- equal stacks
    obtain ⟨P, hP⟩ := psdSqrt_exists F1
    have hP1 : IsPsdSqrt P (densityMatrix F1) := by rwa [densityMatrix_eq]
    have hQ : IsPsdSqrt (densityMatrix F1) (P * densityMatrix F1 * P) := by
      refine ⟨?_, ?_⟩
      · rw [densityMatrix_eq]; exact posSemidef_conjTranspose_mul_self F1
      · rw [← hP1.2]; simp only [Matrix.mul_assoc]
    have e := fidelity_definition la F1 F1 hP1 hQ
    rw [densityMatrix_eq, ← totalPower_trace] at e
    have e' : calcFidelity la F1 F1 = totalPower F1 ^ 2 := by exact_mod_cast e
    unfold generalizedRms
    rw [generalizedRmsSq_eq, e', Real.sqrt_sq (totalPower_nonneg _)]
    rw [show totalPower F1 + totalPower F1 - 2 * totalPower F1 = 0 by ring, zero_div, Real.sqrt_zero]

/-! ### calc_rms_error -/

theorem sum_sub_phase (γ : ℂ) (hγ : ‖γ‖ = 1) (f g : Fin x → ℂ) :
    ∑ j, ‖f j - γ * g j‖ ^ 2 = ∑ j, ‖f j‖ ^ 2 + ∑ j, ‖g j‖ ^ 2 -
      2 * ((starRingEnd ℂ) γ * ∑ j, f j * (starRingEnd ℂ) (g j)).re := by
  rw [mul_sum, Complex.re_sum, mul_sum, ← sum_add_distrib, ← sum_sub_distrib]
  refine sum_congr rfl fun j _ => ?_
  have hg : ‖γ‖ ^ 2 = 1 := by rw [hγ]; norm_num
  have e : ∀ z w : ℂ, ‖z - w‖ ^ 2 = ‖z‖ ^ 2 + ‖w‖ ^ 2 - 2 * (z * (starRingEnd ℂ) w).re := by
    intro z w
    rw [← Complex.normSq_eq_norm_sq, ← Complex.normSq_eq_norm_sq, ← Complex.normSq_eq_norm_sq,
      Complex.normSq_sub]
  rw [e, norm_mul, mul_pow, hg, one_mul, map_mul]
  congr 3
  ring

theorem gamma_norm (f g : Fin x → ℂ) : ‖rmsGamma true f g‖ = 1 := by
  unfold rmsGamma
  simp only [if_true]
  rw [mul_comm, Complex.norm_exp_ofReal_mul_I]

theorem gamma_overlap (f g : Fin x → ℂ) :
    (starRingEnd ℂ) (rmsGamma true f g) * ∑ j, f j * (starRingEnd ℂ) (g j) =
      (‖∑ j, f j * (starRingEnd ℂ) (g j)‖ : ℂ) := by
  unfold rmsGamma
  simp only [if_true]
  generalize ∑ j, f j * (starRingEnd ℂ) (g j) = z
  rw [← Complex.exp_conj, map_mul, Complex.conj_I, Complex.conj_ofReal]
  conv_lhs => enter [2]; rw [← Complex.norm_mul_exp_arg_mul_I z]
  rw [mul_left_comm, ← Complex.exp_add]
  simp [mul_comm]

/-- **C49** (rms error): with `align_phases`, the error is the least root mean square distance over all
global phases: no phase gives a smaller distance, and some phase attains it. -/
theorem rms_error_is_minimum (f g : Fin x → ℂ) :
    (∀ γ : ℂ, ‖γ‖ = 1 → rmsError true false f g ≤ Real.sqrt (meanSqDist γ f g)) ∧
    ∃ γ : ℂ, ‖γ‖ = 1 ∧ rmsError true false f g = Real.sqrt (meanSqDist γ f g) := by
  have e : rmsError true false f g = Real.sqrt (meanSqDist (rmsGamma true f g) f g) := by
    unfold rmsError meanSqDist
    simp
  refine ⟨fun γ hγ => ?_, _, gamma_norm f g, e⟩
  rw [e]
  apply Real.sqrt_le_sqrt
  unfold meanSqDist
  refine div_le_div_of_nonneg_right ?_ (Nat.cast_nonneg x)
  rw [sum_sub_phase _ hγ, sum_sub_phase _ (gamma_norm f g), gamma_overlap, Complex.ofReal_re]
  have h1 := Complex.re_le_norm ((starRingEnd ℂ) γ * ∑ j, f j * (starRingEnd ℂ) (g j))
  rw [norm_mul, Complex.norm_conj, hγ, one_mul] at h1
  linarith

/-- **C49** (rms error without alignment): the plain root mean square distance. -/
theorem rms_error_unaligned (f g : Fin x → ℂ) :
    rmsError false false f g = Real.sqrt (meanSqDist 1 f g) := by
  simp [rmsError, rmsGamma, meanSqDist]

/-- **C49** (normalization): the normalized error is the error relative to the root mean square of the
first field. -/
theorem rms_error_normalized (al : Bool) (f g : Fin x → ℂ) :
    rmsError al true f g = rmsError al false f g / Real.sqrt ((∑ j, ‖f j‖ ^ 2) / x) := by
  unfold rmsError
  simp only [if_true, Bool.false_eq_true, if_false, one_mul, Fintype.card_fin]
  rw [one_div, mul_comm, ← div_eq_mul_inv, Real.sqrt_div (div_nonneg (sum_nonneg fun _ _ => sq_nonneg _)
    (Nat.cast_nonneg x))]

/-- **C49** (rms error, definiteness): with alignment, the error is zero exactly when the fields agree up
to a global phase. -/
theorem rms_error_zero_iff (hx : 0 < x) (f g : Fin x → ℂ) :
    rmsError true false f g = 0 ↔ ∃ γ : ℂ, ‖γ‖ = 1 ∧ ∀ j, f j = γ * g j := by
  have hxr : (0 : ℝ) < x := by exact_mod_cast hx
  obtain ⟨hmin, γ, hγ, he⟩ := rms_error_is_minimum f g
  constructor
  · intro h
    refine ⟨γ, hγ, fun j => ?_⟩
    unfold meanSqDist at he
    rw [he, Real.sqrt_eq_zero (div_nonneg (sum_nonneg fun _ _ => sq_nonneg _) hxr.le)] at h
    rw [div_eq_zero_iff, or_iff_left hxr.ne'] at h
    have := (sum_eq_zero_iff_of_nonneg fun j _ => sq_nonneg _).1 h j (mem_univ _)
    exact sub_eq_zero.1 (by simpa using this)
  · rintro ⟨δ, hδ, h⟩
    have h1 := hmin δ hδ
    have : meanSqDist δ f g = 0 := by
      unfold meanSqDist
      rw [sum_eq_zero (fun j _ => by rw [h j]; simp), zero_div]
    rw [this, Real.sqrt_zero] at h1
    exact le_antisymm h1 (Real.sqrt_nonneg _)

/-- **C49** (rms error, invariances): the aligned error is symmetric and does not see global phases. -/
theorem rms_error_symmetric (f g : Fin x → ℂ) :
    rmsError true false f g = rmsError true false g f ∧
    ∀ γ : ℂ, ‖γ‖ = 1 → rmsError true false f (fun j => γ * g j) = rmsError true false f g := by
  have e : ∀ f g : Fin x → ℂ, rmsError true false f g = Real.sqrt ((∑ j, ‖f j‖ ^ 2 + ∑ j, ‖g j‖ ^ 2 -
      2 * ‖∑ j, f j * (starRingEnd ℂ) (g j)‖) / x) := by
    intro f g
    unfold rmsError
    simp only [Bool.false_eq_true, if_false, one_mul, Fintype.card_fin]
    rw [sum_sub_phase _ (gamma_norm f g), gamma_overlap, Complex.ofReal_re]
  refine ⟨?_, fun γ hγ => ?_⟩
  · rw [e f g, e g f]
    have : ‖∑ j, f j * (starRingEnd ℂ) (g j)‖ = ‖∑ j, g j * (starRingEnd ℂ) (f j)‖ := by
      rw [← Complex.norm_conj, map_sum]
      congr 1
      exact sum_congr rfl fun j _ => by rw [map_mul, Complex.conj_conj, mul_comm]
    rw [this, add_comm (∑ j, ‖f j‖ ^ 2)]
  · rw [e, e]
    have h1 : ∑ j, ‖γ * g j‖ ^ 2 = ∑ j, ‖g j‖ ^ 2 :=
      sum_congr rfl fun j _ => by rw [norm_mul, hγ, one_mul]
    have h2 : ‖∑ j, f j * (starRingEnd ℂ) (γ * g j)‖ = ‖∑ j, f j * (starRingEnd ℂ) (g j)‖ := by
      have : ∑ j, f j * (starRingEnd ℂ) (γ * g j) = (starRingEnd ℂ) γ * ∑ j, f j * (starRingEnd ℂ) (g j) := by
        rw [mul_sum]; exact sum_congr rfl fun j _ => by rw [map_mul]; ring
      rw [this, norm_mul, Complex.norm_conj, hγ, one_mul]
    rw [h1, h2]

/-- A single field as a stack of one mode. -/
def single (f : Fin x → ℂ) : Matrix (Fin 1) (Fin x) ℂ := Matrix.of fun _ j => f j

theorem fidelity_single (la : LinAlg) (f g : Fin x → ℂ) :
    calcFidelity la (single f) (single g) = ‖∑ j, f j * (starRingEnd ℂ) (g j)‖ ^ 2 := by
  have h := svd_overlap la (single f) (single g)
  have hN : single f * (single g)ᴴ = Matrix.of fun _ _ => ∑ j, f j * (starRingEnd ℂ) (g j) := by
    ext i j; rw [mul_apply]; rfl
  have hR : IsPsdSqrt (diagonal fun _ => ((‖∑ j, f j * (starRingEnd ℂ) (g j)‖ : ℝ) : ℂ) :
      Matrix (Fin 1) (Fin 1) ℂ) (single f * (single g)ᴴ * (single f * (single g)ᴴ)ᴴ) := by
    refine ⟨psd_diag fun _ => norm_nonneg _, ?_⟩
    rw [hN, diagonal_mul_diagonal]
    ext i j
    rw [mul_apply, Fin.eq_zero i, Fin.eq_zero j]
    simp only [diagonal_apply_eq, univ_unique, sum_singleton, of_apply, conjTranspose_apply]
    rw [← sq, ← Complex.mul_conj']
    rfl
  have e := nuclear_left h hR
  unfold calcFidelity
  have e' : ∑ i, (la.svd (overlapMatrix (single f) (single g))).2.1 i =
      ‖∑ j, f j * (starRingEnd ℂ) (g j)‖ := by
    rw [trace_diagonal] at e
    simp only [univ_unique, sum_singleton] at e
    exact_mod_cast e
  rw [e']

/-- **C49** (coherent fields): for one mode each, the fidelity is the squared modulus of the overlap and
the generalized error is the error with aligned phases. -/
theorem generalized_rms_single (la : LinAlg) (norm : Bool) (f g : Fin x → ℂ) :
    calcFidelity la (single f) (single g) = ‖∑ j, f j * (starRingEnd ℂ) (g j)‖ ^ 2 ∧
    generalizedRms la norm (single f) (single g) = rmsError true norm f g := by
  refine ⟨fidelity_single la f g, ?_⟩
  unfold generalizedRms generalizedRmsSq rmsError
  rw [fidelity_single, sum_sub_phase _ (gamma_norm f g), gamma_overlap, Complex.ofReal_re,
    ← div_pow, Real.sqrt_sq (div_nonneg (norm_nonneg _) (Nat.cast_nonneg x))]
  simp only [univ_unique, sum_singleton, single, of_apply, Fintype.card_fin]
  cases norm
  · simp only [Bool.false_eq_true, if_false, one_mul]
    congr 1
    ring
  · simp only [if_true]
    congr 1
    ring

/-- Non-vacuity: two orthogonal modes against one. -/
example (la : LinAlg) : generalizedRms la false (1 : Matrix (Fin 2) (Fin 2) ℂ)
    (single fun j => if j = 0 then 1 else 0) ≠ 0 := by
  rw [ne_eq, generalized_rms_zero_iff la (by norm_num)]
  intro h
  have := congrFun (congrFun h 1) 1
  rw [densityMatrix_eq, densityMatrix_eq] at this
  simp [mul_apply, single] at this

end Cdtools
