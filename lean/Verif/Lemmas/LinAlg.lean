/-
Existence of the decompositions assumed of the numerical linear algebra library: the structure
`LinAlg` is inhabited, so that no theorem about it is vacuous.
-/
import Verif.Model.Analysis
import Mathlib.Analysis.Matrix.Spectrum
import Mathlib.Analysis.InnerProductSpace.PiL2
import Mathlib.Data.Fin.Tuple.Sort

set_option linter.unusedSectionVars false

namespace Cdtools
open Finset Matrix

/-- A Hermitian matrix has a sorted eigendecomposition. -/
theorem exists_eigh_sorted {k : ℕ} (A : Matrix (Fin k) (Fin k) ℂ) (hA : Aᴴ = A) :
    ∃ (U : Matrix (Fin k) (Fin k) ℂ) (e : Fin k → ℝ), IsEigh A U e ∧ Antitone e := by
  have hH : A.IsHermitian := hA
  let W : Matrix (Fin k) (Fin k) ℂ := hH.eigenvectorUnitary
  have hW : Wᴴ * W = 1 := (mem_unitaryGroup_iff'.1 hH.eigenvectorUnitary.2)
  have hs : A = W * diagonal (fun i => (hH.eigenvalues i : ℂ)) * Wᴴ := by
    have := hH.spectral_theorem
    rw [Unitary.conjStarAlgAut_apply] at this
    exact this
  let σ := Tuple.sort (fun i => -hH.eigenvalues i)
  refine ⟨Matrix.of fun i j => W i (σ j), fun i => hH.eigenvalues (σ i), ⟨?_, ?_⟩, ?_⟩
  · conv_lhs => rw [hs]
    ext i j
    rw [mul_apply, mul_apply]
    simp only [mul_diagonal, conjTranspose_apply, of_apply]
    exact (Equiv.sum_comp σ (fun x => W i x * (hH.eigenvalues x : ℂ) * star (W j x))).symm
  · ext i j
    have := congrFun (congrFun hW (σ i)) (σ j)
    rw [mul_apply] at this ⊢
    simp only [conjTranspose_apply, of_apply] at this ⊢
    rw [this, one_apply, one_apply]
    simp
  · intro i j hij
    have := Tuple.monotone_sort (fun i => -hH.eigenvalues i) hij
    simp only [Function.comp_apply] at this
    change hH.eigenvalues (σ j) ≤ hH.eigenvalues (σ i)
    linarith

theorem inner_eq_sum {p : ℕ} (f g : Fin p → ℂ) :
    inner ℂ (WithLp.toLp 2 f) (WithLp.toLp 2 g) = ∑ i, star (f i) * g i := by
  rw [EuclideanSpace.inner_eq_star_dotProduct]
  simp [dotProduct, mul_comm]

/-- A tall matrix has a reduced singular value decomposition. -/
theorem exists_svd_tall {p q : ℕ} (hpq : q ≤ p) (A : Matrix (Fin p) (Fin q) ℂ) :
    ∃ (U : Matrix (Fin p) (Fin q) ℂ) (S : Fin q → ℝ) (V : Matrix (Fin q) (Fin q) ℂ),
      IsSVD A U S V ∧ Antitone S := by
  obtain ⟨W, e, ⟨hA, hW⟩, he⟩ := exists_eigh_sorted (Aᴴ * A) (by
    rw [conjTranspose_mul, conjTranspose_conjTranspose])
  have hW' : W * Wᴴ = 1 := mul_eq_one_comm.1 hW
  -- the columns of `A W` are orthogonal
  have hB : (A * W)ᴴ * (A * W) = diagonal (fun i => (e i : ℂ)) := by
    rw [conjTranspose_mul, Matrix.mul_assoc, ← Matrix.mul_assoc Aᴴ, hA]
    simp only [Matrix.mul_assoc]
    rw [hW, Matrix.mul_one, ← Matrix.mul_assoc, hW, Matrix.one_mul]
  set B := A * W with hBdef
  have hin : ∀ i j, ∑ x, star (B x i) * B x j = if i = j then (e i : ℂ) else 0 := fun i j => by
    have := congrFun (congrFun hB i) j
    rw [mul_apply, diagonal_apply] at this
    exact this
  have hnn : ∀ i, 0 ≤ e i := fun i => by
    have h := hin i i
    rw [if_pos rfl] at h
    have : (e i : ℂ) = ((∑ x, ‖B x i‖ ^ 2 : ℝ) : ℂ) := by
      rw [← h]; push_cast
      exact sum_congr rfl fun x _ => by
        rw [← Complex.conj_mul']; rfl
    have h2 : e i = ∑ x, ‖B x i‖ ^ 2 := by exact_mod_cast this
    rw [h2]; exact sum_nonneg fun x _ => sq_nonneg _
  let E := EuclideanSpace ℂ (Fin p)
  let v : Fin p → E := fun i => if h : i.val < q then
    WithLp.toLp 2 (fun x => B x ⟨i.val, h⟩ / (Real.sqrt (e ⟨i.val, h⟩) : ℂ)) else 0
  let s : Set (Fin p) := {i | ∃ h : i.val < q, e ⟨i.val, h⟩ ≠ 0}
  have hv : Orthonormal ℂ (s.domRestrict v) := by
    classical
    rw [orthonormal_iff_ite]
    rintro ⟨i, hi, hi'⟩ ⟨j, hj, hj'⟩
    have hsi : (Real.sqrt (e ⟨i.val, hi⟩) : ℂ) ≠ 0 := by
      exact_mod_cast (Real.sqrt_pos.2 (lt_of_le_of_ne (hnn _) (Ne.symm hi'))).ne'
    have e1 : s.domRestrict v ⟨i, hi, hi'⟩ =
        WithLp.toLp 2 (fun x => B x ⟨i.val, hi⟩ / (Real.sqrt (e ⟨i.val, hi⟩) : ℂ)) := by
      change v i = _
      simp only [v, hi, dif_pos]
    have e2 : s.domRestrict v ⟨j, hj, hj'⟩ =
        WithLp.toLp 2 (fun x => B x ⟨j.val, hj⟩ / (Real.sqrt (e ⟨j.val, hj⟩) : ℂ)) := by
      change v j = _
      simp only [v, hj, dif_pos]
    rw [e1, e2, inner_eq_sum]
    have : ∀ x, star (B x ⟨i.val, hi⟩ / (Real.sqrt (e ⟨i.val, hi⟩) : ℂ)) *
        (B x ⟨j.val, hj⟩ / (Real.sqrt (e ⟨j.val, hj⟩) : ℂ)) =
        (star (B x ⟨i.val, hi⟩) * B x ⟨j.val, hj⟩) *
          ((Real.sqrt (e ⟨i.val, hi⟩) : ℂ)⁻¹ * (Real.sqrt (e ⟨j.val, hj⟩) : ℂ)⁻¹) := by
      intro x
      rw [star_div₀]
      simp only [Complex.star_def, Complex.conj_ofReal]
      ring
    rw [sum_congr rfl fun x _ => this x, ← sum_mul, hin]
    by_cases hij : i = j
    · subst hij
      simp only [if_true]
      have h2 : (e ⟨i.val, hi⟩ : ℂ) = (Real.sqrt (e ⟨i.val, hi⟩) : ℂ) * (Real.sqrt (e ⟨i.val, hi⟩) : ℂ) := by
        rw [← Complex.ofReal_mul, Real.mul_self_sqrt (hnn _)]
      conv_lhs => enter [1]; rw [h2]
      field_simp
    · have h1 : ¬ (⟨i.val, hi⟩ : Fin q) = ⟨j.val, hj⟩ := fun h => hij (Fin.ext (by simpa using h))
      have h2 : ¬ (⟨i, hi, hi'⟩ : s) = ⟨j, hj, hj'⟩ := fun h => hij (by simpa using h)
      rw [if_neg h1, if_neg h2, zero_mul]
  obtain ⟨b, hb⟩ := hv.exists_orthonormalBasis_extension_of_card_eq (by simp [E])
  let U : Matrix (Fin p) (Fin q) ℂ := Matrix.of fun x i => b (Fin.castLE hpq i) x
  refine ⟨U, fun i => Real.sqrt (e i), Wᴴ, ⟨?_, ?_, ?_, fun i => Real.sqrt_nonneg _⟩, ?_⟩
  · have hBU : B = U * diagonal (fun i => (Real.sqrt (e i) : ℂ)) := by
      ext x i
      rw [mul_diagonal]
      by_cases h0 : e i = 0
      · have h := hin i i
        rw [if_pos rfl, h0, Complex.ofReal_zero] at h
        have h3 : ∑ x, ‖B x i‖ ^ 2 = 0 := by
          have : ((∑ x, ‖B x i‖ ^ 2 : ℝ) : ℂ) = 0 := by
            rw [← h]; push_cast
            exact sum_congr rfl fun x _ => by rw [← Complex.conj_mul']; rfl
          exact_mod_cast this
        have h4 := (sum_eq_zero_iff_of_nonneg fun x _ => sq_nonneg _).1 h3 x (mem_univ _)
        rw [h0, Real.sqrt_zero, Complex.ofReal_zero, mul_zero]
        simpa using h4
      · have hm : Fin.castLE hpq i ∈ s := ⟨i.2, h0⟩
        have hsi : (Real.sqrt (e i) : ℂ) ≠ 0 := by
          exact_mod_cast (Real.sqrt_pos.2 (lt_of_le_of_ne (hnn _) (Ne.symm h0))).ne'
        have : U x i = B x i / (Real.sqrt (e i) : ℂ) := by
          simp only [U, of_apply]
          rw [hb _ hm]
          simp [v]
        rw [this, div_mul_cancel₀ _ hsi]
    rw [← hBU, hBdef, Matrix.mul_assoc, hW', Matrix.mul_one]
  · ext i j
    rw [mul_apply, one_apply]
    have h := orthonormal_iff_ite.1 b.orthonormal (Fin.castLE hpq i) (Fin.castLE hpq j)
    have h2 := inner_eq_sum (b (Fin.castLE hpq i)).ofLp (b (Fin.castLE hpq j)).ofLp
    simp only [WithLp.toLp_ofLp] at h2
    rw [h] at h2
    simp only [conjTranspose_apply, U, of_apply]
    rw [← h2]
    simp
  · rw [conjTranspose_conjTranspose]; exact hW
  · intro i j hij
    exact Real.sqrt_le_sqrt (he hij)

/-- Every matrix has a reduced singular value decomposition with sorted singular values. -/
theorem exists_svd {p q : ℕ} (A : Matrix (Fin p) (Fin q) ℂ) :
    ∃ (U : Matrix (Fin p) (Fin (min p q)) ℂ) (S : Fin (min p q) → ℝ)
      (V : Matrix (Fin (min p q)) (Fin q) ℂ), IsSVD A U S V ∧ Antitone S := by
  rcases le_total q p with h | h
  · have : ∀ k, k = q → ∃ (U : Matrix (Fin p) (Fin k) ℂ) (S : Fin k → ℝ)
        (V : Matrix (Fin k) (Fin q) ℂ), IsSVD A U S V ∧ Antitone S := by
      rintro k rfl; exact exists_svd_tall h A
    exact this _ (min_eq_right h)
  · have : ∀ k, k = p → ∃ (U : Matrix (Fin p) (Fin k) ℂ) (S : Fin k → ℝ)
        (V : Matrix (Fin k) (Fin q) ℂ), IsSVD A U S V ∧ Antitone S := by
      rintro k rfl
      obtain ⟨U, S, V, ⟨h1, h2, h3, h4⟩, h5⟩ := exists_svd_tall h Aᴴ
      refine ⟨Vᴴ, S, Uᴴ, ⟨?_, ?_, ?_, h4⟩, h5⟩
      · have := congrArg conjTranspose h1
        rw [conjTranspose_conjTranspose, conjTranspose_mul, conjTranspose_mul,
          diagonal_conjTranspose] at this
        rw [this, Matrix.mul_assoc]
        congr 3
        ext i
        simp
      · rw [conjTranspose_conjTranspose]; exact h3
      · rw [conjTranspose_conjTranspose]; exact h2
    exact this _ (min_eq_left h)

/-- The contracts of the linear algebra library can be met. -/
theorem linAlg_exists : Nonempty LinAlg := by
  classical
  refine ⟨{
    svd := fun A => ((exists_svd A).choose, (exists_svd A).choose_spec.choose,
      (exists_svd A).choose_spec.choose_spec.choose)
    svd_spec := fun A => (exists_svd A).choose_spec.choose_spec.choose_spec.1
    svd_sorted := fun A => (exists_svd A).choose_spec.choose_spec.choose_spec.2
    qr := fun A => ((exists_svd A).choose, diagonal (fun i =>
      ((exists_svd A).choose_spec.choose i : ℂ)) * (exists_svd A).choose_spec.choose_spec.choose)
    qr_spec := fun A => ⟨?_, (exists_svd A).choose_spec.choose_spec.choose_spec.1.left⟩
    eigh := fun A => if h : Aᴴ = A then ((exists_eigh_sorted A h).choose_spec.choose,
      (exists_eigh_sorted A h).choose) else (0, 0)
    eigh_spec := fun A h => ?_ }⟩
  · rw [← Matrix.mul_assoc]
    exact (exists_svd A).choose_spec.choose_spec.choose_spec.1.eq
  · simp only [h, dif_pos]
    exact (exists_eigh_sorted A h).choose_spec.choose_spec.1

end Cdtools
