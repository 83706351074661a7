/-
**C48**: `orthogonalize_probes` preserves the mutual coherence of the probe.
-/
import Verif.Lemmas.LinAlg

set_option linter.unusedSectionVars false

namespace Cdtools
open Finset Matrix

variable {l x w k : ℕ}

/-! ### Specification -/

/-- The mutual coherence function of a stack of incoherent modes: `J(a, b) = Σ_k conj(ψ_k(a)) ψ_k(b)`. -/
def mutualCoherence (P : Matrix (Fin k) (Fin x) ℂ) (a b : Fin x) : ℂ := ∑ i, star (P i a) * P i b

/-- The intensity measured at pixel `y` behind any linear optic `T` that acts on every mode. -/
noncomputable def measured {d : ℕ} (T : Matrix (Fin d) (Fin x) ℂ) (P : Matrix (Fin k) (Fin x) ℂ) (y : Fin d) : ℝ :=
  ∑ i, ‖∑ a, T y a * P i a‖ ^ 2

/-- The power of a mode. -/
noncomputable def modePower (P : Matrix (Fin k) (Fin x) ℂ) (i : Fin k) : ℝ := ∑ a, ‖P i a‖ ^ 2

/-! ### Proofs -/

theorem mutualCoherence_eq (P : Matrix (Fin k) (Fin x) ℂ) : mutualCoherence P = Pᴴ * P := by
  funext a b; rw [mul_apply]; rfl

theorem scaleRows_eq (S : Fin k → ℝ) (V : Matrix (Fin k) (Fin x) ℂ) :
    scaleRows S V = diagonal (fun i => (S i : ℂ)) * V := by
  ext i j; rw [diagonal_mul]; rfl

/-- The intensity depends on the modes only through their mutual coherence. -/
theorem measured_eq {d : ℕ} (T : Matrix (Fin d) (Fin x) ℂ) (P : Matrix (Fin k) (Fin x) ℂ) (y : Fin d) :
    (measured T P y : ℂ) = ∑ a, ∑ b, star (T y a) * T y b * mutualCoherence P a b := by
  unfold measured mutualCoherence
  push_cast
  simp only [mul_sum]
  have : ∀ i, ((‖∑ a, T y a * P i a‖ : ℝ) : ℂ) ^ 2 =
      ∑ a, ∑ b, star (T y a) * T y b * (star (P i a) * P i b) := by
    intro i
    rw [← Complex.conj_mul', map_sum, sum_mul_sum]
    refine sum_congr rfl fun a _ => sum_congr rfl fun b _ => ?_
    rw [map_mul]
    simp only [Complex.star_def]
    ring
  rw [sum_congr rfl fun i _ => this i, sum_comm]
  exact sum_congr rfl fun a _ => sum_comm

theorem measured_of_coherence {d k' : ℕ} (T : Matrix (Fin d) (Fin x) ℂ) {P : Matrix (Fin k) (Fin x) ℂ}
    {Q : Matrix (Fin k') (Fin x) ℂ} (h : mutualCoherence P = mutualCoherence Q) :
    measured T P = measured T Q := by
  funext y
  have := measured_eq T P y
  rw [h, ← measured_eq] at this
  exact_mod_cast this

theorem total_power_of_coherence {k' : ℕ} {P : Matrix (Fin k) (Fin x) ℂ}
    {Q : Matrix (Fin k') (Fin x) ℂ} (h : mutualCoherence P = mutualCoherence Q) :
    ∑ i, modePower P i = ∑ i, modePower Q i := by
  have key : ∀ {k : ℕ} (P : Matrix (Fin k) (Fin x) ℂ),
      ((∑ i, modePower P i : ℝ) : ℂ) = ∑ a, mutualCoherence P a a := by
    intro k P
    unfold modePower mutualCoherence
    push_cast
    rw [sum_comm]
    exact sum_congr rfl fun a _ => sum_congr rfl fun i _ => by rw [← Complex.conj_mul']; rfl
  have := key P
  rw [h, ← key Q] at this
  exact_mod_cast this

/-- What a singular value decomposition gives for the scaled right factor. -/
theorem svd_modes {p : ℕ} {A : Matrix (Fin p) (Fin x) ℂ} {U : Matrix (Fin p) (Fin k) ℂ} {S : Fin k → ℝ}
    {V : Matrix (Fin k) (Fin x) ℂ} (h : IsSVD A U S V) :
    U * scaleRows S V = A ∧ mutualCoherence (scaleRows S V) = mutualCoherence A ∧
    (∀ i j, i ≠ j → ∑ a, scaleRows S V i a * star (scaleRows S V j a) = 0) ∧
    (∀ i, modePower (scaleRows S V) i = S i ^ 2) := by
  have h1 : U * scaleRows S V = A := by rw [scaleRows_eq, ← Matrix.mul_assoc, ← h.eq]
  have hg : scaleRows S V * (scaleRows S V)ᴴ = diagonal (fun i => ((S i) ^ 2 : ℂ)) := by
    rw [scaleRows_eq, conjTranspose_mul, Matrix.mul_assoc, ← Matrix.mul_assoc V, h.right,
      Matrix.one_mul, diagonal_conjTranspose, diagonal_mul_diagonal]
    congr 1
    funext i
    simp [sq]
  refine ⟨h1, ?_, fun i j hij => ?_, fun i => ?_⟩
  · rw [mutualCoherence_eq, mutualCoherence_eq, ← h1, conjTranspose_mul, Matrix.mul_assoc,
      ← Matrix.mul_assoc Uᴴ, h.left, Matrix.one_mul]
  · have := congrFun (congrFun hg i) j
    rw [mul_apply, diagonal_apply, if_neg hij] at this
    exact this
  · have := congrFun (congrFun hg i) i
    rw [mul_apply, diagonal_apply, if_pos rfl] at this
    have h2 : ((modePower (scaleRows S V) i : ℝ) : ℂ) = ((S i ^ 2 : ℝ) : ℂ) := by
      unfold modePower
      push_cast
      rw [← this]
      exact sum_congr rfl fun a _ => by rw [← Complex.mul_conj']; rfl
    exact_mod_cast h2

/-- **C48** (`product_svd`): for every pair of matrices, and whatever decompositions the linear algebra
library returns, `product_svd(A, B)` is a reduced singular value decomposition of `A @ B` with the
singular values in descending order. -/
theorem product_svd_correct (la : LinAlg) (A : Matrix (Fin w) (Fin l) ℂ) (B : Matrix (Fin l) (Fin x) ℂ) :
    IsSVD (A * B) (productSvd la A B).1 (productSvd la A B).2.1 (productSvd la A B).2.2 ∧
    Antitone (productSvd la A B).2.1 := by
  have ha := la.qr_spec A
  have hb := la.qr_spec Bᴴ
  have hs := la.svd_spec ((la.qr A).2 * (la.qr Bᴴ).2ᴴ)
  unfold productSvd
  refine ⟨⟨?_, ?_, ?_, hs.nonneg⟩, la.svd_sorted _⟩
  · have hB : B = (la.qr Bᴴ).2ᴴ * (la.qr Bᴴ).1ᴴ := by
      rw [← conjTranspose_mul, ← hb.eq, conjTranspose_conjTranspose]
    conv_lhs => rw [ha.eq, hB]
    rw [Matrix.mul_assoc, ← Matrix.mul_assoc (la.qr A).2, hs.eq]
    simp only [Matrix.mul_assoc]
  · rw [conjTranspose_mul, Matrix.mul_assoc, ← Matrix.mul_assoc (la.qr A).1ᴴ, ha.orth, Matrix.one_mul,
      hs.left]
  · rw [conjTranspose_mul, conjTranspose_conjTranspose, Matrix.mul_assoc,
      ← Matrix.mul_assoc (la.qr Bᴴ).1ᴴ, hb.orth, Matrix.one_mul, hs.right]

/-- What `orthogonalize_probes` promises of its outputs `out` and `U` for the light field `field`. -/
structure Orthogonalizes {p : ℕ} (field : Matrix (Fin p) (Fin x) ℂ) (out : Matrix (Fin k) (Fin x) ℂ)
    (U : Matrix (Fin p) (Fin k) ℂ) : Prop where
  /-- the modes are pairwise orthogonal -/
  orthogonal : ∀ i j, i ≠ j → ∑ a, out i a * star (out j a) = 0
  /-- by decreasing power -/
  sorted : ∀ i j, i ≤ j → modePower out j ≤ modePower out i
  /-- same mutual coherence function -/
  coherence : ∀ a b, mutualCoherence out a b = mutualCoherence field a b
  /-- so the same intensity in every experiment -/
  patterns : ∀ (d : ℕ) (T : Matrix (Fin d) (Fin x) ℂ) (y : Fin d), measured T out y = measured T field y
  /-- and the same total power -/
  power : ∑ i, modePower out i = ∑ i, modePower field i
  /-- `reexpressed_weight_matrix @ orthogonalized_probes` is the light field -/
  reexpressed : ∀ m a, ∑ i, U m i * out i a = field m a
  /-- `reexpressed_weight_matrix^† @ reexpressed_weight_matrix = I` -/
  isometry : ∀ i j, ∑ m, star (U m i) * U m j = if i = j then 1 else 0

theorem orthogonalizes_of_svd {p : ℕ} {A : Matrix (Fin p) (Fin x) ℂ} {U : Matrix (Fin p) (Fin k) ℂ}
    {S : Fin k → ℝ} {V : Matrix (Fin k) (Fin x) ℂ} (h : IsSVD A U S V) (hS : Antitone S) :
    Orthogonalizes A (scaleRows S V) U := by
  obtain ⟨h1, h2, h3, h4⟩ := svd_modes h
  refine ⟨h3, fun i j hij => ?_, fun a b => by rw [h2],
    fun d T y => by rw [measured_of_coherence T h2], total_power_of_coherence h2,
    fun m a => ?_, fun i j => ?_⟩
  · rw [h4, h4]
    exact pow_le_pow_left₀ (h.nonneg j) (hS hij) 2
  · rw [← mul_apply, h1]
  · have := congrFun (congrFun h.left i) j
    rw [mul_apply, one_apply] at this
    exact this

/-- **C48**: for every stack of probe modes, the modes returned by `orthogonalize_probes` are pairwise
orthogonal, sorted by decreasing power, and have the mutual coherence function, the total power and in
every experiment the measured intensity of the input; the re-expressed weights have orthonormal
columns and reproduce the input. -/
theorem orthogonalize_probes_correct (la : LinAlg) (probes : Matrix (Fin l) (Fin x) ℂ) :
    Orthogonalizes probes (orthogonalizeProbes la probes).1 (orthogonalizeProbes la probes).2 :=
  orthogonalizes_of_svd (la.svd_spec probes) (la.svd_sorted probes)

/-- **C48** (with a weight matrix): the same for the light field `weight_matrix @ probes`. -/
theorem orthogonalize_probes_weights_correct (la : LinAlg) (probes : Matrix (Fin l) (Fin x) ℂ)
    (weights : Matrix (Fin w) (Fin l) ℂ) :
    Orthogonalizes (weights * probes) (orthogonalizeProbesW la probes weights).1
      (orthogonalizeProbesW la probes weights).2 :=
  orthogonalizes_of_svd (product_svd_correct la weights probes).1 (product_svd_correct la weights probes).2

/-- A single mode keeps its power. -/
theorem orthogonalize_probes_single (la : LinAlg) (probes : Matrix (Fin 1) (Fin (x + 1)) ℂ) :
    ∀ i, modePower (orthogonalizeProbes la probes).1 i = modePower probes 0 := by
  intro i
  have h := (orthogonalize_probes_correct la probes).power
  have hk : min 1 (x + 1) = 1 := by omega
  have hu : ∀ j : Fin (min 1 (x + 1)), j = i := by
    intro j; apply Fin.ext; have := j.2; have := i.2; omega
  rw [Fintype.sum_eq_single i (fun j hj => absurd (hu j) hj)] at h
  simpa using h

/-- Non-vacuity: the linear algebra library exists, and two parallel modes are merged into one of
their total power. -/
example : ∃ la : LinAlg, Orthogonalizes (fun _ _ => 1 : Matrix (Fin 2) (Fin 3) ℂ)
    (orthogonalizeProbes la (fun _ _ => 1)).1 (orthogonalizeProbes la (fun _ _ => 1)).2 :=
  linAlg_exists.elim fun la => ⟨la, orthogonalize_probes_correct la _⟩

end Cdtools
