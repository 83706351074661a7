/- Helper lemmas about `pyRange0`, `pySlice`, `pyChunks`. -/
import Verif.Model.Py
import Mathlib.Data.List.Basic
import Mathlib.Tactic.Ring
import Mathlib.Tactic.Linarith

namespace Cdtools

theorem flatten_slices {α : Type u} (w : ℕ) (xs : List α) (m : ℕ) :
    ((List.range m).map fun j => pySlice xs (j * w) (j * w + w)).flatten = xs.take (m * w) := by
  induction m with
  | zero => simp
  | succ m ih =>
    rw [List.range_succ, List.map_append, List.flatten_append, ih]
    simp only [List.map_cons, List.map_nil, List.flatten_cons, List.flatten_nil, List.append_nil,
      pySlice]
    have h : xs.take (m * w) = (xs.take (m * w + w)).take (m * w) := by
      rw [List.take_take, Nat.min_eq_left (Nat.le_add_right _ _)]
    rw [h, List.take_append_drop, Nat.succ_mul]

theorem ceil_mul_ge (n w : ℕ) (hw : 1 ≤ w) : n ≤ (n + w - 1) / w * w := by
  have h1 := Nat.div_add_mod (n + w - 1) w
  have h2 := Nat.mod_lt (n + w - 1) (show 0 < w by omega)
  have h3 : w * ((n + w - 1) / w) = (n + w - 1) / w * w := Nat.mul_comm _ _
  omega

theorem pyChunks_flatten {α : Type u} (n w : ℕ) (hw : 1 ≤ w) (xs : List α)
    (hn : xs.length ≤ n) : (pyChunks n w xs).flatten = xs := by
  unfold pyChunks pyRange0
  rw [List.map_map]
  have := flatten_slices w xs ((n + w - 1) / w)
  simp only [Function.comp_def] at this ⊢
  rw [this, List.take_of_length_le]
  exact le_trans hn (ceil_mul_ge n w hw)

theorem pyChunks_length {α : Type u} (n w : ℕ) (xs : List α) :
    (pyChunks n w xs).length = (n + w - 1) / w := by
  simp [pyChunks, pyRange0]

theorem mem_pyRange0 {n w : ℕ} (hw : 1 ≤ w) {i : ℕ} (h : i ∈ pyRange0 n w) :
    i < n ∧ i % w = 0 := by
  unfold pyRange0 at h
  simp only [List.mem_map, List.mem_range] at h
  obtain ⟨j, hj, rfl⟩ := h
  refine ⟨?_, Nat.mul_mod_left j w⟩
  have : (j + 1) * w ≤ n + w - 1 := by
    rw [← Nat.le_div_iff_mul_le (by omega)]; omega
  rw [Nat.succ_mul] at this
  omega

theorem mem_pyChunks_length {α : Type u} {n w : ℕ} (hw : 1 ≤ w) {xs c : List α}
    (hn : n = xs.length) (h : c ∈ pyChunks n w xs) : 1 ≤ c.length ∧ c.length ≤ w := by
  unfold pyChunks at h
  simp only [List.mem_map] at h
  obtain ⟨i, hi, rfl⟩ := h
  have := (mem_pyRange0 hw hi).1
  simp only [pySlice, List.length_drop, List.length_take]
  omega

theorem pyChunks_get_length {α β : Type u} (n w : ℕ) (xs : List α) (ys : List β)
    (h : xs.length = ys.length) :
    (pyChunks n w xs).map List.length = (pyChunks n w ys).map List.length := by
  simp [pyChunks, pySlice, h]

end Cdtools
