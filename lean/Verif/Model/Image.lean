/-
Shared vocabulary for 2D arrays: images with a shape, padding, pooling.
-/
import Mathlib.Algebra.BigOperators.Group.Finset.Basic
import Mathlib.Data.Real.Basic

namespace Cdtools
open Finset

/-- A 2D array of `h` rows and `w` columns. Only `px i j` with `i < h`, `j < w` is part of the
array; two images are compared with `Img.Same`. -/
structure Img (α : Type) where
  h : ℕ
  w : ℕ
  px : ℕ → ℕ → α

/-- Equal as arrays: same shape and same pixels. -/
def Img.Same {α : Type} (a b : Img α) : Prop :=
  a.h = b.h ∧ a.w = b.w ∧ ∀ i < a.h, ∀ j < a.w, a.px i j = b.px i j

/-- Elementwise map. -/
def Img.map {α β : Type} (f : α → β) (a : Img α) : Img β := ⟨a.h, a.w, fun i j => f (a.px i j)⟩

/-- Elementwise binary operation on arrays of the same shape (that of the second argument). -/
def Img.zip {α β γ : Type} (f : α → β → γ) (a : Img α) (b : Img β) : Img γ :=
  ⟨b.h, b.w, fun i j => f (a.px i j) (b.px i j)⟩

/-- `torch.nn.functional.pad(x, (left, right, top, bottom), value=v)` on the last two axes, for
non-negative pads. -/
def Img.pad {α : Type} (l r t b : ℕ) (v : α) (a : Img α) : Img α :=
  ⟨a.h + t + b, a.w + l + r, fun i j =>
    if t ≤ i ∧ i < t + a.h ∧ l ≤ j ∧ j < l + a.w then a.px (i - t) (j - l) else v⟩

/-- `avg_pool2d(x, f, divisor_override=1)`: sums over whole f×f blocks (incomplete blocks at the
end are dropped). -/
def Img.sumPool {α : Type} [AddCommMonoid α] (f : ℕ) (a : Img α) : Img α :=
  ⟨a.h / f, a.w / f, fun i j => ∑ u ∈ range f, ∑ v ∈ range f, a.px (f * i + u) (f * j + v)⟩

/-- `avg_pool2d(x, f)`: means over whole f×f blocks. -/
noncomputable def Img.avgPool (f : ℕ) (a : Img ℝ) : Img ℝ :=
  ⟨a.h / f, a.w / f, fun i j => (a.sumPool f).px i j / (f * f)⟩

/-- `max_pool2d(x.to(uint8), f).to(bool)`: true where some pixel of the block is. -/
def Img.anyPool (f : ℕ) (a : Img Bool) : Img Bool :=
  ⟨a.h / f, a.w / f, fun i j =>
    (List.range f).any fun u => (List.range f).any fun v => a.px (f * i + u) (f * j + v)⟩

/-- Total of an image. -/
def Img.total {α : Type} [AddCommMonoid α] (a : Img α) : α :=
  ∑ i ∈ range a.h, ∑ j ∈ range a.w, a.px i j

end Cdtools
