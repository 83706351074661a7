/- Vocabulary for C23 and C24, independent of the model's pooling and padding functions. -/
import Verif.Spec.PtychoDataset
import Mathlib.Algebra.BigOperators.Intervals

namespace Cdtools
open Finset

/-- `a'` is `a` surrounded by `l`, `r`, `t`, `b` columns/rows of the value `v`. -/
def PadsTo {α : Type} (l r t b : ℕ) (v : α) (a a' : Img α) : Prop :=
  a'.h = t + a.h + b ∧ a'.w = l + a.w + r ∧
  (∀ i < a.h, ∀ j < a.w, a'.px (t + i) (l + j) = a.px i j) ∧
  (∀ i < a'.h, ∀ j < a'.w, (¬ ∃ i0 < a.h, ∃ j0 < a.w, i = t + i0 ∧ j = l + j0) → a'.px i j = v)

/-- The optional array is absent in both, or present in both and related. -/
def OptRel {α : Type} (R : α → α → Prop) (a b : Option α) : Prop :=
  (a = none ∧ b = none) ∨ ∃ x y, a = some x ∧ b = some y ∧ R x y

/-- Entry by entry related lists of the same length. -/
def ListRel {α : Type} (R : α → α → Prop) (a b : List α) : Prop := List.Forall₂ R a b

/-- The pixels `(i', j')` of the `f × f` block that becomes pixel `(i, j)`. -/
def InBlock (f i j i' j' : ℕ) : Prop := i' / f = i ∧ j' / f = j

/-- Detector pixel `(i, j)` is usable: not masked off (everything is usable without a mask). -/
def Usable (m : Option (Img Bool)) (i j : ℕ) : Prop := ∀ m', m = some m' → m'.px i j = true

open Classical in
/-- The value of `x` on usable pixels, 0 elsewhere. -/
noncomputable def usableValue (m : Option (Img Bool)) (x : Img ℝ) (i j : ℕ) : ℝ :=
  if Usable m i j then x.px i j else 0

/-- `y` is `x` with each `f × f` block summed, counting usable pixels only. -/
def BlockSums (f : ℕ) (m : Option (Img Bool)) (x y : Img ℝ) : Prop :=
  y.h = x.h / f ∧ y.w = x.w / f ∧ ∀ i < y.h, ∀ j < y.w,
    y.px i j = ∑ i' ∈ Ico (f * i) (f * i + f), ∑ j' ∈ Ico (f * j) (f * j + f), usableValue m x i' j'

/-- Equal datasets, arrays being compared as arrays (`Img.Same`), patterns on the pixels selected
by `P` only. -/
def PDataset.SameOn {M : Type} (P : ℕ → ℕ → Prop) (d e : PDataset M) : Prop :=
  d.translations = e.translations ∧ d.intensities = e.intensities ∧ d.info = e.info ∧
  d.basis = e.basis ∧ OptRel Img.Same d.mask e.mask ∧ OptRel Img.Same d.qeMask e.qeMask ∧
  OptRel Img.Same d.background e.background ∧
  ListRel (fun a b : Img ℝ => a.h = b.h ∧ a.w = b.w ∧
    ∀ i < a.h, ∀ j < a.w, P i j → a.px i j = b.px i j) d.patterns e.patterns

end Cdtools
