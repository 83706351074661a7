/- Vocabulary for the dataset properties C21–C26, independent of the model's functions. -/
import Verif.Model.PtychoDataset

namespace Cdtools
open Finset
variable {M : Type}

/-- One exposure: where, what, and how bright (if recorded). -/
structure Exposure where
  translation : ℝ × ℝ × ℝ
  pattern : Img ℝ
  intensity : Option ℝ

/-- A dataset is aligned if it has one translation, one pattern and (if any) one intensity per
exposure. -/
def PDataset.Aligned (d : PDataset M) : Prop :=
  d.patterns.length = d.translations.length ∧
  ∀ l, d.intensities = some l → l.length = d.translations.length

/-- The `i`-th exposure, if there is one. -/
def PDataset.exposureAt (d : PDataset M) (i : ℕ) : Option Exposure :=
  d.translations[i]?.bind fun t => d.patterns[i]?.map fun p =>
    ⟨t, p, d.intensities.bind fun l => l[i]?⟩

/-- The exposures of a dataset, in order. -/
def PDataset.exposures (d : PDataset M) : List Exposure :=
  (List.range d.translations.length).filterMap d.exposureAt

/-- Everything that is not per exposure. -/
def PDataset.SameRest (d e : PDataset M) : Prop :=
  d.mask = e.mask ∧ d.qeMask = e.qeMask ∧ d.background = e.background ∧ d.basis = e.basis ∧
  d.info = e.info ∧ d.intensities.isSome = e.intensities.isSome

/-- The closed box with opposite corners `(r0, r2)` and `(r1, r3)`, in either order. -/
def InBox (r0 r1 r2 r3 : ℝ) (t : ℝ × ℝ × ℝ) : Prop :=
  min r0 r1 ≤ t.1 ∧ t.1 ≤ max r0 r1 ∧ min r2 r3 ≤ t.2.1 ∧ t.2.1 ≤ max r2 r3

/-- All per-pixel arrays have shape `h × w`. -/
def PDataset.Shaped (d : PDataset M) (h w : ℕ) : Prop :=
  (∀ p ∈ d.patterns, p.h = h ∧ p.w = w) ∧ (∀ m, d.mask = some m → m.h = h ∧ m.w = w) ∧
  (∀ q, d.qeMask = some q → q.h = h ∧ q.w = w) ∧
  (∀ b, d.background = some b → b.h = h ∧ b.w = w)

end Cdtools
