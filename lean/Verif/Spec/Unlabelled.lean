/-
Specification vocabulary for records without labels.
-/
import Verif.Spec.Candidate

namespace Verif

/-- The records `X'`, `Y'` are the records `X`, `Y` and others without labels: record `k` of the former became record
`place k`. -/
structure AddsUnlabelled (place : ℕ → ℕ) (X Y X' Y' : Cmp) : Prop where
  inside : ∀ k < Y.nMajor, place k < Y'.nMajor
  distinct : ∀ k < Y.nMajor, ∀ k' < Y.nMajor, place k = place k' → k = k'
  features : ∀ k < Y.nMajor, ∀ j, X'.Stored (place k) j ↔ X.Stored k j
  labels : ∀ k < Y.nMajor, ∀ j, Y'.Stored (place k) j ↔ Y.Stored k j
  others : ∀ i j, Y'.Stored i j → ∃ k < Y.nMajor, place k = i
  columns : Y'.nMinor = Y.nMinor

/-- The same cells have been covered in both. -/
def CoveredAlike (place : ℕ → ℕ) (n : ℕ) (us us' : List (List ℕ × List ℤ)) : Prop :=
  ∀ k < n, ∀ l, CoveredBy us' (place k) l ↔ CoveredBy us k l

open Classical in
/-- The number of records with all of `H` and all of `T`. -/
noncomputable def bothCount (X Y : Cmp) (H T : Finset ℤ) : ℕ :=
  ((Finset.range Y.nMajor).filter fun i => RowContains X i H ∧ RowContains Y i T).card

open Classical in
/-- The number of added records that lack some feature of `H`. -/
noncomputable def addedLacking (place : ℕ → ℕ) (n : ℕ) (X' : Cmp) (H : Finset ℤ) : ℕ :=
  ((Finset.range X'.nMajor).filter fun i => (∀ k < n, place k ≠ i) ∧ ¬ RowContains X' i H).card

end Verif
