/-
Specification vocabulary for the greedy head samplers: which records have a set of attributes, how discriminative the
set is, and what it means to choose attributes greedily. Nothing here mentions the loops or the inverted index.
-/
import Verif.Model.GreedyHead
import Verif.Spec.Sparse

namespace Verif

namespace GreedyHead

open Classical in
/-- The records that have all the attributes. -/
noncomputable def having (X : Cmp) (A : Finset ℕ) : Finset ℕ :=
  (Finset.range X.nMajor).filter fun i => ∀ a ∈ A, X.Stored i a

/-- The records with the given label. -/
def labelled (y : List ℤ) (v : ℤ) : Finset ℕ := (Finset.range y.length).filter fun i => y[i]? = some v

/-- Discriminativity: positive records that have the attributes minus `gamma` times the negative ones. -/
noncomputable def disc (X : Cmp) (y : List ℤ) (gamma : ℚ) (A : Finset ℕ) : ℚ :=
  ((having X A ∩ labelled y 1).card : ℚ) - gamma * ((having X A ∩ labelled y 0).card : ℚ)

/-- `l` is the sequence of a greedy choice from `U`, where `score pre a` is the score of choosing `a` after `pre` and
`Big pre` says that enough records are left: every choice is a best one among the attributes not chosen yet; all but
the first leave enough records; and the sequence ends only when there is no attribute left, or because the best further
one would leave too few. -/
structure GreedySeq (score : List ℕ → ℕ → ℚ) (Big : List ℕ → Prop) (U : Finset ℕ) (l : List ℕ) : Prop where
  ne : l ≠ []
  nodup : l.Nodup
  sub : ∀ a ∈ l, a ∈ U
  best : ∀ (k : ℕ) (h : k < l.length), ∀ b ∈ U, b ∉ l.take k → score (l.take k) b ≤ score (l.take k) l[k]
  big : ∀ k < l.length, 0 < k → Big (l.take (k + 1))
  stop : (∀ a ∈ U, a ∈ l) ∨ ∃ b ∈ U, b ∉ l ∧ (∀ c ∈ U, c ∉ l → score l c ≤ score l b) ∧ ¬ Big (l ++ [b])

/-- `A` consists of the first attributes of a greedy sequence up to the first one of highest score. -/
def GreedyBest (score : List ℕ → ℕ → ℚ) (Big : List ℕ → Prop) (U A : Finset ℕ) : Prop :=
  ∃ (l : List ℕ) (m : ℕ) (hm : m < l.length), GreedySeq score Big U l ∧ A = (l.take (m + 1)).toFinset ∧
    (∀ (k : ℕ) (h : k < l.length), score (l.take k) l[k] ≤ score (l.take m) l[m]) ∧
    ∀ (k : ℕ) (h : k < m), score (l.take k) (l[k]'(h.trans hm)) < score (l.take m) l[m]

/-- At least the fraction `eps` of the number of positive records has all the attributes. -/
def Enough (X : Cmp) (y : List ℤ) (eps : ℚ) (l : List ℕ) : Prop :=
  eps * (labelled y 1).card ≤ (having X l.toFinset).card

/-- Some positive record has the attribute. -/
def InPositive (X : Cmp) (y : List ℤ) (a : ℕ) : Prop := ∃ i, y[i]? = some 1 ∧ X.Stored i a

open Classical in
/-- The attributes that `PruneGreedy` chooses from: those of the positive records, or all if these have none. -/
noncomputable def candidates (X : Cmp) (y : List ℤ) : Finset ℕ :=
  if ∃ a, InPositive X y a then (Finset.range X.nMinor).filter (InPositive X y) else Finset.range X.nMinor

open Classical in
/-- The attributes of a record. -/
noncomputable def attrs (X : Cmp) (i : ℕ) : Finset ℕ := (Finset.range X.nMinor).filter fun a => X.Stored i a

/-- How discriminative the attributes are after `a` was added, relative to the number of records that have `a`. -/
noncomputable def relative (X : Cmp) (y : List ℤ) (gamma : ℚ) (pre : List ℕ) (a : ℕ) : ℚ :=
  disc X y gamma (insert a pre.toFinset) / (having X {a}).card

/-- A traversal of a set lists its elements, each once. -/
def Traverses (order : ℕ → Finset ℕ → List ℕ) : Prop := ∀ k S, (order k S).Nodup ∧ (order k S).toFinset = S

end GreedyHead

end Verif
