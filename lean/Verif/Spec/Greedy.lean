/-
Specification vocabulary for the greedy learners and for prediction.
-/
import Verif.Spec.Rule
import Verif.Model.Greedy

namespace Verif

/-- Row `i` of the CSR feature matrix contains the whole head of the rule. -/
def Fires (X : Cmp) (r : Rule) (i : ℕ) : Prop := ∀ f ∈ r.head, 0 ≤ f ∧ X.Stored i f.toNat

/-- The label occurrences of a CSR label matrix. -/
def labelCells (Y : Cmp) : Finset (ℕ × ℤ) :=
  (Finset.range Y.nMajor).biUnion fun i => (Y.segIdx i).toFinset.image fun j : ℕ => (i, (j : ℤ))

/-- The bound object is what binding its own head and tail to the training data gives, and its label
ids are non-negative. -/
def BoundTo (X Y : Cmp) (b : BRule) : Prop :=
  (∃ head tail : List ℤ, bindDataset (Rule.new head tail) X.flip Y.flip = .ok b) ∧
    (∀ l ∈ b.tail, 0 ≤ l) ∧ b.tail.Nodup

/-- What the learner may assume of a tail sampler: a sampled tail is a set of label ids. -/
def TailsAreLabelSets {σ ω : Type} (S : Samplers σ ω) : Prop :=
  ∀ s w tail, S.tailSample s w = .ok tail → (∀ l ∈ tail, 0 ≤ l) ∧ tail.Nodup

/-- `best` is a member of `cands` whose objective, relative to `selected`, is at least that of every
member of `cands`. -/
def GreedyChoice (obj : List BRule → BRule → Py ℝ) (selected cands : List BRule) (best : BRule) :
    Prop :=
  best ∈ cands ∧ ∃ v, obj selected best = .ok v ∧
    ∀ c ∈ cands, ∃ vc, obj selected c = .ok vc ∧ vc ≤ v

/-- Jaccard distance between the label areas of two rules. -/
noncomputable def areaDist (a b : BRule) : ℝ :=
  1 - ((area a ∩ area b).card : ℝ) / ((area a ∪ area b).card : ℝ)

/-- Sum of the distances of one rule to the rules of a list. -/
noncomputable def distTo (r : BRule) (rs : List BRule) : ℝ := (rs.map (areaDist r)).sum

/-- Sum of the distances over all pairs of positions `i < j` of a list of rules. -/
noncomputable def diversity : List BRule → ℝ
  | [] => 0
  | r :: rs => distTo r rs + diversity rs

/-- The state of the tail sampler after the listed rules have been added one by one. -/
def samplerAfter {σ ω : Type} (S : Samplers σ ω) (s0 : σ) (rules : List BRule) : Py σ :=
  rules.foldlM (fun s r => S.tailUpdate s r.support r.tail.toFinset) s0

end Verif
