/-
Specification vocabulary for coupling from the past.
-/
import Verif.Model.Cftp

namespace Verif
namespace Cftp

/-- The proposal dominates the target: proposal and true weights are non-negative, and the true weight
of a pair is at most the product of the two proposal weights. -/
structure Dominated (c : Cftp) : Prop where
  posNodup : c.posList.Nodup
  negNodup : c.negList.Nodup
  wPos_nonneg : ∀ p ∈ c.posList, 0 ≤ c.wPos p
  wNeg_nonneg : ∀ n ∈ c.negList, 0 ≤ c.wNeg n
  W_nonneg : ∀ p ∈ c.posList, ∀ n ∈ c.negList, 0 ≤ c.W p n
  W_le : ∀ p ∈ c.posList, ∀ n ∈ c.negList, c.W p n ≤ c.wPos p * c.wNeg n

/-- Total true weight of all pairs. -/
noncomputable def totalW (c : Cftp) : ℝ := ∑ p ∈ c.posList.toFinset, ∑ n ∈ c.negList.toFinset, c.W p n

/-- Total proposal weight of all pairs. -/
noncomputable def totalBar (c : Cftp) : ℝ := c.posWeights.sum * c.negWeights.sum

/-- The longest horizon `sample` tries: the largest power of two not above `max_iters` (none if
`max_iters` is 0). -/
def horizon (c : Cftp) : ℕ := if c.maxIters = 0 then 0 else 2 ^ Nat.log 2 c.maxIters

/-- A draw that can occur: both records listed with positive proposal weight, and a number in `[0,1]`. -/
def ValidDraw (c : Cftp) (d : ℕ × ℕ × ℝ) : Prop :=
  d.1 ∈ c.posList ∧ d.2.1 ∈ c.negList ∧ 0 < c.wPos d.1 ∧ 0 < c.wNeg d.2.1 ∧ 0 ≤ d.2.2

/-- The chain in a given pair, with the weights the loop keeps for it. -/
def atPair (c : Cftp) (p n : ℕ) : Chain := { D := some (p, n), wD := c.W p n, wDBar := c.wPos p * c.wNeg n }

end Cftp
end Verif
