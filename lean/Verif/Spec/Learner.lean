/-
Specification vocabulary for the learners with their real samplers.
-/
import Verif.Model.Learner
import Verif.Spec.Greedy
import Verif.Spec.Head
import Verif.Spec.Uncovered

namespace Verif

/-- Sets are traversed without repetition, in any order; items are ordered by decreasing count. -/
structure LearnEnv.Good (env : LearnEnv) : Prop where
  heads : env.toHeadEnv.Good
  ints : Traverses env.orderZ

/-- Training data: two 0/1 matrices with the same, positive, number of rows and with columns; the recursion bound of the
clique enumeration exceeds their widths. -/
structure LearnData (env : LearnEnv) (X Y : Cmp) : Prop where
  features : X.Binary
  labels : Y.Binary
  rows : X.nMajor = Y.nMajor
  pos : 0 < Y.nMajor
  depthX : X.nMinor < env.depth
  depthY : Y.nMinor < env.depth
  colsX : 0 < X.nMinor
  colsY : 0 < Y.nMinor

/-- The tail sampler after fitting a new object on `Y` and the updates `us`. -/
def TailAfter (env : HeadEnv) (p : ℚ) (prune : Bool) (Y : Cmp) (us : List (List ℕ × List ℤ)) (s : UState) :
    Prop :=
  ∃ s0, tailFit env p prune [] Y = .ok s0 ∧ applyUpdates s0 us = .ok s

/-- A rule on which all measures are defined: bound to the training data, with a row that carries both
its head and its tail. -/
def Supported (X Y : Cmp) (b : BRule) : Prop := BoundTo X Y b ∧ b.support.Nonempty

/-- Some label is carried by every training row. -/
def UniversalLabel (Y : Cmp) : Prop := ∃ j, ∀ i < Y.nMajor, Y.Stored i j

/-- Two training rows share a feature, but some label is carried by only one of them. -/
def SharedFeature (X Y : Cmp) : Prop :=
  ∃ i j f l, X.Stored i f ∧ X.Stored j f ∧ Y.Stored i l ∧ ¬ Y.Stored j l

/-- Some probable label set is carried by some training rows, not by all, and only by rows without
features. -/
def FeaturelessTail (X Y : Cmp) (alpha : ℚ) : Prop :=
  ∃ g U, buildGraph Y.flip = .ok g ∧ g.Probable alpha U ∧
    (∃ i < Y.nMajor, ∀ l ∈ U, Y.Stored i l) ∧ (∃ j < Y.nMajor, ∃ l ∈ U, ¬ Y.Stored j l) ∧
    ∀ i, (∀ l ∈ U, Y.Stored i l) → ∀ f, ¬ X.Stored i f

/-- The update that adding a rule makes to the tail sampler. -/
def updateOf (env : LearnEnv) (b : BRule) : List ℕ × List ℤ :=
  (env.order b.support, env.orderZ b.tail.toFinset)

/-- `b` is a best candidate for the selection `sel`: it maximises the objective over a batch that candidate
generation may return when the tail sampler has been told of the rules in `sel` and of no others. -/
def BestCandidate (env : LearnEnv) (p : Params) (lr : Learner) (q : ℚ) (X Y : Cmp) (sel : List BRule)
    (b : BRule) : Prop :=
  ∃ s h batch h', TailAfter env.toHeadEnv q true Y (sel.map (updateOf env)) s ∧
    HeadReach env.toHeadEnv X h ∧
    (learnGen env X X.flip Y.flip p.nHeads s p.nTails h []).Outcome (.ok (.ok batch, h')) ∧
    GreedyChoice lr.objective sel batch b

open Classical in
/-- The probable label sets that row `i` carries have together at most `bound` elements. -/
def LightRow (Y : Cmp) (alpha : ℚ) (i bound : ℕ) : Prop :=
  ∃ g, buildGraph Y.flip = .ok g ∧
    ∑ U ∈ (Y.segIdx i).toFinset.powerset with g.Probable alpha U, U.card ≤ bound

end Verif
