/-
Model of `CFTPDiscriminativitySampler.fit` (`corset/samplers/discrim.py:49-125`) statement by statement, for calls
that are interrupted or raise: the object then keeps the attributes assigned so far.

Simplifications: an assignment is executed as a whole; `_positives` and `_negagives` are assigned together with
`_pos_list`, which has the same members as `_positives`; `_g` is recorded only in the point, since nothing but the
next statements reads it.
-/
import Verif.Model.Head

namespace Verif

/-- The attributes of a `CFTPDiscriminativitySampler`: those of `HeadSampler` and the ones that only the ground truth
functions and the weights use. -/
structure HeadObj where
  core : HeadSampler
  /-- `N` -/
  n : ℕ
  /-- `_pos_list`, once assigned -/
  pos : Option (List ℕ)
  /-- `_neg_list`, once assigned -/
  neg : Option (List ℕ)
  /-- `_weight_dict`, once assigned: the weights of rows `0`, `1`, ... -/
  weights : Option (List ℝ)

/-- `__init__`, `corset/samplers/discrim.py:30-42`. -/
def HeadObj.init (doPrune : Bool) (minProba : ℚ) (tight : Bool) : HeadObj :=
  { core := HeadSampler.init doPrune minProba tight, n := 0, pos := none, neg := none, weights := none }

/-- Where a running call of `fit` is. -/
inductive HeadFitPc
  /-- before `self.N, self.D = X.shape`, `discrim.py:80` -/
  | entry
  /-- before the check of the labels, `discrim.py:81`, and the decision whether to build, `discrim.py:118` -/
  | sized
  /-- `_g` was assigned, `pc.py:130` -/
  | graph (g : UGraph ℚ)
  /-- `_sample_space` was assigned, `pc.py:122`, `new_rows` not yet -/
  | space
  /-- `_sample_space` and `new_rows` are there, `discrim.py:121` -/
  | assigned
  /-- `_pos_list` was assigned, `discrim.py:76` -/
  | positives
  /-- `_neg_list` was assigned, `discrim.py:77` -/
  | negatives
  /-- `_weight_dict` has the weights of the first `k` rows, `discrim.py:52-70` -/
  | weights (k : ℕ)
  /-- the call has returned -/
  | returned

/-- The points a call of `fit(X, y)` on the object `o` passes through, with the object as it is then:
`corset/samplers/discrim.py:49-125`, `pc.py:101-131`, `assignment.py:60-74`. -/
inductive HeadFitPoint (env : HeadEnv) (X : Cmp) (y : List ℤ) (o : HeadObj) : HeadFitPc → HeadObj → Prop
  | start : HeadFitPoint env X y o .entry o
  | sized {o1 : HeadObj} (h : HeadFitPoint env X y o .entry o1) :
      HeadFitPoint env X y o .sized { o1 with n := X.nMajor }
  | keep {o1 : HeadObj} (h : HeadFitPoint env X y o .sized o1) (hy : checkLabels y = .ok ())
      (hs : o1.core.space ≠ none) (hr : o1.core.newRows ≠ none) : HeadFitPoint env X y o .assigned o1
  | graph {o1 : HeadObj} {g : UGraph ℚ} (h : HeadFitPoint env X y o .sized o1) (hy : checkLabels y = .ok ())
      (hs : o1.core.space = none) (hg : buildGraph X.flip = .ok g) : HeadFitPoint env X y o (.graph g) o1
  | space {o1 : HeadObj} {g : UGraph ℚ} {cliques : List (Finset ℕ)} (h : HeadFitPoint env X y o (.graph g) o1)
      (hc : buildSampleSpace ratOps g o1.core.minProba o1.core.doPrune .dfsV2 env.order env.depth = .ok cliques) :
      HeadFitPoint env X y o .space { o1 with core := { o1.core with space := some (cliques.map intSet) } }
  | rows {o1 : HeadObj} {sp : List (Finset ℤ)} {rows : List (List ℕ)} (h : HeadFitPoint env X y o .space o1)
      (hs : o1.core.space = some sp) (hr : prettiNewRows X sp (env.ordering sp) = .ok rows) :
      HeadFitPoint env X y o .assigned { o1 with core := { o1.core with newRows := some rows } }
  | positives {o1 : HeadObj} (h : HeadFitPoint env X y o .assigned o1) :
      HeadFitPoint env X y o .positives { o1 with pos := some (posIndices y) }
  | negatives {o1 : HeadObj} (h : HeadFitPoint env X y o .positives o1) :
      HeadFitPoint env X y o .negatives { o1 with neg := some (negIndices y) }
  | emptied {o1 : HeadObj} (h : HeadFitPoint env X y o .negatives o1) :
      HeadFitPoint env X y o (.weights 0) { o1 with weights := some [] }
  | weight {o1 : HeadObj} {k : ℕ} {sp : List (Finset ℤ)} {rows : List (List ℕ)} {ws : List ℝ} {w : ℝ}
      (h : HeadFitPoint env X y o (.weights k) o1) (hk : k < o1.n) (hs : o1.core.space = some sp)
      (hr : o1.core.newRows = some rows) (hws : o1.weights = some ws)
      (hw : headWeight o1.core.tight sp.length rows (posIndices y) k = .ok w) :
      HeadFitPoint env X y o (.weights (k + 1)) { o1 with weights := some (ws ++ [w]) }
  | built {o1 : HeadObj} {rows : List (List ℕ)} {ws : List ℝ} (h : HeadFitPoint env X y o (.weights o1.n) o1)
      (hr : o1.core.newRows = some rows) (hws : o1.weights = some ws)
      (hk : checkKeys ws.length (posIndices y ++ negIndices y) = .ok ()) :
      HeadFitPoint env X y o .returned { o1 with core := { o1.core with
        cftp := some { posList := posIndices y, negList := negIndices y, wPos := fun i => ws.getD i 0,
                       wNeg := fun i => ws.getD i 0, W := discrimWeight rows, maxIters := 1024 }
        lists := Cftp.reset } }

/-- The statement at that point raises `e`. -/
inductive HeadFitRaises (env : HeadEnv) (X : Cmp) (y : List ℤ) : HeadFitPc → HeadObj → PyErr → Prop
  | labels {o : HeadObj} {e : PyErr} (hy : checkLabels y = .error e) : HeadFitRaises env X y .sized o e
  /-- `self.new_rows` does not exist -/
  | missing {o : HeadObj} (hy : checkLabels y = .ok ()) (hs : o.core.space ≠ none) (hr : o.core.newRows = none) :
      HeadFitRaises env X y .sized o .attributeError
  | graph {o : HeadObj} {e : PyErr} (hy : checkLabels y = .ok ()) (hs : o.core.space = none)
      (hg : buildGraph X.flip = .error e) : HeadFitRaises env X y .sized o e
  | space {o : HeadObj} {g : UGraph ℚ} {e : PyErr}
      (hc : buildSampleSpace ratOps g o.core.minProba o.core.doPrune .dfsV2 env.order env.depth = .error e) :
      HeadFitRaises env X y (.graph g) o e
  | rows {o : HeadObj} {sp : List (Finset ℤ)} {e : PyErr} (hs : o.core.space = some sp)
      (hr : prettiNewRows X sp (env.ordering sp) = .error e) : HeadFitRaises env X y .space o e
  | weight {o : HeadObj} {k : ℕ} {sp : List (Finset ℤ)} {rows : List (List ℕ)} {e : PyErr} (hk : k < o.n)
      (hs : o.core.space = some sp) (hr : o.core.newRows = some rows)
      (hw : headWeight o.core.tight sp.length rows (posIndices y) k = .error e) :
      HeadFitRaises env X y (.weights k) o e
  | keys {o : HeadObj} {ws : List ℝ} {e : PyErr} (hws : o.weights = some ws)
      (hk : checkKeys ws.length (posIndices y ++ negIndices y) = .error e) :
      HeadFitRaises env X y (.weights o.n) o e

/-- `get_ground_truth_proba_for_pairs()`, `corset/samplers/discrim.py:171-187`, on the object; without the attributes
it uses, `AttributeError`. -/
def HeadObj.groundTruthPairs (o : HeadObj) : Py (List ((ℕ × ℕ) × ℚ)) :=
  match o.pos, o.neg, o.core.newRows with
  | some pos, some neg, some rows => Verif.groundTruthPairs rows pos neg
  | _, _, _ => .error .attributeError

end Verif
