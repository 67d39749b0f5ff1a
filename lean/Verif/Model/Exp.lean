/-
`corset/exp.py`: building a classifier from a configuration; and the sklearn parameter interface of the
classifiers (`get_params`, `set_params`, `clone`).
-/
import Verif.Model.Greedy

namespace Verif

/-- Python values that occur as hyperparameters. A sampler object is represented by its class name and
the probability threshold it was built with. -/
inductive PyVal
  | none
  | int (i : ℤ)
  | float (q : ℚ)
  | sampler (cls : String) (minProba : PyVal)
  deriving DecidableEq

/-- A configuration dictionary. -/
abbrev Config := String → Option PyVal

/-- `config.get(key, default)`. -/
def Config.get (c : Config) (key : String) (default : PyVal) : PyVal := (c key).getD default

/-- Class attributes of `Default` (`corset/exp.py:12-21`), overridden by `V2Default` and inherited by
`V3Default` (`corset/exp.py:24-30`). -/
def defaultOf : String → PyVal
  | "min_feature_proba" => .float (8 / 10)
  | "min_label_proba" => .float (8 / 10)
  | "lambd" => .float 10
  | "n_max_rules" => .none
  | "n_tails_per_iter" => .int 100
  | "n_heads_per_tail" => .int 10
  | "tolerance" => .float (1 / 1000)
  | _ => .none

/-- `V2Default` (`corset/exp.py:24-26`). -/
def defaultOfV2 : String → PyVal
  | "n_max_rules" => .int 10
  | k => defaultOf k

/-- The constructor parameter names of `GreedyCFTPDivMaxV2` and `GreedyCFTPDivMaxV3`, in the order in
which sklearn's `get_params` reports them (`divmax_v2.py:93-101`, `divmax_v3.py:17-25`). -/
def cftpParamNames : List String :=
  ["lambd", "min_feature_proba", "min_label_proba", "n_heads_per_tail", "n_max_rules",
   "n_tails_per_iter"]

/-- The constructor parameter names of `GreedyDivMaxV2` (`corset/greedy/divmax_v2.py:13-21`). -/
def v2ParamNames : List String :=
  ["head_sampler", "lambd", "n_heads_per_tail", "n_max_rules", "n_tails_per_iter", "tail_sampler"]

/-- `GreedyBase.__init__` (`corset/greedy/base.py:40-52`) followed by `RuleSampler.__init__`
(`base.py:11-18`), run on an object whose dictionary already holds the constructor arguments. -/
def initBase (args : List (String × PyVal)) (head tail : PyVal) : Clf PyVal :=
  { attrs := updateDict [("head_sampler", head), ("tail_sampler", tail)]
      (updateDict [("random_state", PyVal.none)] (updateDict args fun _ => Option.none)),
    selected := [], numLabels := Option.none, numFeatures := Option.none }

/-- `GreedyCFTPDivMaxV2.__init__` (`corset/greedy/divmax_v2.py:92-114`) and
`GreedyCFTPDivMaxV3.__init__` (`divmax_v3.py:16-38`). -/
def newCftp (minFeature minLabel lambd nTails nHeads nMax : PyVal) : Clf PyVal :=
  initBase [("min_feature_proba", minFeature), ("min_label_proba", minLabel), ("lambd", lambd),
      ("n_tails_per_iter", nTails), ("n_heads_per_tail", nHeads), ("n_max_rules", nMax)]
    (.sampler "CFTPDiscriminativitySampler" minFeature) (.sampler "UncoveredAreaSampler" minLabel)

/-- `GreedyDivMaxV2.__init__` (`corset/greedy/divmax_v2.py:12-33`). -/
def newV2 (head tail lambd nTails nHeads nMax : PyVal) : Clf PyVal :=
  initBase [("head_sampler", head), ("tail_sampler", tail), ("lambd", lambd),
      ("n_tails_per_iter", nTails), ("n_heads_per_tail", nHeads), ("n_max_rules", nMax)] head tail

/-- The class of the classifier together with its state. -/
structure Built where
  cls : String
  clf : Clf PyVal

/-- `create_greedy_v2_from_config` and `create_greedy_v3_from_config` (`corset/exp.py:115-154`). -/
def createFromConfig (cls : String) (config : Config) : Built :=
  { cls := cls,
    clf := newCftp (config.get "min_feature_proba" (defaultOfV2 "min_feature_proba"))
      (config.get "min_label_proba" (defaultOfV2 "min_label_proba"))
      (config.get "lambd" (defaultOfV2 "lambd"))
      (config.get "n_tails_per_iter" (defaultOfV2 "n_tails_per_iter"))
      (config.get "n_heads_per_tail" (defaultOfV2 "n_heads_per_tail"))
      (config.get "n_max_rules" (defaultOfV2 "n_max_rules")) }

/-- `create_greedy_clf_from_config_by_version` (`corset/exp.py:157-164`). -/
def createByVersion (config : Config) (version : String) : Py Built :=
  if version = "v2" then .ok (createFromConfig "GreedyCFTPDivMaxV2" config)
  else if version = "v3" then .ok (createFromConfig "GreedyCFTPDivMaxV3" config)
  else .error .assertionError

/-- `create_greedy_from_config` (`corset/exp.py:78-112`), building a `GreedyDivMax`
(`corset/greedy/diversity_maximization.py:14-42`). -/
def createGreedyFromConfig (config : Config) : Built :=
  { cls := "GreedyDivMax",
    clf := initBase
      [("head_sampler", .sampler "CFTPDiscriminativitySampler"
          (config.get "min_feature_proba" (defaultOf "min_feature_proba"))),
       ("tail_sampler", .sampler "UncoveredAreaSampler"
          (config.get "min_label_proba" (defaultOf "min_label_proba"))),
       ("lambd", config.get "lambd" (defaultOf "lambd")),
       ("n_tails_per_iter", config.get "n_tails_per_iter" (defaultOf "n_tails_per_iter")),
       ("n_heads_per_tail", config.get "n_heads_per_tail" (defaultOf "n_heads_per_tail")),
       ("n_max_rules", config.get "n_max_rules" (defaultOf "n_max_rules")),
       ("tolerance", config.get "tolerance" (defaultOf "tolerance"))]
      (.sampler "CFTPDiscriminativitySampler"
        (config.get "min_feature_proba" (defaultOf "min_feature_proba")))
      (.sampler "UncoveredAreaSampler"
        (config.get "min_label_proba" (defaultOf "min_label_proba"))) }

/-- sklearn `set_params(**kwargs)` (1.0.2): `ValueError` at a name that is not a constructor parameter,
otherwise `setattr`. Names with a double underscore are not modelled. -/
def setParams {V : Type} (names : List String) : List (String × V) → Clf V → Py (Clf V)
  | [], c => .ok c
  | (k, v) :: rest, c =>
    if k ∈ names then
      setParams names rest { c with attrs := updateDict [(k, v)] c.attrs }
    else .error .valueError

/-- `getattr(self, name)`. -/
def Clf.getAttr {V : Type} (c : Clf V) (name : String) : Py V :=
  match c.attrs name with
  | some v => .ok v
  | none => .error .attributeError

/-- sklearn `clone` of a `GreedyCFTPDivMaxV2` or `V3` object: a new object from `get_params()`. -/
def cloneCftp (c : Clf PyVal) : Py (Clf PyVal) := do
  let f ← c.getAttr "min_feature_proba"
  let l ← c.getAttr "min_label_proba"
  let la ← c.getAttr "lambd"
  let t ← c.getAttr "n_tails_per_iter"
  let h ← c.getAttr "n_heads_per_tail"
  let m ← c.getAttr "n_max_rules"
  return newCftp f l la t h m

/-- The samplers `fit` uses (`corset/greedy/divmax_v2.py:56`, `base.py:24, 27, 29`): attributes of the
object, read when `fit` needs them. -/
def samplersInUse (c : Clf PyVal) : Py (PyVal × PyVal) := do
  let t ← c.getAttr "tail_sampler"
  let h ← c.getAttr "head_sampler"
  return (h, t)

end Verif
