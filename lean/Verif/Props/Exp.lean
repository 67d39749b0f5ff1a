/-
C69: classifiers built from a configuration. C80: the sklearn parameter interface.
-/
import Verif.Model.Exp

namespace Verif

/-- The documented default of each hyperparameter of the second and third version. -/
def documentedDefaults : List (String × PyVal) :=
  [("min_feature_proba", .float (8 / 10)), ("min_label_proba", .float (8 / 10)), ("lambd", .float 10),
   ("n_tails_per_iter", .int 100), ("n_heads_per_tail", .int 10), ("n_max_rules", .int 10)]

/-- `fit` will use a head sampler with threshold `f` and a tail sampler with threshold `l`. -/
def UsesThresholds (c : Clf PyVal) (f l : PyVal) : Prop :=
  samplersInUse c = .ok (.sampler "CFTPDiscriminativitySampler" f, .sampler "UncoveredAreaSampler" l)

theorem newCftp_attr (f l la t h m : PyVal) :
    (newCftp f l la t h m).attrs "min_feature_proba" = some f ∧
    (newCftp f l la t h m).attrs "min_label_proba" = some l ∧
    (newCftp f l la t h m).attrs "lambd" = some la ∧
    (newCftp f l la t h m).attrs "n_tails_per_iter" = some t ∧
    (newCftp f l la t h m).attrs "n_heads_per_tail" = some h ∧
    (newCftp f l la t h m).attrs "n_max_rules" = some m ∧
    UsesThresholds (newCftp f l la t h m) f l := by
  refine ⟨?_, ?_, ?_, ?_, ?_, ?_, ?_⟩ <;>
    simp [newCftp, initBase, updateDict, UsesThresholds, samplersInUse, Clf.getAttr, bind, Except.bind,
      pure, Except.pure]

/-- **C69.** For every configuration and version string: versions other than `v2` and `v3` are rejected
with `AssertionError`; otherwise the classifier has the class of the version, no rules, every
hyperparameter is the configured value if the configuration has one and the documented default if not,
and the samplers that `fit` uses carry the two configured probability thresholds. -/
theorem C69_configured (config : Config) (version : String) :
    (version ≠ "v2" ∧ version ≠ "v3" → createByVersion config version = .error .assertionError) ∧
    (version = "v2" ∨ version = "v3" → ∃ b, createByVersion config version = .ok b ∧
      b.cls = (if version = "v2" then "GreedyCFTPDivMaxV2" else "GreedyCFTPDivMaxV3") ∧
      b.clf.selected = [] ∧ b.clf.numLabels = none ∧
      (∀ kv ∈ documentedDefaults, b.clf.attrs kv.1 = some ((config kv.1).getD kv.2)) ∧
      UsesThresholds b.clf ((config "min_feature_proba").getD (.float (8 / 10)))
        ((config "min_label_proba").getD (.float (8 / 10)))) := by
  constructor
  · rintro ⟨h1, h2⟩
    rw [createByVersion, if_neg h1, if_neg h2]
  · intro hv
    have main : ∀ cls, (∀ kv ∈ documentedDefaults,
        (createFromConfig cls config).clf.attrs kv.1 = some ((config kv.1).getD kv.2)) ∧
        UsesThresholds (createFromConfig cls config).clf
          ((config "min_feature_proba").getD (.float (8 / 10)))
          ((config "min_label_proba").getD (.float (8 / 10))) := by
      intro cls
      have h := newCftp_attr (config.get "min_feature_proba" (defaultOfV2 "min_feature_proba"))
        (config.get "min_label_proba" (defaultOfV2 "min_label_proba"))
        (config.get "lambd" (defaultOfV2 "lambd"))
        (config.get "n_tails_per_iter" (defaultOfV2 "n_tails_per_iter"))
        (config.get "n_heads_per_tail" (defaultOfV2 "n_heads_per_tail"))
        (config.get "n_max_rules" (defaultOfV2 "n_max_rules"))
      obtain ⟨a, b, c, d, e, f, g⟩ := h
      refine ⟨?_, g⟩
      simp only [documentedDefaults, List.mem_cons, List.not_mem_nil, or_false]
      rintro kv (rfl | rfl | rfl | rfl | rfl | rfl)
      exacts [a, b, c, d, e, f]
    rcases hv with rfl | rfl
    · exact ⟨_, rfl, rfl, rfl, rfl, (main _).1, (main _).2⟩
    · exact ⟨_, rfl, rfl, rfl, rfl, (main _).1, (main _).2⟩

/-- **C69 (nothing else matters).** Entries of the configuration under other names, such as `tolerance`,
have no influence. -/
theorem C69_other_keys_ignored (config config' : Config) (version : String)
    (h : ∀ k ∈ documentedDefaults.map Prod.fst, config k = config' k) :
    createByVersion config version = createByVersion config' version := by
  have e : ∀ cls, createFromConfig cls config = createFromConfig cls config' := by
    intro cls
    simp only [documentedDefaults, List.map_cons, List.map_nil, List.mem_cons, List.not_mem_nil,
      or_false, forall_eq_or_imp, forall_eq] at h
    obtain ⟨a, b, c, d, e, f⟩ := h
    simp only [createFromConfig, Config.get, a, b, c, d, e, f]
  simp only [createByVersion, e]

/-- **C69 (first version).** `create_greedy_from_config` likewise, with no rule limit and tolerance 1/1000
by default. -/
theorem C69_first_version (config : Config) :
    (∀ kv ∈ [("lambd", PyVal.float 10), ("n_tails_per_iter", .int 100), ("n_heads_per_tail", .int 10),
        ("n_max_rules", .none), ("tolerance", .float (1 / 1000))],
      (createGreedyFromConfig config).clf.attrs kv.1 = some ((config kv.1).getD kv.2)) ∧
    UsesThresholds (createGreedyFromConfig config).clf
      ((config "min_feature_proba").getD (.float (8 / 10)))
      ((config "min_label_proba").getD (.float (8 / 10))) := by
  constructor
  · simp only [List.mem_cons, List.not_mem_nil, or_false]
    rintro kv (rfl | rfl | rfl | rfl | rfl) <;>
      simp [createGreedyFromConfig, initBase, updateDict, Config.get, defaultOf]
  · simp [createGreedyFromConfig, initBase, updateDict, UsesThresholds, samplersInUse, Clf.getAttr, bind,
      Except.bind, pure, Except.pure, Config.get, defaultOf]

/-- Non-vacuity: a configuration that sets two values. -/
example : ∃ b, createByVersion (fun k => if k = "lambd" then some (.float 3) else
      if k = "min_label_proba" then some (.float (1 / 2)) else none) "v3" = .ok b ∧
    b.clf.attrs "lambd" = some (.float 3) ∧ b.clf.attrs "n_max_rules" = some (.int 10) ∧
    UsesThresholds b.clf (.float (8 / 10)) (.float (1 / 2)) := by
  obtain ⟨b, h1, -, -, -, h2, h3⟩ := (C69_configured (fun k => if k = "lambd" then some (.float 3) else
      if k = "min_label_proba" then some (.float (1 / 2)) else none) "v3").2 (Or.inr rfl)
  refine ⟨b, h1, ?_, ?_, ?_⟩
  · simpa using h2 ("lambd", .float 10) (by simp [documentedDefaults])
  · simpa using h2 ("n_max_rules", .int 10) (by simp [documentedDefaults])
  · simpa using h3

/-- **C80 (`set_params` does not reach the samplers).** Changing the probability thresholds of a
classifier with `set_params` succeeds and `get_params` reports the new values, but `fit` keeps using
samplers with the old ones; a `clone` uses the new ones. -/
theorem C80_set_params_stale (f l la t h m f' l' : PyVal) :
    ∃ c, setParams cftpParamNames [("min_feature_proba", f'), ("min_label_proba", l')]
        (newCftp f l la t h m) = .ok c ∧
      c.attrs "min_feature_proba" = some f' ∧ c.attrs "min_label_proba" = some l' ∧
      UsesThresholds c f l ∧
      ∃ d, cloneCftp c = .ok d ∧ UsesThresholds d f' l' := by
  refine ⟨_, rfl, ?_, ?_, ?_, _, rfl, ?_⟩
  · simp [updateDict]
  · simp [updateDict]
  · simp [newCftp, initBase, updateDict, UsesThresholds, samplersInUse, Clf.getAttr, bind, Except.bind,
      pure, Except.pure]
  · exact (newCftp_attr f' l' la t h m).2.2.2.2.2.2

/-- **C80 (`set_params` on the other parameters).** For any sequence of assignments to constructor
parameters, `set_params` succeeds and afterwards each parameter has the last value assigned to it, if any,
and its old value otherwise; it raises `ValueError` exactly when some name is not a parameter. -/
theorem C80_set_params {V : Type} (names : List String) : ∀ (kvs : List (String × V)) (c : Clf V),
    ((∀ kv ∈ kvs, kv.1 ∈ names) →
      setParams names kvs c = .ok { c with attrs := updateDict kvs c.attrs }) ∧
    ((∃ kv ∈ kvs, kv.1 ∉ names) → setParams names kvs c = .error .valueError)
  | [], c => by simp [setParams, updateDict]
  | (k, v) :: rest, c => by
    obtain ⟨ih1, ih2⟩ := C80_set_params names rest { c with attrs := updateDict [(k, v)] c.attrs }
    constructor
    · intro h
      rw [setParams, if_pos (h (k, v) (by simp)), ih1 fun kv hkv => h kv (by simp [hkv])]
      rfl
    · rintro ⟨kv, hkv, hn⟩
      rw [setParams]
      split_ifs with hk
      · refine ih2 ⟨kv, ?_, hn⟩
        rcases List.mem_cons.mp hkv with rfl | h
        · exact absurd hk hn
        · exact h
      · rfl

/-- Reading a dictionary after updates: the last assignment to a key wins. -/
theorem C80_last_assignment_wins {V : Type} (kvs : List (String × V)) (d : String → Option V)
    (k : String) :
    updateDict kvs d k =
      ((kvs.filter fun kv => kv.1 = k).getLast?.map Prod.snd).or (d k) := by
  induction kvs using List.reverseRecOn with
  | nil => simp [updateDict]
  | append_singleton l kv ih =>
    rw [updateDict, List.foldl_append]
    simp only [List.foldl_cons, List.foldl_nil, List.filter_append]
    by_cases h : k = kv.1
    · simp [h]
    · have h' : ¬ kv.1 = k := fun e => h e.symm
      simp only [h, if_false, h', decide_false, Bool.false_eq_true, not_false_eq_true,
        List.filter_cons_of_neg, List.filter_nil, List.append_nil]
      exact ih

/-- **C80 (an unpickled classifier cannot be fitted).** Unpickling a pickled `GreedyCFTPDivMaxV2` or `V3`
object gives back all its parameters but no samplers: `fit` raises `AttributeError`. (That it predicts as
before is property C16.) -/
theorem C80_unpickled_has_no_samplers (f l la t h m : PyVal) :
    ∃ p, (newCftp f l la t h m).getState cftpParamNames = .ok p ∧
      (∀ n ∈ cftpParamNames, (Clf.setState p).attrs n = (newCftp f l la t h m).attrs n) ∧
      samplersInUse (Clf.setState p) = .error .attributeError := by
  refine ⟨_, rfl, ?_, ?_⟩
  · simp [cftpParamNames, Clf.setState, updateDict, newCftp, initBase]
  · simp [samplersInUse, Clf.getAttr, Clf.setState, updateDict, bind, Except.bind]

/-- **C80 (but a generic one can).** For `GreedyDivMaxV2` the samplers are constructor parameters and
survive pickling. -/
theorem C80_unpickled_generic_keeps_samplers (head tail la t h m : PyVal) :
    ∃ p, (newV2 head tail la t h m).getState v2ParamNames = .ok p ∧
      samplersInUse (Clf.setState p) = .ok (head, tail) := by
  refine ⟨_, rfl, ?_⟩
  simp [samplersInUse, Clf.getAttr, Clf.setState, updateDict, bind, Except.bind, pure, Except.pure]

end Verif
