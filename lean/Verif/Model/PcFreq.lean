/-
Model of `PCFrequencySampler` (`corset/samplers/pc.py:133-151`): probable cliques as the sample space, rows
assigned with the set trie, sampling by frequency.
-/
import Verif.Model.Graph
import Verif.Model.Trie
import Verif.Model.Local

namespace Verif

/-- What the language leaves open: the order in which sets are traversed, and the recursion limit. -/
structure PcEnv where
  order : Finset ℕ → List ℕ
  setOrder : Finset (Option (List ℤ)) → List (Option (List ℤ))
  depth : ℕ

/-- The attributes of a `PCFrequencySampler` that matter; `none` is an attribute that has not been assigned.
`random_state` is used by `sample` only (`Model/Seeds.lean`). -/
structure PcFreq where
  minProba : ℚ
  doPrune : Bool
  backend : Backend
  g : Option (UGraph ℚ)
  space : Option (List (Finset ℤ))
  newRows : Option (List (List ℕ))
  probas : Option (List ℝ)

/-- `__init__`, `corset/samplers/pc.py:136-146`. -/
def PcFreq.init (minProba : ℚ := 1 / 20) (doPrune : Bool := true) (backend : Backend := .dfsV2) : PcFreq :=
  { minProba := minProba, doPrune := doPrune, backend := backend, g := none, space := none, newRows := none,
    probas := none }

/-- `fit`, `corset/samplers/pc.py:148-151` and `corset/samplers/surs.py:26-34`, with
`_build_graph` (`pc.py:127-131`), `_build_sample_space` (`pc.py:101-121`), `_generate_new_rows`
(`assignment.py:28-50`) and `_assign_row_weights` (`freq.py:40-41`): whether it raises, and the attributes
afterwards. Each step assigns its attribute before the next one starts. -/
noncomputable def pcFit (env : PcEnv) (s : PcFreq) (Y : Cmp) : Py Unit × PcFreq :=
  match buildGraph Y.flip with
  | .error e => (.error e, s)
  | .ok g =>
    match buildSampleSpace ratOps g s.minProba s.doPrune s.backend env.order env.depth with
    | .error e => (.error e, { s with g := some g })
    | .ok cliques =>
      match trieNewRows env.setOrder Y (cliques.map intSet) with
      | .error e => (.error e, { s with g := some g, space := some (cliques.map intSet) })
      | .ok rows => (.ok (), { s with g := some g, space := some (cliques.map intSet), newRows := some rows,
                                      probas := some (sursProbas rows) })

/-- `sample_once`, `corset/samplers/surs.py:36-42`, after the generator has been seeded. Reading an attribute
that has not been assigned raises `AttributeError`. -/
noncomputable def pcSampleOnce (s : PcFreq) : RandR (Finset ℤ) :=
  match s.newRows, s.probas, s.space with
  | some rows, some probas, some space => sursSampleOnce space rows probas
  | _, _, _ => .raise .attributeError

end Verif
