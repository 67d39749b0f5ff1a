/-
Property C122: `PCFrequencySampler` as a whole.
-/
import Verif.Spec.PcFreq
import Verif.Props.Surs
import Verif.Lemmas.Head

namespace Verif

open RandR Cftp

/-- What a good run-time does: sets are traversed element by element, in some order. -/
def PcEnv.Good (env : PcEnv) : Prop := Traverses env.order ∧ Traverses env.setOrder

/-- The whole effect of a successful `fit`. -/
theorem pcFit_ok {env : PcEnv} (he : env.Good) (s : PcFreq) {Y : Cmp} (hY : Y.Binary) (hb : s.backend ≠ .other)
    (hL : 0 < Y.nMinor) (hd : Y.nMinor < env.depth) :
    ∃ g space rows, buildGraph Y.flip = .ok g ∧ trieNewRows env.setOrder Y space = .ok rows ∧ space.Nodup ∧
      (∀ T, T ∈ space ↔ ∃ U, g.Probable s.minProba U ∧ T = intSet U) ∧
      space.toFinset = (probableSets g Y.nMinor s.minProba).image intSet ∧
      pcFit env s Y = (.ok (), { s with g := some g, space := some space, newRows := some rows,
                                        probas := some (sursProbas rows) }) := by
  classical
  obtain ⟨g, hg, hwf, hw, hn, -⟩ := C48_build_graph Y.flip (Cmp.flip_binary hY)
  obtain ⟨cl, h1, h2, h3⟩ := C50_sample_space Y.flip (Cmp.flip_binary hY) g hg
    (by rw [Cmp.flip_nMajor]; exact hL) s.minProba s.doPrune s.backend hb env.order he.1 env.depth
    (by rw [Cmp.flip_nMajor]; exact hd)
  obtain ⟨rows, h4, -⟩ := C40_trie_assignment_general Y (cl.map intSet) env.setOrder he.2
  refine ⟨g, cl.map intSet, rows, hg, h4, h2.map intSet_injective, ?_, ?_, ?_⟩
  · intro T
    rw [List.mem_map]
    constructor
    · rintro ⟨U, hU, rfl⟩
      exact ⟨U, (h3 U).mp hU, rfl⟩
    · rintro ⟨U, hU, rfl⟩
      exact ⟨U, (h3 U).mpr hU, rfl⟩
  · ext T
    rw [List.mem_toFinset, List.mem_map, Finset.mem_image]
    constructor
    · rintro ⟨U, hU, rfl⟩
      refine ⟨U, ?_, rfl⟩
      unfold probableSets
      rw [Finset.mem_filter, Finset.mem_powerset]
      refine ⟨?_, (h3 U).mp hU⟩
      intro j hj
      have := ((h3 U).mp hU).2.1.1 j hj
      rw [hn, Cmp.flip_nMajor, List.mem_range] at this
      exact Finset.mem_range.mpr this
    · rintro ⟨U, hU, rfl⟩
      unfold probableSets at hU
      exact ⟨U, (h3 U).mpr (Finset.mem_filter.mp hU).2, rfl⟩
  · unfold pcFit
    simp only [hg, h1, h4]

/-- **C122.** Fitting, in every state: on a 0/1 matrix with labels and with one of the two known back ends it
succeeds, and the sample space then consists, each once, of the sets that are a single label or a clique of
probability at least `min_proba`. An unknown back end raises `ValueError`; the default back end refuses a matrix
without labels. -/
theorem C122_fit (env : PcEnv) (he : env.Good) (s : PcFreq) (Y : Cmp) (hY : Y.Binary)
    (hd : Y.nMinor < env.depth) :
    (s.backend ≠ .other → 0 < Y.nMinor → ∃ g space, (pcFit env s Y).1 = .ok () ∧ buildGraph Y.flip = .ok g ∧
      (pcFit env s Y).2.g = some g ∧ (pcFit env s Y).2.space = some space ∧ space.Nodup ∧
      ∀ T, T ∈ space ↔ ∃ U, g.Probable s.minProba U ∧ T = intSet U) ∧
    (s.backend = .other → (pcFit env s Y).1 = .error .valueError) ∧
    (s.backend = .dfsV2 → Y.nMinor = 0 → (pcFit env s Y).1 = .error .exception) := by
  refine ⟨?_, ?_, ?_⟩
  · intro hb hL
    obtain ⟨g, space, rows, hg, -, h2, h3, -, h5⟩ := pcFit_ok he s hY hb hL hd
    rw [h5]
    exact ⟨g, space, rfl, hg, rfl, rfl, h2, h3⟩
  · intro hb
    obtain ⟨g, hg, -⟩ := C48_build_graph Y.flip (Cmp.flip_binary hY)
    unfold pcFit
    simp only [hg]
    have : buildSampleSpace ratOps g s.minProba s.doPrune s.backend env.order env.depth =
        .error .valueError := by rw [hb]; rfl
    rw [this]
  · intro hb hL
    obtain ⟨g, hg, -, -, hn, -⟩ := C48_build_graph Y.flip (Cmp.flip_binary hY)
    rw [Cmp.flip_nMajor, hL] at hn
    have hn' : (if s.doPrune then pruneEdges g s.minProba else g).nodes = [] := by
      split
      · exact hn
      · exact hn
    have : buildSampleSpace ratOps g s.minProba s.doPrune s.backend env.order env.depth =
        .error .exception := by
      rw [hb]
      unfold buildSampleSpace enumerateProbableCliques enumerateCliquesV2 wrapGraph
      simp only [hn', if_true]
      rfl
    unfold pcFit
    simp only [hg, this]

/-- **C122.** Sampling after a successful `fit`, whatever happened to the object before: every probable label set
is returned with probability its support (the number of rows containing it) over the sum of the supports of all
probable label sets, and nothing else is ever returned or raised. (`2^63` bounds the integer row weights.) -/
theorem C122_law (env : PcEnv) (he : env.Good) (s : PcFreq) (Y : Cmp) (hY : Y.Binary)
    (hb : s.backend ≠ .other) (hd : Y.nMinor < env.depth) (hne : ∃ i j, Y.Stored i j) :
    ∃ g, buildGraph Y.flip = .ok g ∧
      (∑ U ∈ probableSets g Y.nMinor s.minProba, rowsContaining Y (intSet U) < 2 ^ 63 →
        (∀ T ∈ probableSets g Y.nMinor s.minProba,
          (pcSampleOnce (pcFit env s Y).2).prob (.ok (intSet T)) =
            (rowsContaining Y (intSet T) : ℝ) /
              ∑ U ∈ probableSets g Y.nMinor s.minProba, (rowsContaining Y (intSet U) : ℝ)) ∧
        ∀ x, (pcSampleOnce (pcFit env s Y).2).Outcome x →
          ∃ T ∈ probableSets g Y.nMinor s.minProba, 0 < rowsContaining Y (intSet T) ∧ x = .ok (intSet T)) := by
  classical
  obtain ⟨i, j, hst⟩ := hne
  have hj : j < Y.nMinor := hst.minor_lt hY.toWF
  have hi : i < Y.nMajor := hst.major_lt hY.toWF
  obtain ⟨g, space, rows, hg, h1, h2, h3, h4, h5⟩ := pcFit_ok he s hY hb (by omega) hd
  refine ⟨g, hg, ?_⟩
  intro hlt
  obtain ⟨rows', hr', h6, -⟩ := C76_frequency_exact Y space h2 (by
    intro T hT
    obtain ⟨U, hU, rfl⟩ := (h3 T).mp hT
    intro h0
    have hU0 : U ≠ ∅ := hU.1
    obtain ⟨x, hx⟩ := Finset.nonempty_iff_ne_empty.mpr hU0
    have : (x : ℤ) ∈ intSet U := Finset.mem_image.mpr ⟨x, hx, rfl⟩
    rw [h0] at this
    simp at this) env.setOrder he.2
  rw [h1] at hr'
  cases hr'
  have hsum : ∀ {M : Type} [AddCommMonoid M] (f : Finset ℤ → M), ∑ t ∈ space.toFinset, f t =
      ∑ U ∈ probableSets g Y.nMinor s.minProba, f (intSet U) := by
    intro M _ f
    rw [h4, Finset.sum_image (fun a _ b _ h => intSet_injective h)]
  obtain ⟨hgn, hgw⟩ : g.nodes = List.range Y.nMinor ∧ g.WF := by
    obtain ⟨g', hg', hwf, -, hn, -⟩ := C48_build_graph Y.flip (Cmp.flip_binary hY)
    rw [hg] at hg'
    cases hg'
    exact ⟨by rw [hn, Cmp.flip_nMajor], hwf⟩
  have hsingle : g.Probable s.minProba {j} := by
    refine ⟨by simp, ⟨?_, ?_⟩, Or.inl (by simp)⟩
    · intro v hv
      rw [Finset.mem_singleton] at hv
      subst hv
      rw [hgn, List.mem_range]
      exact hj
    · intro u hu v hv huv
      rw [Finset.mem_singleton] at hu hv
      exact absurd (hu.trans hv.symm) huv
  have hpos : ∃ t ∈ space, 0 < rowsContaining Y t := by
    refine ⟨intSet {j}, (h3 _).mpr ⟨{j}, hsingle, rfl⟩, ?_⟩
    unfold rowsContaining
    rw [Finset.card_pos]
    refine ⟨i, ?_⟩
    rw [Finset.mem_filter, Finset.mem_range]
    refine ⟨hi, ?_⟩
    intro x hx
    obtain ⟨k, hk, rfl⟩ := mem_intSet.mp hx
    rw [Finset.mem_singleton] at hk
    subst hk
    exact ⟨k, rfl, hst⟩
  obtain ⟨h7, h8⟩ := h6 hpos (by rw [hsum]; exact hlt)
  have hsamp : pcSampleOnce (pcFit env s Y).2 = sursSampleOnce space rows (sursProbas rows) := by
    rw [h5]; rfl
  rw [hsamp]
  constructor
  · intro T hT
    have hT' : intSet T ∈ space := by
      rw [← List.mem_toFinset, h4]
      exact Finset.mem_image_of_mem _ hT
    rw [h7 _ hT', hsum]
  · intro x hx
    obtain ⟨t, ht, hp, rfl⟩ := h8 x hx
    rw [← List.mem_toFinset, h4] at ht
    obtain ⟨T, hT, rfl⟩ := Finset.mem_image.mp ht
    exact ⟨T, hT, hp, rfl⟩

/-- **C122.** On a matrix without any label occurrence `fit` succeeds all the same, and sampling raises
`ValueError`. -/
theorem C122_no_occurrence (env : PcEnv) (he : env.Good) (s : PcFreq) (Y : Cmp) (hY : Y.Binary)
    (hb : s.backend ≠ .other) (hL : 0 < Y.nMinor) (hd : Y.nMinor < env.depth) (h0 : ∀ i j, ¬ Y.Stored i j) :
    (pcFit env s Y).1 = .ok () ∧ pcSampleOnce (pcFit env s Y).2 = .raise .valueError := by
  classical
  obtain ⟨g, space, rows, hg, h1, h2, h3, h4, h5⟩ := pcFit_ok he s hY hb hL hd
  have hnonempty : ∀ T ∈ space, ∃ x, x ∈ T := by
    intro T hT
    obtain ⟨U, hU, rfl⟩ := (h3 T).mp hT
    obtain ⟨x, hx⟩ := Finset.nonempty_iff_ne_empty.mpr hU.1
    exact ⟨(x : ℤ), Finset.mem_image.mpr ⟨x, hx, rfl⟩⟩
  obtain ⟨rows', hr', -, h6⟩ := C76_frequency_exact Y space h2 (by
    intro T hT h
    obtain ⟨x, hx⟩ := hnonempty T hT
    rw [h] at hx
    simp at hx) env.setOrder he.2
  rw [h1] at hr'
  cases hr'
  rw [h5]
  refine ⟨rfl, ?_⟩
  refine h6 ?_
  intro T hT
  unfold rowsContaining
  rw [Finset.card_eq_zero, Finset.filter_eq_empty_iff]
  intro i _ hc
  obtain ⟨x, hx⟩ := hnonempty T hT
  obtain ⟨j, -, hst⟩ := hc x hx
  exact h0 i j hst

/-- **C122.** A successful `fit` forgets everything but the constructor's arguments: two objects with the same
arguments are indistinguishable after fitting them on the same matrix, whatever they were fitted on before. -/
theorem C122_refit (env : PcEnv) (s s' : PcFreq) (Y : Cmp) (h1 : s.minProba = s'.minProba)
    (h2 : s.doPrune = s'.doPrune) (h3 : s.backend = s'.backend) :
    (pcFit env s Y).1 = (pcFit env s' Y).1 ∧
      ((pcFit env s Y).1 = .ok () → (pcFit env s Y).2 = (pcFit env s' Y).2) := by
  unfold pcFit
  rw [h1, h2, h3]
  rcases buildGraph Y.flip with e | g
  · exact ⟨rfl, fun h => by cases h⟩
  · simp only
    rcases buildSampleSpace ratOps g s'.minProba s'.doPrune s'.backend env.order env.depth with e | cl
    · exact ⟨rfl, fun h => by cases h⟩
    · simp only
      rcases trieNewRows env.setOrder Y (cl.map intSet) with e | rows
      · exact ⟨rfl, fun h => by cases h⟩
      · exact ⟨rfl, fun _ => by simp [h1, h2, h3]⟩

/-- **C122.** A `fit` that raises leaves sampling as it was: a sampler fitted before goes on sampling from the
old data. -/
theorem C122_failed_fit (env : PcEnv) (he : env.Good) (s : PcFreq) (Y : Cmp) (e : PyErr)
    (h : (pcFit env s Y).1 = .error e) : pcSampleOnce (pcFit env s Y).2 = pcSampleOnce s := by
  unfold pcFit at h ⊢
  rcases hg : buildGraph Y.flip with e | g
  · rfl
  · simp only [hg] at h ⊢
    rcases hc : buildSampleSpace ratOps g s.minProba s.doPrune s.backend env.order env.depth with e | cl
    · rfl
    · simp only [hc] at h ⊢
      obtain ⟨rows, hr, -⟩ := C40_trie_assignment_general Y (cl.map intSet) env.setOrder he.2
      simp only [hr] at h
      cases h

/-- **C122.** A sampler none of whose `fit` calls succeeded raises `AttributeError`. -/
theorem C122_unfitted (env : PcEnv) (he : env.Good) (minProba : ℚ) (doPrune : Bool) (backend : Backend)
    (Ys : List Cmp) (s : PcFreq)
    (hs : s = Ys.foldl (fun s Y => (pcFit env s Y).2) (PcFreq.init minProba doPrune backend))
    (hfail : ∀ k (hk : k < Ys.length), ∃ e, (pcFit env
      ((Ys.take k).foldl (fun s Y => (pcFit env s Y).2) (PcFreq.init minProba doPrune backend)) Ys[k]).1 =
        .error e) :
    pcSampleOnce s = .raise .attributeError := by
  subst hs
  induction Ys using List.reverseRecOn with
  | nil => rfl
  | append_singleton Ys Y ih =>
    rw [List.foldl_append, List.foldl_cons, List.foldl_nil]
    obtain ⟨e, hf⟩ := hfail Ys.length (by simp)
    rw [List.take_left' rfl, List.getElem_append_right (by omega)] at hf
    rw [C122_failed_fit env he _ Y e (by simpa using hf)]
    apply ih
    intro k hk
    obtain ⟨e, hf⟩ := hfail k (by simp; omega)
    rw [List.take_append_of_le_length (by omega), List.getElem_append_left hk] at hf
    exact ⟨e, hf⟩

/-- The hypotheses are met: with three rows over four labels and threshold 0 a label that occurs is drawn with
its share of the supports. -/
example : ∃ g, buildGraph exampleRows.flip = .ok g ∧
    ∀ T ∈ probableSets g 4 0,
      (pcSampleOnce (pcFit ⟨Finset.toList, Finset.toList, 10⟩ (PcFreq.init 0) exampleRows).2).prob
          (.ok (intSet T)) =
        (rowsContaining exampleRows (intSet T) : ℝ) /
          ∑ U ∈ probableSets g 4 0, (rowsContaining exampleRows (intSet U) : ℝ) := by
  classical
  have hst : exampleRows.Stored 0 1 := by rw [← Cmp.mem_segIdx]; decide
  obtain ⟨g, hg, h⟩ := C122_law ⟨Finset.toList, Finset.toList, 10⟩
    ⟨fun s => ⟨s.nodup_toList, fun _ => Finset.mem_toList⟩, fun s => ⟨s.nodup_toList, fun _ => Finset.mem_toList⟩⟩
    (PcFreq.init 0) exampleRows exampleRows_binary (by simp [PcFreq.init]) (by decide) ⟨0, 1, hst⟩
  refine ⟨g, hg, fun T hT => (h ?_).1 T hT⟩
  have h1 : ∀ t, rowsContaining exampleRows t ≤ 3 := fun t => by
    unfold rowsContaining
    exact (Finset.card_filter_le _ _).trans (by decide)
  have h2 : (probableSets g exampleRows.nMinor (PcFreq.init 0).minProba).card ≤ 16 := by
    unfold probableSets
    exact (Finset.card_filter_le _ _).trans (by decide)
  calc _ ≤ ∑ U ∈ probableSets g exampleRows.nMinor (PcFreq.init 0).minProba, 3 :=
        Finset.sum_le_sum fun U _ => h1 _
    _ ≤ 16 * 3 := by rw [Finset.sum_const, smul_eq_mul]; exact Nat.mul_le_mul_right 3 h2
    _ < _ := by norm_num

end Verif
