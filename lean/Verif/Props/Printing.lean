/-
Property C146: the texts shown to people.
-/
import Verif.Lemmas.Printing
import Verif.Props.Rule
import Verif.Props.Graph
import Verif.Lemmas.Py

namespace Verif

/-- **C146.** The summary of a rule shows the sizes of its head and tail, the number of its examples and its
area exactly, and its precision and base rate to the nearest two decimals. -/
theorem C146_summary (X Y : Cmp) (hX : X.WF) (hY : Y.WF) (hN : X.nMinor = Y.nMinor) (hB : X.nMinor < 2 ^ 45)
    (head tail : List ℤ) (h0 : ∀ l ∈ tail, 0 ≤ l) (b : BRule)
    (hb : bindDataset (Rule.new head tail) X Y = .ok b) (S H T : Finset ℕ)
    (hH : ∀ i, i ∈ H ↔ RowHas X head i) (hT : ∀ i, i ∈ T ↔ RowHas Y tail i)
    (hS : ∀ i, i ∈ S ↔ RowHas X head i ∧ RowHas Y tail i) :
    ∃ s p q, ruleSummary b = .ok s ∧
      SummaryText s head.length tail.length S.card (S.card * tail.length) p q ∧
      Nearest2 p ((S.card : ℝ) / H.card) ∧ Nearest2 q ((T.card : ℝ) / X.nMinor) := by
  obtain ⟨h1, h2, h3, ⟨i, hi⟩, -, h6, -, -, h9, h10⟩ := C05_bind_supports X Y hX hY hN head tail h0 b hb
  have eH : H = b.headSupport := by ext i; rw [hH, h1]
  have eT : T = b.tailSupport := by ext i; rw [hT, h2]
  have eS : S = b.support := by ext i; rw [hS, h3]
  subst eH eT eS
  have hbe := bindDataset_eq hX hY hN (r := Rule.new head tail)
    (fun l hl => h0 l ((Rule.mem_new_tail _ _ _).mp hl)) hb
  have hltN : b.tailSupport ⊆ Finset.range X.nMinor := by
    rw [hbe, hN]; exact Finset.filter_subset _ _
  have hltH : b.headSupport ⊆ Finset.range X.nMinor := by
    rw [hbe]; exact Finset.filter_subset _ _
  have hNpos : 0 < X.nMinor := by
    have := hltH hi; simp at this; omega
  have cT := Finset.card_le_card hltN
  have cH := Finset.card_le_card hltH
  rw [Finset.card_range] at cT cH
  have cS : b.support.card ≤ b.headSupport.card := Finset.card_le_card fun i hi => (h1 i).mpr ((h3 i).mp hi).1
  have pH : 0 < b.headSupport.card := Finset.card_pos.mpr ⟨i, hi⟩
  obtain ⟨p, hp, hp'⟩ := fixed2_ratio cS pH (by omega)
  obtain ⟨q, hq, hq'⟩ := fixed2_ratio cT hNpos hB
  have hs : ruleSummary b = .ok ("Rule(|H|=".toList ++ natText b.head.length ++ ", |L|=".toList ++
      natText b.tail.length ++ ", |supp|=".toList ++ natText b.support.card ++ ", area=".toList ++
      natText b.labelArea ++ ", p=".toList ++ fixed2 (fl ((b.support.card : ℝ) / b.headSupport.card)) ++
      ", q=".toList ++ fixed2 (fl ((b.tailSupport.card : ℝ) / X.nMinor)) ++ ")".toList) := by
    unfold ruleSummary intDivF
    rw [h6, if_neg pH.ne', if_neg hNpos.ne']
    rfl
  refine ⟨_, p, q, hs, ?_, hp', hq'⟩
  refine ⟨_, _, _, _, _, _, ?_, ?_, decimal_natText _, ?_, hp, hq, rfl⟩
  · rw [h9.length_eq]; exact decimal_natText _
  · rw [h10.length_eq]; exact decimal_natText _
  · rw [BRule.labelArea, h10.length_eq]; exact decimal_natText _

/-- **C146.** The numbers can be read back from the summary: the text determines them. -/
theorem C146_readback (s : List Char) (H L supp area p q H' L' supp' area' p' q' : ℕ)
    (h : SummaryText s H L supp area p q) (h' : SummaryText s H' L' supp' area' p' q') :
    H = H' ∧ L = L' ∧ supp = supp' ∧ area = area' ∧ p = p' ∧ q = q' := by
  obtain ⟨a, b, c, d, e, f, ha, hb, hc, hd, he, hf, rfl⟩ := h
  obtain ⟨a', b', c', d', e', f', ha', hb', hc', hd', he', hf', h⟩ := h'
  simp only [List.append_assoc] at h
  replace h := List.append_cancel_left h
  obtain ⟨rfl, h⟩ := decimal_append_inj ha ha' (by simp) (by simp) h
  replace h := List.append_cancel_left h
  obtain ⟨rfl, h⟩ := decimal_append_inj hb hb' (by simp) (by simp) h
  replace h := List.append_cancel_left h
  obtain ⟨rfl, h⟩ := decimal_append_inj hc hc' (by simp) (by simp) h
  replace h := List.append_cancel_left h
  obtain ⟨rfl, h⟩ := decimal_append_inj hd hd' (by simp) (by simp) h
  replace h := List.append_cancel_left h
  obtain ⟨rfl, h⟩ := decimal2_append_inj he he' h
  replace h := List.append_cancel_left h
  obtain ⟨rfl, h⟩ := decimal2_append_inj hf hf' h
  exact ⟨rfl, rfl, rfl, rfl, rfl, rfl⟩

/-- **C146.** Two rules with the same summary have precisions that differ by at most 0.01. -/
theorem C146_same_summary (X Y : Cmp) (hX : X.WF) (hY : Y.WF) (hN : X.nMinor = Y.nMinor) (hB : X.nMinor < 2 ^ 45)
    (head tail head' tail' : List ℤ) (h0 : ∀ l ∈ tail, 0 ≤ l) (h0' : ∀ l ∈ tail', 0 ≤ l) (b b' : BRule)
    (hb : bindDataset (Rule.new head tail) X Y = .ok b) (hb' : bindDataset (Rule.new head' tail') X Y = .ok b')
    (hs : ruleSummary b = ruleSummary b') :
    head.length = head'.length ∧ tail.length = tail'.length ∧ b.support.card = b'.support.card ∧
      ∀ p p' : ℚ, b.precision = .ok p → b'.precision = .ok p' → |p - p'| ≤ 1 / 100 := by
  obtain ⟨h1, h2, h3, -⟩ := C05_bind_supports X Y hX hY hN head tail h0 b hb
  obtain ⟨h1', h2', h3', -⟩ := C05_bind_supports X Y hX hY hN head' tail' h0' b' hb'
  obtain ⟨s, p, q, e, t, n, -⟩ := C146_summary X Y hX hY hN hB head tail h0 b hb _ _ _ h1 h2 h3
  obtain ⟨s', p', q', e', t', n', -⟩ := C146_summary X Y hX hY hN hB head' tail' h0' b' hb' _ _ _ h1' h2' h3'
  rw [e, e'] at hs
  cases Except.ok.inj hs
  obtain ⟨eH, eL, eS, -, rfl, -⟩ := C146_readback _ _ _ _ _ _ _ _ _ _ _ _ _ t t'
  refine ⟨eH, eL, eS, ?_⟩
  intro r r' hr hr'
  have key : ∀ (x : BRule) (z : ℚ), x.precision = .ok z → (z : ℝ) = (x.support.card : ℝ) / x.headSupport.card := by
    intro x z hz
    unfold BRule.precision pyDiv at hz
    split at hz
    · cases hz
    · cases Except.ok.inj hz
      push_cast
      rfl
  rw [← key b r hr] at n
  rw [← key b' r' hr'] at n'
  unfold Nearest2 at n n'
  have : |(r : ℝ) - r'| ≤ 1 / 100 := by
    rw [abs_le] at n n' ⊢
    constructor <;> linarith [n.1, n.2, n'.1, n'.2]
  have := (Rat.cast_le (K := ℝ) (p := |r - r'|) (q := 1 / 100)).mp (by push_cast; exact this)
  exact this

/-- **C146.** A graph with label names is built exactly when every label has a name. -/
theorem C146_names (Y : Cmp) (hY : Y.Binary) (names : List (List Char)) :
    (Y.nMajor ≤ names.length → ∃ g, namedGraph Y (some names) = .ok g) ∧
      (names.length < Y.nMajor → namedGraph Y (some names) = .error .indexError) := by
  have hc : ∃ c, confidenceGraphF Y = .ok c := by
    rw [confidenceGraphF_eq, confidenceGraph_ok hY]
    exact ⟨_, rfl⟩
  obtain ⟨c, hc⟩ := hc
  unfold namedGraph
  rw [hc]
  constructor
  · intro hl
    have hm : ((List.range Y.nMajor).mapM fun i => do
        let nm ← nodeName (some names) i
        return (nm, (labelFreq Y).getD i 0)) =
        (.ok ((List.range Y.nMajor).map fun i => (names.getD i [], (labelFreq Y).getD i 0)) : Py _) := by
      apply mapM_ok_of_forall
      intro i hi
      have hi' : i < names.length := lt_of_lt_of_le (List.mem_range.mp hi) hl
      simp only [nodeName, dif_pos hi']
      rw [getD_lt hi']
      rfl
    rw [hm]
    exact ⟨_, rfl⟩
  · intro hl
    have hm : ((List.range Y.nMajor).mapM fun i => do
        let nm ← nodeName (some names) i
        return (nm, (labelFreq Y).getD i 0)) = (.error .indexError : Py (List (List Char × ℤ))) := by
      apply mapM_error_of
      · intro i _
        by_cases hi : i < names.length
        · exact Or.inl ⟨_, by simp only [nodeName, dif_pos hi]; rfl⟩
        · exact Or.inr (by simp only [nodeName, dif_neg hi]; rfl)
      · exact ⟨names.length, List.mem_range.mpr hl, by simp [nodeName]⟩
    rw [hm]
    rfl

/-- **C146.** `show_subgraph` prints one line for every ordered pair of different listed labels that occur
together in some example, and no other: the names and frequencies of the two labels and, to the nearest two
decimals, the fraction of the examples of the first that carry the second. -/
theorem C146_subgraph (Y : Cmp) (hY : Y.Binary) (hB : Y.nMinor < 2 ^ 45) (names : Option (List (List Char)))
    (name : ℕ → List Char) (hname : LabelNames names Y.nMajor name) (g : NamedGraph)
    (hg : namedGraph Y names = .ok g) (order : List ((ℕ × ℕ) × ℝ) → List ((ℕ × ℕ) × ℝ))
    (ho : ∀ l, (order l).Perm l) (nodes : Finset ℕ) :
    ∃ (pairs : List (ℕ × ℕ)) (lines : List (List Char)), showSubgraph order g nodes = .ok lines ∧
      pairs.Nodup ∧
      (∀ u v, (u, v) ∈ pairs ↔ u ∈ nodes ∧ v ∈ nodes ∧ u < Y.nMajor ∧ v < Y.nMajor ∧ u ≠ v ∧
        (commonRows Y u v).Nonempty) ∧
      List.Forall₂ (fun e s => ∃ k, EdgeText s (name e.1) (commonRows Y e.1 e.1).card (name e.2)
          (commonRows Y e.2 e.2).card k ∧
        Nearest2 k (((commonRows Y e.1 e.2).card : ℝ) / (commonRows Y e.1 e.1).card)) pairs lines := by
  obtain ⟨es, hes, hc⟩ : ∃ es : List ((ℕ × ℕ) × ℝ), es = ((corNonzero Y).filter fun e => e.1 ≠ e.2).map
      (fun e => (e, fl ((conf Y e : ℚ) : ℝ))) ∧
      confidenceGraphF Y = .ok { nodes := List.range Y.nMajor, edges := es } := by
    refine ⟨_, rfl, ?_⟩
    rw [confidenceGraphF_eq, confidenceGraph_ok hY]
    simp only [Except.map, DiG.rounded, List.map_map]
    rfl
  have hm : ((List.range Y.nMajor).mapM fun i => do
      let nm ← nodeName names i
      return (nm, (labelFreq Y).getD i 0)) =
      (.ok ((List.range Y.nMajor).map fun i => (name i, (labelFreq Y).getD i 0)) : Py _) := by
    apply mapM_ok_of_forall
    intro i hi
    have hn : nodeName names i = .ok (name i) := by
      have hi' := List.mem_range.mp hi
      rcases names with - | l
      · rw [hname.1 rfl i hi', nodeName, Nat.toString_eq_repr, Nat.toList_repr]
        rfl
      · obtain ⟨hl, h⟩ := List.getElem?_eq_some_iff.mp (hname.2 l rfl i hi')
        rw [nodeName, dif_pos hl, h]
    rw [hn]
    rfl
  unfold namedGraph at hg
  rw [hc] at hg
  simp only [bind, Except.bind] at hg hm
  rw [hm] at hg
  simp only [pure, Except.pure, Except.ok.injEq] at hg
  subst hg
  have hattr : ∀ u < Y.nMajor, ((List.range Y.nMajor).map fun i => (name i, (labelFreq Y).getD i 0))[u]? =
      some (name u, ((commonRows Y u u).card : ℤ)) := by
    intro u hu
    rw [C47_label_frequency Y hY]
    simp [hu]
  have hmem : ∀ e ∈ es, e.1.1 < Y.nMajor ∧ e.1.2 < Y.nMajor ∧ e.1.1 ≠ e.1.2 ∧
      (commonRows Y e.1.1 e.1.2).Nonempty ∧ e.2 = fl ((conf Y e.1 : ℚ) : ℝ) := by
    intro e he
    rw [hes] at he
    simp only [List.mem_map, List.mem_filter, mem_corNonzero hY, decide_eq_true_eq] at he
    obtain ⟨x, ⟨⟨h1, h2, h3⟩, h4⟩, rfl⟩ := he
    exact ⟨h1, h2, h4, h3, rfl⟩
  have hnd : (es.map Prod.fst).Nodup := by
    obtain ⟨g0, hg0, -, hn, -⟩ := C47_confidence_graph Y hY
    rw [confidenceGraph_ok hY] at hg0
    cases Except.ok.inj hg0
    simp only [List.map_map, Function.comp_def] at hn
    rw [hes]
    simpa only [List.map_map, Function.comp_def] using hn
  set sub := es.filter fun e => e.1.1 ∈ nodes ∧ e.1.2 ∈ nodes with hsub
  have hperm := ho sub
  have hline : ∀ e ∈ order sub, edgeLine { nodes := List.range Y.nMajor, edges := es, attrs :=
      ((List.range Y.nMajor).map fun i => (name i, (labelFreq Y).getD i 0)) } e = .ok (name e.1.1 ++ " (".toList ++
        intText ((commonRows Y e.1.1 e.1.1).card : ℤ) ++ ") -> ".toList ++ name e.1.2 ++ " (".toList ++
        intText ((commonRows Y e.1.2 e.1.2).card : ℤ) ++ "): ".toList ++ fixed2 e.2) := by
    intro e he
    have he' := (List.mem_filter.mp (hperm.subset he)).1
    obtain ⟨h1, h2, -⟩ := hmem e he'
    unfold edgeLine nodeAttr
    rw [hattr _ h1, hattr _ h2]
    rfl
  refine ⟨(order sub).map Prod.fst, _, mapM_ok_of_forall hline, ?_, ?_, ?_⟩
  · exact ((hperm.map Prod.fst).nodup_iff).mpr (hnd.sublist (List.filter_sublist.map _))
  · intro u v
    rw [(hperm.map Prod.fst).mem_iff]
    simp only [hsub, List.mem_map, List.mem_filter, decide_eq_true_eq]
    constructor
    · rintro ⟨⟨⟨u', v'⟩, w⟩, ⟨he, hu, hv⟩, hx⟩
      cases hx
      obtain ⟨h1, h2, h3, h4, -⟩ := hmem _ he
      exact ⟨hu, hv, h1, h2, h3, h4⟩
    · rintro ⟨hu, hv, h1, h2, h3, h4⟩
      refine ⟨((u, v), fl ((conf Y (u, v) : ℚ) : ℝ)), ⟨?_, hu, hv⟩, rfl⟩
      · rw [hes]
        exact List.mem_map.mpr ⟨(u, v), List.mem_filter.mpr ⟨(mem_corNonzero hY).mpr ⟨h1, h2, h4⟩, by simpa using h3⟩, rfl⟩
  · rw [List.forall₂_map_left_iff, List.forall₂_map_right_iff, List.forall₂_same]
    intro e he
    obtain ⟨-, -, -, h4, h5⟩ := hmem e (List.mem_filter.mp (hperm.subset he)).1
    have hpos := commonRows_self_pos hY.toWF h4
    have hle : (commonRows Y e.1.1 e.1.2).card ≤ (commonRows Y e.1.1 e.1.1).card := by
      apply Finset.card_le_card
      intro i hi
      rw [mem_commonRows hY.toWF] at hi ⊢
      exact ⟨hi.1, hi.1⟩
    have hbd : (commonRows Y e.1.1 e.1.1).card ≤ Y.nMinor := by
      rw [← Finset.card_range Y.nMinor]
      apply Finset.card_le_card
      intro i hi
      exact Finset.mem_range.mpr (((mem_commonRows hY.toWF).mp hi).1.minor_lt hY.toWF)
    obtain ⟨k, hk, hk'⟩ := fixed2_ratio hle hpos (by omega)
    have hint : ∀ n : ℕ, Decimal (intText (n : ℤ)) n := by
      intro n
      unfold intText
      rw [if_neg (by omega), Int.natAbs_natCast]
      exact decimal_natText n
    refine ⟨k, ⟨_, _, _, hint _, hint _, ?_, rfl⟩, hk'⟩
    rw [h5, conf]
    push_cast
    exact hk

/-- **C146.** When the labels have no names, the two labels, their frequencies and the decimals can be read
back from the line. -/
theorem C146_line_readback (s : List Char) (u v m n k u' v' m' n' k' : ℕ)
    (h : EdgeText s (toString u).toList m (toString v).toList n k)
    (h' : EdgeText s (toString u').toList m' (toString v').toList n' k') :
    u = u' ∧ m = m' ∧ v = v' ∧ n = n' ∧ k = k' := by
  have hd : ∀ n : ℕ, Decimal (toString n).toList n := by
    intro n
    rw [Nat.toString_eq_repr, Nat.toList_repr]
    exact decimal_natText n
  obtain ⟨a, b, c, ha, hb, hc, rfl⟩ := h
  obtain ⟨a', b', c', ha', hb', hc', h⟩ := h'
  simp only [List.append_assoc] at h
  obtain ⟨e1, h⟩ := decimal_append_inj (hd u) (hd u') (by simp) (by simp) h
  rw [List.append_cancel_left_eq] at h
  obtain ⟨rfl, h⟩ := decimal_append_inj ha ha' (by simp) (by simp) h
  rw [List.append_cancel_left_eq] at h
  obtain ⟨e2, h⟩ := decimal_append_inj (hd v) (hd v') (by simp) (by simp) h
  rw [List.append_cancel_left_eq] at h
  obtain ⟨rfl, h⟩ := decimal_append_inj hb hb' (by simp) (by simp) h
  rw [List.append_cancel_left_eq] at h
  obtain ⟨rfl, -⟩ := decimal2_append_inj (t := []) (t' := []) hc hc' (by simpa using h)
  exact ⟨e1, rfl, e2, rfl, rfl⟩

/-! ### Concrete cases -/

/-- A rule with a summary. -/
example : ∃ b s p q, bindDataset (Rule.new [0] [1]) exampleCSC exampleY = .ok b ∧ ruleSummary b = .ok s ∧
    SummaryText s 1 1 b.support.card (b.support.card * 1) p q := by
  obtain ⟨b, hb⟩ := example_bind
  obtain ⟨h1, h2, h3, -⟩ := C05_bind_supports exampleCSC exampleY exampleCSC_binary.toWF exampleY_binary.toWF rfl
    [0] [1] (by decide) b hb
  obtain ⟨s, p, q, hs, ht, -⟩ := C146_summary exampleCSC exampleY exampleCSC_binary.toWF exampleY_binary.toWF rfl
    (by decide) [0] [1] (by decide) b hb _ _ _ h1 h2 h3
  exact ⟨b, s, p, q, hb, hs, ht⟩

/-- The text `Rule(|H|=2, |L|=1, |supp|=10, area=10, p=0.67, q=1.00)`. -/
example : SummaryText "Rule(|H|=2, |L|=1, |supp|=10, area=10, p=0.67, q=1.00)".toList 2 1 10 10 67 100 :=
  ⟨natText 2, natText 1, natText 10, natText 10, _, _, decimal_natText _, decimal_natText _, decimal_natText _,
    decimal_natText _, decimal2_digits 67, decimal2_digits 100, by decide⟩

/-- Printing the whole example graph. -/
example : ∃ (g : NamedGraph) (pairs : List (ℕ × ℕ)) (lines : List (List Char)), namedGraph exampleLabels none = .ok g ∧
    showSubgraph id g {0, 1, 2} = .ok lines ∧ pairs.length = lines.length ∧ (0, 1) ∈ pairs := by
  have hg : ∃ g, namedGraph exampleLabels none = .ok g := by
    unfold namedGraph
    rw [confidenceGraphF_eq, confidenceGraph_ok exampleLabels_binary]
    exact ⟨_, rfl⟩
  obtain ⟨g, hg⟩ := hg
  obtain ⟨pairs, lines, h1, -, h3, h4⟩ := C146_subgraph exampleLabels exampleLabels_binary (by decide) none
    (fun u => (toString u).toList) ⟨fun _ _ _ => rfl, by simp⟩ g hg id (fun l => List.Perm.refl l) {0, 1, 2}
  refine ⟨g, pairs, lines, hg, h1, h4.length_eq, (h3 0 1).mpr ⟨by decide, by decide, by decide, by decide, by decide, 0, ?_⟩⟩
  rw [mem_commonRows exampleLabels_binary.toWF]
  exact ⟨(Cmp.mem_segIdx exampleLabels 0 0).mp (by decide), (Cmp.mem_segIdx exampleLabels 1 0).mp (by decide)⟩

end Verif
