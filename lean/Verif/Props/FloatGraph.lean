/-
Properties C129 and C130: what rounding does to comparisons of ratios and to the sample space.
-/
import Verif.Lemmas.FloatGraph
import Verif.Props.Positions
import Verif.Props.Rule
import Verif.Lemmas.Greedy

namespace Verif
open UGraph Cmp

/-! ### C129 -/

/-- **C129** Two ratios of counts compare in doubles as they compare exactly, as long as the cross products
together stay below 2⁵³. -/
theorem C129_ratios (a b c d : ℕ) (hb : 0 < b) (hd : 0 < d) (h : a * d + c * b < 2 ^ 53) :
    (fl ((a : ℝ) / b) ≤ fl ((c : ℝ) / d) ↔ a * d ≤ c * b) ∧
    (fl ((a : ℝ) / b) < fl ((c : ℝ) / d) ↔ a * d < c * b) ∧
    (fl ((a : ℝ) / b) = fl ((c : ℝ) / d) ↔ a * d = c * b) := by
  have hbR : (0 : ℝ) < b := by exact_mod_cast hb
  have hdR : (0 : ℝ) < d := by exact_mod_cast hd
  have h1 : (a : ℝ) / b ≤ c / d ↔ a * d ≤ c * b := by
    rw [div_le_div_iff₀ hbR hdR]; exact_mod_cast Iff.rfl
  have h2 : (c : ℝ) / d ≤ a / b ↔ c * b ≤ a * d := by
    rw [div_le_div_iff₀ hdR hbR]; exact_mod_cast Iff.rfl
  have k1 := (ratio_le_iff hb hd h).trans h1
  have k2 := (ratio_le_iff hd hb (a := c) (c := a) (by omega)).trans h2
  refine ⟨k1, ?_, ?_⟩
  · rw [← not_le, k2, not_le]
  · rw [le_antisymm_iff, k1, k2, ← le_antisymm_iff]

/-- **C129** On data with fewer than 2²⁶ rows the test in `KL` that sets the divergence of a rule to zero gives
in doubles the answer it gives exactly: the rule is right on a smaller fraction of the rows its head selects
than its tail occurs on overall. -/
theorem C129_kl (X Y : Cmp) (hX : X.WF) (hY : Y.WF) (hN : X.nMinor = Y.nMinor) (hlt : X.nMinor < 2 ^ 26)
    (r : Rule) (h0 : ∀ x ∈ r.tail, 0 ≤ x) (b : BRule) (hb : bindDataset r X Y = .ok b) :
    klBranchF b = klBranch b ∧
    klBranchF b = .ok (decide (b.support.card * X.nMinor < b.tailSupport.card * b.headSupport.card)) := by
  obtain ⟨h1, -, -, -, i, hi⟩ := bindDataset_inv hX hY h0 hb
  have hbr := bindDataset_eq hX hY hN h0 hb
  have hs : b.support.card ≤ X.nMinor := by
    rw [hbr]
    exact (Finset.card_le_card (Finset.filter_subset _ _)).trans (by simp)
  have hh : b.headSupport.card ≤ X.nMinor := by
    rw [hbr]
    exact (Finset.card_le_card (Finset.filter_subset _ _)).trans (by simp)
  have ht : b.tailSupport.card ≤ X.nMinor := by
    rw [hbr]
    exact (Finset.card_le_card (Finset.filter_subset _ _)).trans (by simp [hN])
  have hil := hi.lt hX h1
  have hhp : 0 < b.headSupport.card := by
    rw [hbr]
    exact Finset.card_pos.mpr ⟨i, Finset.mem_filter.mpr ⟨Finset.mem_range.mpr hil, hi⟩⟩
  have hNb : b.N = X.nMinor := by rw [hbr]; rfl
  have hNp : 0 < X.nMinor := by omega
  have hbound : b.support.card * X.nMinor + b.tailSupport.card * b.headSupport.card < 2 ^ 53 := by
    have k1 : b.support.card * X.nMinor ≤ (2 ^ 26 - 1) * (2 ^ 26 - 1) :=
      Nat.mul_le_mul (by omega) (by omega)
    have k2 : b.tailSupport.card * b.headSupport.card ≤ (2 ^ 26 - 1) * (2 ^ 26 - 1) :=
      Nat.mul_le_mul (by omega) (by omega)
    have k3 : (2 ^ 26 - 1) * (2 ^ 26 - 1) + (2 ^ 26 - 1) * (2 ^ 26 - 1) < 2 ^ 53 := by norm_num
    omega
  have e1 : klBranchF b = .ok (decide (b.support.card * X.nMinor < b.tailSupport.card * b.headSupport.card)) := by
    unfold klBranchF intDivF
    rw [if_neg hhp.ne', hNb, if_neg hNp.ne']
    show Except.ok _ = Except.ok _
    congr 1
    rw [decide_eq_decide]
    exact (C129_ratios _ _ _ _ hhp hNp hbound).2.1
  refine ⟨?_, e1⟩
  rw [e1]
  unfold klBranch BRule.precision BRule.baseRate pyDiv
  rw [if_neg (by exact_mod_cast hhp.ne'), hNb, if_neg (by exact_mod_cast hNp.ne')]
  show Except.ok _ = Except.ok _
  congr 1
  rw [decide_eq_decide]
  have hhq : (0 : ℚ) < b.headSupport.card := by exact_mod_cast hhp
  have hNq : (0 : ℚ) < X.nMinor := by exact_mod_cast hNp
  push_cast
  rw [div_lt_div_iff₀ hhq hNq]
  exact_mod_cast Iff.rfl

/-- **C129** The stopping test of the fit: with a tolerance written as the decimal `c / d` it stops in doubles
exactly when the newly covered fraction of the label occurrences is at most `c / d`. -/
theorem C129_stop (p : Params) (c d : ℕ) (hd : 0 < d) (hp : p.tolerance = (c : ℚ) / d) (Y : Cmp)
    (selected : List BRule) (best : BRule)
    (h : best.marginalCoverage selected * d + c * Y.nnz < 2 ^ 53) :
    shouldStopDivMaxF p.nMaxRules (fl ((c : ℝ) / d)) Y selected best = shouldStopDivMax p Y selected best := by
  unfold shouldStopDivMaxF shouldStopDivMax
  rcases p.nMaxRules with _ | k
  · simp only [marginalCoverageRatio, intDivF, pyDiv]
    by_cases hz : Y.nnz = 0
    · simp [hz, Except.bind, Bind.bind]
    · rw [if_neg hz, if_neg (by exact_mod_cast hz)]
      show Except.ok _ = Except.ok _
      congr 1
      rw [decide_eq_decide, hp, (C129_ratios _ _ _ _ (Nat.pos_of_ne_zero hz) hd h).1]
      have h1 : (0 : ℚ) < Y.nnz := by exact_mod_cast Nat.pos_of_ne_zero hz
      have h2 : (0 : ℚ) < d := by exact_mod_cast hd
      push_cast
      rw [div_le_div_iff₀ h1 h2]
      exact_mod_cast Iff.rfl
  · rfl

/-- Some bound is needed: beyond it different ratios can become the same double. -/
theorem C129_limit : fl (((2 ^ 54 : ℕ) : ℝ) / ((1 : ℕ) : ℝ)) = fl (((2 ^ 54 + 1 : ℕ) : ℝ) / ((1 : ℕ) : ℝ)) := by
  rw [fl_eq_flp, fl_eq_flp]
  have h1 : ((2 ^ 54 : ℕ) : ℝ) / ((1 : ℕ) : ℝ) = 2 ^ 54 := by norm_num
  have h2 : ((2 ^ 54 + 1 : ℕ) : ℝ) / ((1 : ℕ) : ℝ) = 2 ^ 54 + 1 := by norm_num
  rw [h1, h2, flp_eval 52 (x := 2 ^ 54) 54 (2 ^ 52) (by norm_num) (by norm_num) (by norm_num),
    flp_eval 52 (x := 2 ^ 54 + 1) 54 (2 ^ 52) (by norm_num) (by norm_num) (by rw [abs_lt]; norm_num)]

/-! ### C130 -/

/-- How far rounding can move the product of the edge probabilities of a set of `s` labels, together with the
threshold: each of the `s (s - 1) / 2` edges contributes the error of its weight and of one multiplication. -/
noncomputable def roundingSlack : Backend → ℕ → ℝ
  | .dfs, s => (s.choose 2 : ℝ) * (7 / 2 ^ 53)
  | .dfsV2, s => (s.choose 2 : ℝ) * (3 / 2 ^ 24) + 1 / 2 ^ 24
  | .other, _ => 0

/-- What both back ends do, given the error of a weight and of a multiplication. -/
theorem space_sandwich {ops : ProbOps ℝ} {Valid : ℝ → Prop} {g : UGraph ℚ} {gP gC : UGraph ℝ}
    {mu eta tau alpha alpha' : ℝ} (hl : ops.Lawful Valid) (hu : ∀ x, Valid x → 0 ≤ x ∧ x ≤ 1)
    (hm : ∀ x y, Valid x → Valid y → |ops.mul x y - x * y| ≤ mu) (hone : ops.one = 1)
    (hC : gC.AllWeights Valid) (hg : g.AllWeights fun p => 0 ≤ p ∧ p ≤ 1) (hmu : 0 ≤ mu) (htau : 0 ≤ tau)
    (hnodes : gP.nodes = g.nodes) (hadj : ∀ u v, gP.Adj u v → CloseAt gC g eta u v)
    (heta : 0 ≤ eta)
    (hkeep : ∀ u v w, g.weight u v = some w → alpha + eta ≤ (w : ℝ) → gP.Adj u v)
    (hal : |alpha' - alpha| ≤ tau) {L : List (List ℕ × ℝ)} (hnd : (L.map Prod.fst).Nodup)
    (hL : ∀ T p, (T, p) ∈ L ↔ T ≠ [] ∧ T.Pairwise (· < ·) ∧ gP.IsClique T.toFinset ∧
      p = orderedProb ops gC T ∧ (T.length = 1 ∨ alpha' ≤ p)) :
    (L.map fun e => e.1.toFinset).Nodup ∧
    (∀ T ∈ L.map fun e => e.1.toFinset, T ≠ ∅ ∧ g.IsClique T ∧
      (T.card = 1 ∨ alpha - ((T.card.choose 2 : ℝ) * (mu + eta) + tau) ≤ (g.cliqueProb T : ℚ))) ∧
    ∀ T : Finset ℕ, T ≠ ∅ → g.IsClique T →
      (T.card = 1 ∨ alpha + ((T.card.choose 2 : ℝ) * (mu + eta) + tau) ≤ (g.cliqueProb T : ℚ)) →
      T ∈ L.map fun e => e.1.toFinset := by
  rw [abs_le] at hal
  have herr : ∀ T : List ℕ, T.Pairwise (· < ·) → gP.IsClique T.toFinset →
      |orderedProb ops gC T - (g.cliqueProb T.toFinset : ℚ)| ≤ (T.length.choose 2 : ℝ) * (mu + eta) := by
    intro T hs hcl
    refine orderedProb_error hl hu hm hone hC hg T hs ?_
    refine (cliqueList_of_isClique hs hcl).adj.imp ?_
    intro a b hab
    exact hadj b a (adj_comm.mp hab)
  refine ⟨?_, ?_, ?_⟩
  · rw [show (fun e : List ℕ × ℝ => e.1.toFinset) = List.toFinset ∘ Prod.fst from rfl, ← List.map_map]
    refine List.Nodup.map_on ?_ hnd
    intro S hS T hT h
    obtain ⟨⟨S', p⟩, hSL, rfl⟩ := List.mem_map.mp hS
    obtain ⟨⟨T', q⟩, hTL, rfl⟩ := List.mem_map.mp hT
    have h1 := ((hL _ _).mp hSL).2.1
    have h2 := ((hL _ _).mp hTL).2.1
    simp only at h ⊢
    refine List.Perm.eq_of_pairwise (fun a b _ _ hab hba => absurd hab (not_lt.mpr hba.le)) h1 h2 ?_
    rw [List.perm_ext_iff_of_nodup (h1.imp ne_of_lt) (h2.imp ne_of_lt)]
    intro a
    rw [← List.mem_toFinset, h, List.mem_toFinset]
  · intro T hT
    obtain ⟨⟨S, p⟩, hSL, rfl⟩ := List.mem_map.mp hT
    obtain ⟨hne, hs, hcl, hp, hlen⟩ := (hL _ _).mp hSL
    have hcard : S.toFinset.card = S.length := List.toFinset_card_of_nodup (hs.imp ne_of_lt)
    simp only at hne hs hcl hp hlen ⊢
    refine ⟨by simpa using hne, ⟨fun x hx => hnodes ▸ hcl.1 x hx, fun x hx y hy hxy => ?_⟩, ?_⟩
    · obtain ⟨_, w, -, hw, -⟩ := hadj x y (hcl.2 x hx y hy hxy)
      exact ⟨w, hw⟩
    · rw [hcard]
      rcases hlen with h1 | h1
      · exact Or.inl h1
      · right
        have h2 := abs_le.mp (herr S hs hcl)
        rw [← hp] at h2
        linarith [h2.2, hal.1]
  · intro T hne hcl hT
    have hs : (T.sort (· ≤ ·)).Pairwise (· < ·) := T.sortedLT_sort.pairwise
    have hlen : (T.sort (· ≤ ·)).length = T.card := T.length_sort _
    have htf : (T.sort (· ≤ ·)).toFinset = T := T.sort_toFinset _
    have hclP : gP.IsClique T := by
      refine ⟨fun x hx => hnodes ▸ hcl.1 x hx, fun x hx y hy hxy => ?_⟩
      have hcard : 2 ≤ T.card := Finset.one_lt_card.mpr ⟨x, hx, y, hy, hxy⟩
      have hP := hT.resolve_left (by omega)
      -- every edge is at least as probable as the clique
      have hedge : ∀ x ∈ T, ∀ y ∈ T, x < y → gP.Adj y x := by
        intro x hx y hy hxy
        obtain ⟨w, hw⟩ := hcl.2 y hy x hx hxy.ne'
        refine hkeep y x w hw ?_
        have hsub : [x, y].Sublist (T.sort (· ≤ ·)) := by
          have hp2 : [x, y].Pairwise (· < ·) := by simpa using hxy
          refine List.sublist_of_subperm_of_pairwise (r := (· < ·)) ?_ hp2 hs
          refine (List.subperm_of_subset (hp2.imp ne_of_lt) ?_)
          intro a ha
          rw [Finset.mem_sort]
          simp only [List.mem_cons, List.not_mem_nil, or_false] at ha
          rcases ha with rfl | rfl <;> assumption
        have hle := orderedProb_le_edge ratOps_lawful hg hsub hw
        rw [orderedProb_rat g hs, htf] at hle
        have hleR : (g.cliqueProb T : ℝ) ≤ w := by exact_mod_cast hle
        have hch : (1 : ℝ) ≤ (T.card.choose 2 : ℝ) := by
          exact_mod_cast Nat.choose_pos hcard
        nlinarith
      rcases lt_or_gt_of_ne hxy with h | h
      · exact adj_comm.mp (hedge x hx y hy h)
      · exact hedge y hy x hx h
    refine List.mem_map.mpr ⟨(T.sort (· ≤ ·), orderedProb ops gC (T.sort (· ≤ ·))), ?_, htf⟩
    rw [hL]
    refine ⟨fun h => hne ?_, hs, by rwa [htf], rfl, ?_⟩
    · rw [← htf, h]; rfl
    · rw [hlen]
      rcases hT with h1 | h1
      · exact Or.inl h1
      · right
        have h2 := abs_le.mp (herr _ hs (by rwa [htf]))
        rw [htf, hlen] at h2
        linarith [h2.1, hal.2]

/-- The graph in doubles: the same edges as the exact graph, with weights close to the exact ones. -/
theorem buildGraphF_spec (Y : Cmp) (h : Y.Binary) : ∃ g gF, buildGraph Y = .ok g ∧ buildGraphF Y = .ok gF ∧
    g.WF ∧ gF.WF ∧ g.AllWeights (fun w => 0 < w ∧ w ≤ 1) ∧ g.nodes = List.range Y.nMajor ∧
    gF.nodes = List.range Y.nMajor ∧ gF.AllWeights Prob53 ∧ (∀ u v, gF.Adj u v ↔ g.Adj u v) ∧
    ∀ u v, g.Adj u v → CloseAt gF g (6 / 2 ^ 53) u v := by
  obtain ⟨d, hd, -⟩ := C47_confidence_graph Y h
  obtain ⟨g, hg, hwf, hn, hw⟩ := C48_connectivity_graph Y h d hd
  have hgb : buildGraph Y = .ok g := by unfold buildGraph; rw [hd]; exact hg
  obtain ⟨g', hg', -, hall, -⟩ := C48_build_graph Y h
  rw [hgb] at hg'
  cases hg'
  have hgF : buildGraphF Y = .ok (g.reweigh (weightF d)) := by
    unfold buildGraphF
    rw [confidenceGraphF_eq, hd]
    show connectivityGraphF d.rounded = _
    rw [connectivityGraphF_eq, hg]
    rfl
  have hsw := weightF_swap d
  have key : ∀ u v w, g.weight u v = some w →
      Prob53 (weightF d (u, v)) ∧ |weightF d (u, v) - (w : ℝ)| ≤ 6 / 2 ^ 53 := by
    intro u v w huv
    obtain ⟨p, q, hp, hq, rfl⟩ := (hw u v w).mp huv
    obtain ⟨hp0, hp1⟩ := (C47_range_and_symmetry Y h d hd u v).1 p hp
    obtain ⟨hq0, hq1⟩ := (C47_range_and_symmetry Y h d hd v u).1 q hq
    have := connectF_error (p := (p : ℝ)) (q := (q : ℝ)) ⟨by exact_mod_cast hp0.le, by exact_mod_cast hp1⟩
      ⟨by exact_mod_cast hq0.le, by exact_mod_cast hq1⟩
    unfold weightF
    rw [hp, hq]
    simp only [Option.getD_some]
    push_cast
    exact this
  refine ⟨g, _, hgb, hgF, hwf, wf_reweigh hsw hwf, hall, hn, hn, ?_, adj_reweigh hsw g, ?_⟩
  · intro e he
    obtain ⟨a, ha, rfl⟩ := List.mem_map.mp he
    exact (key a.1.1 a.1.2 a.2 (hwf.simple a ha)).1
  · rintro u v ⟨w, hw'⟩
    exact ⟨_, w, by rw [weight_reweigh hsw, hw']; rfl, hw', (key u v w hw').2⟩

/-- **C130** The sample space the program builds from a label matrix, computed in doubles (`dfs`) or with
single-precision products (`dfs_v2`), pruned first or not: it holds every set once; every set in it is a single
label or a set of labels that pairwise share a row and whose exact probability falls short of the threshold
by at most the rounding slack; and it holds every single label and every such set whose exact probability
exceeds the threshold by the slack. -/
theorem C130_sample_space (Y : Cmp) (h : Y.Binary) (hpos : 0 < Y.nMajor) (alpha : ℝ) (h0 : 0 ≤ alpha)
    (h1 : alpha ≤ 1) (doPrune : Bool) (backend : Backend) (hback : backend ≠ .other)
    (order : Finset ℕ → List ℕ) (ho : Traverses order) (depth : ℕ) (hd : Y.nMajor < depth) :
    ∃ g gF space, buildGraph Y = .ok g ∧ buildGraphF Y = .ok gF ∧
      buildSampleSpaceF gF alpha doPrune backend order depth = .ok space ∧ space.Nodup ∧
      (∀ T ∈ space, T ≠ ∅ ∧ g.IsClique T ∧
        (T.card = 1 ∨ alpha - roundingSlack backend T.card ≤ (g.cliqueProb T : ℚ))) ∧
      (∀ T : Finset ℕ, T ≠ ∅ → g.IsClique T →
        (T.card = 1 ∨ alpha + roundingSlack backend T.card ≤ (g.cliqueProb T : ℚ)) → T ∈ space) := by
  obtain ⟨g, gF, e1, e2, hwf, hwfF, hall, hn, hnF, hval, hadj, hclose⟩ := buildGraphF_spec Y h
  have hg : g.AllWeights fun p => 0 ≤ p ∧ p ≤ 1 := fun e he => ⟨(hall e he).1.le, (hall e he).2⟩
  -- the graph after the optional pruning
  set gP := if doPrune then pruneEdges gF alpha else gF with hgP
  have hPwf : gP.WF := by
    rw [hgP]; split
    · exact prune_wf hwfF alpha
    · exact hwfF
  have hPn : gP.nodes = g.nodes := by
    rw [hgP, hn]; split
    · exact hnF
    · exact hnF
  have hPval : gP.AllWeights Prob53 := by
    rw [hgP]; split
    · exact prune_valid hval alpha
    · exact hval
  have hPclose : ∀ u v, gP.Adj u v → CloseAt gP g (6 / 2 ^ 53) u v := by
    intro u v huv
    obtain ⟨x, hx⟩ := huv
    have hxF : gF.weight u v = some x := by
      rw [hgP] at hx
      split at hx
      · rw [prune_weight hwfF, Option.filter_eq_some_iff] at hx
        exact hx.1
      · exact hx
    obtain ⟨w', w, k1, k2, k3⟩ := hclose u v ((hadj u v).mp ⟨x, hxF⟩)
    rw [hxF] at k1
    cases k1
    exact ⟨x, w, hx, k2, k3⟩
  have hPkeep : ∀ u v w, g.weight u v = some w → alpha + 6 / 2 ^ 53 ≤ (w : ℝ) → gP.Adj u v := by
    intro u v w hw hle
    obtain ⟨w', w₂, k1, k2, k3⟩ := hclose u v ⟨w, hw⟩
    rw [hw] at k2
    cases k2
    rw [hgP]
    split
    · refine ⟨w', ?_⟩
      rw [prune_weight hwfF, k1, Option.filter_eq_some_iff]
      refine ⟨rfl, ?_⟩
      rw [abs_le] at k3
      simp only [decide_eq_true_eq]
      linarith [k3.1]
    · exact ⟨w', k1⟩
  have hlen : gP.nodes.length = Y.nMajor := by rw [hPn, hn, List.length_range]
  cases backend with
  | other => exact absurd rfl hback
  | dfs =>
    obtain ⟨L, hL1, hL2, hL3⟩ := C49_any_arithmetic doubleOps Prob53 doubleOps_lawful gP hPwf hPval alpha order
      ho depth (by omega)
    obtain ⟨s1, s2, s3⟩ := space_sandwich (g := g) (gP := gP) (gC := gP) (mu := 1 / 2 ^ 53) (eta := 6 / 2 ^ 53)
      (tau := 0) (alpha := alpha) (alpha' := alpha) doubleOps_lawful (fun x hx => hx.2)
      (fun x y hx hy => doubleOps_error hx.2 hy.2) rfl hPval hg (by positivity) le_rfl hPn hPclose
      (by positivity) hPkeep (by simp) hL2 hL3
    have hslack : ∀ s : ℕ, (s.choose 2 : ℝ) * (1 / 2 ^ 53 + 6 / 2 ^ 53) + 0 = roundingSlack .dfs s := by
      intro s
      unfold roundingSlack
      ring
    simp only [hslack] at s2 s3
    refine ⟨g, gF, _, e1, e2, ?_, s1, s2, s3⟩
    unfold buildSampleSpaceF
    rw [← hgP]
    show (do let l ← enumerateCliques doubleOps gP alpha order depth; _) = _
    rw [hL1]
    rfl
  | dfsV2 =>
    have hcast : ∀ w, Prob53 w → Prob24 (single w) := fun w hw => prob24_single hw.2
    obtain ⟨L, hL1, hL2, hL3⟩ := C121_positions single singleOps Prob24 singleOps_lawful gP hPwf
      (by rw [hPn, hn]; simpa using hpos.ne') (fun e he => hcast _ (hPval e he)) alpha order ho depth (by omega)
    have hat : ∀ T : List ℕ, (∀ t ∈ T, t < gP.nodes.length) → T.map gP.nodeAt = T := by
      intro T hT
      conv_rhs => rw [← List.map_id T]
      refine List.map_congr_left fun t ht => ?_
      have := hT t ht
      rw [hlen] at this
      unfold UGraph.nodeAt
      rw [hPn, hn, List.getD_eq_getElem _ _ (by simpa using this)]
      simp
    have hL3' : ∀ T p, (T, p) ∈ L ↔ T ≠ [] ∧ T.Pairwise (· < ·) ∧ gP.IsClique T.toFinset ∧
        p = orderedProb singleOps (gP.castWeights single) T ∧ (T.length = 1 ∨ single alpha ≤ p) := by
      intro T p
      rw [hL3]
      constructor
      · rintro ⟨a1, a2, a3, a4, a5, a6⟩
        rw [hat T a3] at a4 a5
        exact ⟨a1, a2, a4, a5, a6⟩
      · rintro ⟨a1, a2, a4, a5, a6⟩
        have a3 : ∀ t ∈ T, t < gP.nodes.length := by
          intro t ht
          have := a4.1 t (List.mem_toFinset.mpr ht)
          rw [hPn, hn, List.mem_range] at this
          omega
        rw [← hat T a3] at a4 a5
        exact ⟨a1, a2, a3, a4, by simpa using a5, a6⟩
    have hCval : (gP.castWeights single).AllWeights Prob24 := by
      intro e he
      obtain ⟨a, ha, rfl⟩ := List.mem_map.mp he
      exact hcast _ (hPval a ha)
    have hCclose : ∀ u v, gP.Adj u v → CloseAt (gP.castWeights single) g (1 / 2 ^ 24 + 6 / 2 ^ 53) u v := by
      intro u v huv
      obtain ⟨w', w, k1, k2, k3⟩ := hPclose u v huv
      refine ⟨single w', w, by rw [weight_cast, k1]; rfl, k2, ?_⟩
      have hu := (UGraph.weight_valid hPval k1).2
      have k4 : |single w' - w'| ≤ 1 / 2 ^ 24 := flp_error_unit 23 hu.1 hu.2
      have : single w' - (w : ℝ) = (single w' - w') + (w' - w) := by ring
      rw [this]
      exact (abs_add_le _ _).trans (add_le_add k4 k3)
    have hal : |single alpha - alpha| ≤ 1 / 2 ^ 24 := flp_error_unit 23 h0 h1
    obtain ⟨s1, s2, s3⟩ := space_sandwich (g := g) (gP := gP) (gC := gP.castWeights single) (mu := 1 / 2 ^ 24)
      (eta := 1 / 2 ^ 24 + 6 / 2 ^ 53) (tau := 1 / 2 ^ 24) (alpha := alpha) (alpha' := single alpha)
      singleOps_lawful (fun x hx => hx.2) (fun x y hx hy => singleOps_error hx hy) rfl hCval hg (by positivity)
      (by positivity) hPn hCclose (by positivity)
      (fun u v w hw hle => hPkeep u v w hw (le_trans (by norm_num) hle)) hal hL2 hL3'
    have hslack : ∀ s : ℕ, (s.choose 2 : ℝ) * (1 / 2 ^ 24 + (1 / 2 ^ 24 + 6 / 2 ^ 53)) + 1 / 2 ^ 24 ≤
        roundingSlack .dfsV2 s := by
      intro s
      unfold roundingSlack
      have : (1 / 2 ^ 24 + (1 / 2 ^ 24 + 6 / 2 ^ 53) : ℝ) ≤ 3 / 2 ^ 24 := by norm_num
      have := mul_le_mul_of_nonneg_left this (Nat.cast_nonneg (α := ℝ) (s.choose 2))
      linarith
    refine ⟨g, gF, _, e1, e2, ?_, s1, ?_, ?_⟩
    · unfold buildSampleSpaceF
      rw [← hgP]
      show (do let l ← enumerateCliquesV2 single singleOps gP alpha order depth; _) = _
      rw [hL1]
      rfl
    · intro T hT
      obtain ⟨a1, a2, a3⟩ := s2 T hT
      refine ⟨a1, a2, a3.imp_right fun a => ?_⟩
      linarith [hslack T.card]
    · intro T hne hcl hT
      refine s3 T hne hcl (hT.imp_right fun a => ?_)
      linarith [hslack T.card]

/-- **C130** Away from the threshold rounding does nothing: if no set of at least two labels has an exact
probability within the slack of the threshold, the sample space is the exact one. -/
theorem C130_exact (Y : Cmp) (h : Y.Binary) (hpos : 0 < Y.nMajor) (alpha : ℚ) (h0 : 0 ≤ alpha)
    (h1 : alpha ≤ 1) (doPrune : Bool) (backend : Backend) (hback : backend ≠ .other)
    (order : Finset ℕ → List ℕ) (ho : Traverses order) (depth : ℕ) (hd : Y.nMajor < depth)
    (hfar : ∀ g, buildGraph Y = .ok g → ∀ T : Finset ℕ, 2 ≤ T.card → g.IsClique T →
      roundingSlack backend T.card < |((g.cliqueProb T : ℚ) : ℝ) - alpha|) :
    ∃ g gF space, buildGraph Y = .ok g ∧ buildGraphF Y = .ok gF ∧
      buildSampleSpaceF gF alpha doPrune backend order depth = .ok space ∧ space.Nodup ∧
      ∀ T, T ∈ space ↔ g.Probable alpha T := by
  obtain ⟨g, gF, space, e1, e2, e3, e4, e5, e6⟩ := C130_sample_space Y h hpos alpha (by exact_mod_cast h0)
    (by exact_mod_cast h1) doPrune backend hback order ho depth hd
  refine ⟨g, gF, space, e1, e2, e3, e4, fun T => ?_⟩
  constructor
  · intro hT
    obtain ⟨a1, a2, a3⟩ := e5 T hT
    refine ⟨a1, a2, ?_⟩
    rcases a3 with a3 | a3
    · exact Or.inl a3
    · by_cases hc : T.card = 1
      · exact Or.inl hc
      · right
        have hpos := Finset.card_pos.mpr (Finset.nonempty_iff_ne_empty.mpr a1)
        have := hfar g e1 T (by omega) a2
        rcases lt_abs.mp this with hlt | hlt
        · have : (alpha : ℝ) ≤ (g.cliqueProb T : ℚ) := by
            have : (0 : ℝ) ≤ roundingSlack backend T.card := by
              unfold roundingSlack; split <;> positivity
            linarith
          exact_mod_cast this
        · linarith
  · rintro ⟨a1, a2, a3⟩
    refine e6 T a1 a2 ?_
    by_cases hc : T.card = 1
    · exact Or.inl hc
    · right
      have hpos := Finset.card_pos.mpr (Finset.nonempty_iff_ne_empty.mpr a1)
      have h2 := hfar g e1 T (by omega) a2
      have h3 : (alpha : ℝ) ≤ (g.cliqueProb T : ℚ) := by exact_mod_cast a3.resolve_left hc
      rcases lt_abs.mp h2 with hlt | hlt
      · linarith
      · have : (0 : ℝ) ≤ roundingSlack backend T.card := by
          unfold roundingSlack; split <;> positivity
        linarith

/-! ### At the threshold -/

/-- Two labels: label 0 on rows 0-2, label 1 on rows 2-17, so one row carries both. -/
def boundaryLabels : Cmp :=
  { nMajor := 2, nMinor := 18, indptr := [0, 3, 19],
    indices := [0, 1, 2, 2, 3, 4, 5, 6, 7, 8, 9, 10, 11, 12, 13, 14, 15, 16, 17],
    data := List.replicate 19 1 }

theorem boundaryLabels_binary : boundaryLabels.Binary :=
  { len_indptr := by decide, ptr_zero := by decide, ptr_mono := by decide, ptr_last := by decide,
    len_data := by decide, idx_lt := by decide, data_one := by decide, nodup := by decide }

/-- The weight of the edge in doubles, slightly below 3/8. -/
noncomputable def boundaryWeight : ℝ := 6755399441055742 * 2 ^ (-54 : ℤ)

theorem boundary_connect : connectF (fl (1 / 3)) (fl (1 / 16)) = boundaryWeight := by
  have h1 : fl (1 / 3) = 6004799503160661 * 2 ^ (-54 : ℤ) := by
    rw [fl_eq_flp, flp_eval 52 (-2) 6004799503160661 (by norm_num) (by norm_num) (by rw [abs_lt]; norm_num)]
    norm_num
  have h2 : fl (1 / 16) = 1 / 16 := by
    rw [fl_eq_flp, flp_eval 52 (-4) (2 ^ 52) (by norm_num) (by norm_num) (by rw [abs_lt]; norm_num)]
    norm_num
  have h3 : fl (1 - 6004799503160661 * 2 ^ (-54 : ℤ)) = 6004799503160662 * 2 ^ (-53 : ℤ) := by
    rw [fl_eq_flp, flp_eval_even 52 (-1) 6004799503160662 (by norm_num) (by norm_num) (by decide)
      (by rw [abs_le]; norm_num)]
    norm_num
  have h4 : fl (1 - 1 / 16) = 15 / 16 := by
    rw [fl_eq_flp, flp_eval 52 (-1) 8444249301319680 (by norm_num) (by norm_num) (by rw [abs_lt]; norm_num)]
    norm_num
  have h5 : fl (6004799503160662 * 2 ^ (-53 : ℤ) * (15 / 16)) = 5629499534213121 * 2 ^ (-53 : ℤ) := by
    rw [fl_eq_flp, flp_eval 52 (-1) 5629499534213121 (by norm_num) (by norm_num) (by rw [abs_lt]; norm_num)]
    norm_num
  have h6 : fl (1 - 5629499534213121 * 2 ^ (-53 : ℤ)) = boundaryWeight := by
    rw [fl_eq_flp, flp_eval 52 (-2) 6755399441055742 (by norm_num) (by norm_num) (by rw [abs_lt]; norm_num)]
    norm_num [boundaryWeight]
  unfold connectF
  rw [h1, h2, h3, h4, h5, h6]

theorem boundary_graph : buildGraph boundaryLabels = .ok { nodes := [0, 1], edges := [((0, 1), 3 / 8)] } := by
  decide +kernel

theorem boundary_graphF :
    buildGraphF boundaryLabels = .ok { nodes := [0, 1], edges := [((0, 1), boundaryWeight)] } := by
  have hd : confidenceGraph boundaryLabels =
      .ok { nodes := [0, 1], edges := [((0, 1), 1 / 3), ((1, 0), 1 / 16)] } := by decide +kernel
  unfold buildGraphF
  rw [confidenceGraphF_eq, hd]
  show connectivityGraphF (DiG.rounded { nodes := [0, 1], edges := [((0, 1), 1 / 3), ((1, 0), 1 / 16)] }) = _
  rw [connectivityGraphF_eq]
  have hc : connectivityGraph { nodes := [0, 1], edges := [((0, 1), 1 / 3), ((1, 0), 1 / 16)] } =
      .ok { nodes := [0, 1], edges := [((0, 1), 3 / 8)] } := by decide +kernel
  rw [hc]
  show Except.ok _ = Except.ok _
  congr 1
  unfold UGraph.reweigh
  have hw : weightF { nodes := [0, 1], edges := [((0, 1), 1 / 3), ((1, 0), 1 / 16)] } (0, 1) = boundaryWeight := by
    rw [← boundary_connect]
    unfold weightF
    rw [show DiG.weight { nodes := [0, 1], edges := [((0, 1), 1 / 3), ((1, 0), 1 / 16)] } 0 1 = some (1 / 3) by
      decide +kernel, show DiG.weight { nodes := [0, 1], edges := [((0, 1), 1 / 3), ((1, 0), 1 / 16)] } 1 0 =
      some (1 / 16) by decide +kernel]
    norm_num
  simp only [List.map_cons, List.map_nil, hw]

theorem sorted_pair {T : List ℕ} (hs : T.Pairwise (· < ·)) (h : T.toFinset = {0, 1}) : T = [0, 1] := by
  refine List.Perm.eq_of_pairwise (le := (· < ·)) (fun a b _ _ hab hba => absurd hab (not_lt.mpr hba.le)) hs
    (by decide) ?_
  rw [List.perm_ext_iff_of_nodup (hs.imp ne_of_lt) (by decide)]
  intro a
  rw [← List.mem_toFinset, h]
  simp

theorem boundaryWeight_facts : boundaryWeight < 3 / 8 ∧ Prob53 boundaryWeight ∧ single boundaryWeight = 3 / 8 := by
  refine ⟨by norm_num [boundaryWeight], ⟨⟨6755399441055742, -54, by norm_num, ?_⟩, ?_, ?_⟩, ?_⟩
  · norm_num [boundaryWeight]
  · norm_num [boundaryWeight]
  · norm_num [boundaryWeight]
  · unfold single
    rw [flp_eval 23 (-2) 12582912 (by norm_num [boundaryWeight]) (by norm_num [boundaryWeight])
      (by rw [abs_lt]; norm_num [boundaryWeight])]
    norm_num

/-- **C130** At the threshold rounding decides, and the options of the sampler decide differently. The pair of labels
has exact probability 3/8, which is a double, and the exact sample space for the threshold 3/8 holds it. The
program drops it with `dfs`, and with `dfs_v2` if edges are pruned first, and keeps it with `dfs_v2`
if they are not. -/
theorem C130_boundary (order : Finset ℕ → List ℕ) (ho : Traverses order) (depth : ℕ) (hd : 2 < depth) :
    ∃ g gF, buildGraph boundaryLabels = .ok g ∧ buildGraphF boundaryLabels = .ok gF ∧
      g.Probable (3 / 8) {0, 1} ∧
      (∀ doPrune, ∃ space, buildSampleSpaceF gF (3 / 8) doPrune .dfs order depth = .ok space ∧
        {0, 1} ∉ space) ∧
      (∃ space, buildSampleSpaceF gF (3 / 8) true .dfsV2 order depth = .ok space ∧ {0, 1} ∉ space) ∧
      ∃ space, buildSampleSpaceF gF (3 / 8) false .dfsV2 order depth = .ok space ∧ {0, 1} ∈ space := by
  obtain ⟨hlt, hprob, hsingle⟩ := boundaryWeight_facts
  obtain ⟨g, gF, k1, k2, hwf, hwfF, -, -, hnF, hval, hadj, -⟩ := buildGraphF_spec boundaryLabels boundaryLabels_binary
  rw [boundary_graph] at k1
  rw [boundary_graphF] at k2
  cases k1
  cases k2
  set gF : UGraph ℝ := { nodes := [0, 1], edges := [((0, 1), boundaryWeight)] } with hgF
  have hp : pruneEdges gF (3 / 8) = { nodes := [0, 1], edges := [] } := by
    unfold pruneEdges
    rw [hgF]
    simp [hlt]
  have hnoclique : ¬ (pruneEdges gF (3 / 8)).IsClique ({0, 1} : Finset ℕ) := by
    rw [hp]
    intro h
    obtain ⟨w, hw⟩ := h.2 0 (by simp) 1 (by simp) (by simp)
    simp [UGraph.weight] at hw
  have hw01 : gF.weight 1 0 = some boundaryWeight := rfl
  have hcl : gF.IsClique ({0, 1} : Finset ℕ) := by
    refine ⟨by simp [hgF], ?_⟩
    intro x hx y hy hne
    simp only [Finset.mem_insert, Finset.mem_singleton] at hx hy
    rcases hx with rfl | rfl <;> rcases hy with rfl | rfl
    · exact absurd rfl hne
    · exact ⟨boundaryWeight, rfl⟩
    · exact ⟨boundaryWeight, rfl⟩
    · exact absurd rfl hne
  refine ⟨_, gF, boundary_graph, boundary_graphF, ?_, ?_, ?_, ?_⟩
  · refine ⟨by simp, ⟨fun x hx => by simpa [hgF] using hcl.1 x hx, fun x hx y hy hxy =>
      (hadj x y).mp (hcl.2 x hx y hy hxy)⟩, Or.inr ?_⟩
    decide +kernel
  · intro doPrune
    obtain ⟨L, h1, -, h3⟩ := C49_any_arithmetic doubleOps Prob53 doubleOps_lawful
      (if doPrune then pruneEdges gF (3 / 8) else gF) (by split; exacts [prune_wf hwfF _, hwfF])
      (by split; exacts [prune_valid hval _, hval]) (3 / 8) order ho depth (by cases doPrune <;> simpa [hgF, pruneEdges] using hd)
    refine ⟨L.map fun e => e.1.toFinset, ?_, ?_⟩
    · unfold buildSampleSpaceF
      show (do let l ← enumerateCliques doubleOps _ _ order depth; _) = _
      rw [h1]
      rfl
    · intro hmem
      obtain ⟨⟨T, p⟩, hT, he⟩ := List.mem_map.mp hmem
      obtain ⟨-, hs, hc, hpp, hlen⟩ := (h3 T p).mp hT
      simp only at he hs hc hpp hlen
      rw [he] at hc
      have hT2 := sorted_pair hs he
      subst hT2
      cases doPrune with
      | true => exact hnoclique (by simpa using hc)
      | false =>
        have hval : orderedProb doubleOps gF [0, 1] = boundaryWeight := by
          simp only [orderedProb, orderedProbAux, extendAll, List.nil_append, List.foldl_nil, List.foldl_cons, hw01,
            Option.getD_some]
          show fl (1 * boundaryWeight) = _
          rw [one_mul]
          exact flp_of_float hprob.1
        rw [hpp] at hlen
        simp only [Bool.false_eq_true, if_false, hval] at hlen
        rcases hlen with h | h
        · simp at h
        · linarith
  · obtain ⟨L, h1, -, h3⟩ := C121_positions single singleOps Prob24 singleOps_lawful (pruneEdges gF (3 / 8))
      (prune_wf hwfF _) (by rw [hp]; simp) (by rw [hp]; intro e he; simp at he) (3 / 8) order ho depth
      (by rw [hp]; simpa using hd)
    refine ⟨L.map fun e => e.1.toFinset, ?_, ?_⟩
    · unfold buildSampleSpaceF
      show (do let l ← enumerateCliquesV2 single singleOps (pruneEdges gF (3 / 8)) _ order depth; _) = _
      rw [h1]
      rfl
    · intro hmem
      obtain ⟨⟨T, p⟩, hT, he⟩ := List.mem_map.mp hmem
      obtain ⟨-, hs, -, hc, -⟩ := (h3 T p).mp hT
      have hT2 := sorted_pair hs he
      subst hT2
      refine hnoclique ?_
      rw [hp] at hc ⊢
      simpa [UGraph.nodeAt] using hc
  · obtain ⟨L, h1, -, h3⟩ := C121_positions single singleOps Prob24 singleOps_lawful gF hwfF (by simp [hgF])
      (fun e he => prob24_single (hval e he).2) (3 / 8) order ho depth (by simpa [hgF] using hd)
    refine ⟨L.map fun e => e.1.toFinset, ?_, ?_⟩
    · unfold buildSampleSpaceF
      show (do let l ← enumerateCliquesV2 single singleOps gF _ order depth; _) = _
      rw [h1]
      rfl
    · refine List.mem_map.mpr ⟨([0, 1], 3 / 8), ?_, by simp⟩
      rw [h3]
      have hat : [0, 1].map gF.nodeAt = [0, 1] := rfl
      have h38 : single (3 / 8) = 3 / 8 := by
        unfold single
        exact flp_of_float ⟨3, -3, by norm_num, by norm_num⟩
      refine ⟨by simp, by decide, by simp [hgF], by rw [hat]; simpa using hcl, ?_, Or.inr (by rw [h38])⟩
      rw [hat]
      have hwc : (gF.castWeights single).weight 1 0 = some (3 / 8) := by
        rw [weight_cast, hw01, Option.map_some, hsingle]
      simp only [orderedProb, orderedProbAux, extendAll, List.nil_append, List.foldl_nil, List.foldl_cons, hwc,
        Option.getD_some]
      show _ = single (fl (1 * (3 / 8)))
      rw [one_mul, fl_eq_flp, flp_of_float (m := 52) ⟨3, -3, by norm_num, by norm_num⟩, h38]

/-! ### Examples -/

/-- The hypotheses of C129 are met by the rule of the running example and by the default tolerance. -/
example : ∃ b : BRule, klBranchF b = klBranch b := by
  obtain ⟨b, hb⟩ := example_bind
  exact ⟨b, (C129_kl exampleCSC exampleY exampleCSC_binary.toWF exampleY_binary.toWF rfl (by decide) _
    (by intro x hx; rw [Rule.mem_new_tail] at hx; revert x; decide) b hb).1⟩

example (Y : Cmp) (hY : Y.nnz < 2 ^ 40) (best : BRule) (hb : best.marginalCoverage [] ≤ Y.nnz) :
    shouldStopDivMaxF none (fl ((1 : ℕ) / (100 : ℕ))) Y [] best =
      shouldStopDivMax { lambd := 1, nTails := 1, nHeads := 1, nMaxRules := none, tolerance := 1 / 100 } Y [] best :=
  C129_stop { lambd := 1, nTails := 1, nHeads := 1, nMaxRules := none, tolerance := 1 / 100 } 1 100 (by norm_num)
    (by norm_num) Y [] best (by omega)

/-- The hypotheses of C130 are met by the example with three labels and the threshold 1/2, which is away from
the probabilities 1, 3/4, 3/4 and 9/16. -/
example (doPrune : Bool) (backend : Backend) (hb : backend ≠ .other) (order : Finset ℕ → List ℕ)
    (ho : Traverses order) : ∃ g gF space, buildGraph exampleLabels = .ok g ∧ buildGraphF exampleLabels = .ok gF ∧
      buildSampleSpaceF gF ((1 / 2 : ℚ) : ℝ) doPrune backend order 4 = .ok space ∧ space.Nodup ∧
      ∀ T, T ∈ space ↔ g.Probable (1 / 2) T := by
  refine C130_exact exampleLabels exampleLabels_binary (by decide) (1 / 2) (by norm_num) (by norm_num) doPrune
    backend hb order ho 4 (by decide) ?_
  intro g hg T hT hcl
  have hgr : buildGraph exampleLabels = .ok
    { nodes := [0, 1, 2], edges := [((0, 1), 1), ((0, 2), 3 / 4), ((1, 2), 3 / 4)] } := by decide +kernel
  rw [hgr] at hg
  cases hg
  have hsub : T ∈ ({0, 1, 2} : Finset ℕ).powerset := by
    rw [Finset.mem_powerset]
    intro x hx
    simpa using hcl.1 x hx
  have hpr : ∀ T ∈ ({0, 1, 2} : Finset ℕ).powerset, 2 ≤ T.card → T.card ≤ 3 ∧ 1 / 16 ≤ |UGraph.cliqueProb
      { nodes := [0, 1, 2], edges := [((0, 1), 1), ((0, 2), 3 / 4), ((1, 2), 3 / 4)] } T - 1 / 2| := by
    decide +kernel
  obtain ⟨h3, h16⟩ := hpr T hsub hT
  have h16R : (1 / 16 : ℝ) ≤ |((UGraph.cliqueProb
      { nodes := [0, 1, 2], edges := [((0, 1), 1), ((0, 2), 3 / 4), ((1, 2), 3 / 4)] } T : ℚ) : ℝ) -
      ((1 / 2 : ℚ) : ℝ)| := by
    have : ((1 / 16 : ℚ) : ℝ) ≤ ((|UGraph.cliqueProb
      { nodes := [0, 1, 2], edges := [((0, 1), 1), ((0, 2), 3 / 4), ((1, 2), 3 / 4)] } T - 1 / 2| : ℚ) : ℝ) :=
      Rat.cast_le.mpr h16
    rw [Rat.cast_abs, Rat.cast_sub] at this
    refine le_trans (le_of_eq ?_) this
    norm_num
  refine lt_of_lt_of_le ?_ h16R
  have hch : (T.card.choose 2 : ℝ) ≤ 3 := by
    have := Nat.choose_le_choose 2 h3
    exact_mod_cast this
  unfold roundingSlack
  split
  · nlinarith
  · have : (T.card.choose 2 : ℝ) * (3 / 2 ^ 24) ≤ 3 * (3 / 2 ^ 24) :=
      mul_le_mul_of_nonneg_right hch (by positivity)
    norm_num at this ⊢
    linarith
  · norm_num

/-- **C130.** A back end of another name raises `ValueError`, whatever the graph. -/
theorem C130_unknown_backend (g : UGraph ℝ) (alpha : ℝ) (doPrune : Bool) (order : Finset ℕ → List ℕ) (depth : ℕ) :
    buildSampleSpaceF g alpha doPrune .other order depth = .error .valueError := rfl

end Verif
