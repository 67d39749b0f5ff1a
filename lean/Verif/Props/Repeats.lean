/-
C155: when a learner selects a rule it has already selected.
-/
import Verif.Props.Tradeoff
import Verif.Props.Predict
import Verif.Lemmas.Approx
import Verif.Props.Candidate
import Verif.Props.Batch

namespace Verif

open Cmp

theorem areaDist_congr {a b : BRule} (h : area a = area b) (c : BRule) : areaDist a c = areaDist b c := by
  unfold areaDist
  rw [h]

theorem areaDist_zero {a b : BRule} (hne : (area a).Nonempty) (h : area a = area b) : areaDist a b = 0 := by
  unfold areaDist
  rw [← h, Finset.inter_self, Finset.union_self, div_self, sub_self]
  exact_mod_cast (Finset.card_pos.mpr hne).ne'

theorem areaDist_eq_zero {a b : BRule} (h : areaDist a b = 0) : area a = area b := by
  unfold areaDist at h
  have h1 : ((area a ∩ area b).card : ℝ) / ((area a ∪ area b).card : ℝ) = 1 := by linarith
  have hne : ((area a ∪ area b).card : ℝ) ≠ 0 := by
    intro h0
    rw [h0, div_zero] at h1
    exact zero_ne_one h1
  rw [div_eq_one_iff_eq hne] at h1
  have h2 : area a ∩ area b = area a ∪ area b :=
    Finset.eq_of_subset_of_card_le Finset.inter_subset_union (by exact_mod_cast h1.ge)
  exact Finset.Subset.antisymm
    (fun z hz => (Finset.mem_inter.mp (h2.symm ▸ Finset.mem_union_left _ hz)).2)
    (fun z hz => (Finset.mem_inter.mp (h2.symm ▸ Finset.mem_union_right _ hz)).1)

theorem newCells_zero {sel : List BRule} {b r : BRule} (hr : r ∈ sel) (h : area r = area b) : newCells sel b = 0 := by
  unfold newCells
  rw [Finset.card_eq_zero, Finset.sdiff_eq_empty_iff_subset]
  intro z hz
  rw [mem_covered]
  exact ⟨r, hr, by rw [h]; exact hz⟩

theorem klValue_nonneg {X Y : Cmp} (hn : X.nMajor = Y.nMajor) {b : BRule} (hb : BoundTo X Y b) : 0 ≤ klValue b := by
  obtain ⟨k, -, h0, h2⟩ := klReal_bound hn hb
  rw [klValue, h2]
  exact h0

/-- What a repetition says about the other candidates. -/
theorem repeat_tradeoff {w : ℕ → ℝ} (hw0 : w 0 = 0) (hw : ∀ n, 0 ≤ w n) {X Y : Cmp} (hn : X.nMajor = Y.nMajor)
    {sel cands : List BRule} (hc : ∀ b ∈ cands, BoundTo X Y b) {l : ℝ} (hl : 0 < l) {b r : BRule}
    (h : BestTradeoff (gain w sel) (fun b => distTo b sel) l cands b) (hr : r ∈ sel) (hbr : area r = area b)
    (hne : (area b).Nonempty) :
    (∀ c ∈ cands, distTo c sel ≤ distTo b sel ∧ gain w sel c ≤ l * (distTo b sel - distTo c sel)) ∧
    (sel.length ≤ 2 → ∀ c ∈ cands, gain w sel c = 0 ∧ distTo c sel = distTo b sel) ∧
    (sel.length = 1 → ∀ c ∈ cands, area c = area b) := by
  have hg : gain w sel b = 0 := by rw [gain, newCells_zero hr hbr, hw0, zero_mul]
  have hpos : ∀ c ∈ cands, 0 ≤ gain w sel c := fun c hcm => mul_nonneg (hw _) (klValue_nonneg hn (hc c hcm))
  have hall : ∀ c ∈ cands, distTo c sel ≤ distTo b sel ∧ gain w sel c ≤ l * (distTo b sel - distTo c sel) := by
    intro c hcm
    have h1 := h.2 c hcm
    rw [hg] at h1
    simp only at h1
    have h2 := hpos c hcm
    refine ⟨?_, by linarith⟩
    by_contra hlt
    rw [not_le] at hlt
    nlinarith
  have hsmall : sel.length ≤ 2 → ∀ c, distTo b sel ≤ distTo c sel := by
    intro hlen c
    have hself := areaDist_zero hne hbr.symm
    match sel, hlen, hr with
    | [s], _, hr =>
      rw [List.mem_singleton] at hr
      subst hr
      simp only [distTo, List.map_cons, List.map_nil, List.sum_cons, List.sum_nil, add_zero, hself]
      exact areaDist_nonneg _ _
    | [s, t], _, hr =>
      simp only [distTo, List.map_cons, List.map_nil, List.sum_cons, List.sum_nil, add_zero]
      rcases List.mem_cons.mp hr with e | e
      · subst e
        rw [hself, zero_add, ← areaDist_congr hbr]
        have := areaDist_triangle r c t
        rwa [areaDist_comm r c] at this
      · rw [List.mem_singleton] at e
        subst e
        rw [hself, add_zero, ← areaDist_congr hbr]
        have := areaDist_triangle r c s
        rw [areaDist_comm r c] at this
        linarith
  have htwo : sel.length ≤ 2 → ∀ c ∈ cands, gain w sel c = 0 ∧ distTo c sel = distTo b sel := by
    intro hlen c hcm
    have e : distTo c sel = distTo b sel := le_antisymm (hall c hcm).1 (hsmall hlen c)
    refine ⟨le_antisymm ?_ (hpos c hcm), e⟩
    have := (hall c hcm).2
    rwa [e, sub_self, mul_zero] at this
  refine ⟨hall, htwo, fun hlen c hcm => ?_⟩
  have e := (htwo (by omega) c hcm).2
  match sel, hlen, hr with
  | [s], _, hr =>
    rw [List.mem_singleton] at hr
    subst hr
    simp only [distTo, List.map_cons, List.map_nil, List.sum_cons, List.sum_nil, add_zero] at e
    rw [areaDist_zero hne hbr.symm] at e
    rw [areaDist_eq_zero e, hbr]

/-- Rules bound to the same data are equal when they have the same items. -/
theorem bound_unique {X Y : Cmp} (hn : X.nMajor = Y.nMajor) {a b : BRule} (ha : BoundTo X Y a) (hb : BoundTo X Y b)
    (h : a.toRule = b.toRule) : a = b := by
  rw [ha.eq_boundRule hn, hb.eq_boundRule hn, h]

theorem learnRun_supported {env : LearnEnv} (he : env.Good) {X Y : Cmp} (hD : LearnData env X Y) {pf pl : ℚ} {p : Params}
    {lr : Learner} (hlr : LearnerTotal X Y lr) {fuel : ℕ} {st : LearnState}
    (hx : (learnRun env p lr (LearnObj.new pf pl) X Y fuel).Outcome (.ok (some st))) :
    ∀ b ∈ st.selected, Supported X Y b := by
  obtain ⟨s, hs, -, hinv⟩ := new_inv he hD pf pl
  rw [learnRun_new hs] at hx
  rcases learnLoop_outcome he hD hlr fuel _ _ hinv hx with e | ⟨st', e, hi, -⟩ | e | ⟨e, -⟩ | ⟨e, -⟩
  · cases e
  · cases e
    exact hi.selected
  all_goals cases e

/-- **C155** Suppose that, with a positive `lambd`, a learner chooses a rule it has already selected. Then every
candidate is at most as far from the selected rules as the repeated one, and its gain is at most `lambd` times the
difference. If at most two rules were selected, no candidate had any gain at all, and all are equally far; if only one
was, every candidate covers exactly the same label occurrences. `GreedyDivMax` (both rounds), `GreedyDivMaxV2`; and
`GreedyDivMaxV3` with its own gain. -/
theorem C155_repeat (X Y : Cmp) (hX : X.WF) (hY : Y.WF) (hn : X.nMajor = Y.nMajor) (sel cands : List BRule)
    (hs : ∀ b ∈ sel, BoundTo X Y b) (hc : ∀ b ∈ cands, Supported X Y b) {σ ω : Type} (S : Samplers σ ω) (l : ℝ) (hl : 0 < l)
    (b : BRule) (hrep : b.toRule ∈ sel.map BRule.toRule) :
    (selectBest S (objectiveOfRule qualityOfRule l sel) cands = .ok b →
      (∀ c ∈ cands, distTo c sel ≤ distTo b sel ∧
        gain (fun n => n) sel c ≤ l * (distTo b sel - distTo c sel)) ∧
      (sel.length ≤ 2 → ∀ c ∈ cands, gain (fun n => n) sel c = 0 ∧ distTo c sel = distTo b sel) ∧
      (sel.length = 1 → ∀ c ∈ cands, area c = area b)) ∧
    (selectBest S (objectiveOfRule qualityOfRuleV3 l sel) cands = .ok b →
      (∀ c ∈ cands, distTo c sel ≤ distTo b sel ∧
        gain (fun n => Real.sqrt n) sel c ≤ l * (distTo b sel - distTo c sel)) ∧
      (sel.length ≤ 2 → ∀ c ∈ cands, gain (fun n => Real.sqrt n) sel c = 0 ∧ distTo c sel = distTo b sel) ∧
      (sel.length = 1 → ∀ c ∈ cands, area c = area b)) := by
  have hs' := fun b hb => (hs b hb).2.2
  have hc' := fun b hb => (hc b hb).1
  obtain ⟨r, hr, hrb⟩ := List.mem_map.mp hrep
  constructor <;> intro h
  · have ht := best_tradeoff (fun b hb => quality_gain hn sel (hc' b hb)) hs' (fun b hb => (hc' b hb).2.2) h
    have e := bound_unique hn (hs r hr) (hc' b ht.1) hrb
    exact repeat_tradeoff (by simp) (by simp) hn hc' hl ht hr (by rw [e]) ((hc b ht.1).area_nonempty hX hY hn)
  · have ht := best_tradeoff (fun b hb => qualityV3_gain hn sel (hc' b hb)) hs' (fun b hb => (hc' b hb).2.2) h
    have e := bound_unique hn (hs r hr) (hc' b ht.1) hrb
    exact repeat_tradeoff (by simp) (fun n => Real.sqrt_nonneg _) hn hc' hl ht hr (by rw [e])
      ((hc b ht.1).area_nonempty hX hY hn)

/-- **C155** The first round of a new `GreedyCFTPDivMax` without a rule budget and with a tolerance of at least 0 never
selects a rule twice, in any execution: every rule covers a label occurrence that no earlier one does. -/
theorem C155_first_round (env : LearnEnv) (he : env.Good) (X Y : Cmp) (hD : LearnData env X Y) (pf pl : ℚ) (p : Params)
    (hp : p.nMaxRules = none) (ht : 0 ≤ p.tolerance) (fuel : ℕ) (st : LearnState)
    (hx : (learnRun env p (learnerDivMax p Y) (LearnObj.new pf pl) X Y fuel).Outcome (.ok (some st))) :
    (∀ i (hi : i < st.selected.length), ∃ z ∈ area st.selected[i], z ∉ covered (st.selected.take i)) ∧
    (st.selected.map BRule.toRule).Nodup := by
  have hnew : ∀ i (hi : i < st.selected.length), ∃ z ∈ area st.selected[i], z ∉ covered (st.selected.take i) := by
    intro i hi
    obtain ⟨-, hstop⟩ := C24_end_to_end env he X Y hD pf pl p _ 0 (Or.inl rfl) fuel st hx i hi
    by_contra hno
    push Not at hno
    have h0 : st.selected[i].marginalCoverage (st.selected.take i) = 0 := by
      rw [marginalCoverage_eq, Finset.card_eq_zero, Finset.sdiff_eq_empty_iff_subset]
      exact fun z hz => hno z hz
    simp only [learnerDivMax, shouldStopDivMax, hp, marginalCoverageRatio, h0, pyDiv] at hstop
    split at hstop
    · cases hstop
    · simp [bind, Except.bind, pure, Except.pure] at hstop
      linarith
  refine ⟨hnew, ?_⟩
  have hb : ∀ b ∈ st.selected, BoundTo X Y b := fun b hb =>
    (learnRun_supported he hD (total_DivMax hD.features.toWF hD.labels hD.rows p) hx b hb).1
  rw [List.nodup_iff_injective_get]
  have key : ∀ i j (hi : i < st.selected.length) (hj : j < st.selected.length), i < j →
      st.selected[i].toRule ≠ st.selected[j].toRule := by
    intro i j hi hj hij e
    have e' := bound_unique hD.rows (hb _ (List.getElem_mem hi)) (hb _ (List.getElem_mem hj)) e
    obtain ⟨z, hz, hno⟩ := hnew j hj
    apply hno
    rw [mem_covered]
    exact ⟨st.selected[i], List.mem_take_iff_getElem.mpr ⟨i, by omega, rfl⟩, by rw [e']; exact hz⟩
  rintro ⟨i, hi⟩ ⟨j, hj⟩ e
  simp only [List.get_eq_getElem, List.getElem_map] at e
  rw [List.length_map] at hi hj
  rcases lt_trichotomy i j with h | h | h
  · exact absurd e (key i j hi hj h)
  · exact Fin.ext h
  · exact absurd e.symm (key j i hj hi h)

/-- **C155** In every execution of a fit of a new classifier with a positive `lambd`: if the `i`-th rule was already
selected before, then it was chosen from a batch in which every candidate is at most as far from the selected rules and
gains at most `lambd` times the difference; so if `i ≤ 2`, counting from 0, no candidate of the batch had any gain.
First round of `GreedyCFTPDivMax` and `GreedyCFTPDivMaxV2`, and `GreedyCFTPDivMaxV3`, with their respective gains. -/
theorem C155_fit (env : LearnEnv) (he : env.Good) (X Y : Cmp) (hD : LearnData env X Y) (pf pl : ℚ) (p : Params)
    (hl : 0 < p.lambd) (lr : Learner) (w : ℕ → ℝ) (k : ℕ)
    (hlr : (lr = learnerDivMax p Y ∧ w = fun n : ℕ => (n : ℝ)) ∨ p.nMaxRules = some k ∧
      (lr = learnerV2 p ∧ (w = fun n : ℕ => (n : ℝ)) ∨ lr = learnerV3 p ∧ w = fun n : ℕ => Real.sqrt (n : ℝ)))
    (fuel : ℕ) (st : LearnState)
    (hx : (learnRun env p lr (LearnObj.new pf pl) X Y fuel).Outcome (.ok (some st))) (i : ℕ) (hi : i < st.selected.length)
    (hrep : st.selected[i].toRule ∈ (st.selected.take i).map BRule.toRule) :
    ∃ s h batch h', TailAfter env.toHeadEnv pl true Y ((st.selected.take i).map (updateOf env)) s ∧
      (learnGen env X X.flip Y.flip p.nHeads s p.nTails h []).Outcome (.ok (.ok batch, h')) ∧ st.selected[i] ∈ batch ∧
      (∀ c ∈ batch, distTo c (st.selected.take i) ≤ distTo st.selected[i] (st.selected.take i) ∧
        gain w (st.selected.take i) c ≤
          p.lambd * (distTo st.selected[i] (st.selected.take i) - distTo c (st.selected.take i))) ∧
      (i ≤ 2 → ∀ c ∈ batch, gain w (st.selected.take i) c = 0) ∧
      (i = 1 → ∀ c ∈ batch, area c = area st.selected[i]) := by
  have hXw := hD.features.toWF
  have hYw := hD.labels.toWF
  have htot : LearnerTotal X Y lr := by
    rcases hlr with ⟨rfl, -⟩ | ⟨hk, ⟨rfl, -⟩ | ⟨rfl, -⟩⟩
    · exact total_DivMax hXw hD.labels hD.rows p
    · exact total_V2 hXw hYw hD.rows hk
    · exact total_V3 hXw hYw hD.rows hk
  have hsup := learnRun_supported he hD htot hx
  obtain ⟨⟨s, h, batch, h', hta, hh, hg, hgc⟩, -⟩ := C24_end_to_end env he X Y hD pf pl p lr k (by tauto) fuel st hx i hi
  have hb : ∀ c ∈ batch, Supported X Y c := fun c hc =>
    have h1 := ((C70_candidates env he X Y hD pl true _ s hta h hh _ _ _ _ hg).1 batch rfl).2 c hc
    ⟨h1.1, h1.2.1⟩
  have hsel : ∀ b ∈ st.selected.take i, BoundTo X Y b := fun b hb => (hsup b (List.mem_of_mem_take hb)).1
  obtain ⟨r, hr, hrb⟩ := List.mem_map.mp hrep
  have e := bound_unique hD.rows (hsel r hr) (hb _ hgc.1).1 hrb
  have ht : BestTradeoff (gain w (st.selected.take i)) (fun b => distTo b (st.selected.take i)) p.lambd batch
      st.selected[i] ∧ w 0 = 0 ∧ ∀ n, 0 ≤ w n := by
    have hs' := fun b hb => (hsel b hb).2.2
    have hc' := fun b h => (hb b h).1.2.2
    rcases hlr with ⟨rfl, rfl⟩ | ⟨hk, ⟨rfl, rfl⟩ | ⟨rfl, rfl⟩⟩
    · exact ⟨choice_tradeoff (fun b h => quality_gain hD.rows _ (hb b h).1) hs' hc' hgc, by simp, by simp⟩
    · exact ⟨choice_tradeoff (fun b h => quality_gain hD.rows _ (hb b h).1) hs' hc' hgc, by simp, by simp⟩
    · exact ⟨choice_tradeoff (fun b h => qualityV3_gain hD.rows _ (hb b h).1) hs' hc' hgc, by simp,
        fun n => Real.sqrt_nonneg _⟩
  obtain ⟨h1, h2, h3⟩ := repeat_tradeoff ht.2.1 ht.2.2 hD.rows (fun b h => (hb b h).1) hl ht.1 hr (by rw [e])
    ((hb _ hgc.1).area_nonempty hXw hYw hD.rows)
  have hlen : (st.selected.take i).length = i := by rw [List.length_take]; omega
  exact ⟨s, h, batch, h', hta, hg, hgc.1, h1, fun h c hc => (h2 (by omega) c hc).1, fun h => h3 (by omega)⟩

/-! ### From the fourth rule on a learner may repeat itself although another candidate gains -/

/-- Features: 0 and 1 in rows 0 to 3, 2 in rows 0 to 4, 3 in row 5. -/
def repX : Cmp :=
  { nMajor := 6, nMinor := 4, indptr := [0, 3, 6, 9, 12, 13, 14],
    indices := [0, 1, 2, 0, 1, 2, 0, 1, 2, 0, 1, 2, 2, 3], data := [1, 1, 1, 1, 1, 1, 1, 1, 1, 1, 1, 1, 1, 1] }

/-- Labels: 0 in rows 0 to 4, 1 in row 5. -/
def repY : Cmp :=
  { nMajor := 6, nMinor := 2, indptr := [0, 1, 2, 3, 4, 5, 6], indices := [0, 0, 0, 0, 0, 1], data := [1, 1, 1, 1, 1, 1] }

/-- The rule with one feature and one label. -/
def repRule (f l : ℤ) : BRule := boundRule ⟨[f], [l]⟩ repX.flip repY.flip

theorem repRule_bound {f l : ℤ} (hf : 0 ≤ f ∧ f < 4) (hl : 0 ≤ l ∧ l < 2) : BoundTo repX repY (repRule f l) := by
  have e : (⟨[f], [l]⟩ : Rule) = Rule.new [f] [l] := by simp [Rule.new]
  unfold repRule
  rw [e]
  refine boundTo_mk (X := repX) (Y := repY) (head := [f]) (tail := [l]) rfl (by simp) (by simp) (by simp) (by simpa [repX] using hf) (by simpa [repY] using hl) ?_
  obtain ⟨h1, h2⟩ := hf
  interval_cases f
  · exact ⟨0, by decide⟩
  · exact ⟨0, by decide⟩
  · exact ⟨0, by decide⟩
  · exact ⟨5, by decide⟩

theorem repRule_kl : 0 < klValue (repRule 2 0) := by
  obtain ⟨⟨head, tail, hbind⟩, h0, -⟩ := repRule_bound (f := 2) (l := 0) (by decide) (by decide)
  have ht := bindDataset_toRule hbind
  obtain ⟨p, q, k, hp, hq, hk, hk0, hz, -⟩ := C12_KL repX.flip repY.flip (wf_flip _) (wf_flip _) rfl head tail (by
    intro x hx
    apply h0
    rw [ht]; exact (Rule.mem_new_tail _ _ _).mpr hx) _ hbind
  have hp' : (repRule 2 0).precision = .ok 1 := by
    have h1 : (repRule 2 0).support.card = 5 := by decide
    have h2 : (repRule 2 0).headSupport.card = 5 := by decide
    simp [BRule.precision, pyDiv, h1, h2]
  have hq' : (repRule 2 0).baseRate = .ok (5 / 6) := by
    have h1 : (repRule 2 0).tailSupport.card = 5 := by decide
    have h2 : (repRule 2 0).N = 6 := rfl
    simp [BRule.baseRate, pyDiv, h1, h2]
  rw [hp'] at hp
  rw [hq'] at hq
  cases hp
  cases hq
  rw [klValue, hk]
  refine lt_of_le_of_ne hk0 fun e => ?_
  have := hz.mp e.symm
  norm_num at this

/-- **C155** Beyond the third rule the same need not hold: there are data, three different selected rules and a
candidate that covers something new with a positive gain, such that for every large enough `lambd` the learner chooses a
rule that it has already selected. -/
theorem C155_repeat_beyond : ∃ (X Y : Cmp) (sel cands : List BRule), X.Binary ∧ Y.Binary ∧ X.nMajor = Y.nMajor ∧
    (∀ b ∈ sel ++ cands, Supported X Y b) ∧ sel.length = 3 ∧ (sel.map BRule.toRule).Nodup ∧
    (∃ c ∈ cands, 0 < newCells sel c ∧ 0 < gain (fun n => n) sel c) ∧
    ∃ L : ℝ, ∀ l > L, ∀ (σ ω : Type) (S : Samplers σ ω) (b : BRule),
      selectBest S (objectiveOfRule qualityOfRule l sel) cands = .ok b → b.toRule ∈ sel.map BRule.toRule := by
  refine ⟨repX, repY, [repRule 3 1, repRule 0 0, repRule 1 0], [repRule 3 1, repRule 2 0], ?_, ?_, rfl, ?_, rfl, ?_, ?_, ?_⟩
  · exact { len_indptr := by decide, ptr_zero := by decide, ptr_mono := by decide, ptr_last := by decide,
            len_data := by decide, idx_lt := by decide, data_one := by decide, nodup := by decide }
  · exact { len_indptr := by decide, ptr_zero := by decide, ptr_mono := by decide, ptr_last := by decide,
            len_data := by decide, idx_lt := by decide, data_one := by decide, nodup := by decide }
  · intro b hb
    simp only [List.cons_append, List.nil_append, List.mem_cons, List.not_mem_nil, or_false] at hb
    rcases hb with rfl | rfl | rfl | rfl | rfl <;>
      exact ⟨repRule_bound (by decide) (by decide), by decide⟩
  · decide
  · have hc : newCells [repRule 3 1, repRule 0 0, repRule 1 0] (repRule 2 0) = 1 := by decide
    refine ⟨repRule 2 0, by simp, by rw [hc]; exact one_pos, ?_⟩
    unfold gain
    rw [hc]
    simpa using repRule_kl
  · have hb : ∀ b ∈ [repRule 3 1, repRule 2 0], BoundTo repX repY b := by
      intro b hb
      simp only [List.mem_cons, List.not_mem_nil, or_false] at hb
      rcases hb with rfl | rfl <;> exact repRule_bound (by decide) (by decide)
    have hs : ∀ b ∈ [repRule 3 1, repRule 0 0, repRule 1 0], b.tail.Nodup := by
      intro b hb
      simp only [List.mem_cons, List.not_mem_nil, or_false] at hb
      rcases hb with rfl | rfl | rfl <;> decide
    obtain ⟨L, hL⟩ := tradeoff_large (gain (fun n => n) [repRule 3 1, repRule 0 0, repRule 1 0])
      (fun b => distTo b [repRule 3 1, repRule 0 0, repRule 1 0]) [repRule 3 1, repRule 2 0]
    refine ⟨L, fun l hl σ ω S b h => ?_⟩
    have ht := best_tradeoff (fun b h => quality_gain (X := repX) (Y := repY) rfl _ (hb b h)) hs
      (fun b h => (hb b h).2.2) h
    have hm := ht.1
    simp only [List.mem_cons, List.not_mem_nil, or_false] at hm
    rcases hm with rfl | rfl
    · simp
    · exfalso
      have h1 := (hL l hl _ ht (repRule 3 1) (by simp)).1
      have d1 : areaDist (repRule 3 1) (repRule 3 1) = 0 := areaDist_zero (by decide) rfl
      have d2 : areaDist (repRule 3 1) (repRule 0 0) = 1 := by
        have : area (repRule 3 1) ∩ area (repRule 0 0) = ∅ := by decide
        simp [areaDist, this]
      have d3 : areaDist (repRule 3 1) (repRule 1 0) = 1 := by
        have : area (repRule 3 1) ∩ area (repRule 1 0) = ∅ := by decide
        simp [areaDist, this]
      have d4 : areaDist (repRule 2 0) (repRule 3 1) ≤ 1 := areaDist_le_one _ _
      have d5 : areaDist (repRule 2 0) (repRule 0 0) = 1 - 4 / 5 := by
        have h1 : (area (repRule 2 0) ∩ area (repRule 0 0)).card = 4 := by decide
        have h2 : (area (repRule 2 0) ∪ area (repRule 0 0)).card = 5 := by decide
        simp [areaDist, h1, h2]
      have d6 : areaDist (repRule 2 0) (repRule 1 0) = 1 - 4 / 5 := by
        have h1 : (area (repRule 2 0) ∩ area (repRule 1 0)).card = 4 := by decide
        have h2 : (area (repRule 2 0) ∪ area (repRule 1 0)).card = 5 := by decide
        simp [areaDist, h1, h2]
      simp only [distTo, List.map_cons, List.map_nil, List.sum_cons, List.sum_nil, d1, d2, d3, d5, d6] at h1
      norm_num at h1
      linarith

/-! ### One candidate per iteration -/

theorem addHeads_single {Xc Yc : Cmp} {T : List ℤ} {hs : List (Option (List ℤ))} (hl : hs.length = 1) {out : List BRule}
    (h : addHeads Xc Yc T hs [] = .ok out) : out.length = 1 := by
  match hs, hl with
  | [none], _ => cases h
  | [some H], _ =>
    simp only [addHeads, List.any_nil, Bool.false_eq_true, if_false, bind, Except.bind] at h
    split at h
    · cases h
    · cases h
      rfl

/-- One tail with one head: the batch has one rule. -/
theorem learnGen_single {env : LearnEnv} (he : env.Good) {X Y : Cmp} (hD : LearnData env X Y) {pl : ℚ}
    {us : List (List ℕ × List ℤ)} {s : UState} (hs : TailAfter env.toHeadEnv pl true Y us s) {h : HeadSampler}
    (hh : HeadReach env.toHeadEnv X h) {out : List BRule} {h' : HeadSampler}
    (hx : (learnGen env X X.flip Y.flip 1 s 1 h []).Outcome (.ok (.ok out, h'))) : out.length = 1 := by
  rw [learnGen, RandR.bind_eq, RandR.outcome_bind] at hx
  rcases hx with ⟨t, ht, hx⟩ | ⟨e, -, hx⟩
  swap
  · cases hx
  rw [outcome_orRaise] at hx
  rcases hx with ⟨T, rfl, hx⟩ | ⟨e, rfl, hx⟩
  swap
  · cases hx
  rw [outcome_orRaise] at hx
  rcases hx with ⟨y, hy, hx⟩ | ⟨e, -, hx⟩
  swap
  · cases hx
  rw [outcome_orRaise] at hx
  rcases hx with ⟨h1, hf, hx⟩ | ⟨e, -, hx⟩
  swap
  · cases hx
  rw [RandR.bind_eq, RandR.outcome_bind] at hx
  rcases hx with ⟨q, hq, hx⟩ | ⟨e, -, hx⟩
  swap
  · cases hx
  rw [outcome_attempt] at hq
  obtain ⟨r, hq, e⟩ := hq
  cases e
  obtain ⟨hs', rfl, hlen, -⟩ := headSample_outcome he.heads hD.features hD.depthX hh hf 1 q hq
  rw [outcome_orRaise] at hx
  rcases hx with ⟨a, ha, hx⟩ | ⟨e, e', -⟩
  swap
  · cases e'
  cases ha
  rw [outcome_orRaise] at hx
  rcases hx with ⟨out1, hout, hx⟩ | ⟨e, -, hx⟩
  swap
  · cases hx
  rw [learnGen] at hx
  cases hx
  exact addHeads_single (by simpa using hlen) hout

/-- The law of one iteration with one tail and one head, while the stopping test fails. -/
theorem one_candidate {env : LearnEnv} (he : env.Good) {X Y : Cmp} (hD : LearnData env X Y) {pf pl : ℚ} {p : Params}
    (hT1 : p.nTails = 1) (hH1 : p.nHeads = 1) {lr : Learner} (hlr : LearnerTotal X Y lr) {st : LearnState}
    (hstop : ∀ b, lr.stop st.selected b = .ok false) (hsel : ∀ b ∈ st.selected, Supported X Y b)
    (hta : TailAfter env.toHeadEnv pl true Y (st.selected.map (updateOf env)) st.sampler.1)
    (hh : HeadReach env.toHeadEnv X st.sampler.2) (ht : st.sampler.2.tight = true) (hm : st.sampler.2.minProba = pf)
    (hpos : 0 < ∑ T ∈ samplesOf Y pl, openArea Y (st.selected.map (updateOf env)) T)
    {H : Finset ℤ} (hH : H ∈ samplesOf X pf) {T : Finset ℤ} (hT : T ∈ samplesOf Y pl) :
    (learnIter env p lr X X.flip Y.flip st).probOf (fun x => ∃ st' b,
        x = .ok (.next st') ∧ st'.selected = st.selected ++ [b] ∧ b.head.toFinset = H ∧ b.tail.toFinset = T) =
      tailChance Y pl (st.selected.map (updateOf env)) T * headChance X Y pf T H := by
  classical
  rw [← C123_one_rule env he X Y hD pf pl _ _ hta hpos _ hh ht hm H hH T hT]
  unfold RandR.probOf learnIter
  rw [RandR.bind_eq, RandR.expect_bind, hT1, hH1]
  refine RandR.expect_congr (learnGen_proper _ _ _ _ _ _ _ _ _) fun x hx => ?_
  obtain ⟨g, h', rfl, -, hcase⟩ := learnGen_outcome he hD hta 1 1 _ [] x hh (by simp) hx
  rcases hcase with ⟨out, rfl, hsup, -⟩ | ⟨rfl, -⟩ | rfl | ⟨rfl, -⟩
  · have hone := learnGen_single he hD hta hh hx
    obtain ⟨b, rfl⟩ := List.length_eq_one_iff.mp hone
    have hb := hsup b (by simp)
    obtain ⟨v, hv⟩ := hlr.objective st.selected b hsel hb
    obtain ⟨s', hs', -⟩ := tailAfter_update he hD hta hb.1
    have hord : env.setOrder [b] = [b] := List.perm_singleton.mp (env.setOrder_perm [b])
    have hch : learnChoose env lr st h' [b] =
        .ok (.next { sampler := (s', h'), selected := st.selected ++ [b], pool := poolUnion st.pool [b] }) := by
      unfold learnChoose
      rw [hord]
      simp only [pyMax, pyMaxLoop, hv, bind, Except.bind, hstop, hs', pure, Except.pure]
      rfl
    change (if (∃ st' b', learnChoose env lr st h' [b] = .ok (.next st') ∧ _) then (1 : ℝ) else 0) = _
    rw [hch]
    refine if_congr ⟨?_, ?_⟩ rfl rfl
    · rintro ⟨st', b', e, hse, h1, h2⟩
      cases e
      have : b = b' := by simpa using hse
      subst this
      exact ⟨[b], h', rfl, b, by simp, h1, h2⟩
    · rintro ⟨batch, h'', e, b', hb', h1, h2⟩
      cases e
      rw [List.mem_singleton] at hb'
      subst hb'
      exact ⟨_, b', rfl, rfl, h1, h2⟩
  all_goals
    refine if_congr ⟨?_, ?_⟩ rfl rfl
    · rintro ⟨st', b', e, -⟩
      cases e
    · rintro ⟨batch, h'', e, -⟩
      cases e

/-- **C155** With one tail and one head per iteration the objective decides nothing: in every reachable state in which
the budget is not used up, the next rule is `H → T` with the tail's share of the uncovered area times the probability of
the head, whether or not that rule is already selected. -/
theorem C155_one_candidate (env : LearnEnv) (he : env.Good) (X Y : Cmp) (hD : LearnData env X Y) (pf pl : ℚ) (p : Params)
    (hT1 : p.nTails = 1) (hH1 : p.nHeads = 1) (k : ℕ) (hk : p.nMaxRules = some k) (v3 : Bool) (st : LearnState)
    (hsel : ∀ b ∈ st.selected, Supported X Y b) (hlen : st.selected.length < k)
    (hta : TailAfter env.toHeadEnv pl true Y (st.selected.map (updateOf env)) st.sampler.1)
    (hh : HeadReach env.toHeadEnv X st.sampler.2) (ht : st.sampler.2.tight = true) (hm : st.sampler.2.minProba = pf)
    (hpos : 0 < ∑ T ∈ samplesOf Y pl, openArea Y (st.selected.map (updateOf env)) T)
    (H : Finset ℤ) (hH : H ∈ samplesOf X pf) (T : Finset ℤ) (hT : T ∈ samplesOf Y pl) :
    (learnIter env p (if v3 then learnerV3 p else learnerV2 p) X X.flip Y.flip st).probOf (fun x => ∃ st' b,
        x = .ok (.next st') ∧ st'.selected = st.selected ++ [b] ∧ b.head.toFinset = H ∧ b.tail.toFinset = T) =
      tailChance Y pl (st.selected.map (updateOf env)) T * headChance X Y pf T H := by
  have hXw := hD.features.toWF
  have hYw := hD.labels.toWF
  have hlr : LearnerTotal X Y (if v3 then learnerV3 p else learnerV2 p) := by
    split
    · exact total_V3 hXw hYw hD.rows hk
    · exact total_V2 hXw hYw hD.rows hk
  have hstop : ∀ b, (if v3 then learnerV3 p else learnerV2 p).stop st.selected b = .ok false := by
    intro b
    have : shouldStopV2 p st.selected b = .ok false := by
      simp only [shouldStopV2, hk]
      rw [decide_eq_false (by omega)]
    cases v3 <;> exact this
  exact one_candidate he hD hT1 hH1 hlr hstop hsel hta hh ht hm hpos hH hT

/-- **C155** So with one candidate per iteration a selected rule is selected again with positive probability as soon as
a row carries its tail with a label that no selected rule covers there, and a row with head and tail and a row with
neither exist. -/
theorem C155_again (env : LearnEnv) (he : env.Good) (X Y : Cmp) (hD : LearnData env X Y) (pf pl : ℚ) (p : Params)
    (hT1 : p.nTails = 1) (hH1 : p.nHeads = 1) (k : ℕ) (hk : p.nMaxRules = some k) (v3 : Bool) (st : LearnState)
    (hsel : ∀ b ∈ st.selected, Supported X Y b) (hlen : st.selected.length < k)
    (hta : TailAfter env.toHeadEnv pl true Y (st.selected.map (updateOf env)) st.sampler.1)
    (hh : HeadReach env.toHeadEnv X st.sampler.2) (ht : st.sampler.2.tight = true) (hm : st.sampler.2.minProba = pf)
    (r : BRule) (hr : r ∈ st.selected) (hH : r.head.toFinset ∈ samplesOf X pf) (hT : r.tail.toFinset ∈ samplesOf Y pl)
    (i : ℕ) (hi : RowContains Y i r.tail.toFinset) (l : ℤ) (hl : l ∈ r.tail)
    (hnew : ∀ b ∈ st.selected, ¬ (i ∈ b.support ∧ l ∈ b.tail))
    (hp : 0 < rulePairs X Y r.tail.toFinset r.head.toFinset) :
    0 < (learnIter env p (if v3 then learnerV3 p else learnerV2 p) X X.flip Y.flip st).probOf (fun x => ∃ st' b,
        x = .ok (.next st') ∧ st'.selected = st.selected ++ [b] ∧ b.head.toFinset = r.head.toFinset ∧
        b.tail.toFinset = r.tail.toFinset) := by
  classical
  have hiY : i < Y.nMajor := by
    obtain ⟨j, -, hj⟩ := hi l (by simpa using hl)
    exact Stored.major_lt hD.labels.toWF hj
  have ha : 0 < openArea Y (st.selected.map (updateOf env)) r.tail.toFinset := by
    unfold openArea
    refine Finset.sum_pos' (fun _ _ => by positivity) ⟨i, Finset.mem_range.mpr hiY, ?_⟩
    rw [if_pos hi, Finset.card_pos]
    refine ⟨l, ?_⟩
    rw [uncoveredPart, Finset.mem_filter]
    refine ⟨by simpa using hl, ?_⟩
    rintro ⟨u, hu, h1, h2⟩
    obtain ⟨b, hb, rfl⟩ := List.mem_map.mp hu
    refine hnew b hb ⟨?_, ?_⟩
    · exact ((he.heads.1 b.support).2 i).mp h1
    · exact List.mem_toFinset.mp (((he.ints b.tail.toFinset).2 l).mp h2)
  have hpos : 0 < ∑ T ∈ samplesOf Y pl, openArea Y (st.selected.map (updateOf env)) T :=
    Finset.sum_pos' (fun _ _ => by positivity) ⟨_, hT, ha⟩
  rw [C155_one_candidate env he X Y hD pf pl p hT1 hH1 k hk v3 st hsel hlen hta hh ht hm hpos _ hH _ hT]
  refine mul_pos ?_ (headChance_pos hH hp)
  unfold tailChance
  exact div_pos (by exact_mod_cast ha) (by exact_mod_cast hpos)

/-- C155 applied: with a budget of two or more rules, `f0 → l0` can be selected twice in a row on `repX`, `repY`. -/
example (pf pl : ℚ) (p : Params) (hT1 : p.nTails = 1) (hH1 : p.nHeads = 1) (k : ℕ) (hk : p.nMaxRules = some k)
    (hk2 : 1 < k) : ∃ st : LearnState, st.selected = [repRule 0 0] ∧
      0 < (learnIter (someLearnEnv 10) p (if false then learnerV3 p else learnerV2 p) repX repX.flip repY.flip st).probOf
        (fun x => ∃ st' b, x = .ok (.next st') ∧ st'.selected = st.selected ++ [b] ∧
          b.head.toFinset = (repRule 0 0).head.toFinset ∧ b.tail.toFinset = (repRule 0 0).tail.toFinset) := by
  classical
  have he := someLearnEnv_good 10
  have hX : repX.Binary :=
    { len_indptr := by decide, ptr_zero := by decide, ptr_mono := by decide, ptr_last := by decide,
      len_data := by decide, idx_lt := by decide, data_one := by decide, nodup := by decide }
  have hY : repY.Binary :=
    { len_indptr := by decide, ptr_zero := by decide, ptr_mono := by decide, ptr_last := by decide,
      len_data := by decide, idx_lt := by decide, data_one := by decide, nodup := by decide }
  have hD : LearnData (someLearnEnv 10) repX repY :=
    ⟨hX, hY, rfl, by decide, by decide, by decide, by decide, by decide⟩
  have hb : BoundTo repX repY (repRule 0 0) := repRule_bound (by decide) (by decide)
  obtain ⟨s, -, hs, -⟩ := new_inv he hD pf pl
  obtain ⟨s', -, hs'⟩ := tailAfter_update he hD hs hb
  have h0 : (repRule 0 0).head.toFinset = {0} := by decide
  have t0 : (repRule 0 0).tail.toFinset = {0} := by decide
  have row : ∀ (M : Cmp) (i : ℕ), 0 ∈ M.segIdx i → RowContains M i {0} := by
    intro M i h x hx
    rw [Finset.mem_singleton] at hx
    subst hx
    exact ⟨0, rfl, by rw [← Cmp.mem_segIdx]; exact h⟩
  have norow : ∀ (M : Cmp) (i : ℕ), 0 ∉ M.segIdx i → ¬ RowContains M i {0} := by
    intro M i hno h
    obtain ⟨j, e, hj⟩ := h 0 (by simp)
    have : j = 0 := by exact_mod_cast e.symm
    subst this
    rw [← Cmp.mem_segIdx] at hj
    exact hno hj
  let st : LearnState := { sampler := (s', HeadSampler.init true pf true), selected := [repRule 0 0], pool := [] }
  refine ⟨st, rfl, ?_⟩
  refine C155_again _ he repX repY hD pf pl p hT1 hH1 k hk false st ?_ hk2 hs' (.init true pf true) rfl
    rfl (repRule 0 0) (List.mem_singleton.mpr rfl) ?_ ?_ 4 ?_ 0 (by decide) ?_ ?_
  · intro b h
    rw [List.mem_singleton] at h
    subst h
    exact ⟨hb, by decide⟩
  · rw [h0]
    exact single_mem_samplesOf (j := 0) hX pf (by decide)
  · rw [t0]
    exact single_mem_samplesOf (j := 0) hY pl (by decide)
  · rw [t0]
    exact row _ _ (by decide)
  · intro b h
    rw [List.mem_singleton] at h
    subst h
    decide
  · rw [h0, t0]
    unfold rulePairs
    rw [Finset.card_pos]
    refine ⟨(0, 5), ?_⟩
    rw [Finset.mem_filter]
    exact ⟨by decide, ⟨row _ _ (by decide), row _ _ (by decide)⟩, norow _ _ (by decide), norow _ _ (by decide)⟩

/-- The first round on the identity data ends, and its rules are pairwise different. -/
example (pf pl : ℚ) (l : ℝ) : ∃ st,
    (learnRun (someLearnEnv 10) { lambd := l, nTails := 2, nHeads := 2, nMaxRules := none, tolerance := 0 }
      (learnerDivMax { lambd := l, nTails := 2, nHeads := 2, nMaxRules := none, tolerance := 0 } eyeData)
      (LearnObj.new pf pl) eyeData eyeData ((labelCells eyeData).card + 1)).Outcome (.ok (some st)) ∧
    (st.selected.map BRule.toRule).Nodup := by
  obtain ⟨o, res, hx, -⟩ := eye_divmax_returns pf pl l
  unfold learnFitDivMax at hx
  rw [RandR.bind_eq, RandR.outcome_bind] at hx
  rcases hx with ⟨a, ha, hx⟩ | ⟨e, -, hx⟩
  · rcases a with _ | st
    · cases hx
    · exact ⟨st, ha, (C155_first_round (someLearnEnv 10) (someLearnEnv_good 10) eyeData eyeData eye_data pf pl _ rfl le_rfl
        _ st ha).2⟩
  · cases hx

/-- A repeated choice: the only candidate is the selected rule. -/
example : ∃ b : BRule, b.toRule ∈ [repRule 0 0].map BRule.toRule ∧
    selectBest demoSamplers (objectiveOfRule qualityOfRule 1 [repRule 0 0]) [repRule 0 0] = .ok b := by
  have hX : repX.Binary :=
    { len_indptr := by decide, ptr_zero := by decide, ptr_mono := by decide, ptr_last := by decide,
      len_data := by decide, idx_lt := by decide, data_one := by decide, nodup := by decide }
  have hY : repY.Binary :=
    { len_indptr := by decide, ptr_zero := by decide, ptr_mono := by decide, ptr_last := by decide,
      len_data := by decide, idx_lt := by decide, data_one := by decide, nodup := by decide }
  have hb : Supported repX repY (repRule 0 0) := ⟨repRule_bound (by decide) (by decide), by decide⟩
  obtain ⟨v, hv⟩ := (total_V2 hX.toWF hY.toWF rfl (p := { lambd := 1, nTails := 1, nHeads := 1, nMaxRules := some 2, tolerance := 0 })
    rfl).objective [repRule 0 0] (repRule 0 0) (by simpa using hb) hb
  have hv' : objectiveOfRule qualityOfRule 1 [repRule 0 0] (repRule 0 0) = .ok v := hv
  have hord : demoSamplers.setOrder [repRule 0 0] = [repRule 0 0] :=
    List.perm_singleton.mp (demoSamplers.setOrder_perm _)
  refine ⟨repRule 0 0, by simp, ?_⟩
  unfold selectBest
  rw [hord]
  simp only [pyMax, pyMaxLoop, hv', bind, Except.bind]

end Verif
