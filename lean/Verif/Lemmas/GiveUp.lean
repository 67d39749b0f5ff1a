/-
When coupling from the past, a head draw, and so a learner can give up.
-/
import Verif.Lemmas.Learner

namespace Verif

open Cmp

namespace Cftp

variable {c : Cftp}

/-! ### Runs in which every draw is the same -/

theorem drawUniforms_same {u : ℝ} (h0 : 0 ≤ u) (h1 : u < 1) :
    ∀ n, (drawUniforms n).Outcome (.ok (List.replicate n u))
  | 0 => rfl
  | n + 1 => by
    rw [drawUniforms, RandR.bind_eq, RandR.outcome_bind]
    refine Or.inl ⟨u, ⟨u, h0, h1, rfl⟩, ?_⟩
    rw [RandR.bind_eq, RandR.outcome_bind]
    exact Or.inl ⟨_, drawUniforms_same h0 h1 n, rfl⟩

theorem drawChoices_same {items : List ℕ} {p : List ℝ} (hne : p ≠ []) (h0 : ∀ q ∈ p, 0 ≤ q)
    (h1 : p.sum = 1) {i : ℕ} (hi : i < p.length) (hp : 0 < p[i]) :
    ∀ n, (drawChoices items p n).Outcome (.ok (List.replicate n (items.getD i 0)))
  | 0 => rfl
  | n + 1 => by
    rw [drawChoices, RandR.bind_eq, RandR.outcome_bind]
    refine Or.inl ⟨i, (npChoiceR_outcome hne h0 h1).mpr ⟨i, hi, hp, rfl⟩, ?_⟩
    rw [RandR.bind_eq, RandR.outcome_bind]
    exact Or.inl ⟨_, drawChoices_same hne h0 h1 hi hp n, rfl⟩

theorem choices_same {items : List ℕ} {w : ℕ → ℝ} (h0 : ∀ x ∈ items, 0 ≤ w x) {a : ℕ} (ha : a ∈ items)
    (hw : 0 < w a) (n : ℕ) :
    (drawChoices items ((items.map w).map (· / (items.map w).sum)) n).Outcome (.ok (List.replicate n a)) := by
  have hs : 0 < (items.map w).sum := by
    refine lt_of_lt_of_le hw (List.single_le_sum ?_ _ (List.mem_map_of_mem ha))
    intro x hx
    obtain ⟨y, hy, rfl⟩ := List.mem_map.mp hx
    exact h0 y hy
  obtain ⟨h1, h2, h3⟩ := proba_ok h0 hs
  obtain ⟨i, hi, rfl⟩ := List.getElem_of_mem ha
  have := drawChoices_same (items := items) h1 h2 h3 (i := i) (by simpa using hi)
    (by simpa using div_pos hw hs) n
  rwa [getD_lt hi] at this

/-- The lists after `L` equal draws. -/
def same (L : ℕ) (p n : ℕ) (u : ℝ) : CftpState :=
  { us := List.replicate L u, ps := List.replicate L p, ns := List.replicate L n }

theorem addData_same (hr : c.Ready) {p n : ℕ} (hp : p ∈ c.posList) (hn : n ∈ c.negList)
    (hwp : 0 < c.wPos p) (hwn : 0 < c.wNeg n) {u : ℝ} (h0 : 0 ≤ u) (h1 : u < 1) {L m : ℕ} (hm : 0 < m)
    (hL : L ≤ m) : (c.addData m (same L p n u)).Outcome (.ok (same m p n u)) := by
  unfold addData
  rw [if_neg hm.ne', if_neg (by simp [same]; omega)]
  have hlen : (same L p n u).us.length = L := by simp [same]
  rw [hlen]
  simp only [RandR.bind_eq, RandR.outcome_bind]
  refine Or.inl ⟨_, drawUniforms_same h0 h1 _, Or.inl ⟨_, choices_same hr.wPos_nonneg hp hwp _,
    Or.inl ⟨_, choices_same hr.wNeg_nonneg hn hwn _, ?_⟩⟩⟩
  have e : ∀ {α : Type} (a : α), List.replicate (m - L) a ++ List.replicate L a = List.replicate m a := by
    intro α a
    rw [← List.replicate_add]
    congr 1
    omega
  simp only [same, e, checkLengths, List.length_replicate, ne_eq, not_true_eq_false, or_self, if_false]
  rfl

theorem draws_same (L p n : ℕ) (u : ℝ) :
    CftpState.draws (same L p n u) = List.replicate L (p, n, u) := by
  simp [CftpState.draws, same]

theorem foldl_same {p n : ℕ} {u : ℝ} (h : c.stepT none (p, n, u) = none) :
    ∀ L, (List.replicate L (p, n, u)).foldl c.stepT none = none
  | 0 => rfl
  | L + 1 => by rw [List.replicate_succ, List.foldl_cons, h]; exact foldl_same h L

theorem sampleLoop_none (hr : c.Ready) {p n : ℕ} (hp : p ∈ c.posList) (hn : n ∈ c.negList)
    (hwp : 0 < c.wPos p) (hwn : 0 < c.wNeg n) {u : ℝ} (h0 : 0 ≤ u) (h1 : u < 1)
    (hu : c.stepT none (p, n, u) = none) (k : ℕ) :
    ∀ i, c.maxIters - i ≤ k → (c.sampleLoop i (same (lenBefore i) p n u)).Outcome (.ok (none, reset)) := by
  induction k with
  | zero =>
    intro i hk
    have : i < 2 ^ i := Nat.lt_two_pow_self
    rw [sampleLoop, if_pos (by omega)]
    rfl
  | succ k ih =>
    intro i hk
    rw [sampleLoop]
    split
    · rfl
    · rw [if_neg (by rintro (h1 | h1); exacts [hr.posSum.ne' h1, hr.negSum.ne' h1])]
      simp only [RandR.bind_eq, RandR.outcome_bind]
      have hpos : 0 < 2 ^ i := by positivity
      refine Or.inl ⟨_, addData_same hr hp hn hwp hwn h0 h1 hpos (lenBefore_le i), Or.inl ⟨none, ?_, ?_⟩⟩
      · rw [simulate_eq hr.toDominated, draws_same, foldl_same hu]
        · rfl
        · intro d hd
          rw [draws_same] at hd
          rw [(List.mem_replicate.mp hd).2]
          exact ⟨hp, hn, hwp, hwn, h0⟩
      · have : i < 2 ^ i := Nat.lt_two_pow_self
        exact ih (i + 1) (by omega)

theorem stepT_none_iff {p n : ℕ} {u : ℝ} : c.stepT none (p, n, u) = none ↔ ¬ u < c.ratio none p n := by
  unfold stepT
  split
  · rename_i h; simp [h]
  · rename_i h; simp [h]

/-- `sample` on a dominated pair of proposals can return `None` exactly when one of the proposals is zero
everywhere, or some pair that may be proposed has a true weight below its proposal weight. -/
theorem sample_none_iff (hd : c.Dominated) (hm : 0 < c.maxIters) :
    (c.sample reset).Outcome (.ok (none, reset)) ↔
      (∀ p ∈ c.posList, c.wPos p = 0) ∨ (∀ n ∈ c.negList, c.wNeg n = 0) ∨
      ∃ p ∈ c.posList, ∃ n ∈ c.negList, 0 < c.wPos p ∧ 0 < c.wNeg n ∧ c.W p n < c.wPos p * c.wNeg n := by
  have hz : ∀ (l : List ℕ) (w : ℕ → ℝ), (∀ x ∈ l, 0 ≤ w x) → ((l.map w).sum = 0 ↔ ∀ x ∈ l, w x = 0) := by
    intro l w
    induction l with
    | nil => simp
    | cons a l ih =>
      intro h
      have h1 := h a (by simp)
      have h2 : 0 ≤ (l.map w).sum := List.sum_nonneg (by
        intro x hx
        obtain ⟨y, hy, rfl⟩ := List.mem_map.mp hx
        exact h y (by simp [hy]))
      rw [List.map_cons, List.sum_cons, add_eq_zero_iff_of_nonneg h1 h2, ih (fun x hx => h x (by simp [hx]))]
      simp
  have hP := hz c.posList c.wPos hd.wPos_nonneg
  have hN := hz c.negList c.wNeg hd.wNeg_nonneg
  by_cases hsum : c.posWeights.sum = 0 ∨ c.negWeights.sum = 0
  · constructor
    · intro _
      rcases hsum with h | h
      · exact Or.inl (hP.mp h)
      · exact Or.inr (Or.inl (hN.mp h))
    · intro _
      unfold sample
      rw [sampleLoop, if_neg (by simp; omega), if_pos hsum]
      rfl
  · have hr := Ready.of_ne hd hsum
    push Not at hsum
    have hne1 : ¬ ∀ p ∈ c.posList, c.wPos p = 0 := fun h => hsum.1 (hP.mpr h)
    have hne2 : ¬ ∀ p ∈ c.negList, c.wNeg p = 0 := fun h => hsum.2 (hN.mpr h)
    simp only [hne1, hne2, false_or]
    have hratio : ∀ p n, c.ratio none p n = c.W p n / (c.wPos p * c.wNeg n) := by
      intro p n
      simp [ratio, barOf, wOf]
    constructor
    · intro h
      by_contra hcon
      push Not at hcon
      unfold sample at h
      rw [sampleLoop, if_neg (by simp; omega),
        if_neg (by rintro (h1 | h1); exacts [hr.posSum.ne' h1, hr.negSum.ne' h1])] at h
      simp only [RandR.bind_eq, RandR.outcome_bind] at h
      rcases h with ⟨s', hs', h⟩ | ⟨e, -, e'⟩
      swap
      · cases e'
      have hus : ∀ u ∈ s'.us, u < 1 := by
        unfold addData at hs'
        rw [if_neg (by simp), if_neg (by simp [reset])] at hs'
        simp only [RandR.bind_eq, RandR.outcome_bind] at hs'
        rcases hs' with ⟨us, hu, hs'⟩ | ⟨e, -, e'⟩
        swap
        · cases e'
        obtain ⟨us', e, -, hus⟩ := drawUniforms_outcome hu
        cases e
        rcases hs' with ⟨ps, -, hs'⟩ | ⟨e, -, e'⟩
        swap
        · cases e'
        rcases hs' with ⟨ns, -, hs'⟩ | ⟨e, -, e'⟩
        swap
        · cases e'
        unfold checkLengths RandR.lift at hs'
        split at hs'
        · cases hs'
        · cases hs'
          intro u hu
          simp only [reset, List.append_nil] at hu
          exact (hus u hu).2
      obtain ⟨us, ps, ns, e', l1, l2, l3, hg⟩ := addData_outcome hr goodState_reset (m := 2 ^ 0) (by simp) (by simp) hs'
      cases e'
      simp only [reset, List.append_nil] at hus hg h
      obtain ⟨u, rfl⟩ := List.length_eq_one_iff.mp (by simpa using l1)
      obtain ⟨p, rfl⟩ := List.length_eq_one_iff.mp (by simpa using l2)
      obtain ⟨n, rfl⟩ := List.length_eq_one_iff.mp (by simpa using l3)
      obtain ⟨hp1, hp2⟩ := hg.psOk p (by simp)
      obtain ⟨hn1, hn2⟩ := hg.nsOk n (by simp)
      have hW := hcon p hp1 n hn1 hp2 hn2
      have hstep : c.stepT none (p, n, u) = some (p, n) := by
        unfold stepT
        rw [if_pos]
        rw [hratio]
        refine lt_of_lt_of_le (hus u (by simp)) ?_
        rw [le_div_iff₀ (by positivity)]
        simpa using hW
      rw [simulate_eq hd hg.validDraws] at h
      simp only [CftpState.draws, List.zip_cons_cons, List.zip_nil_right, List.foldl_cons, List.foldl_nil,
        hstep] at h
      rcases h with ⟨D, hD, h⟩ | ⟨e, -, e'⟩
      · cases hD
        cases h
      · cases e'
    · rintro ⟨p, hp, n, hn, hwp, hwn, hlt⟩
      have h01 : 0 ≤ c.ratio none p n := ratio_nonneg hd (valid_none c) hp hn
      have h1 : c.ratio none p n < 1 := by
        rw [hratio, div_lt_one (by positivity)]
        exact hlt
      exact sampleLoop_none hr hp hn hwp hwn h01 h1 (stepT_none_iff.mpr (lt_irrefl _)) c.maxIters 0 (by omega)

end Cftp

/-! ### Heads -/

open Cftp in
/-- `sample_once` of a fitted head sampler with the tight proposal can return `None` exactly when no
positive row has a feature, or a positive and a negative row share one. -/
theorem head_none_iff {env : HeadEnv} (he : env.Good) {X : Cmp} (hX : X.Binary)
    (hd : X.nMinor < env.depth) {s s' : HeadSampler} (hs : HeadReach env X s) {y : List ℤ}
    (hf : headFit env s X y = .ok s') (ht : s.tight = true) :
    (headSampleOnce env s').Outcome (.ok (none, s')) ↔
      (∀ i f, y[i]? = some 1 → ¬ X.Stored i f) ∨
      ∃ i j f, y[i]? = some 1 ∧ y[j]? = some 0 ∧ X.Stored i f ∧ X.Stored j f := by
  have hi := headInv_of_reach he hX hd hs
  obtain ⟨g, space, hg, hb, hnd, hmem⟩ := buildSpaceAndRows_ok he s hX (columns_of_fit he hX hd hs hf) hd
  obtain ⟨space', hb', hy, hyl, rfl⟩ := inv_fit he hX hd hi hf
  rw [hb] at hb'
  cases hb'
  have hok := naiveNewRows_ok X space
  have hdom : (headCftp s.tight space.length (naiveNewRows X space) X.nMajor y).Dominated :=
    headCftp_dominated hok hyl
  have hidx : (headSampleOnce env { s with
        space := some space, newRows := some (naiveNewRows X space),
        cftp := some (headCftp s.tight space.length (naiveNewRows X space) X.nMajor y),
        lists := Cftp.reset }).Outcome (.ok (none, { s with
        space := some space, newRows := some (naiveNewRows X space),
        cftp := some (headCftp s.tight space.length (naiveNewRows X space) X.nMajor y),
        lists := Cftp.reset })) ↔
      ((headCftp s.tight space.length (naiveNewRows X space) X.nMajor y).sample reset).Outcome
        (.ok (none, reset)) := by
    rw [headSampleOnce_fitted rfl rfl rfl, RandR.outcome_bind]
    constructor
    · rintro (⟨r, hr, h⟩ | ⟨e, -, e'⟩)
      swap
      · cases e'
      rcases headSampleIdx_lists he.1 hdom rfl hr with e | ⟨id, p, n, e, -⟩
      · cases e
        unfold headSampleIdx at hr
        rw [RandR.bind_eq, RandR.outcome_bind] at hr
        rcases hr with ⟨⟨D, st⟩, hr, hr'⟩ | ⟨e, -, e'⟩
        swap
        · cases e'
        cases D with
        | none => cases hr'; exact hr
        | some pr =>
          exfalso
          simp only [RandR.bind_eq, RandR.outcome_bind] at hr'
          rcases hr' with ⟨id, -, h⟩ | ⟨e, -, e'⟩
          · cases h
          · cases e'
      · cases e
        exfalso
        simp only [RandR.outcome_bind] at h
        rcases h with ⟨T, -, h⟩ | ⟨e, -, e'⟩
        · cases h
        · cases e'
    · intro h
      refine Or.inl ⟨(none, reset), ?_, rfl⟩
      unfold headSampleIdx
      rw [RandR.bind_eq, RandR.outcome_bind]
      exact Or.inl ⟨_, h, rfl⟩
  rw [hidx, sample_none_iff hdom (by simp [headCftp])]
  -- weights and records in terms of the data
  obtain ⟨g', hg', -, -, hgn, -⟩ := C48_build_graph X.flip (Cmp.flip_binary hX)
  rw [hg] at hg'
  cases hg'
  have hsing : ∀ i f, X.Stored i f → ∃ id < space.length, space.getD id ∅ = {(f : ℤ)} := by
    intro i f hif
    have hprob : g.Probable s.minProba {f} := by
      refine ⟨by simp, ⟨?_, by simp⟩, Or.inl (by simp)⟩
      intro x hx
      rw [Finset.mem_singleton] at hx
      subst hx
      rw [hgn]
      simpa using Stored.minor_lt hX.toWF hif
    obtain ⟨id, hid, e⟩ := List.getElem_of_mem ((hmem _).mpr ⟨_, hprob, rfl⟩)
    exact ⟨id, hid, by rw [getD_lt hid, e]; simp [intSet]⟩
  have hne : ∀ id < space.length, ∃ f : ℕ, (f : ℤ) ∈ space.getD id ∅ := by
    intro id hid
    obtain ⟨U, hU, e⟩ := (hmem _).mp (List.getElem_mem hid)
    obtain ⟨f, hf⟩ := Finset.nonempty_iff_ne_empty.mpr hU.1
    refine ⟨f, ?_⟩
    rw [getD_lt hid, e]
    exact Finset.mem_image_of_mem _ hf
  have hpos : ∀ i, i ∈ posIndices y ↔ y[i]? = some 1 := by
    intro i
    rw [mem_posIndices]
    constructor
    · rintro ⟨h1, h2⟩
      rcases label_values hy h1 with h | h
      · omega
      · rw [getD_lt h1] at h
        rw [List.getElem?_eq_getElem h1, h]
    · intro h
      obtain ⟨h1, h2⟩ := List.getElem?_eq_some_iff.mp h
      exact ⟨h1, by rw [getD_lt h1, h2]; norm_num⟩
  have hneg : ∀ i, i ∈ negIndices y ↔ y[i]? = some 0 := by
    intro i
    rw [mem_negIndices]
    constructor
    · rintro ⟨h1, h2⟩
      rw [getD_lt h1] at h2
      rw [List.getElem?_eq_getElem h1, h2]
    · intro h
      obtain ⟨h1, h2⟩ := List.getElem?_eq_some_iff.mp h
      exact ⟨h1, by rw [getD_lt h1, h2]⟩
  have hlt : ∀ i v, y[i]? = some v → i < X.nMajor := by
    intro i v h
    obtain ⟨h1, -⟩ := List.getElem?_eq_some_iff.mp h
    omega
  have hrec : ∀ i, i < X.nMajor →
      (recordAt (naiveNewRows X space) i = ∅ ↔ ∀ f, ¬ X.Stored i f) := by
    intro i hin
    rw [Finset.eq_empty_iff_forall_notMem]
    constructor
    · intro h f hf
      obtain ⟨id, hid, e⟩ := hsing i f hf
      refine h id ((recordAt_naive X space hin).mpr ⟨hid, ?_⟩)
      rw [e]
      intro x hx
      exact ⟨f, Finset.mem_singleton.mp hx, hf⟩
    · intro h id hid
      obtain ⟨h1, h2⟩ := (recordAt_naive X space hin).mp hid
      obtain ⟨f, hf⟩ := hne id h1
      obtain ⟨f', -, hf'⟩ := h2 _ hf
      exact h f' hf'
  have hw : ∀ i, i ∈ posIndices y →
      (headCftp s.tight space.length (naiveNewRows X space) X.nMajor y).wPos i =
        ((recordAt (naiveNewRows X space) i).card : ℝ) := by
    intro i hi
    simp only [headCftp]
    rw [weight_getD (hlt i 1 ((hpos i).mp hi)), weightOf, if_pos ht, if_pos hi,
      (recordAt_ok hok i).2]
  have hw' : ∀ i, i ∈ negIndices y →
      (headCftp s.tight space.length (naiveNewRows X space) X.nMajor y).wNeg i = 1 := by
    intro i hi
    simp only [headCftp]
    rw [weight_getD (hlt i 0 ((hneg i).mp hi)), weightOf, if_pos ht, if_neg]
    intro h
    rw [hpos] at h
    rw [hneg, h] at hi
    cases hi
  change (∀ p ∈ posIndices y, _) ∨ (∀ n ∈ negIndices y, _) ∨ (∃ p ∈ posIndices y, ∃ n ∈ negIndices y, _) ↔ _
  have h2 : ¬ ∀ n ∈ negIndices y,
      (headCftp s.tight space.length (naiveNewRows X space) X.nMajor y).wNeg n = 0 := by
    intro h
    have h0 : (0 : ℤ) ∈ y.toFinset := by rw [hy]; simp
    obtain ⟨n, hn, e⟩ := List.getElem_of_mem (List.mem_toFinset.mp h0)
    have hm : n ∈ negIndices y := (hneg n).mpr (by rw [List.getElem?_eq_getElem hn, e])
    have := h n hm
    rw [hw' n hm] at this
    norm_num at this
  simp only [h2, false_or]
  apply or_congr
  · constructor
    · intro h i f hy1 hf
      have := h i ((hpos i).mpr hy1)
      rw [hw i ((hpos i).mpr hy1), Nat.cast_eq_zero, Finset.card_eq_zero, hrec i (hlt i 1 hy1)] at this
      exact this f hf
    · intro h i hi
      rw [hw i hi, Nat.cast_eq_zero, Finset.card_eq_zero, hrec i (hlt i 1 ((hpos i).mp hi))]
      intro f
      exact h i f ((hpos i).mp hi)
  · constructor
    · rintro ⟨p, hp, n, hn, -, -, hlt'⟩
      rw [hw p hp, hw' n hn, mul_one] at hlt'
      simp only [headCftp, discrimWeight, Nat.cast_lt] at hlt'
      have : (recordAt (naiveNewRows X space) p ∩ recordAt (naiveNewRows X space) n).Nonempty := by
        rw [Finset.nonempty_iff_ne_empty]
        intro h
        rw [Finset.sdiff_eq_self_of_disjoint (Finset.disjoint_iff_inter_eq_empty.mpr h)] at hlt'
        exact lt_irrefl _ hlt'
      obtain ⟨id, hid⟩ := this
      obtain ⟨a, b⟩ := Finset.mem_inter.mp hid
      have hp' := (hpos p).mp hp
      have hn' := (hneg n).mp hn
      obtain ⟨a1, a2⟩ := (recordAt_naive X space (hlt p 1 hp')).mp a
      obtain ⟨-, b2⟩ := (recordAt_naive X space (hlt n 0 hn')).mp b
      obtain ⟨f, hf⟩ := hne id a1
      obtain ⟨f1, e1, h1⟩ := a2 _ hf
      obtain ⟨f2, e2, h2⟩ := b2 _ hf
      have : f1 = f2 := by exact_mod_cast e1.symm.trans e2
      subst this
      exact ⟨p, n, f1, hp', hn', h1, h2⟩
    · rintro ⟨i, j, f, hi1, hj0, hif, hjf⟩
      have hp := (hpos i).mpr hi1
      have hn := (hneg j).mpr hj0
      obtain ⟨id, hid, e⟩ := hsing i f hif
      have a : id ∈ recordAt (naiveNewRows X space) i := by
        refine (recordAt_naive X space (hlt i 1 hi1)).mpr ⟨hid, ?_⟩
        rw [e]
        intro x hx
        exact ⟨f, Finset.mem_singleton.mp hx, hif⟩
      have b : id ∈ recordAt (naiveNewRows X space) j := by
        refine (recordAt_naive X space (hlt j 0 hj0)).mpr ⟨hid, ?_⟩
        rw [e]
        intro x hx
        exact ⟨f, Finset.mem_singleton.mp hx, hjf⟩
      refine ⟨i, hp, j, hn, ?_, ?_, ?_⟩
      · rw [hw i hp]
        exact_mod_cast Finset.card_pos.mpr ⟨id, a⟩
      · rw [hw' j hn]; norm_num
      · rw [hw i hp, hw' j hn, mul_one]
        simp only [headCftp, discrimWeight, Nat.cast_lt]
        exact Finset.card_lt_card (Finset.ssubset_iff_subset_ne.mpr ⟨Finset.sdiff_subset, fun h => by
          rw [← h] at a
          exact (Finset.mem_sdiff.mp a).2 b⟩)

/-- When every draw of `sample(n)` may give up, all of them may. -/
theorem headSample_all_none {env : HeadEnv} {s : HeadSampler}
    (h : (headSampleOnce env s).Outcome (.ok (none, s))) :
    ∀ n, (headSample env n s).Outcome (.ok (List.replicate n none, s))
  | 0 => rfl
  | n + 1 => by
    rw [headSample, RandR.bind_eq, RandR.outcome_bind]
    refine Or.inl ⟨_, h, ?_⟩
    rw [RandR.bind_eq, RandR.outcome_bind]
    exact Or.inl ⟨_, headSample_all_none h n, rfl⟩

theorem headSample_none_mem {env : HeadEnv} (he : env.Good) {X : Cmp} (hX : X.Binary)
    (hd : X.nMinor < env.depth) {s s' : HeadSampler} (hs : HeadReach env X s) {y : List ℤ}
    (hf : headFit env s X y = .ok s') : ∀ (n : ℕ) {ls : List (Option (Finset ℤ))} {s'' : HeadSampler},
    (headSample env n s').Outcome (.ok (ls, s'')) → none ∈ ls →
      (headSampleOnce env s').Outcome (.ok (none, s'))
  | 0, ls, s'', h, hm => by cases h; simp at hm
  | n + 1, ls, s'', h, hm => by
    rw [headSample, RandR.bind_eq, RandR.outcome_bind] at h
    rcases h with ⟨r, hr, h⟩ | ⟨e, -, e'⟩
    swap
    · cases e'
    have key : r.2 = s' := by
      rcases C58_outcomes env he X hX hd s s' hs y hf _ hr with e | ⟨T, space, -, -, e, hij⟩ <;> cases e <;> rfl
    rw [key, RandR.bind_eq, RandR.outcome_bind] at h
    rcases h with ⟨q, hq, h⟩ | ⟨e, -, e'⟩
    swap
    · cases e'
    cases h
    rcases List.mem_cons.mp hm with h0 | h0
    · obtain ⟨r1, r2⟩ := r
      cases h0
      cases key
      exact hr
    · exact headSample_none_mem he hX hd ‹_› hf n (ls := q.1) (s'' := q.2) hq h0

theorem headFit_tight {env : HeadEnv} (he : env.Good) {X : Cmp} (hX : X.Binary)
    (hd : X.nMinor < env.depth) {s s' : HeadSampler} (hs : HeadReach env X s) {y : List ℤ}
    (hf : headFit env s X y = .ok s') : s'.tight = s.tight := by
  obtain ⟨space, hb, hy, hyl, rfl⟩ := inv_fit he hX hd (headInv_of_reach he hX hd hs) hf
  rfl

/-! ### Candidate generation -/

/-- A tail for which the head sampler may give up: some rows carry it, some do not, and either no row that
carries it has a feature, or one of them shares a feature with a row that does not carry it. -/
def FailingTail (X Y : Cmp) (T : Finset ℤ) : Prop :=
  (∃ i < Y.nMajor, RowContains Y i T) ∧ (∃ j < Y.nMajor, ¬ RowContains Y j T) ∧
    ((∀ i < Y.nMajor, RowContains Y i T → ∀ f, ¬ X.Stored i f) ∨
      ∃ i j f, i < Y.nMajor ∧ j < Y.nMajor ∧ RowContains Y i T ∧ ¬ RowContains Y j T ∧
        X.Stored i f ∧ X.Stored j f)

open Classical in
/-- The labels the head sampler is fitted with for a tail. -/
noncomputable def tailColumn (Y : Cmp) (T : Finset ℤ) : List ℤ :=
  labels01 ((List.range Y.nMajor).map fun i => decide (RowContains Y i T))

theorem tailColumn_get (Y : Cmp) (T : Finset ℤ) (i : ℕ) :
    ((tailColumn Y T)[i]? = some 1 ↔ i < Y.nMajor ∧ RowContains Y i T) ∧
    ((tailColumn Y T)[i]? = some 0 ↔ i < Y.nMajor ∧ ¬ RowContains Y i T) := by
  classical
  unfold tailColumn
  rw [labels01_getElem?]
  by_cases hi : i < Y.nMajor
  · by_cases hc : RowContains Y i T <;> simp [hi, hc]
  · rw [List.getElem?_eq_none (by simp; omega)]
    simp [hi]

theorem tailColumn_length (Y : Cmp) (T : Finset ℤ) : (tailColumn Y T).length = Y.nMajor := by
  simp [tailColumn, labels01]

theorem tailColumn_both (Y : Cmp) (T : Finset ℤ) :
    (tailColumn Y T).toFinset = {0, 1} ↔
      (∃ i < Y.nMajor, RowContains Y i T) ∧ ∃ j < Y.nMajor, ¬ RowContains Y j T := by
  constructor
  · intro h
    have h1 : (1 : ℤ) ∈ (tailColumn Y T).toFinset := by rw [h]; simp
    have h0 : (0 : ℤ) ∈ (tailColumn Y T).toFinset := by rw [h]; simp
    obtain ⟨i, hi⟩ := List.mem_iff_getElem?.mp (List.mem_toFinset.mp h1)
    obtain ⟨j, hj⟩ := List.mem_iff_getElem?.mp (List.mem_toFinset.mp h0)
    exact ⟨⟨i, (tailColumn_get Y T i).1.mp hi⟩, ⟨j, (tailColumn_get Y T j).2.mp hj⟩⟩
  · rintro ⟨⟨i, hi⟩, ⟨j, hj⟩⟩
    ext z
    simp only [List.mem_toFinset, Finset.mem_insert, Finset.mem_singleton]
    constructor
    · intro hz
      simp only [tailColumn, labels01, List.mem_map] at hz
      obtain ⟨b, -, rfl⟩ := hz
      cases b <;> simp
    · rintro (rfl | rfl)
      · exact List.mem_iff_getElem?.mpr ⟨j, (tailColumn_get Y T j).2.mpr hj⟩
      · exact List.mem_iff_getElem?.mpr ⟨i, (tailColumn_get Y T i).1.mpr hi⟩

theorem collapse_tail {env : LearnEnv} (he : env.Good) {Y : Cmp} (hY : Y.Binary) {T : Finset ℤ}
    (hT : T.Nonempty) (hTr : ∀ l ∈ T, 0 ≤ l ∧ l < Y.nMinor) :
    ∃ y, conjunctiveCollapseV2 Y.flip (env.orderZ T) = .ok y ∧ labels01 y = tailColumn Y T := by
  have hne : env.orderZ T ≠ [] := by
    obtain ⟨l, hl⟩ := hT
    intro h
    have := ((he.ints T).2 l).mpr hl
    rw [h] at this
    simp at this
  have hcol := collapse_int_ok (wf_flip Y) hne (by
    intro x hx
    rw [flip_nMajor]
    exact hTr x (((he.ints T).2 x).mp hx))
  rw [flip_nMinor] at hcol
  refine ⟨_, hcol, ?_⟩
  unfold tailColumn
  congr 1
  exact List.map_congr_left fun k _ => decide_eq_decide.mpr
    (rowContains_iff_rowHas hY.toWF (he.ints T).2).symm

/-- The head sampler, fitted for a tail, may give up exactly for a failing tail. -/
theorem tail_head_none {env : LearnEnv} (he : env.Good) {X Y : Cmp} (hD : LearnData env X Y)
    {h h1 : HeadSampler} (hh : HeadReach env.toHeadEnv X h) (ht : h.tight = true) {T : Finset ℤ}
    (hf : headFit env.toHeadEnv h X (tailColumn Y T) = .ok h1) :
    (headSampleOnce env.toHeadEnv h1).Outcome (.ok (none, h1)) ↔ FailingTail X Y T := by
  have hboth := ((C58_fit env.toHeadEnv he.heads X hD.features hD.depthX h hh _).1.mp ⟨h1, hf⟩).1
  rw [tailColumn_both] at hboth
  rw [head_none_iff he.heads hD.features hD.depthX hh hf ht]
  unfold FailingTail
  simp only [hboth.1, hboth.2, true_and]
  apply or_congr
  · constructor
    · intro h i hi hc f hf
      exact h i f ((tailColumn_get Y T i).1.mpr ⟨hi, hc⟩) hf
    · intro h i f hy
      obtain ⟨hi, hc⟩ := (tailColumn_get Y T i).1.mp hy
      exact h i hi hc f
  · constructor
    · rintro ⟨i, j, f, h1, h2, h3, h4⟩
      obtain ⟨a, b⟩ := (tailColumn_get Y T i).1.mp h1
      obtain ⟨a', b'⟩ := (tailColumn_get Y T j).2.mp h2
      exact ⟨i, j, f, a, a', b, b', h3, h4⟩
    · rintro ⟨i, j, f, a, a', b, b', h3, h4⟩
      exact ⟨i, j, f, (tailColumn_get Y T i).1.mpr ⟨a, b⟩, (tailColumn_get Y T j).2.mpr ⟨a', b'⟩, h3, h4⟩

/-- Why candidate generation raises `TypeError`. -/
theorem learnGen_typeError {env : LearnEnv} (he : env.Good) {X Y : Cmp} (hD : LearnData env X Y) {p : ℚ}
    {prune : Bool} {us : List (List ℕ × List ℤ)} {s : UState}
    (hs : TailAfter env.toHeadEnv p prune Y us s) (nHeads : ℕ) :
    ∀ (todo : ℕ) (h : HeadSampler) (rules : List BRule) (g : Py (List BRule)) (h' : HeadSampler),
      HeadReach env.toHeadEnv X h → h.tight = true → (∀ b ∈ rules, Supported X Y b) →
      (learnGen env X X.flip Y.flip nHeads s todo h rules).Outcome (.ok (g, h')) →
      h'.tight = true ∧ (g = .error .typeError → ∃ T ∈ s.space, FailingTail X Y T)
  | 0, h, rules, g, h', hh, ht, hr, hx => by
    rw [learnGen] at hx
    cases hx
    exact ⟨ht, by simp⟩
  | todo + 1, h, rules, g, h', hh, ht, hr, hx => by
    have hX := hD.features
    have hY := hD.labels
    rw [learnGen, RandR.bind_eq, RandR.outcome_bind] at hx
    rcases hx with ⟨t, htd, hx⟩ | ⟨e, -, e'⟩
    swap
    · cases e'
    rw [outcome_attempt] at htd
    obtain ⟨r, htd, e⟩ := htd
    cases e
    rw [outcome_toReal] at htd
    rcases tail_outcome he.heads hY hD.depthY hD.pos hs htd with ⟨rfl, h0⟩ |
      ⟨T, rfl, hTs, hTne, hTr, i, hi, hTi, -⟩
    · cases hx
      exact ⟨ht, by simp⟩
    obtain ⟨y, hcol, hyT⟩ := collapse_tail he hY hTne hTr
    change (orRaise (conjunctiveCollapseV2 Y.flip (env.orderZ T)) h _).Outcome _ at hx
    rw [hcol] at hx
    change (orRaise (headFit env.toHeadEnv h X (labels01 y)) h _).Outcome _ at hx
    rw [hyT, outcome_orRaise] at hx
    rcases hx with ⟨h1, hf, hx⟩ | ⟨e, hf, hx⟩
    · have ht1 : h1.tight = true := (headFit_tight he.heads hX hD.depthX hh hf).trans ht
      rw [RandR.bind_eq, RandR.outcome_bind] at hx
      rcases hx with ⟨q, hq, hx⟩ | ⟨e, -, e'⟩
      swap
      · cases e'
      rw [outcome_attempt] at hq
      obtain ⟨r, hq, e⟩ := hq
      cases e
      have h1r : HeadReach env.toHeadEnv X h1 := .fit _ _ _ hh hf
      obtain ⟨hs', rfl, hlen, hall⟩ := headSample_outcome he.heads hX hD.depthX hh hf nHeads q hq
      change (orRaise (addHeads X.flip Y.flip (env.orderZ T) (hs'.map (Option.map env.orderZ)) rules) h1
        _).Outcome _ at hx
      have hbind : ∀ o ∈ hs'.map (Option.map env.orderZ), o = none ∨ ∃ hd, o = some hd ∧
          ∃ b, bindDataset (Rule.new hd (env.orderZ T)) X.flip Y.flip = .ok b ∧ Supported X Y b := by
        intro o ho
        obtain ⟨o', ho', rfl⟩ := List.mem_map.mp ho
        rcases hall o' ho' with rfl | ⟨H, rfl, k, j, hk, -, hHk, hHj⟩
        · exact Or.inl rfl
        · right
          exact ⟨_, rfl, bind_supported hX hY hD.rows he.ints hTne hTr
            ((tailColumn_get Y T k).1.mp hk).2 hHk hHj⟩
      rw [outcome_orRaise] at hx
      rcases addHeads_cases (Xc := X.flip) (Yc := Y.flip) (tail := env.orderZ T)
        (hs'.map (Option.map env.orderZ)) rules (fun o ho => by
          rcases hbind o ho with h | ⟨hd, h1, b, h2, -⟩
          · exact Or.inl h
          · exact Or.inr ⟨hd, h1, b, h2⟩) with ⟨out, hout⟩ | ⟨hmem, herr⟩
      · rw [hout] at hx
        rcases hx with ⟨a, e, hx⟩ | ⟨e, e', -⟩
        swap
        · cases e'
        cases e
        obtain ⟨-, -, a3, a4, a5⟩ := addHeads_ok hout
        have hout' : ∀ b ∈ out, Supported X Y b := by
          intro b hb
          rcases a4 b hb with hb | ⟨hd, hm, hbd⟩
          · exact hr b hb
          · rcases hbind _ hm with h | ⟨hd', e, b', hb', hsup⟩
            · cases h
            · cases e
              rw [hb'] at hbd
              cases hbd
              exact hsup
        exact learnGen_typeError he hD hs nHeads todo h1 out g h' h1r ht1 hout' hx
      · rw [herr] at hx
        rcases hx with ⟨a, e, -⟩ | ⟨e, e', hx⟩
        · cases e
        · cases hx
          refine ⟨ht1, fun _ => ⟨T, hTs, ?_⟩⟩
          rw [← tail_head_none he hD hh ht hf]
          have : none ∈ hs' := by
            obtain ⟨o, ho, e⟩ := List.mem_map.mp hmem
            cases o with
            | none => exact ho
            | some o => simp at e
          exact headSample_none_mem he.heads hX hD.depthX hh hf nHeads hq this
    · cases hx
      refine ⟨ht, fun e' => ?_⟩
      cases e'
      obtain ⟨c1, c2, -⟩ := C58_fit env.toHeadEnv he.heads X hX hD.depthX h hh (tailColumn Y T)
      by_cases hy : (tailColumn Y T).toFinset = {0, 1}
      · obtain ⟨h1, e⟩ := c1.mpr ⟨hy, by rw [tailColumn_length, hD.rows], hD.colsX⟩
        rw [e] at hf
        cases hf
      · rw [c2 hy] at hf
        cases hf

/-- A failing tail that may be drawn makes candidate generation raise `TypeError` in some execution. -/
theorem learnGen_may_fail {env : LearnEnv} (he : env.Good) {X Y : Cmp} (hD : LearnData env X Y) {s : UState}
    {nHeads : ℕ} (hn : 0 < nHeads) {T : Finset ℤ} (hT : T.Nonempty) (hTr : ∀ l ∈ T, 0 ≤ l ∧ l < Y.nMinor)
    (hfail : FailingTail X Y T) (hdraw : (sampleOnce s).Outcome (.ok T)) {todo : ℕ} (ht : 0 < todo)
    {h : HeadSampler} (hh : HeadReach env.toHeadEnv X h) (htight : h.tight = true) :
    ∃ h', (learnGen env X X.flip Y.flip nHeads s todo h []).Outcome (.ok (.error .typeError, h')) := by
  obtain ⟨todo, rfl⟩ : ∃ n, todo = n + 1 := ⟨todo - 1, by omega⟩
  obtain ⟨nHeads, rfl⟩ : ∃ n, nHeads = n + 1 := ⟨nHeads - 1, by omega⟩
  obtain ⟨y, hcol, hyT⟩ := collapse_tail he hD.labels hT hTr
  obtain ⟨h1, hf⟩ := (C58_fit env.toHeadEnv he.heads X hD.features hD.depthX h hh (tailColumn Y T)).1.mpr
    ⟨(tailColumn_both Y T).mpr ⟨hfail.1, hfail.2.1⟩, by rw [tailColumn_length, hD.rows], hD.colsX⟩
  have hnone := (tail_head_none he hD hh htight hf).mpr hfail
  refine ⟨h1, ?_⟩
  rw [learnGen, RandR.bind_eq, RandR.outcome_bind]
  refine Or.inl ⟨.ok T, ?_, ?_⟩
  · rw [outcome_attempt]
    exact ⟨_, (outcome_toReal _ _).mpr hdraw, rfl⟩
  change (orRaise (conjunctiveCollapseV2 Y.flip (env.orderZ T)) h _).Outcome _
  rw [hcol]
  change (orRaise (headFit env.toHeadEnv h X (labels01 y)) h _).Outcome _
  rw [hyT, hf]
  change ((headSample env.toHeadEnv (nHeads + 1) h1).attempt.bind _).Outcome _
  rw [RandR.outcome_bind]
  refine Or.inl ⟨.ok (List.replicate (nHeads + 1) none, h1), ?_, rfl⟩
  rw [outcome_attempt]
  exact ⟨_, headSample_all_none hnone _, rfl⟩

/-! ### The loop -/

theorem learnIter_typeError {env : LearnEnv} (he : env.Good) {X Y : Cmp} (hD : LearnData env X Y) {q : ℚ}
    {p : Params} {lr : Learner} (hlr : LearnerTotal X Y lr) {held : List BRule} {st : LearnState}
    (hst : LearnInv env q X Y held st) (ht : st.sampler.2.tight = true)
    {x : Py (IterResult (UState × HeadSampler))} (hx : (learnIter env p lr X X.flip Y.flip st).Outcome x) :
    (∀ st', x = .ok (.next st') → st'.sampler.2.tight = true) ∧
    (x = .error .typeError → ∃ T ∈ st.sampler.1.space, FailingTail X Y T) := by
  obtain ⟨⟨new, hnew, hta⟩, hhr, hsel, hpool⟩ := hst
  constructor
  · rintro st' rfl
    obtain ⟨h', cands, best, hg, -, -, -, -, e⟩ := learnIter_next hx
    rw [e]
    exact (learnGen_typeError he hD hta p.nHeads p.nTails _ [] _ _ hhr ht (by simp) hg).1
  · rintro rfl
    unfold learnIter at hx
    rw [RandR.bind_eq, RandR.outcome_bind] at hx
    rcases hx with ⟨⟨g, h'⟩, hg, hx⟩ | ⟨e, hg, -⟩
    swap
    · obtain ⟨g, h', e, -⟩ := learnGen_outcome he hD hta p.nHeads p.nTails _ [] _ hhr (by simp) hg
      cases e
    obtain ⟨g1, h1, e, hr', hcase⟩ := learnGen_outcome he hD hta p.nHeads p.nTails _ [] _ hhr (by simp) hg
    cases e
    have hkey := (learnGen_typeError he hD hta p.nHeads p.nTails _ [] _ _ hhr ht (by simp) hg).2
    rcases hcase with ⟨cands, rfl, hsup, hne⟩ | ⟨rfl, h0⟩ | rfl | ⟨rfl, hT⟩
    · exfalso
      change Except.error PyErr.typeError = learnChoose env lr st h' cands at hx
      by_cases hc : cands = []
      · unfold learnChoose at hx
        have : env.setOrder cands = [] := by
          rw [hc]; exact (env.setOrder_perm []).eq_nil
        rw [this] at hx
        cases hx
      · have hp := env.setOrder_perm cands
        obtain ⟨best, hbest⟩ := pyMax_ok (key := lr.objective st.selected) (xs := env.setOrder cands)
          (by intro h; rw [h] at hp; exact hc hp.symm.eq_nil)
          (fun c hc' => hlr.objective _ _ hsel (hsup c (hp.mem_iff.mp hc')))
        have hbs := hsup best (hp.mem_iff.mp (pyMax_spec hbest).1)
        obtain ⟨v, hv⟩ := hlr.stop st.selected best hsel hbs
        unfold learnChoose at hx
        rw [hbest] at hx
        simp only [bind, Except.bind] at hx
        rw [hv] at hx
        cases v with
        | true => cases hx
        | false =>
          obtain ⟨s', hs', -⟩ := tailAfter_update he hD hta hbs.1
          simp only [Bool.false_eq_true, if_false] at hx
          rw [hs'] at hx
          cases hx
    · cases hx
    · exact hkey rfl
    · cases hx

theorem learnLoop_typeError {env : LearnEnv} (he : env.Good) {X Y : Cmp} (hD : LearnData env X Y) {q : ℚ}
    {p : Params} {lr : Learner} (hlr : LearnerTotal X Y lr) {held : List BRule} :
    ∀ (fuel : ℕ) (st : LearnState), LearnInv env q X Y held st → st.sampler.2.tight = true →
      (learnLoop env p lr X X.flip Y.flip fuel st).Outcome (.error .typeError) →
      ∃ us s, TailAfter env.toHeadEnv q true Y us s ∧ ∃ T ∈ s.space, FailingTail X Y T
  | 0, st, hst, ht, hx => by cases hx
  | fuel + 1, st, hst, ht, hx => by
    rw [learnLoop, RandR.bind_eq, RandR.outcome_bind] at hx
    rcases hx with ⟨r, hr, hx⟩ | ⟨e, hr, e'⟩
    · cases r with
      | done st' => cases hx
      | next st' =>
        have ht' := (learnIter_typeError he hD hlr hst ht hr).1 st' rfl
        rcases learnIter_outcome he hD hlr hst hr with ⟨st', e, -⟩ | ⟨st'', b, e, hi, hs⟩ | e |
          ⟨e, -⟩ | ⟨e, -⟩ <;> cases e
        exact learnLoop_typeError he hD hlr fuel st' hi ht' hx
    · cases e'
      obtain ⟨T, hT, hF⟩ := (learnIter_typeError he hD hlr hst ht hr).2 rfl
      obtain ⟨⟨new, hnew, hta⟩, -⟩ := hst
      exact ⟨_, _, hta, T, hT, hF⟩

end Verif
