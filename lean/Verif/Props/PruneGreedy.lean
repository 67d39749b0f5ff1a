/-
`PruneGreedy`: the deterministic greedy head sampler.
-/
import Verif.Lemmas.GreedyHead
import Verif.Lemmas.Head
import Verif.Lemmas.Local2
import Verif.Props.Boley

namespace Verif

namespace GreedyHead

/-! ### Records and labels -/

theorem pos_eq {y : List ℤ} (hy : y.toFinset = {0, 1}) : (posIndices y).toFinset = labelled y 1 := by
  ext i
  rw [List.mem_toFinset, mem_posIndices, labelled, Finset.mem_filter, Finset.mem_range]
  refine and_congr_right fun h => ?_
  rw [getD_lt h, List.getElem?_eq_getElem h, Option.some.injEq]
  have : y[i] ∈ y.toFinset := List.mem_toFinset.2 (List.getElem_mem h)
  rw [hy] at this
  simp only [Finset.mem_insert, Finset.mem_singleton] at this
  omega

theorem neg_eq (y : List ℤ) : (negIndices y).toFinset = labelled y 0 := by
  ext i
  rw [List.mem_toFinset, mem_negIndices, labelled, Finset.mem_filter, Finset.mem_range]
  refine and_congr_right fun h => ?_
  rw [getD_lt h, List.getElem?_eq_getElem h, Option.some.injEq]

theorem noStoredZero {X : Cmp} (hX : X.Binary) : X.NoStoredZero := fun d hd => by rw [hX.data_one d hd]; decide

theorem stored_lt {X : Cmp} (hX : X.WF) {i j : ℕ} (h : X.Stored i j) : i < X.nMajor := by
  by_contra hc
  obtain ⟨k, h1, h2, -⟩ := h
  have : X.ptr (i + 1) = 0 := by
    unfold Cmp.ptr
    rw [List.getD_eq_getElem?_getD, List.getElem?_eq_none (by rw [hX.len_indptr]; omega)]
    rfl
  omega

theorem index_get {X : Cmp} (hX : X.Binary) {a : ℕ} (ha : a < X.nMinor) :
    pyGet (buildIndex X) (a : ℤ) = .ok (having X {a}) := by
  have hl : a < (buildIndex X).length := by simp [buildIndex, ha]
  rw [pyGet_getD hl ∅]
  congr 1
  ext i
  rw [mem_buildIndex hX.toWF (noStoredZero hX) ha]
  simp only [having, Finset.mem_singleton, forall_eq, Finset.mem_filter, Finset.mem_range]
  exact ⟨fun h => ⟨stored_lt hX.toWF h, h⟩, fun h => h.2⟩

theorem having_insert (X : Cmp) (a : ℕ) (A : Finset ℕ) : having X (insert a A) = having X A ∩ having X {a} := by
  ext i
  simp only [having, Finset.mem_insert, forall_eq_or_imp, Finset.mem_filter, Finset.mem_inter, Finset.mem_singleton,
    forall_eq]
  tauto

theorem having_sub (X : Cmp) (A : Finset ℕ) : having X A ⊆ Finset.range X.nMajor := by
  intro i hi
  simp only [having, Finset.mem_filter] at hi
  exact hi.1

theorem toFinset_snoc (l : List ℕ) (a : ℕ) : (l ++ [a]).toFinset = insert a l.toFinset := by
  ext x; simp [or_comm]

/-- The score of the greedy choice: the discriminativity of the attributes chosen. -/
noncomputable def pruneScore (X : Cmp) (y : List ℤ) (gamma : ℚ) (pre : List ℕ) (a : ℕ) : ℚ :=
  disc X y gamma (insert a pre.toFinset)

theorem prune_fits {X : Cmp} (hX : X.Binary) {y : List ℤ} (hy : y.toFinset = {0, 1}) (gamma eps : ℚ)
    {U : Finset ℕ} (hU : ∀ a ∈ U, a < X.nMinor) :
    Fits (buildIndex X) (pruneNext (buildIndex X) (posIndices y).toFinset (negIndices y).toFinset gamma)
      (eps * (posIndices y).toFinset.card) (pruneScore X y gamma) (Enough X y eps) U (fun l => having X l.toFinset) := by
  refine ⟨?_, ?_, ?_⟩
  · intro l a _ _ ha
    simp only [pruneNext, index_get hX (hU a ha), bind, Except.bind, pos_eq hy, neg_eq y]
    rw [pruneScore, disc, having_insert]
    rfl
  · intro a ha
    refine ⟨having X {a}, index_get hX (hU a ha), rfl, fun l _ _ => ?_⟩
    rw [toFinset_snoc, having_insert]
  · intro l
    rw [pos_eq hy]; rfl

theorem pruneAttributes_spec {X : Cmp} (hX : X.Binary) {y : List ℤ} (hy : y.toFinset = {0, 1}) (l : List ℕ)
    (hl : ∀ a ∈ l, a < X.nMinor) :
    ∃ res, pruneAttributes (buildIndex X) (posIndices y).toFinset l = .ok res ∧
      ∀ a, a ∈ res ↔ a ∈ l ∧ InPositive X y a := by
  induction l with
  | nil => exact ⟨∅, rfl, by simp⟩
  | cons a l ih =>
    obtain ⟨rest, e, hr⟩ := ih fun a ha => hl a (by simp [ha])
    have hc : 0 < (having X {a} ∩ (posIndices y).toFinset).card ↔ InPositive X y a := by
      rw [Finset.card_pos, pos_eq hy]
      constructor
      · rintro ⟨i, hi⟩
        simp only [having, labelled, Finset.mem_inter, Finset.mem_filter, Finset.mem_singleton, forall_eq] at hi
        exact ⟨i, hi.2.2, hi.1.2⟩
      · rintro ⟨i, h1, h2⟩
        refine ⟨i, ?_⟩
        simp only [having, labelled, Finset.mem_inter, Finset.mem_filter, Finset.mem_singleton, forall_eq, Finset.mem_range]
        exact ⟨⟨stored_lt hX.toWF h2, h2⟩, (List.getElem?_eq_some_iff.1 h1).1, h1⟩
    refine ⟨_, by simp only [pruneAttributes, index_get hX (hl a (by simp)), bind, Except.bind, e]; rfl, fun x => ?_⟩
    by_cases h : InPositive X y a
    · rw [if_pos (hc.2 h), Finset.mem_insert, hr, List.mem_cons]
      constructor
      · rintro (rfl | ⟨h1, h2⟩)
        · exact ⟨Or.inl rfl, h⟩
        · exact ⟨Or.inr h1, h2⟩
      · rintro ⟨rfl | h1, h2⟩
        · exact Or.inl rfl
        · exact Or.inr ⟨h1, h2⟩
    · rw [if_neg (fun h' => h (hc.1 h')), hr, List.mem_cons]
      constructor
      · rintro ⟨h1, h2⟩; exact ⟨Or.inr h1, h2⟩
      · rintro ⟨rfl | h1, h2⟩
        · exact absurd h2 h
        · exact ⟨h1, h2⟩

/-- The objects reachable by fitting on the matrix `X`, with any labels. -/
inductive PruneReach (gamma eps : ℚ) (X : Cmp) : Prune → Prop
  | init : PruneReach gamma eps X (Prune.init gamma eps)
  | fit (s : Prune) (y : List ℤ) : PruneReach gamma eps X s → PruneReach gamma eps X (s.fit X y).2

theorem PruneReach.inv {gamma eps : ℚ} {X : Cmp} {s : Prune} (h : PruneReach gamma eps X s) :
    s.gamma = gamma ∧ s.eps = eps ∧ s.inv.getD (buildIndex X) = buildIndex X := by
  induction h with
  | init => exact ⟨rfl, rfl, rfl⟩
  | fit s y _ ih =>
    unfold Prune.fit
    cases checkLabels y <;> exact ⟨ih.1, ih.2.1, by simpa using ih.2.2⟩

/-- **C109.** `fit` succeeds exactly when the labels are 0 and 1 and both occur. -/
theorem C109_fit (s : Prune) (X : Cmp) (y : List ℤ) :
    (y.toFinset = {0, 1} → (s.fit X y).1 = .ok ()) ∧
      (y.toFinset ≠ {0, 1} → (s.fit X y).1 = .error .assertionError) := by
  unfold Prune.fit checkLabels
  constructor <;> intro h
  · rw [if_pos h]
  · rw [if_neg h]

/-- **C109.** After fitting, if the matrix has a column, `sample_once` returns the beginning of a greedy sequence up to
its first highest discriminativity. The sequence chooses from the attributes of the positive records, or from all
attributes if the positive records have none. -/
theorem C109_choice (gamma eps : ℚ) (X : Cmp) (hX : X.Binary) (hD : 0 < X.nMinor) (s : Prune)
    (hs : PruneReach gamma eps X s) (y : List ℤ) (hy : y.toFinset = {0, 1}) (order : ℕ → Finset ℕ → List ℕ)
    (ho : Traverses order) :
    ∃ A, (s.fit X y).2.sampleOnce order = .ok A ∧
      GreedyBest (fun pre a => disc X y gamma (insert a pre.toFinset)) (Enough X y eps) (candidates X y) A := by
  classical
  obtain ⟨h1, h2, h3⟩ := hs.inv
  obtain ⟨res, e, hr⟩ := pruneAttributes_spec hX hy (List.range X.nMinor) (by simp)
  have hU : (if res.card = 0 then Finset.range X.nMinor else res) = candidates X y := by
    have hcols : ∀ a, InPositive X y a → a < X.nMinor := by
      rintro a ⟨i, -, k, -, -, hk⟩
      exact hX.idx_lt a (List.mem_of_getElem? hk)
    unfold candidates
    by_cases hex : ∃ a, InPositive X y a
    · rw [if_pos hex]
      obtain ⟨a, ha⟩ := hex
      have hmem : a ∈ res := (hr a).2 ⟨by simpa using hcols a ha, ha⟩
      rw [if_neg (Finset.card_pos.2 ⟨a, hmem⟩).ne']
      ext x
      rw [hr]
      simp
    · rw [if_neg hex, if_pos]
      rw [Finset.card_eq_zero, Finset.eq_empty_iff_forall_notMem]
      exact fun a ha => hex ⟨a, ((hr a).1 ha).2⟩
  have hlt : ∀ a ∈ candidates X y, a < X.nMinor := by
    intro a ha
    unfold candidates at ha
    split at ha
    · exact Finset.mem_range.1 (Finset.mem_filter.1 ha).1
    · exact Finset.mem_range.1 ha
  have hne : candidates X y ≠ ∅ := by
    unfold candidates
    split
    · rename_i hex
      obtain ⟨a, ha⟩ := hex
      have hlt' : a < X.nMinor := by
        obtain ⟨i, -, k, -, -, hk⟩ := ha
        exact hX.idx_lt a (List.mem_of_getElem? hk)
      refine Finset.nonempty_iff_ne_empty.1 ⟨a, ?_⟩
      simp only [Finset.mem_filter, Finset.mem_range]
      exact ⟨hlt', ha⟩
    · exact Finset.nonempty_iff_ne_empty.1 ⟨0, by simpa using hD⟩
  obtain ⟨A, hA, hbest⟩ := greedyChoice_spec (U₀ := candidates X y) ho (prune_fits hX hy gamma eps hlt)
    (first := pruneFirst (buildIndex X) (posIndices y).toFinset (negIndices y).toFinset gamma)
    (by
      intro a ha
      simp only [pruneFirst, index_get hX (hlt a ha), bind, Except.bind, pos_eq hy, neg_eq y]
      rw [pruneScore, disc, having_insert]
      congr 2
      · rw [List.toFinset_nil]
        have : having X ∅ = Finset.range X.nMajor := by ext; simp [having]
        rw [this, Finset.inter_eq_right.2 (having_sub X {a})]
      · rw [List.toFinset_nil]
        have : having X ∅ = Finset.range X.nMajor := by ext; simp [having]
        rw [this, Finset.inter_eq_right.2 (having_sub X {a})])
    hne
  refine ⟨A, ?_, hbest⟩
  unfold Prune.fit Prune.sampleOnce checkLabels
  rw [if_pos hy]
  simp only [h1, h2, h3, e, bind, Except.bind]
  rw [hU]
  exact hA

/-- **C109.** Consequences: what `sample_once` returns is not empty, consists of candidates, is at least as
discriminative as every single candidate, and if it has more than one attribute, at least the fraction `eps` of the
number of positive records has all of them. -/
theorem C109_quality (gamma eps : ℚ) (X : Cmp) (y : List ℤ) (U A : Finset ℕ)
    (h : GreedyBest (fun pre a => disc X y gamma (insert a pre.toFinset)) (Enough X y eps) U A) :
    A ≠ ∅ ∧ A ⊆ U ∧ (∀ a ∈ U, disc X y gamma {a} ≤ disc X y gamma A) ∧
      (1 < A.card → eps * (labelled y 1).card ≤ (having X A).card) := by
  obtain ⟨l, m, hm, hl, rfl, hmax, -⟩ := h
  have hins : insert l[m] (l.take m).toFinset = (l.take (m + 1)).toFinset := by
    rw [List.take_succ_eq_append_getElem hm, toFinset_snoc]
  refine ⟨?_, ?_, ?_, ?_⟩
  · intro h
    rw [← hins] at h
    simp at h
  · intro a ha
    exact hl.sub a (List.mem_of_mem_take (List.mem_toFinset.1 ha))
  · intro a ha
    have h0 : 0 < l.length := by omega
    have h1 := hl.best 0 h0 a ha (by simp)
    have h2 := hmax 0 h0
    simp only [hins] at h2
    simp only [List.take_zero, List.toFinset_nil] at h1 h2
    exact h1.trans h2
  · intro hc
    rcases Nat.eq_zero_or_pos m with rfl | hpos
    · rw [← hins] at hc
      simp at hc
    · exact hl.big m hm hpos

/-- **C109.** If a single attribute already tells the positive records from the negative ones, then so do the
attributes returned (with `gamma > 0`). -/
theorem C109_perfect (gamma eps : ℚ) (hg : 0 < gamma) (X : Cmp) (y : List ℤ) (U A : Finset ℕ)
    (h : GreedyBest (fun pre a => disc X y gamma (insert a pre.toFinset)) (Enough X y eps) U A)
    (a : ℕ) (ha : a ∈ U) (hp : labelled y 1 ⊆ having X {a}) (hn : having X {a} ∩ labelled y 0 = ∅) :
    labelled y 1 ⊆ having X A ∧ having X A ∩ labelled y 0 = ∅ := by
  have h1 := (C109_quality gamma eps X y U A h).2.2.1 a ha
  unfold disc at h1
  rw [Finset.inter_eq_right.2 hp, hn, Finset.card_empty, Nat.cast_zero, mul_zero, sub_zero] at h1
  have h2 : ((having X A ∩ labelled y 1).card : ℚ) ≤ (labelled y 1).card :=
    Nat.cast_le.2 (Finset.card_le_card Finset.inter_subset_right)
  have h3 : (0 : ℚ) ≤ (having X A ∩ labelled y 0).card := Nat.cast_nonneg _
  have h4 : 0 ≤ gamma * ((having X A ∩ labelled y 0).card : ℚ) := mul_nonneg hg.le h3
  constructor
  · have h5 : (labelled y 1).card ≤ (having X A ∩ labelled y 1).card := by
      have : ((labelled y 1).card : ℚ) ≤ (having X A ∩ labelled y 1).card := by linarith
      exact_mod_cast this
    have := Finset.eq_of_subset_of_card_le Finset.inter_subset_right h5
    rw [← this]
    exact Finset.inter_subset_left
  · have h5 : gamma * ((having X A ∩ labelled y 0).card : ℚ) = 0 := by linarith
    rcases mul_eq_zero.1 h5 with h6 | h6
    · exact absurd h6 hg.ne'
    · exact Finset.card_eq_zero.1 (by exact_mod_cast h6)

/-- **C109.** If scores do not tie, the greedy sequence and the result do not depend on the order in which sets are
traversed. -/
theorem C109_unique (score : List ℕ → ℕ → ℚ) (Big : List ℕ → Prop) (U : Finset ℕ)
    (hties : ∀ pre a b, a ∈ U → b ∈ U → a ∉ pre → b ∉ pre → score pre a = score pre b → a = b) (A B : Finset ℕ)
    (hA : GreedyBest score Big U A) (hB : GreedyBest score Big U B) : A = B := by
  have hpre : ∀ l l', GreedySeq score Big U l → GreedySeq score Big U l' → ∀ k ≤ l.length, k ≤ l'.length →
      l.take k = l'.take k := by
    intro l l' hl hl' k
    induction k with
    | zero => simp
    | succ k ih =>
      intro h1 h2
      have ih := ih (by omega) (by omega)
      rw [List.take_succ_eq_append_getElem (by omega), List.take_succ_eq_append_getElem (by omega), ih]
      have hn : ∀ (l : List ℕ) (h : k < l.length), l.Nodup → l[k] ∉ l.take k := by
        intro l h hnd hm
        rw [List.mem_take_iff_getElem] at hm
        obtain ⟨i, hi, e⟩ := hm
        have := (List.Nodup.getElem_inj_iff hnd).1 e
        omega
      have n1 := hn l (by omega) hl.nodup
      have n2 := hn l' (by omega) hl'.nodup
      have m1 := hl.sub _ (List.getElem_mem (show k < l.length by omega))
      have m2 := hl'.sub _ (List.getElem_mem (show k < l'.length by omega))
      have b1 := hl.best k (by omega) _ m2 (by rw [ih]; exact n2)
      have b2 := hl'.best k (by omega) _ m1 (by rw [← ih]; exact n1)
      rw [ih] at b1
      have e := hties (l'.take k) _ _ m1 m2 (by rw [← ih]; exact n1) n2 (le_antisymm b2 b1)
      rw [e]
  have hlen : ∀ l l', GreedySeq score Big U l → GreedySeq score Big U l' → ¬ l.length < l'.length := by
    intro l l' hl hl' h
    have e : l = l'.take l.length := by
      have := hpre l l' hl hl' l.length (le_refl _) h.le
      rwa [List.take_length] at this
    have hm := hl'.sub _ (List.getElem_mem h)
    have hnm : l'[l.length] ∉ l := by
      intro hc
      have hc' : l'[l.length] ∈ l'.take l.length := e ▸ hc
      rw [List.mem_take_iff_getElem] at hc'
      obtain ⟨i, hi, e'⟩ := hc'
      have := (List.Nodup.getElem_inj_iff hl'.nodup).1 e'
      omega
    rcases hl.stop with h1 | ⟨b, hb, hbn, hbest, hnb⟩
    · exact hnm (h1 _ hm)
    · have b1 := hbest _ hm hnm
      have b2 := hl'.best l.length h b hb (by rw [← e]; exact hbn)
      rw [← e] at b2
      have e' := hties l _ _ hm hb hnm hbn (le_antisymm b1 b2)
      have h0 : 0 < l.length := List.length_pos_iff.2 hl.ne
      have := hl'.big l.length h h0
      rw [List.take_succ_eq_append_getElem h, ← e, e'] at this
      exact hnb this
  obtain ⟨l, m, hm, hl, rfl, h1, h2⟩ := hA
  obtain ⟨l', m', hm', hl', rfl, h1', h2'⟩ := hB
  have e : l = l' := by
    have h : l.length = l'.length := le_antisymm (not_lt.1 (hlen l' l hl' hl)) (not_lt.1 (hlen l l' hl hl'))
    have := hpre l l' hl hl' l.length (le_refl _) h.le
    rwa [List.take_length, h, List.take_length] at this
  subst e
  have : m = m' := by
    rcases lt_trichotomy m m' with h | h | h
    · exact absurd (h2' m h) (not_lt.2 (h1 m' hm'))
    · exact h
    · exact absurd (h2 m' h) (not_lt.2 (h1' m hm))
  rw [this]

/-- **C109.** `sample(k)` returns `k` such choices; without ties they are all the same set. -/
theorem C109_batch (gamma eps : ℚ) (X : Cmp) (hX : X.Binary) (hD : 0 < X.nMinor) (s : Prune)
    (hs : PruneReach gamma eps X s) (y : List ℤ) (hy : y.toFinset = {0, 1}) (orders : ℕ → ℕ → Finset ℕ → List ℕ)
    (ho : ∀ i, Traverses (orders i)) (k : ℕ) :
    ∃ As, (s.fit X y).2.sample orders k = .ok As ∧ As.length = k ∧
      ∀ A ∈ As, GreedyBest (fun pre a => disc X y gamma (insert a pre.toFinset)) (Enough X y eps) (candidates X y) A := by
  choose f hf using fun i => C109_choice gamma eps X hX hD s hs y hy (orders i) (ho i)
  refine ⟨(List.range k).map f, ?_, by simp, ?_⟩
  · unfold Prune.sample
    exact mapM_ok_of_forall fun i _ => (hf i).1
  · intro A hA
    obtain ⟨i, -, rfl⟩ := List.mem_map.1 hA
    exact (hf i).2

/-- **C109.** Before `fit` there is an `AttributeError`; a matrix without columns gives an `UnboundLocalError`. -/
theorem C109_no_columns (gamma eps : ℚ) (order : ℕ → Finset ℕ → List ℕ) (ho : Traverses order) :
    (Prune.init gamma eps).sampleOnce order = .error .attributeError ∧
      ∀ (X : Cmp) (y : List ℤ), X.nMinor = 0 →
        ((Prune.init gamma eps).fit X y).2.sampleOnce order = .error .unboundLocalError := by
  refine ⟨rfl, fun X y h => ?_⟩
  have h0 : order 0 ∅ = [] := by
    have := (ho 0 ∅).2
    rwa [List.toFinset_eq_empty_iff] at this
  unfold Prune.fit Prune.sampleOnce
  cases checkLabels y with
  | error e => simp [Prune.init, h]
  | ok u =>
    cases u
    simp only [Prune.init, h, List.range_zero, pruneAttributes, bind, Except.bind, Finset.card_empty, if_true,
      Finset.range_zero, greedyChoice, h0, scanBest]

/-- **C109.** If the only `fit` failed, on a matrix with columns, `sample_once` raises `TypeError`. -/
theorem C109_failed_fit (gamma eps : ℚ) (X : Cmp) (hD : 0 < X.nMinor) (y : List ℤ) (hy : y.toFinset ≠ {0, 1})
    (order : ℕ → Finset ℕ → List ℕ) :
    ((Prune.init gamma eps).fit X y).2.sampleOnce order = .error .typeError := by
  have hl : checkLabels y = .error .assertionError := if_neg hy
  have hg : ∃ s, pyGet (buildIndex X) (0 : ℤ) = .ok s := by
    have hlen : (buildIndex X).length = X.nMinor := by simp [buildIndex]
    exact ⟨(buildIndex X)[0]'(hlen ▸ hD), by simp [pyGet, pyIndex, hlen, hD]⟩
  obtain ⟨s, hs⟩ := hg
  unfold Prune.fit Prune.sampleOnce
  rw [hl]
  simp only [Prune.init, if_neg hD.ne', Option.getD_none]
  rw [show pyGet (buildIndex X) 0 = .ok s from hs]
  rfl

/-- **C109.** A second `fit` keeps the records of the first matrix: with the same number of columns it has the same
effect as fitting the first matrix again, and with more columns `sample_once` raises `IndexError`. -/
theorem C109_refit (gamma eps : ℚ) (X X' : Cmp) (y y' : List ℤ) (hy' : y'.toFinset = {0, 1})
    (order : ℕ → Finset ℕ → List ℕ) :
    (X'.nMinor = X.nMinor → (((Prune.init gamma eps).fit X y).2.fit X' y').2 =
      (((Prune.init gamma eps).fit X y).2.fit X y').2) ∧
    (X.nMinor < X'.nMinor →
      (((Prune.init gamma eps).fit X y).2.fit X' y').2.sampleOnce order = .error .indexError) := by
  have hl : checkLabels y' = .ok () := if_pos hy'
  have h1 : ∀ Z : Cmp, (((Prune.init gamma eps).fit X y).2.fit Z y').2 =
      { gamma := gamma, eps := eps, rows := some (convertMatrixToSetsV2 X), inv := some (buildIndex X),
        D := some Z.nMinor, labels := some ((posIndices y').toFinset, (negIndices y').toFinset) } := by
    intro Z
    unfold Prune.fit
    rw [hl]
    cases checkLabels y <;> rfl
  refine ⟨fun h => by rw [h1, h1, h], fun h => ?_⟩
  rw [h1]
  unfold Prune.sampleOnce
  have key : ∀ l : List ℕ, (∃ a ∈ l, X.nMinor ≤ a) →
      pruneAttributes (buildIndex X) (posIndices y').toFinset l = .error .indexError := by
    intro l
    induction l with
    | nil => rintro ⟨a, ha, -⟩; simp at ha
    | cons a l ih =>
      intro hex
      have hlen : (buildIndex X).length = X.nMinor := by simp [buildIndex]
      by_cases ha : a < X.nMinor
      · obtain ⟨b, hb, hb'⟩ := hex
        have hb'' : b ∈ l := by
          rcases List.mem_cons.1 hb with rfl | hb
          · omega
          · exact hb
        have := ih ⟨b, hb'', hb'⟩
        rw [pruneAttributes, pyGet_getD (by rw [hlen]; exact ha) ∅]
        simp only [bind, Except.bind, this]
      · have hg : pyGet (buildIndex X) (a : ℤ) = .error .indexError := by
          unfold pyGet pyIndex
          rw [if_pos (by positivity), if_neg (by rw [hlen]; omega)]
          rfl
        rw [pruneAttributes, hg]
        rfl
  simp only [key (List.range X'.nMinor) ⟨X.nMinor, by simpa using h, le_refl _⟩, bind, Except.bind]

/-! ### Non-triviality -/

example : ∃ A, ((Prune.init (1 / 2) (1 / 10)).fit headMatrix [1, 0, 0]).2.sampleOnce (fun _ S => S.sort (· ≤ ·)) = .ok A ∧
    A ≠ ∅ := by
  obtain ⟨A, h1, h2⟩ := C109_choice (1 / 2) (1 / 10) headMatrix headMatrix_binary (by decide) _ .init [1, 0, 0]
    (by decide) (fun _ S => S.sort (· ≤ ·)) (fun _ S => ⟨Finset.sort_nodup _ _, Finset.sort_toFinset _ _⟩)
  exact ⟨A, h1, (C109_quality _ _ _ _ _ _ h2).1⟩

end GreedyHead

end Verif
