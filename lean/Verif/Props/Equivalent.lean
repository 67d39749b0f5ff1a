/-
When two models predict alike, and which rules are redundant.
-/
import Verif.Spec.Equivalent
import Verif.Props.Predict

namespace Verif
open Cmp

theorem headRecord_stored (n : ℕ) (r : Rule) (h0 : ∀ f ∈ r.head, 0 ≤ f) (j : ℕ) :
    (headRecord n r).Stored 0 j ↔ (j : ℤ) ∈ r.head := by
  unfold headRecord
  rw [stored_ofLines _ _ _ _ (by simp)]
  simp only [List.getElem_cons_zero, List.map_map, Function.comp_def, List.map_id', Finset.mem_sort,
    List.mem_toFinset, List.mem_map]
  constructor
  · rintro ⟨f, hf, rfl⟩
    rwa [Int.toNat_of_nonneg (h0 f hf)]
  · intro h
    exact ⟨_, h, by simp⟩

theorem headRecord_binary (n : ℕ) (r : Rule) (h : ∀ f ∈ r.head, 0 ≤ f ∧ f < n) : (headRecord n r).Binary where
  toWF := by
    apply wf_ofLines
    intro l hl e he
    rw [List.mem_singleton] at hl
    subst hl
    simp only [List.mem_map, Finset.mem_sort, List.mem_toFinset] at he
    obtain ⟨j, ⟨f, hf, rfl⟩, rfl⟩ := he
    have := h f hf
    dsimp only
    omega
  data_one := by
    intro d hd
    simp only [headRecord, ofLines, List.flatten_cons, List.flatten_nil, List.append_nil, List.map_map, List.mem_map,
      Function.comp_def] at hd
    obtain ⟨_, _, rfl⟩ := hd
    rfl
  nodup := by
    intro i hi
    have hi' : i = 0 := by simpa [headRecord, ofLines] using hi
    subst hi'
    rw [headRecord, segIdx_ofLines _ _ _ (by simp)]
    simp [List.map_map, Function.comp_def]

theorem headRecord_fires {n : ℕ} {r : Rule} (h0 : ∀ f ∈ r.head, 0 ≤ f) {r' : Rule} (h0' : ∀ f ∈ r'.head, 0 ≤ f) :
    Fires (headRecord n r) r' 0 ↔ ∀ f ∈ r'.head, f ∈ r.head := by
  unfold Fires
  refine forall₂_congr fun f hf => ?_
  rw [headRecord_stored n r h0, Int.toNat_of_nonneg (h0' f hf)]
  exact ⟨fun h => h.2, fun h => ⟨h0' f hf, h⟩⟩

/-- **C162** One model never predicts more than another, on any records, exactly when each of its rules can be derived: for
every label of the rule, the other model has a rule that concludes the label from a part of the head. It is enough to
compare the predictions on the records that consist of the heads. -/
theorem C162_inclusion (n L : ℕ) (rules rules' : List Rule) (h : ItemsExist n L rules) (h' : ItemsExist n L rules') :
    (PredictsLess n L rules rules' ↔ ∀ r ∈ rules, ∀ l ∈ r.tail, Derives rules' r l) ∧
    (PredictsLess n L rules rules' ↔ ∀ r ∈ rules, ∀ P P', predict rules (some L) (headRecord n r) = .ok P →
      predict rules' (some L) (headRecord n r) = .ok P' → ∀ l < L, P.val 0 l = 1 → P'.val 0 l = 1) := by
  have hone : (∀ r ∈ rules, ∀ P P', predict rules (some L) (headRecord n r) = .ok P →
      predict rules' (some L) (headRecord n r) = .ok P' → ∀ l < L, P.val 0 l = 1 → P'.val 0 l = 1) →
      ∀ r ∈ rules, ∀ l ∈ r.tail, Derives rules' r l := by
    intro hp r hr l hl
    have hr0 : ∀ f ∈ r.head, 0 ≤ f := fun f hf => ((h r hr).1 f hf).1
    obtain ⟨P, hP, -, -, -, hv⟩ := C14_predict_exact rules L (headRecord n r) fun _ _ q hq _ => (h q hq).2
    obtain ⟨P', hP', -, -, -, hv'⟩ := C14_predict_exact rules' L (headRecord n r) fun _ _ q hq _ => (h' q hq).2
    have hlr := (h r hr).2 l hl
    have hl' : l.toNat < L := by omega
    have hc : ((l.toNat : ℕ) : ℤ) = l := Int.toNat_of_nonneg hlr.1
    have h0 : 0 < (headRecord n r).nMajor := by simp [headRecord, ofLines]
    have h1 := hp r hr P P' hP hP' l.toNat hl' ((hv 0 h0 _ hl').1.mpr
      ⟨r, hr, (headRecord_fires hr0 hr0).mpr fun f hf => hf, by rwa [hc]⟩)
    obtain ⟨r', hr', hf, ht⟩ := (hv' 0 h0 _ hl').1.mp h1
    rw [hc] at ht
    exact ⟨r', hr', ht, (headRecord_fires hr0 fun f hf => ((h' r' hr').1 f hf).1).mp hf⟩
  have htwo : (∀ r ∈ rules, ∀ l ∈ r.tail, Derives rules' r l) → PredictsLess n L rules rules' := by
    intro hd X _ _ P P' hP hP' i hi l hl h1
    obtain ⟨Q, hQ, -, -, -, hv⟩ := C14_predict_exact rules L X fun _ _ q hq _ => (h q hq).2
    obtain ⟨Q', hQ', -, -, -, hv'⟩ := C14_predict_exact rules' L X fun _ _ q hq _ => (h' q hq).2
    rw [hP] at hQ
    rw [hP'] at hQ'
    cases hQ
    cases hQ'
    obtain ⟨r, hr, hf, ht⟩ := (hv i hi l hl).1.mp h1
    obtain ⟨r', hr', ht', hsub⟩ := hd r hr l ht
    exact (hv' i hi l hl).1.mpr ⟨r', hr', fun f hf' => hf f (hsub f hf'), ht'⟩
  have hthree : PredictsLess n L rules rules' → ∀ r ∈ rules, ∀ P P', predict rules (some L) (headRecord n r) = .ok P →
      predict rules' (some L) (headRecord n r) = .ok P' → ∀ l < L, P.val 0 l = 1 → P'.val 0 l = 1 :=
    fun hp r hr P P' hP hP' l hl => hp _ (headRecord_binary n r (h r hr).1) rfl P P' hP hP' 0
      (by simp [headRecord, ofLines]) l hl
  exact ⟨⟨fun hp => hone (hthree hp), htwo⟩, ⟨hthree, fun hp => htwo (hone hp)⟩⟩

/-- Two models that predict no more than each other return the same matrices. -/
theorem predict_eq {n L : ℕ} {rules rules' : List Rule} (h : ItemsExist n L rules) (h' : ItemsExist n L rules')
    (h1 : ∀ r ∈ rules, ∀ l ∈ r.tail, Derives rules' r l) (h2 : ∀ r ∈ rules', ∀ l ∈ r.tail, Derives rules r l) (X : Cmp) :
    predict rules (some L) X = predict rules' (some L) X := by
  have hok : ∀ {q : List Rule}, ItemsExist n L q → ∀ i < X.nMajor, ∀ r ∈ q, Fires X r i → ∀ l ∈ r.tail, pyIndex L l ≠ none := by
    intro q hq i _ r hr _ l hl hn
    have := (hq r hr).2 l hl
    rw [pyIndex_none_iff] at hn
    omega
  rw [predict_ok (hok h), predict_ok (hok h')]
  have key : ∀ {q q' : List Rule}, (∀ r ∈ q, ∀ l ∈ r.tail, Derives q' r l) → ∀ i,
      predictedCols L q X i ⊆ predictedCols L q' X i := by
    intro q q' hd i j hj
    unfold predictedCols at hj ⊢
    rw [Finset.mem_filter] at hj ⊢
    obtain ⟨h0, r, hr, hf, l, hl, e⟩ := hj
    obtain ⟨r', hr', ht', hsub⟩ := hd r hr l hl
    exact ⟨h0, r', hr', fun f hf' => hf f (hsub f hf'), l, ht', e⟩
  unfold predictedMatrix
  simp only [fun i => (key h1 i).antisymm (key h2 i)]

/-- **C162** Two models give the same predictions for all records exactly when the rules of each can be derived from the
other. -/
theorem C162_equivalent (n L : ℕ) (rules rules' : List Rule) (h : ItemsExist n L rules) (h' : ItemsExist n L rules') :
    (∀ X : Cmp, X.Binary → X.nMinor = n → predict rules (some L) X = predict rules' (some L) X) ↔
      (∀ r ∈ rules, ∀ l ∈ r.tail, Derives rules' r l) ∧ ∀ r ∈ rules', ∀ l ∈ r.tail, Derives rules r l := by
  constructor
  · intro he
    constructor
    · refine (C162_inclusion n L rules rules' h h').1.mp fun X hX hn P P' hP hP' i _ l _ h1 => ?_
      rw [he X hX hn, hP'] at hP
      cases hP
      exact h1
    · refine (C162_inclusion n L rules' rules h' h).1.mp fun X hX hn P P' hP hP' i _ l _ h1 => ?_
      rw [← he X hX hn, hP'] at hP
      cases hP
      exact h1
  · exact fun hd X _ _ => predict_eq h h' hd.1 hd.2 X

/-- **C162** A rule of a model is redundant, that is, removing it changes no prediction for any records, exactly when
every label of the rule is concluded by another rule of the model from a part of its head. -/
theorem C162_redundant (n L : ℕ) (before after : List Rule) (r : Rule) (h : ItemsExist n L (before ++ r :: after)) :
    (∀ X : Cmp, X.Binary → X.nMinor = n →
      predict (before ++ r :: after) (some L) X = predict (before ++ after) (some L) X) ↔
    ∀ l ∈ r.tail, Derives (before ++ after) r l := by
  have hsub : ∀ q ∈ before ++ after, q ∈ before ++ r :: after := by
    intro q hq
    simp only [List.mem_append, List.mem_cons] at hq ⊢
    tauto
  have h' : ItemsExist n L (before ++ after) := fun q hq => h q (hsub q hq)
  rw [C162_equivalent n L _ _ h h']
  constructor
  · exact fun hd l hl => hd.1 r (by simp) l hl
  · intro hd
    refine ⟨fun q hq l hl => ?_, fun q hq l hl => ⟨q, hsub q hq, hl, fun f hf => hf⟩⟩
    by_cases hqr : q ∈ before ++ after
    · exact ⟨q, hqr, hl, fun f hf => hf⟩
    · have : q = r := by
        simp only [List.mem_append, List.mem_cons] at hq hqr
        tauto
      subst this
      exact hd l hl

/-- **C162** Only the features that occur in heads are read: records that agree on them get the same predictions, whatever
the other features and the number of columns are. -/
theorem C162_features_read (L : ℕ) (rules : List Rule) (X X' : Cmp) (hn : X.nMajor = X'.nMajor)
    (hX : ∀ i < X.nMajor, ∀ r ∈ rules, ∀ f ∈ r.head, 0 ≤ f → (X.Stored i f.toNat ↔ X'.Stored i f.toNat))
    (hr : ∀ r ∈ rules, ∀ l ∈ r.tail, 0 ≤ l ∧ l < L) :
    predict rules (some L) X = predict rules (some L) X' := by
  have hfire : ∀ i < X.nMajor, ∀ r ∈ rules, (Fires X r i ↔ Fires X' r i) := by
    intro i hi r hr
    unfold Fires
    exact forall₂_congr fun f hf => and_congr_right fun h0 => hX i hi r hr f hf h0
  have hok : ∀ Z : Cmp, ∀ i < Z.nMajor, ∀ r ∈ rules, Fires Z r i → ∀ l ∈ r.tail, pyIndex L l ≠ none := by
    intro Z i _ r h _ l hl hno
    have := hr r h l hl
    rw [pyIndex_none_iff] at hno
    omega
  rw [predict_ok (hok X), predict_ok (hok X')]
  unfold predictedMatrix
  rw [← hn]
  congr 2
  refine List.map_congr_left fun i hi => ?_
  have : predictedCols L rules X i = predictedCols L rules X' i := by
    unfold predictedCols
    refine Finset.filter_congr fun j _ => ?_
    exact exists_congr fun r => and_congr_right fun hr => and_congr_left fun _ => hfire i (List.mem_range.mp hi) r hr
  rw [this]

/-! ### A concrete case -/

/-- In the model `0 -> {0,1}`, `{0,2} -> {2}`, `{0,1} -> {1}` the last rule is redundant and the second is not. -/
example : (∀ X : Cmp, X.Binary → X.nMinor = 3 →
      predict (exampleRules ++ [⟨[0, 1], [1]⟩]) (some 3) X = predict exampleRules (some 3) X) ∧
    ¬ ∀ X : Cmp, X.Binary → X.nMinor = 3 →
      predict exampleRules (some 3) X = predict [⟨[0], [0, 1]⟩] (some 3) X := by
  constructor
  · have := (C162_redundant 3 3 exampleRules [] ⟨[0, 1], [1]⟩ (by unfold ItemsExist; decide)).mpr (by unfold Derives; decide)
    simpa using this
  · intro hall
    have := (C162_redundant 3 3 [⟨[0], [0, 1]⟩] [] ⟨[0, 2], [2]⟩ (by unfold ItemsExist; decide)).mp (by simpa [exampleRules] using hall)
    revert this
    unfold Derives
    decide

end Verif
