/-
Properties C14-C16: prediction and saved models.
-/
import Verif.Lemmas.Predict
import Verif.Props.Rule

namespace Verif
open Cmp

/-- Example test matrix in CSR form: rows {0,1}, {1}, {}, {0,2}. -/
def exampleTest : Cmp :=
  { nMajor := 4, nMinor := 3, indptr := [0, 2, 3, 3, 5], indices := [0, 1, 1, 0, 2],
    data := [1, 1, 1, 1, 1] }

/-- Example rules: `0 -> {0,1}` and `{0,2} -> {2}`. -/
def exampleRules : List Rule := [⟨[0], [0, 1]⟩, ⟨[0, 2], [2]⟩]

/-- **C14.** If every tail label of a firing rule is a valid label, `predict` returns a 0/1 matrix of
shape (rows of X, number of labels) whose cell `(i, l)` is 1 exactly when some selected rule whose
head is contained in row `i` has `l` in its tail. -/
theorem C14_predict_exact (rules : List Rule) (L : ℕ) (X : Cmp)
    (hr : ∀ i < X.nMajor, ∀ r ∈ rules, Fires X r i → ∀ l ∈ r.tail, 0 ≤ l ∧ l < L) :
    ∃ P, predict rules (some L) X = .ok P ∧ P.nMajor = X.nMajor ∧ P.nMinor = L ∧ P.Binary ∧
      ∀ i < X.nMajor, ∀ l < L,
        (P.val i l = 1 ↔ ∃ r ∈ rules, Fires X r i ∧ (l : ℤ) ∈ r.tail) ∧
        (P.val i l = 0 ↔ ¬ ∃ r ∈ rules, Fires X r i ∧ (l : ℤ) ∈ r.tail) := by
  refine ⟨_, predict_ok ?_, by simp [predictedMatrix, ofLines], rfl, predictedMatrix_binary _ _ _, ?_⟩
  · intro i hi r h hf l hl hn
    have := hr i hi r h hf l hl
    rw [pyIndex_none_iff] at hn
    omega
  · intro i hi l hl
    have hn : i < (predictedMatrix L rules X).nMajor := by simpa [predictedMatrix, ofLines] using hi
    rw [(predictedMatrix_binary L rules X).val_eq i l hn]
    have key : (predictedMatrix L rules X).Stored i l ↔
        ∃ r ∈ rules, Fires X r i ∧ (l : ℤ) ∈ r.tail := by
      rw [predictedMatrix_stored hi]
      simp only [predictedCols, Finset.mem_filter, Finset.mem_range, hl, true_and, pyIndex_some_iff]
      constructor
      · rintro ⟨r, h, hf, m, hm, he⟩
        refine ⟨r, h, hf, ?_⟩
        have := hr i hi r h hf m hm
        rcases he with rfl | he
        · exact hm
        · omega
      · rintro ⟨r, h, hf, hm⟩
        exact ⟨r, h, hf, _, hm, Or.inl rfl⟩
    rw [← key]
    split <;> simp_all

/-- **C14.** With non-negative tail labels, `predict` raises exactly when a rule with a tail label
outside the label range fires on some row, and then it raises `IndexError`; an unfitted classifier
raises `TypeError`. -/
theorem C14_predict_error (rules : List Rule) (L : ℕ) (X : Cmp)
    (h0 : ∀ r ∈ rules, ∀ l ∈ r.tail, 0 ≤ l) (e : PyErr) :
    (predict rules (some L) X = .error e ↔
      e = .indexError ∧ ∃ i < X.nMajor, ∃ r ∈ rules, Fires X r i ∧ ∃ l ∈ r.tail, (L : ℤ) ≤ l) ∧
    predict rules none X = .error .typeError := by
  refine ⟨?_, rfl⟩
  by_cases h : ∃ i < X.nMajor, ∃ r ∈ rules, Fires X r i ∧ ∃ l ∈ r.tail, (L : ℤ) ≤ l
  · have : predict rules (some L) X = .error .indexError := by
      apply predict_error
      obtain ⟨i, hi, r, hr, hf, l, hl, hge⟩ := h
      exact ⟨i, hi, r, hr, hf, l, hl, pyIndex_none_iff.mpr (Or.inr hge)⟩
    rw [this]
    simp only [Except.error.injEq, h, and_true]
    exact eq_comm
  · have : predict rules (some L) X = .ok (predictedMatrix L rules X) := by
      apply predict_ok
      intro i hi r hr hf l hl hn
      have := h0 r hr l hl
      rw [pyIndex_none_iff] at hn
      exact h ⟨i, hi, r, hr, hf, l, hl, by omega⟩
    rw [this]
    simp [h]

example : ∃ P, predict exampleRules (some 3) exampleTest = .ok P ∧ P.val 0 1 = 1 ∧ P.val 3 2 = 1 ∧
    P.val 1 0 = 0 := by
  obtain ⟨P, h, -, -, -, hv⟩ := C14_predict_exact exampleRules 3 exampleTest (by decide)
  refine ⟨P, h, ?_, ?_, ?_⟩
  · rw [((hv 0 (by decide) 1 (by decide)).1)]; decide
  · rw [((hv 3 (by decide) 2 (by decide)).1)]; decide
  · rw [((hv 1 (by decide) 0 (by decide)).2)]; decide

example : predict exampleRules (some 2) exampleTest = .error .indexError :=
  (C14_predict_error exampleRules 2 exampleTest (by decide) .indexError).1.mpr ⟨rfl, by decide⟩

/-- `predict` either raises `IndexError` or returns; which one, and the stored cells. -/
theorem predict_cases (rules : List Rule) (L : ℕ) (X : Cmp) :
    (predict rules (some L) X = .ok (predictedMatrix L rules X) ∧
      ∀ i < X.nMajor, ∀ r ∈ rules, Fires X r i → ∀ l ∈ r.tail, pyIndex L l ≠ none) ∨
    (predict rules (some L) X = .error .indexError ∧
      ∃ i < X.nMajor, ∃ r ∈ rules, Fires X r i ∧ ∃ l ∈ r.tail, pyIndex L l = none) := by
  by_cases h : ∃ i < X.nMajor, ∃ r ∈ rules, Fires X r i ∧ ∃ l ∈ r.tail, pyIndex L l = none
  · exact Or.inr ⟨predict_error h, h⟩
  · have h' : ∀ i < X.nMajor, ∀ r ∈ rules, Fires X r i → ∀ l ∈ r.tail, pyIndex L l ≠ none :=
      fun i hi r hr hf l hl hn => h ⟨i, hi, r, hr, hf, l, hl, hn⟩
    exact Or.inl ⟨predict_ok h', h'⟩

/-- **C15.** Order and repetition of the selected rules do not matter. -/
theorem C15_order_independent (rules rules' : List Rule) (h : ∀ r, r ∈ rules ↔ r ∈ rules')
    (numLabels : Option ℕ) (X : Cmp) : predict rules numLabels X = predict rules' numLabels X := by
  cases numLabels with
  | none => rfl
  | some L =>
    have hm : predictedMatrix L rules X = predictedMatrix L rules' X := by
      simp only [predictedMatrix, predictedCols, h]
    rcases predict_cases rules L X with ⟨h1, h2⟩ | ⟨h1, h2⟩
    · rw [h1, predict_ok (fun i hi r hr => h2 i hi r ((h r).mpr hr)), hm]
    · rw [h1, predict_error]
      obtain ⟨i, hi, r, hr, hrest⟩ := h2
      exact ⟨i, hi, r, (h r).mp hr, hrest⟩

/-- **C15.** Adding rules, or features to rows, never loses a predicted label. -/
theorem C15_monotone (rules rules' : List Rule) (hr : ∀ r ∈ rules, r ∈ rules') (L : ℕ)
    (X X' : Cmp) (hn : X.nMajor = X'.nMajor) (hX : ∀ i < X.nMajor, ∀ f, X.Stored i f → X'.Stored i f)
    (P' : Cmp) (hP' : predict rules' (some L) X' = .ok P') :
    ∃ P, predict rules (some L) X = .ok P ∧
      ∀ i < X.nMajor, ∀ l < L, P.val i l = 1 → P'.val i l = 1 := by
  have hF : ∀ i < X.nMajor, ∀ r, Fires X r i → Fires X' r i :=
    fun i hi r hf f hm => ⟨(hf f hm).1, hX i hi _ (hf f hm).2⟩
  rcases predict_cases rules' L X' with ⟨h1, h2⟩ | ⟨h1, h2⟩
  · rw [hP'] at h1; cases h1
    refine ⟨_, predict_ok fun i hi r h hf => h2 i (hn ▸ hi) r (hr r h) (hF i hi r hf), ?_⟩
    intro i hi l hl
    rw [predictedMatrix_val hi, predictedMatrix_val (hn ▸ hi)]
    intro h
    have hmem : l ∈ predictedCols L rules X i := by
      by_contra hc; rw [if_neg hc] at h; exact absurd h (by decide)
    rw [if_pos]
    simp only [predictedCols, Finset.mem_filter] at hmem ⊢
    obtain ⟨hl, r, h, hf, hrest⟩ := hmem
    exact ⟨hl, r, hr r h, hF i hi r hf, hrest⟩
  · rw [hP'] at h1; cases h1

/-- **C15.** A row of the result depends only on the features of that row. -/
theorem C15_row_local (rules : List Rule) (L : ℕ) (X X' P P' : Cmp)
    (hP : predict rules (some L) X = .ok P) (hP' : predict rules (some L) X' = .ok P')
    (i i' : ℕ) (hi : i < X.nMajor) (hi' : i' < X'.nMajor)
    (hrow : ∀ f, X.Stored i f ↔ X'.Stored i' f) (l : ℕ) : P.val i l = P'.val i' l := by
  have hF : ∀ r, Fires X r i ↔ Fires X' r i' := by
    intro r; simp only [Fires, hrow]
  rcases predict_cases rules L X with ⟨h1, -⟩ | ⟨h1, -⟩ <;> rw [hP] at h1 <;> cases h1
  rcases predict_cases rules L X' with ⟨h2, -⟩ | ⟨h2, -⟩ <;> rw [hP'] at h2 <;> cases h2
  have hc : predictedCols L rules X i = predictedCols L rules X' i' := by
    ext j; simp only [predictedCols, hF, Finset.mem_filter]
  rw [predictedMatrix_val hi, predictedMatrix_val hi', hc]

example : predict (exampleRules.reverse ++ exampleRules) (some 3) exampleTest =
    predict exampleRules (some 3) exampleTest :=
  C15_order_independent _ _ (by intro r; simp) _ _

example : ∃ P', predict exampleRules (some 3) exampleTest = .ok P' ∧
    ∃ P, predict exampleRules.tail (some 3) exampleTest = .ok P := by
  obtain ⟨P, h, -⟩ := C14_predict_exact exampleRules 3 exampleTest (by decide)
  obtain ⟨Q, hQ, -⟩ := C15_monotone exampleRules.tail exampleRules (by decide) 3 exampleTest
    exampleTest rfl (fun _ _ _ h => h) P h
  exact ⟨P, h, Q, hQ⟩

/-! ### C16 -/

theorem updateDict_not_mem {V : Type} : ∀ (params : List (String × V)) (d : String → Option V)
    (k : String), k ∉ params.map Prod.fst → updateDict params d k = d k
  | [], _, _, _ => rfl
  | kv :: rest, d, k, h => by
    simp only [List.map_cons, List.mem_cons, not_or] at h
    rw [updateDict, List.foldl_cons]
    have := updateDict_not_mem rest (fun k' => if k' = kv.1 then some kv.2 else d k') k h.2
    rw [updateDict] at this
    rw [this, if_neg h.1]

theorem updateDict_agree {V : Type} (a : String → Option V) : ∀ (params : List (String × V))
    (d : String → Option V) (_ : ∀ kv ∈ params, a kv.1 = some kv.2) (k : String),
    (k ∈ params.map Prod.fst ∨ d k = a k) → updateDict params d k = a k
  | [], d, _, k, h => by simpa [updateDict] using h
  | kv :: rest, d, hp, k, h => by
    rw [updateDict, List.foldl_cons]
    apply updateDict_agree a rest _ (fun x hx => hp x (by simp [hx]))
    by_cases hk : k = kv.1
    · right; rw [if_pos hk, hk]; exact (hp kv (by simp)).symm
    · simp only [List.map_cons, List.mem_cons, hk, false_or] at h
      rw [if_neg hk]; exact h

/-- **C16.** A classifier whose constructor parameters are all present can be pickled; the unpickled
one has the same parameters, the same rules, the same sizes, and `predict` behaves identically on
every input. Attributes that are not constructor parameters are lost. -/
theorem C16_saved_model_predicts_identically {V : Type} (names : List String) (c : Clf V)
    (h : ∀ n ∈ names, (c.attrs n).isSome) :
    ∃ d, c.getState names = .ok d ∧
      (∀ n ∈ names, (Clf.setState d).attrs n = c.attrs n) ∧
      (∀ n, n ∉ names → (Clf.setState d).attrs n = none) ∧
      (Clf.setState d).selected = c.selected ∧
      (Clf.setState d).numLabels = c.numLabels ∧ (Clf.setState d).numFeatures = c.numFeatures ∧
      ∀ X, predict (Clf.setState d).selected (Clf.setState d).numLabels X =
        predict c.selected c.numLabels X := by
  have hg : ∃ ps, getParams names c.attrs = .ok ps ∧ ps.map Prod.fst = names ∧
      ∀ kv ∈ ps, c.attrs kv.1 = some kv.2 := by
    unfold getParams
    induction names with
    | nil => exact ⟨[], rfl, rfl, by simp⟩
    | cons n rest ih =>
      obtain ⟨ps, h1, h2, h3⟩ := ih (fun m hm => h m (by simp [hm]))
      obtain ⟨v, hv⟩ := Option.isSome_iff_exists.mp (h n (by simp))
      refine ⟨(n, v) :: ps, ?_, by simp [h2], ?_⟩
      · rw [List.mapM_cons, h1, hv]; rfl
      · intro kv hkv
        rcases List.mem_cons.mp hkv with rfl | hkv
        · exact hv
        · exact h3 kv hkv
  obtain ⟨ps, h1, h2, h3⟩ := hg
  have hs : (c.selected.map fun r => (r.head, r.tail)).map Rule.setState = c.selected := by
    rw [List.map_map]
    exact List.map_id c.selected
  refine ⟨{ params := ps, rules := c.selected.map fun r => (r.head, r.tail),
            numLabels := c.numLabels, numFeatures := c.numFeatures }, ?_, ?_, ?_, hs, rfl, rfl, ?_⟩
  · simp only [Clf.getState, h1, bind, Except.bind, pure, Except.pure]
  · intro n hn
    exact updateDict_agree c.attrs ps _ h3 n (Or.inl (h2 ▸ hn))
  · intro n hn
    exact updateDict_not_mem ps _ n (h2 ▸ hn)
  · intro X
    show predict (List.map Rule.setState _) c.numLabels X = _
    rw [hs]

example : ∃ d, (Clf.mk (V := ℕ) (fun n => if n = "lambd" then some 1 else none) exampleRules (some 3)
    (some 3)).getState ["lambd"] = .ok d ∧ (Clf.setState d).selected = exampleRules := by
  obtain ⟨d, h1, -, -, h2, -⟩ := C16_saved_model_predicts_identically ["lambd"]
    (Clf.mk (V := ℕ) (fun n => if n = "lambd" then some 1 else none) exampleRules (some 3) (some 3))
    (by simp)
  exact ⟨d, h1, h2⟩

/-- **C16.** A classifier that lacks the attribute for one of its constructor parameters cannot be pickled:
`AttributeError`. -/
theorem C16_missing_parameter {V : Type} (names : List String) (c : Clf V)
    (h : ∃ n ∈ names, c.attrs n = none) : c.getState names = .error .attributeError := by
  have hg : getParams names c.attrs = .error .attributeError := by
    unfold getParams
    induction names with
    | nil => obtain ⟨n, hn, -⟩ := h; simp at hn
    | cons n rest ih =>
      rw [List.mapM_cons]
      rcases hv : c.attrs n with - | v
      · rfl
      · rw [ih (by
          obtain ⟨m, hm, hmn⟩ := h
          rcases List.mem_cons.mp hm with rfl | hm
          · rw [hv] at hmn; cases hmn
          · exact ⟨m, hm, hmn⟩)]
        rfl
  simp only [Clf.getState, hg, bind, Except.bind]

example : (Clf.mk (V := ℕ) (fun n => if n = "lambd" then some 1 else none) exampleRules (some 3)
    (some 3)).getState ["lambd", "tolerance"] = .error .attributeError :=
  C16_missing_parameter _ _ ⟨"tolerance", by simp, by simp⟩

end Verif
