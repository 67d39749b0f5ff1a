/-
Lemmas on the head sampler.
-/
import Verif.Spec.Head
import Verif.Lemmas.CftpExact
import Verif.Props.Trie
import Verif.Props.Graph

namespace Verif

/-! ### Counters -/

theorem tallyAdd_lookup {α : Type} [DecidableEq α] (l : List (α × ℕ)) (k x : α) :
    ((tallyAdd l k).lookup x).getD 0 = (l.lookup x).getD 0 + if x = k then 1 else 0 := by
  induction l with
  | nil =>
    simp only [tallyAdd, List.lookup]
    by_cases h : x = k
    · simp [h]
    · have : (x == k) = false := by simp [h]
      simp [this, h]
  | cons e r ih =>
    obtain ⟨a, n⟩ := e
    simp only [tallyAdd]
    split
    · rename_i h
      subst h
      simp only [List.lookup]
      by_cases hx : x = a
      · simp [hx]
      · have : (x == a) = false := by simp [hx]
        simp [this, hx]
    · rename_i h
      simp only [List.lookup]
      by_cases hx : x = a
      · subst hx; simp [h]
      · have : (x == a) = false := by simp [hx]
        simp only [this]
        exact ih

theorem tallyAdd_keys {α : Type} [DecidableEq α] (l : List (α × ℕ)) (k : α) :
    (∀ x, x ∈ (tallyAdd l k).map Prod.fst ↔ x = k ∨ x ∈ l.map Prod.fst) ∧
    ((l.map Prod.fst).Nodup → ((tallyAdd l k).map Prod.fst).Nodup) := by
  induction l with
  | nil => simp [tallyAdd]
  | cons e r ih =>
    obtain ⟨a, n⟩ := e
    simp only [tallyAdd]
    split
    · rename_i h
      subst h
      simp
    · rename_i h
      constructor
      · intro x
        simp only [List.map_cons, List.mem_cons, ih.1]
        tauto
      · intro hn
        simp only [List.map_cons, List.nodup_cons] at hn ⊢
        refine ⟨?_, ih.2 hn.2⟩
        rw [ih.1]
        rintro (h1 | h1)
        · exact h h1
        · exact hn.1 h1

theorem tallyOf_spec {α : Type} [DecidableEq α] (items : List α) :
    ((tallyOf items).map Prod.fst).Nodup ∧ (∀ x, x ∈ (tallyOf items).map Prod.fst ↔ x ∈ items) ∧
    ∀ x, ((tallyOf items).lookup x).getD 0 = items.count x := by
  have key : ∀ (items : List α) (l : List (α × ℕ)), (l.map Prod.fst).Nodup →
      ((items.foldl tallyAdd l).map Prod.fst).Nodup ∧
      (∀ x, x ∈ (items.foldl tallyAdd l).map Prod.fst ↔ x ∈ items ∨ x ∈ l.map Prod.fst) ∧
      ∀ x, ((items.foldl tallyAdd l).lookup x).getD 0 = (l.lookup x).getD 0 + items.count x := by
    intro items
    induction items with
    | nil => intro l h; simp [h]
    | cons k ks ih =>
      intro l h
      obtain ⟨h1, h2, h3⟩ := ih (tallyAdd l k) ((tallyAdd_keys l k).2 h)
      refine ⟨h1, ?_, ?_⟩
      · intro x
        rw [List.foldl_cons, h2, (tallyAdd_keys l k).1]
        simp only [List.mem_cons]
        tauto
      · intro x
        rw [List.foldl_cons, h3, tallyAdd_lookup, List.count_cons]
        have : (k == x) = decide (x = k) := by
          by_cases hh : x = k
          · simp [hh]
          · have h' : ¬ k = x := fun e => hh e.symm
            simp [hh, h']
        rw [this]
        by_cases hh : x = k <;> simp [hh] <;> omega
  obtain ⟨h1, h2, h3⟩ := key items [] (by simp)
  exact ⟨h1, fun x => by rw [tallyOf, h2]; simp, fun x => by rw [tallyOf, h3]; simp⟩

/-- Every entry of a counter is a key with its number of occurrences. -/
theorem mem_tallyOf {α : Type} [DecidableEq α] {items : List α} {k : α} {n : ℕ} :
    (k, n) ∈ tallyOf items ↔ k ∈ items ∧ n = items.count k := by
  obtain ⟨h1, h2, h3⟩ := tallyOf_spec items
  have hl : ∀ (l : List (α × ℕ)), (l.map Prod.fst).Nodup → ∀ k n, (k, n) ∈ l ↔ l.lookup k = some n := by
    intro l
    induction l with
    | nil => simp
    | cons e r ih =>
      obtain ⟨a, m⟩ := e
      intro hn k n
      simp only [List.map_cons, List.nodup_cons] at hn
      simp only [List.lookup, List.mem_cons, Prod.mk.injEq]
      by_cases hk : k = a
      · subst hk
        simp only [beq_self_eq_true, true_and, Option.some.injEq]
        constructor
        · rintro (h | h)
          · exact h.symm
          · exact absurd (List.mem_map.mpr ⟨_, h, rfl⟩) hn.1
        · intro h; exact Or.inl h.symm
      · have : (k == a) = false := by simp [hk]
        simp only [this, hk, false_and, false_or]
        exact ih hn.2 k n
  rw [hl _ h1]
  constructor
  · intro h
    have hm : k ∈ (tallyOf items).map Prod.fst :=
      List.mem_map.mpr ⟨(k, n), (hl _ h1 k n).mpr h, rfl⟩
    refine ⟨(h2 k).mp hm, ?_⟩
    have := h3 k
    rw [h] at this
    simpa using this
  · rintro ⟨hk, rfl⟩
    obtain ⟨⟨k', m⟩, hm, rfl⟩ := List.mem_map.mp ((h2 k).mpr hk)
    have hlk := (hl _ h1 k' m).mp hm
    have := h3 k'
    simp only [hlk, Option.getD_some] at this
    simp only [hlk, this]

/-! ### Distribution of one drawn sample -/

namespace Cftp

variable {c : Cftp}

/-- The number of pairs whose positive record has the sample and whose negative record has not. -/
def pairCount (rows : List (List ℕ)) (pos neg : List ℕ) (id : ℕ) : ℕ :=
  ((pos.toFinset ×ˢ neg.toFinset).filter fun pr => id ∈ recordAt rows pr.1 ∧ id ∉ recordAt rows pr.2).card

theorem expect_choosePattern {order : Finset ℕ → List ℕ} (ho : Traverses order) (rows : List (List ℕ))
    (pr : ℕ × ℕ) (hne : 0 < (recordAt rows pr.1 \ recordAt rows pr.2).card) (g : Py ℕ → ℝ) :
    (choosePattern order rows pr).expect g =
      (∑ id ∈ recordAt rows pr.1 \ recordAt rows pr.2, g (.ok id)) /
        ((recordAt rows pr.1 \ recordAt rows pr.2).card : ℝ) := by
  set S := recordAt rows pr.1 \ recordAt rows pr.2 with hS
  obtain ⟨hnd, hmem⟩ := ho S
  have htf : (order S).toFinset = S := by ext x; simp [hmem]
  have hlen : (order S).length = S.card := by rw [← htf, List.toFinset_card_of_nodup hnd, htf]
  unfold choosePattern pyChoiceIdx
  rw [← hS, hlen, if_neg hne.ne']
  simp only [RandR.bind_eq, RandR.bind, RandR.pure_eq, RandR.expect]
  rw [Finset.sum_div]
  have hsum : ∀ F : ℕ → ℝ, ∑ id ∈ S, F id = ((order S).map F).sum := fun F => by
    rw [← List.sum_toFinset _ hnd, htf]
  rw [hsum]
  have e : ((order S).map fun id => g (.ok id) / (S.card : ℝ)) =
      List.ofFn fun i : Fin (order S).length => g (.ok ((order S)[i])) / (S.card : ℝ) := by
    apply List.ext_getElem
    · simp
    · intro i h1 h2
      simp
  rw [e, List.sum_ofFn]
  have hl2 : (List.replicate S.card (1 / (S.card : ℝ))).length = (order S).length := by simp [hlen]
  apply Finset.sum_bij (fun i _ => Fin.cast hl2 i)
  · simp
  · intro a _ b _ h; exact Fin.cast_injective _ h
  · intro b _; exact ⟨Fin.cast hl2.symm b, Finset.mem_univ _, by simp⟩
  · rintro ⟨i, hi⟩ _
    have hi' : i < (order S).length := by rw [← hl2]; exact hi
    simp only [Fin.getElem_fin, List.getElem_replicate, Fin.cast_mk]
    rw [getD_lt hi']
    ring

theorem after_head {order : Finset ℕ → List ℕ} (ho : Traverses order) (rows : List (List ℕ))
    (f : Py (Option ℕ × CftpState) → ℝ) (pr : ℕ × ℕ) (s : CftpState)
    (k : Option (ℕ × ℕ) × CftpState → RandR (Option ℕ × CftpState))
    (hk : k (some pr, s) = (choosePattern order rows pr).bind fun id => pure (some id, s)) :
    discrimWeight rows pr.1 pr.2 * RandR.after f k (.ok (some pr, s)) =
      ∑ id ∈ recordAt rows pr.1 \ recordAt rows pr.2, f (.ok (some id, s)) := by
  simp only [RandR.after, hk, RandR.expect_bind]
  unfold discrimWeight
  rcases Nat.eq_zero_or_pos (recordAt rows pr.1 \ recordAt rows pr.2).card with h | h
  · rw [h, Finset.card_eq_zero.mp h]
    simp
  · rw [expect_choosePattern ho rows pr h]
    have : ((recordAt rows pr.1 \ recordAt rows pr.2).card : ℝ) ≠ 0 := by positivity
    rw [mul_div_cancel₀ _ this]
    rfl

theorem expect_headSampleIdx (hr : c.Ready) {rows : List (List ℕ)} (hW : c.W = discrimWeight rows)
    {order : Finset ℕ → List ℕ} (ho : Traverses order) (f : Py (Option ℕ × CftpState) → ℝ) :
    (headSampleIdx order c rows reset).expect f =
      (1 - (1 - c.totalW / c.totalBar) ^ c.horizon) *
        ((∑ p ∈ c.posList.toFinset, ∑ n ∈ c.negList.toFinset,
          ∑ id ∈ recordAt rows p \ recordAt rows n, f (.ok (some id, reset))) / c.totalW) +
      (1 - c.totalW / c.totalBar) ^ c.horizon * f (.ok (none, reset)) := by
  unfold headSampleIdx
  rw [RandR.bind_eq, RandR.expect_bind, expect_sample hr]
  congr 1
  congr 2
  apply Finset.sum_congr rfl
  intro p _
  apply Finset.sum_congr rfl
  intro n _
  rw [hW]
  exact after_head ho rows f (p, n) reset _ rfl

theorem sum_pairCount (rows : List (List ℕ)) (pos neg : List ℕ) (g : ℕ → ℝ) (U : Finset ℕ)
    (hU : ∀ p ∈ pos, recordAt rows p ⊆ U) :
    ∑ p ∈ pos.toFinset, ∑ n ∈ neg.toFinset, ∑ id ∈ recordAt rows p \ recordAt rows n, g id =
      ∑ id ∈ U, (pairCount rows pos neg id : ℝ) * g id := by
  have e : ∀ pr ∈ pos.toFinset ×ˢ neg.toFinset, ∑ id ∈ recordAt rows pr.1 \ recordAt rows pr.2, g id =
      ∑ id ∈ U, if id ∈ recordAt rows pr.1 ∧ id ∉ recordAt rows pr.2 then g id else 0 := by
    intro pr hpr
    rw [← Finset.sum_filter]
    apply Finset.sum_congr _ fun _ _ => rfl
    have hp : pr.1 ∈ pos := by simpa using (Finset.mem_product.mp hpr).1
    ext id
    simp only [Finset.mem_sdiff, Finset.mem_filter]
    exact ⟨fun h => ⟨hU pr.1 hp h.1, h⟩, fun h => h.2⟩
  rw [← Finset.sum_product', Finset.sum_congr rfl e, Finset.sum_comm]
  apply Finset.sum_congr rfl
  intro id _
  rw [← Finset.sum_filter, Finset.sum_const, nsmul_eq_mul]
  rfl

end Cftp

/-! ### Weights and domination -/

theorem card_recordAt_le (rows : List (List ℕ)) (i : ℕ) : (recordAt rows i).card ≤ (rows.getD i []).length :=
  List.toFinset_card_le _

/-- Domination for the tight proposal. -/
theorem tight_dominates (rows : List (List ℕ)) (p n : ℕ) :
    discrimWeight rows p n ≤ ((rows.getD p []).length : ℝ) * 1 := by
  unfold discrimWeight
  rw [mul_one]
  have h1 : (recordAt rows p \ recordAt rows n).card ≤ (recordAt rows p).card :=
    Finset.card_le_card Finset.sdiff_subset
  exact_mod_cast h1.trans (card_recordAt_le rows p)

/-- Domination for the original proposal, on sets of sample ids. -/
theorem original_dominates {S : ℕ} {A B : Finset ℕ} (hA : A ⊆ Finset.range S) (hB : B ⊆ Finset.range S) :
    ((A \ B).card : ℝ) ≤ Real.sqrt A.card * Real.sqrt ((S : ℝ) - B.card) := by
  have hBS : B.card ≤ S := by simpa using Finset.card_le_card hB
  have h1 : ((A \ B).card : ℝ) ≤ A.card := by exact_mod_cast Finset.card_le_card Finset.sdiff_subset
  have h2 : ((A \ B).card : ℝ) ≤ (S : ℝ) - B.card := by
    have h3 : (A \ B).card ≤ (Finset.range S \ B).card :=
      Finset.card_le_card (Finset.sdiff_subset_sdiff hA (le_refl _))
    rw [Finset.card_sdiff_of_subset hB, Finset.card_range] at h3
    have : ((A \ B).card : ℝ) ≤ ((S - B.card : ℕ) : ℝ) := by exact_mod_cast h3
    rwa [Nat.cast_sub hBS] at this
  have h0 : (0 : ℝ) ≤ (A \ B).card := by positivity
  calc ((A \ B).card : ℝ) = Real.sqrt ((A \ B).card) * Real.sqrt ((A \ B).card) :=
        (Real.mul_self_sqrt h0).symm
    _ ≤ _ := mul_le_mul (Real.sqrt_le_sqrt h1) (Real.sqrt_le_sqrt h2) (Real.sqrt_nonneg _)
        (Real.sqrt_nonneg _)

theorem mem_posIndices {y : List ℤ} {i : ℕ} : i ∈ posIndices y ↔ i < y.length ∧ 0 < y.getD i 0 := by
  simp [posIndices]

theorem mem_negIndices {y : List ℤ} {i : ℕ} : i ∈ negIndices y ↔ i < y.length ∧ y.getD i 0 = 0 := by
  simp [negIndices]

theorem posIndices_nodup (y : List ℤ) : (posIndices y).Nodup := List.nodup_range.filter _
theorem negIndices_nodup (y : List ℤ) : (negIndices y).Nodup := List.nodup_range.filter _

/-- The sample ids of a row are distinct and exist. -/
structure RowsOk (size : ℕ) (rows : List (List ℕ)) : Prop where
  nodup : ∀ r ∈ rows, r.Nodup
  lt : ∀ r ∈ rows, ∀ id ∈ r, id < size

/-- The weight of a listed record, in closed form. -/
noncomputable def weightOf (tight : Bool) (size : ℕ) (rows : List (List ℕ)) (pos : List ℕ) (i : ℕ) : ℝ :=
  if tight then (if i ∈ pos then (((rows.getD i []).length : ℕ) : ℝ) else 1)
  else (if i ∈ pos then Real.sqrt ((rows.getD i []).length : ℕ)
    else Real.sqrt ((size : ℝ) - ((rows.getD i []).length : ℕ)))

theorem pyGet_getD {α : Type} {xs : List α} {i : ℕ} (h : i < xs.length) (d : α) :
    pyGet xs (i : ℤ) = .ok (xs.getD i d) := by
  unfold pyGet pyIndex
  simp [h, List.getD]

theorem headWeight_ok {tight : Bool} {size : ℕ} {rows : List (List ℕ)} {pos : List ℕ} {i : ℕ}
    (h : i < rows.length) :
    headWeight tight size rows pos i = .ok (weightOf tight size rows pos i) := by
  unfold headWeight weightOf
  rw [pyGet_getD h []]
  by_cases ht : tight = true
  · by_cases hp : i ∈ pos <;> simp [ht, hp] <;> rfl
  · by_cases hp : i ∈ pos <;> simp [ht, hp] <;> rfl

theorem mapM_ok_of {α β : Type} {f : α → Py β} {g : α → β} {l : List α} (h : ∀ x ∈ l, f x = .ok (g x)) :
    l.mapM f = .ok (l.map g) := by
  rw [mapM_eq_ok_iff]
  rw [List.forall₂_map_right_iff, List.forall₂_same]
  exact h

/-! ### Fitting -/

/-- The `CFTP` object that `fit` constructs. -/
noncomputable def headCftp (tight : Bool) (size : ℕ) (rows : List (List ℕ)) (n : ℕ) (y : List ℤ) : Cftp :=
  { posList := posIndices y, negList := negIndices y,
    wPos := fun i => ((List.range n).map (weightOf tight size rows (posIndices y))).getD i 0,
    wNeg := fun i => ((List.range n).map (weightOf tight size rows (posIndices y))).getD i 0,
    W := discrimWeight rows, maxIters := 1024 }

theorem weight_getD {tight : Bool} {size : ℕ} {rows : List (List ℕ)} {n : ℕ} {pos : List ℕ} {i : ℕ} (h : i < n) :
    ((List.range n).map (weightOf tight size rows pos)).getD i 0 = weightOf tight size rows pos i := by
  rw [getD_lt (by simpa using h)]
  simp

theorem headFit_of {env : HeadEnv} {s : HeadSampler} {X : Cmp} {y : List ℤ} {space : List (Finset ℤ)}
    {rows : List (List ℕ)} (hy : y.toFinset = {0, 1}) (hsr : spaceAndRows env s X = .ok (space, rows))
    (hlen : rows.length = X.nMajor) (hyl : y.length ≤ X.nMajor) :
    headFit env s X y = .ok { s with
      space := some space, newRows := some rows,
      cftp := some (headCftp s.tight space.length rows X.nMajor y), lists := Cftp.reset } := by
  unfold headFit checkLabels checkKeys
  rw [if_pos hy, hsr]
  simp only [bind, Except.bind]
  have hm : (List.range X.nMajor).mapM (headWeight s.tight space.length rows (posIndices y)) =
      .ok ((List.range X.nMajor).map (weightOf s.tight space.length rows (posIndices y))) :=
    mapM_ok_of_forall fun i hi => headWeight_ok (by rw [hlen]; exact List.mem_range.mp hi)
  rw [hm]
  simp only
  rw [if_pos]
  · rfl
  · intro i hi
    rcases List.mem_append.mp hi with h | h
    · exact lt_of_lt_of_le (mem_posIndices.mp h).1 hyl
    · exact lt_of_lt_of_le (mem_negIndices.mp h).1 hyl

/-- What a successful `fit` produced. -/
theorem headFit_inv {env : HeadEnv} {s s' : HeadSampler} {X : Cmp} {y : List ℤ}
    (h : headFit env s X y = .ok s') :
    y.toFinset = {0, 1} ∧ y.length ≤ X.nMajor ∧ ∃ space rows, spaceAndRows env s X = .ok (space, rows) ∧
      (rows.length = X.nMajor → s' = { s with
        space := some space, newRows := some rows,
        cftp := some (headCftp s.tight space.length rows X.nMajor y), lists := Cftp.reset }) := by
  have h0 := h
  unfold headFit checkLabels checkKeys at h
  by_cases hy : y.toFinset = {0, 1}
  · rw [if_pos hy] at h
    cases hsr : spaceAndRows env s X with
    | error e =>
      rw [hsr] at h
      simp only [bind, Except.bind] at h
      cases h
    | ok sr =>
      rw [hsr] at h
      obtain ⟨space, rows⟩ := sr
      simp only [bind, Except.bind] at h
      cases hm : (List.range X.nMajor).mapM (headWeight s.tight space.length rows (posIndices y)) with
      | error e =>
        rw [hm] at h
        cases h
      | ok w =>
        rw [hm] at h
        simp only at h
        split at h
        · cases h
        · rename_i hk
          split at hk
          · rename_i hkeys
            have hyl : y.length ≤ X.nMajor := by
              by_contra hc
              push Not at hc
              have hb : X.nMajor < y.length := hc
              have hv : y.getD X.nMajor 0 ∈ y := by
                rw [getD_lt hb]; exact List.getElem_mem _
              have hv' : y.getD X.nMajor 0 ∈ y.toFinset := List.mem_toFinset.mpr hv
              rw [hy] at hv'
              rcases Finset.mem_insert.mp hv' with h1 | h1
              · exact absurd (hkeys _ (List.mem_append_right _ (mem_negIndices.mpr ⟨hb, h1⟩)))
                  (lt_irrefl _)
              · rw [Finset.mem_singleton] at h1
                exact absurd (hkeys _ (List.mem_append_left _ (mem_posIndices.mpr ⟨hb, by omega⟩)))
                  (lt_irrefl _)
            refine ⟨hy, hyl, space, rows, rfl, fun hlen => ?_⟩
            have := headFit_of hy hsr hlen hyl
            rw [h0] at this
            exact Except.ok.inj this
          · cases hk
  · rw [if_neg hy] at h
    cases h

theorem naiveNewRows_ok (X : Cmp) (space : List (Finset ℤ)) : RowsOk space.length (naiveNewRows X space) := by
  constructor
  · intro r hr
    obtain ⟨l, -, rfl⟩ := List.mem_map.mp hr
    exact List.nodup_range.filter _
  · intro r hr id hid
    obtain ⟨l, -, rfl⟩ := List.mem_map.mp hr
    exact List.mem_range.mp (List.mem_filter.mp hid).1

theorem intSet_injective : Function.Injective intSet :=
  Finset.image_injective Nat.cast_injective

/-- A matrix without columns has a graph without nodes, which `dfs_v2` refuses. -/
theorem buildSpaceAndRows_empty {env : HeadEnv} (s : HeadSampler) {X : Cmp} (hX : X.Binary)
    (hc : X.nMinor = 0) : buildSpaceAndRows env s X = .error .exception := by
  obtain ⟨g, hg, -, -, hn, -⟩ := C48_build_graph X.flip (Cmp.flip_binary hX)
  rw [Cmp.flip_nMajor, hc, List.range_zero] at hn
  unfold buildSpaceAndRows
  rw [hg]
  simp only [bind, Except.bind, buildSampleSpace]
  have : ∀ g' : UGraph ℚ, g'.nodes = [] →
      enumerateProbableCliques ratOps g' s.minProba .dfsV2 env.order env.depth = .error .exception := by
    intro g' hn'
    simp only [enumerateProbableCliques, enumerateCliquesV2, wrapGraph]
    rw [if_pos hn']
    rfl
  rw [this _ (by split <;> exact hn)]

theorem columns_of_build {env : HeadEnv} {s : HeadSampler} {X : Cmp} (hX : X.Binary)
    {r : List (Finset ℤ) × List (List ℕ)} (h : buildSpaceAndRows env s X = .ok r) : 0 < X.nMinor := by
  by_contra hc
  rw [buildSpaceAndRows_empty s hX (by omega)] at h
  cases h

theorem buildSpaceAndRows_ok {env : HeadEnv} (he : env.Good) (s : HeadSampler) {X : Cmp} (hX : X.Binary)
    (hc : 0 < X.nMinor) (hd : X.nMinor < env.depth) :
    ∃ g space, buildGraph X.flip = .ok g ∧
      buildSpaceAndRows env s X = .ok (space, naiveNewRows X space) ∧ space.Nodup ∧
      ∀ T, T ∈ space ↔ ∃ U, g.Probable s.minProba U ∧ T = intSet U := by
  obtain ⟨g, hg, hwf, hw, hn, -⟩ := C48_build_graph X.flip (Cmp.flip_binary hX)
  obtain ⟨cl, h1, h2, h3⟩ := C50_sample_space X.flip (Cmp.flip_binary hX) g hg
    (by rw [Cmp.flip_nMajor]; exact hc) s.minProba s.doPrune .dfsV2 (by decide) env.order he.1 env.depth
    (by rw [Cmp.flip_nMajor]; exact hd)
  have hv : ∀ t ∈ cl.map intSet, ∀ x ∈ t, 0 ≤ x ∧ x < X.nMinor := by
    intro t ht x hx
    obtain ⟨U, hU, rfl⟩ := List.mem_map.mp ht
    obtain ⟨j, hj, rfl⟩ := Finset.mem_image.mp hx
    have := ((h3 U).mp hU).2.1.1 j hj
    rw [hn, Cmp.flip_nMajor, List.mem_range] at this
    constructor
    · positivity
    · exact_mod_cast this
  refine ⟨g, cl.map intSet, hg, ?_, h2.map intSet_injective, ?_⟩
  · unfold buildSpaceAndRows
    rw [hg]
    simp only [bind, Except.bind]
    rw [h1]
    simp only
    rw [C41_pretti_assignment X hX.toWF hX.noStoredZero _ hv _ (he.2 _)]
    rfl
  · intro T
    rw [List.mem_map]
    constructor
    · rintro ⟨U, hU, rfl⟩
      exact ⟨U, (h3 U).mp hU, rfl⟩
    · rintro ⟨U, hU, rfl⟩
      exact ⟨U, (h3 U).mpr hU, rfl⟩

theorem recordAt_ok {size : ℕ} {rows : List (List ℕ)} (h : RowsOk size rows) (i : ℕ) :
    recordAt rows i ⊆ Finset.range size ∧ (recordAt rows i).card = (rows.getD i []).length := by
  unfold recordAt
  by_cases hi : i < rows.length
  · rw [getD_lt hi]
    refine ⟨?_, List.toFinset_card_of_nodup (h.nodup _ (List.getElem_mem hi))⟩
    intro id hid
    rw [List.mem_toFinset] at hid
    exact Finset.mem_range.mpr (h.lt _ (List.getElem_mem hi) id hid)
  · rw [List.getD_eq_getElem?_getD, List.getElem?_eq_none (by omega)]
    simp

theorem headCftp_dominated {tight : Bool} {size : ℕ} {rows : List (List ℕ)} (hr : RowsOk size rows) {n : ℕ}
    {y : List ℤ} (hyl : y.length ≤ n) : (headCftp tight size rows n y).Dominated := by
  have hw0 : ∀ i, 0 ≤ weightOf tight size rows (posIndices y) i := by
    intro i
    unfold weightOf
    split <;> split <;> positivity
  have hp : ∀ p ∈ posIndices y, p < n := fun p h => lt_of_lt_of_le (mem_posIndices.mp h).1 hyl
  have hn : ∀ p ∈ negIndices y, p < n := fun p h => lt_of_lt_of_le (mem_negIndices.mp h).1 hyl
  have hnp : ∀ p ∈ negIndices y, p ∉ posIndices y := by
    intro p h1 h2
    have a := (mem_negIndices.mp h1).2
    have b := (mem_posIndices.mp h2).2
    omega
  refine ⟨posIndices_nodup y, negIndices_nodup y, ?_, ?_, ?_, ?_⟩
  · intro p h
    simp only [headCftp]
    rw [weight_getD (hp p h)]
    exact hw0 p
  · intro p h
    simp only [headCftp]
    rw [weight_getD (hn p h)]
    exact hw0 p
  · intro p _ q _
    simp only [headCftp, discrimWeight]
    positivity
  · intro p h q h'
    simp only [headCftp] at h h' ⊢
    rw [weight_getD (hp p h), weight_getD (hn q h')]
    unfold weightOf
    rw [if_pos h, if_neg (hnp q h'), if_pos h, if_neg (hnp q h')]
    split
    · exact tight_dominates rows p q
    · obtain ⟨a1, a2⟩ := recordAt_ok hr p
      obtain ⟨b1, b2⟩ := recordAt_ok hr q
      have := original_dominates a1 b1
      rw [a2, b2] at this
      exact this

/-! ### Reachable states -/

/-- What holds of every reachable state. -/
structure HeadInv (env : HeadEnv) (X : Cmp) (s : HeadSampler) : Prop where
  lists : s.lists = Cftp.reset
  parts : (s.space = none ∧ s.newRows = none ∧ s.cftp = none) ∨
    ∃ space rows y, s.space = some space ∧ s.newRows = some rows ∧
      buildSpaceAndRows env s X = .ok (space, rows) ∧ y.toFinset = {0, 1} ∧ y.length ≤ X.nMajor ∧
      s.cftp = some (headCftp s.tight space.length rows X.nMajor y)

theorem naiveNewRows_length (X : Cmp) (space : List (Finset ℤ)) : (naiveNewRows X space).length = X.nMajor := by
  simp [naiveNewRows, convertMatrixToSetsV2]

/-- What `random.choice` can pick in the difference of two records. -/
theorem choosePattern_outcome {order : Finset ℕ → List ℕ} (ho : Traverses order) {rows : List (List ℕ)}
    {p n : ℕ} (hw : 0 < discrimWeight rows p n) {y : Py ℕ} (hy : (choosePattern order rows (p, n)).Outcome y) :
    ∃ id ∈ recordAt rows p \ recordAt rows n, y = .ok id := by
  set S := recordAt rows p \ recordAt rows n with hS
  have hcard : 0 < S.card := by
    simp only [discrimWeight] at hw
    exact_mod_cast hw
  obtain ⟨hnd, hmem⟩ := ho S
  have htf : (order S).toFinset = S := by ext x; simp [hmem]
  have hlen : (order S).length = S.card := by rw [← htf, List.toFinset_card_of_nodup hnd, htf]
  unfold choosePattern pyChoiceIdx at hy
  rw [← hS, hlen, if_neg hcard.ne', RandR.bind_eq, RandR.outcome_bind] at hy
  rcases hy with ⟨i, ⟨j, hj, -, e⟩, hy⟩ | ⟨e, ⟨j, hj, -, e'⟩, -⟩
  · obtain rfl : i = j := Except.ok.inj e
    have hi : i < (order S).length := by rw [hlen]; simpa using hj
    refine ⟨(order S).getD i 0, ?_, hy⟩
    rw [← hmem, getD_lt hi]
    exact List.getElem_mem _
  · cases e'

theorem headSampleIdx_lists {order : Finset ℕ → List ℕ} (ho : Traverses order) {c : Cftp} (hd : c.Dominated)
    {rows : List (List ℕ)} (hW : c.W = discrimWeight rows) {x : Py (Option ℕ × CftpState)}
    (h : (headSampleIdx order c rows Cftp.reset).Outcome x) :
    x = .ok (none, Cftp.reset) ∨ ∃ id p n, x = .ok (some id, Cftp.reset) ∧ p ∈ c.posList ∧ n ∈ c.negList ∧
      id ∈ recordAt rows p ∧ id ∉ recordAt rows n := by
  have hs : ∀ y, (c.sample Cftp.reset).Outcome y → y = .ok (none, Cftp.reset) ∨
      ∃ p n, y = .ok (some (p, n), Cftp.reset) ∧ p ∈ c.posList ∧ n ∈ c.negList ∧ 0 < c.W p n := by
    intro y hy
    by_cases hz : c.posWeights.sum = 0 ∨ c.negWeights.sum = 0
    · unfold Cftp.sample at hy
      rw [Cftp.sampleLoop] at hy
      simp only [if_pos hz, ite_self] at hy
      exact Or.inl hy
    · obtain ⟨D, rfl, hD⟩ := Cftp.sampleLoop_outcome (Cftp.Ready.of_ne hd hz) (c.maxIters - 0) 0 Cftp.reset
        (le_refl _) (by simpa [Cftp.lenBefore] using Cftp.goodState_reset) hy
      rcases D with _ | ⟨p, n⟩
      · exact Or.inl rfl
      · exact Or.inr ⟨p, n, rfl, hD p n rfl⟩
  unfold headSampleIdx at h
  rw [RandR.bind_eq, RandR.outcome_bind] at h
  rcases h with ⟨r, hr, h⟩ | ⟨e, he, -⟩
  · rcases hs _ hr with hr | ⟨p, n, hr, hp, hn, hw⟩
    · cases hr
      exact Or.inl h
    · cases hr
      right
      simp only [RandR.bind_eq, RandR.outcome_bind] at h
      set S := recordAt rows p \ recordAt rows n with hS
      have hcard : 0 < S.card := by
        rw [hW] at hw
        simp only [discrimWeight] at hw
        exact_mod_cast hw
      obtain ⟨hnd, hmem⟩ := ho S
      have htf : (order S).toFinset = S := by ext x; simp [hmem]
      have hlen : (order S).length = S.card := by rw [← htf, List.toFinset_card_of_nodup hnd, htf]
      have hcp : ∀ y, (choosePattern order rows (p, n)).Outcome y → ∃ id ∈ S, y = .ok id := by
        intro y hy
        unfold choosePattern pyChoiceIdx at hy
        rw [← hS, hlen, if_neg hcard.ne', RandR.bind_eq, RandR.outcome_bind] at hy
        rcases hy with ⟨i, ⟨j, hj, -, e⟩, hy⟩ | ⟨e, ⟨j, hj, -, e'⟩, -⟩
        · obtain rfl : i = j := Except.ok.inj e
          have hi : i < (order S).length := by rw [hlen]; simpa using hj
          refine ⟨(order S).getD i 0, ?_, hy⟩
          rw [← hmem, getD_lt hi]
          exact List.getElem_mem _
        · cases e'
      rcases h with ⟨id, hid, h⟩ | ⟨e, he, -⟩
      · obtain ⟨id', hm, e⟩ := hcp _ hid
        cases e
        rw [hS, Finset.mem_sdiff] at hm
        exact ⟨id, p, n, h, hp, hn, hm.1, hm.2⟩
      · obtain ⟨id', hm, e'⟩ := hcp _ he
        cases e'
  · rcases hs _ he with he | ⟨p, n, he, -⟩ <;> cases he

theorem spaceAndRows_eq {env : HeadEnv} {X : Cmp} {s : HeadSampler} (hi : HeadInv env X s) :
    spaceAndRows env s X = buildSpaceAndRows env s X := by
  unfold spaceAndRows
  rcases hi.parts with ⟨h1, h2, -⟩ | ⟨space, rows, y, h1, h2, h3, -⟩
  · rw [h1]
  · rw [h1, h2, h3]

theorem inv_fit {env : HeadEnv} {X : Cmp} {s s' : HeadSampler} {y : List ℤ} (he : env.Good) (hX : X.Binary)
    (hd : X.nMinor < env.depth) (hi : HeadInv env X s) (h : headFit env s X y = .ok s') :
    ∃ space, buildSpaceAndRows env s X = .ok (space, naiveNewRows X space) ∧
      y.toFinset = {0, 1} ∧ y.length ≤ X.nMajor ∧
      s' = { s with space := some space, newRows := some (naiveNewRows X space),
                    cftp := some (headCftp s.tight space.length (naiveNewRows X space) X.nMajor y),
                    lists := Cftp.reset } := by
  obtain ⟨hy, hyl, space', rows', hsr, hs'⟩ := headFit_inv h
  rw [spaceAndRows_eq hi] at hsr
  obtain ⟨g, space, -, hb, -⟩ := buildSpaceAndRows_ok he s hX (columns_of_build hX hsr) hd
  rw [hb] at hsr
  cases hsr
  exact ⟨_, hb, hy, hyl, hs' (naiveNewRows_length X _)⟩

theorem headSampleOnce_fitted {env : HeadEnv} {s : HeadSampler} {c : Cftp} {rows : List (List ℕ)}
    {space : List (Finset ℤ)} (h1 : s.cftp = some c) (h2 : s.newRows = some rows) (h3 : s.space = some space) :
    headSampleOnce env s = (headSampleIdx env.order c rows s.lists).bind fun r =>
      match r.1 with
      | none => pure (none, { s with lists := r.2 })
      | some id => (RandR.lift (pyGet space id)).bind fun T => pure (some T, { s with lists := r.2 }) := by
  unfold headSampleOnce
  rw [h1, h2, h3]
  rfl

theorem headInv_of_reach {env : HeadEnv} {X : Cmp} (he : env.Good) (hX : X.Binary) (hd : X.nMinor < env.depth)
    {s : HeadSampler} (h : HeadReach env X s) : HeadInv env X s := by
  induction h with
  | init doPrune minProba tight => exact ⟨rfl, Or.inl ⟨rfl, rfl, rfl⟩⟩
  | fit s s' y hr hf ih =>
    obtain ⟨space, hb, hy, hyl, rfl⟩ := inv_fit he hX hd ih hf
    exact ⟨rfl, Or.inr ⟨space, _, y, rfl, rfl, hb, hy, hyl, rfl⟩⟩
  | sample s s' r hr ho ih =>
    rcases ih.parts with ⟨h1, h2, h3⟩ | ⟨space, rows, y, h1, h2, h3, h4, h5, h6⟩
    · unfold headSampleOnce at ho
      rw [h3] at ho
      cases ho
    · rw [headSampleOnce_fitted h6 h2 h1, RandR.outcome_bind, ih.lists] at ho
      obtain ⟨g, space', -, hb, -⟩ := buildSpaceAndRows_ok he s hX (columns_of_build hX h3) hd
      rw [h3] at hb
      cases hb
      have hdom : (headCftp s.tight space.length (naiveNewRows X space) X.nMajor y).Dominated :=
        headCftp_dominated (naiveNewRows_ok X space) h5
      rcases ho with ⟨r', hr', ho⟩ | ⟨e, -, he'⟩
      · rcases headSampleIdx_lists he.1 hdom rfl hr' with e | ⟨id, p, n, e, -⟩
        · cases e
          cases ho
          exact ⟨rfl, Or.inr ⟨space, _, y, h1, h2, h3, h4, h5, h6⟩⟩
        · cases e
          simp only [RandR.outcome_bind] at ho
          rcases ho with ⟨T, -, ho⟩ | ⟨e, -, he'⟩
          · cases ho
            exact ⟨rfl, Or.inr ⟨space, _, y, h1, h2, h3, h4, h5, h6⟩⟩
          · cases he'
      · cases he'

/-- Only data with a column can be fitted. -/
theorem columns_of_fit {env : HeadEnv} {X : Cmp} (he : env.Good) (hX : X.Binary) (hd : X.nMinor < env.depth)
    {s s' : HeadSampler} (h : HeadReach env X s) {y : List ℤ} (hf : headFit env s X y = .ok s') :
    0 < X.nMinor := by
  obtain ⟨space, hb, -⟩ := inv_fit he hX hd (headInv_of_reach he hX hd h) hf
  exact columns_of_build hX hb

/-! ### Counting pairs in the data -/

theorem recordAt_naive (X : Cmp) (space : List (Finset ℤ)) {i : ℕ} (hi : i < X.nMajor) {id : ℕ} :
    id ∈ recordAt (naiveNewRows X space) i ↔ id < space.length ∧ RowContains X i (space.getD id ∅) := by
  obtain ⟨-, h⟩ := C40_naive_exact X space
  unfold recordAt
  rw [List.getD_eq_getElem?_getD, h i hi]
  simp

theorem label_values {y : List ℤ} (hy : y.toFinset = {0, 1}) {i : ℕ} (hi : i < y.length) :
    y.getD i 0 = 0 ∨ y.getD i 0 = 1 := by
  have hv' : y.getD i 0 ∈ y.toFinset := by
    rw [getD_lt hi]; exact List.mem_toFinset.mpr (List.getElem_mem _)
  rw [hy] at hv'
  simpa using hv'

theorem pairCount_eq {X : Cmp} {space : List (Finset ℤ)} {y : List ℤ} (hy : y.toFinset = {0, 1})
    (hyl : y.length ≤ X.nMajor) {id : ℕ} (hid : id < space.length) :
    Cftp.pairCount (naiveNewRows X space) (posIndices y) (negIndices y) id =
      separations X y (space.getD id ∅) := by
  classical
  unfold Cftp.pairCount separations
  congr 1
  ext ⟨i, j⟩
  simp only [Finset.mem_filter, Finset.mem_product, List.mem_toFinset, mem_posIndices, mem_negIndices,
    Finset.mem_range]
  constructor
  · rintro ⟨⟨⟨hi, hi'⟩, ⟨hj, hj'⟩⟩, h1, h2⟩
    rw [recordAt_naive X space (by omega)] at h1 h2
    refine ⟨⟨hi, hj⟩, ?_, ?_, h1.2, fun h => h2 ⟨hid, h⟩⟩
    · rcases label_values hy hi with h | h
      · omega
      · rw [getD_lt hi] at h
        rw [List.getElem?_eq_getElem hi, h]
    · rw [getD_lt hj] at hj'
      rw [List.getElem?_eq_getElem hj, hj']
  · rintro ⟨⟨hi, hj⟩, h1, h2, h3, h4⟩
    rw [List.getElem?_eq_getElem hi] at h1
    rw [List.getElem?_eq_getElem hj] at h2
    refine ⟨⟨⟨hi, ?_⟩, ⟨hj, ?_⟩⟩, ?_, ?_⟩
    · rw [getD_lt hi, Option.some.inj h1]; norm_num
    · rw [getD_lt hj, Option.some.inj h2]
    · rw [recordAt_naive X space (by omega)]; exact ⟨hid, h3⟩
    · rw [recordAt_naive X space (by omega)]; exact fun h => h4 h.2

end Verif
