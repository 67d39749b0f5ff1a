/-
Rows drawn by weight, and the area sampler.
-/
import Verif.Lemmas.Local
import Verif.Spec.Local
import Verif.Lemmas.Sparse

namespace Verif
open RandR

theorem i64_small {z : ℤ} (h0 : 0 ≤ z) (h1 : z < 2 ^ 63) : i64 z = z := by
  unfold i64
  apply Int.bmod_eq_of_le_mul_two
  · push_cast; omega
  · push_cast; omega

theorem sum_rows (rows : List (Finset ℕ)) (h : Finset ℕ → ℝ) :
    ∑ i ∈ Finset.range rows.length, h (rows.getD i ∅) = (rows.map h).sum := by
  induction rows with
  | nil => simp
  | cons r rows ih =>
    rw [List.length_cons, Finset.sum_range_succ', List.map_cons, List.sum_cons]
    simp only [List.getD_cons_succ, List.getD_cons_zero]
    rw [ih, add_comm]

theorem sum_map_div (l : List ℝ) (t : ℝ) : (l.map fun x => x / t).sum = l.sum / t := by
  induction l with
  | nil => simp
  | cons a l ih => simp [ih, add_div]

theorem le_sum_of_mem {l : List ℤ} (h0 : ∀ x ∈ l, 0 ≤ x) {x : ℤ} (hx : x ∈ l) : x ≤ l.sum :=
  List.single_le_sum h0 x hx

theorem normaliseI64_spec {ws : List ℤ} (h0 : ∀ x ∈ ws, 0 ≤ x) (hpos : 0 < ws.sum) (hlt : ws.sum < 2 ^ 63) :
    normaliseI64 ws ≠ [] ∧ (∀ q ∈ normaliseI64 ws, 0 ≤ q) ∧ (normaliseI64 ws).sum = 1 ∧
      (normaliseI64 ws).length = ws.length ∧ ∀ i, (normaliseI64 ws).getD i 0 = ((ws.getD i 0 : ℤ) : ℝ) / (ws.sum : ℤ) := by
  have hs : i64 ws.sum = ws.sum := i64_small hpos.le hlt
  have hposR : (0 : ℝ) < (ws.sum : ℤ) := by exact_mod_cast hpos
  unfold normaliseI64
  rw [hs]
  refine ⟨?_, ?_, ?_, by simp, ?_⟩
  · rintro h
    have : ws = [] := List.map_eq_nil_iff.mp h
    rw [this] at hpos
    simp at hpos
  · intro q hq
    obtain ⟨x, hx, rfl⟩ := List.mem_map.mp hq
    exact div_nonneg (by exact_mod_cast h0 x hx) hposR.le
  · have key : ∀ (l : List ℤ) (t : ℝ), (l.map fun x : ℤ => (x : ℝ) / t).sum = ((l.sum : ℤ) : ℝ) / t := by
      intro l t
      induction l with
      | nil => simp
      | cons a l ih => simp only [List.map_cons, List.sum_cons, ih]; push_cast; ring
    rw [key, div_self hposR.ne']
  · intro i
    rcases lt_or_ge i ws.length with h | h
    · rw [getD_lt (by simpa using h), getD_lt h]
      simp
    · simp [List.getD_eq_getElem?_getD, h]

theorem getD_map_row (rows : List (Finset ℕ)) (w : Finset ℕ → ℤ) {i : ℕ} (h : i < rows.length) :
    (rows.map w).getD i 0 = w (rows.getD i ∅) := by
  rw [getD_lt (by simpa using h), getD_lt h]
  simp

/-- Drawing a row with probability proportional to an integer weight. -/
theorem expect_rowDraw (rows : List (Finset ℕ)) (w : Finset ℕ → ℤ) (h0 : ∀ r ∈ rows, 0 ≤ w r)
    (hpos : 0 < (rows.map w).sum) (hlt : (rows.map w).sum < 2 ^ 63) (f : Py ℕ → ℝ) :
    (npChoiceR (normaliseI64 (rows.map w))).expect f =
      (∑ i ∈ Finset.range rows.length, (w (rows.getD i ∅) : ℝ) * f (.ok i)) / ((rows.map w).sum : ℤ) := by
  obtain ⟨a1, a2, a3, a4, a5⟩ := normaliseI64_spec (ws := rows.map w)
    (by intro x hx; obtain ⟨r, hr, rfl⟩ := List.mem_map.mp hx; exact h0 r hr) hpos hlt
  rw [law_npChoiceR a1 a2 a3, a4, List.length_map, Finset.sum_div]
  apply Finset.sum_congr rfl
  intro i hi
  dsimp only
  rw [a5, getD_map_row _ _ (Finset.mem_range.mp hi)]
  ring

theorem outcome_rowDraw (rows : List (Finset ℕ)) (w : Finset ℕ → ℤ) (h0 : ∀ r ∈ rows, 0 ≤ w r)
    (hpos : 0 < (rows.map w).sum) (hlt : (rows.map w).sum < 2 ^ 63) {x : Py ℕ}
    (h : (npChoiceR (normaliseI64 (rows.map w))).Outcome x) :
    ∃ i, x = .ok i ∧ i < rows.length ∧ 0 < w (rows.getD i ∅) := by
  obtain ⟨a1, a2, a3, a4, a5⟩ := normaliseI64_spec (ws := rows.map w)
    (by intro x hx; obtain ⟨r, hr, rfl⟩ := List.mem_map.mp hx; exact h0 r hr) hpos hlt
  have hposR : (0 : ℝ) < ((rows.map w).sum : ℤ) := by exact_mod_cast hpos
  unfold npChoiceR at h
  rw [if_pos ⟨a1, a2, a3⟩] at h
  obtain ⟨i, hi, hp, e⟩ := h
  have hi' : i < rows.length := by rw [a4] at hi; simpa using hi
  refine ⟨i, e, hi', ?_⟩
  rw [← getD_lt hi 0, a5, getD_map_row _ _ hi', div_pos_iff_of_pos_right hposR] at hp
  exact_mod_cast hp

/-! ### Sizes -/

theorem sum_card_powerset (S : Finset ℕ) : ∑ F ∈ S.powerset, F.card = S.card * 2 ^ (S.card - 1) := by
  induction S using Finset.induction_on with
  | empty => simp
  | insert a S ha ih =>
    rw [Finset.sum_powerset_insert ha, ih, Finset.card_insert_of_notMem ha]
    have h1 : ∑ t ∈ S.powerset, (insert a t).card = ∑ t ∈ S.powerset, (t.card + 1) := by
      apply Finset.sum_congr rfl
      intro t ht
      exact Finset.card_insert_of_notMem fun h => ha (Finset.mem_powerset.mp ht h)
    rw [h1, Finset.sum_add_distrib, ih]
    simp only [Finset.sum_const, Finset.card_powerset, smul_eq_mul, mul_one, Nat.add_sub_cancel]
    rcases Nat.eq_zero_or_pos S.card with h | h
    · rw [h]; norm_num
    · obtain ⟨n, hn⟩ : ∃ n, S.card = n + 1 := ⟨S.card - 1, by omega⟩
      rw [hn]
      simp only [Nat.add_sub_cancel]
      ring

/-- A sum over the subsets with weight equal to their size, by size. -/
theorem sum_by_size (S : Finset ℕ) (g : Finset ℕ → ℝ) :
    ∑ F ∈ S.powerset, (F.card : ℝ) * g F =
      ∑ j ∈ Finset.range S.card, ((j : ℝ) + 1) * ∑ F ∈ S.powersetCard (j + 1), g F := by
  rw [Finset.sum_powerset, Finset.sum_range_succ']
  have h0 : ∑ F ∈ S.powersetCard 0, (F.card : ℝ) * g F = 0 := by simp
  rw [h0, add_zero]
  apply Finset.sum_congr rfl
  intro j _
  rw [Finset.mul_sum]
  apply Finset.sum_congr rfl
  intro F hF
  rw [(Finset.mem_powersetCard.mp hF).2]
  push_cast
  ring

theorem sizeWeights_sum (n : ℕ) :
    ((List.range n).map fun i => ((n.choose (i + 1) : ℝ) * (i + 1 : ℝ))).sum = n * 2 ^ (n - 1) := by
  have h := sum_by_size (Finset.range n) fun _ => 1
  have h2 := sum_card_powerset (Finset.range n)
  simp only [mul_one, Finset.card_range, Finset.sum_const, Finset.card_powersetCard, nsmul_eq_mul] at h h2
  rw [← List.sum_toFinset _ List.nodup_range, List.toFinset_range]
  have h3 : (∑ F ∈ (Finset.range n).powerset, (F.card : ℝ)) = n * 2 ^ (n - 1) := by exact_mod_cast h2
  rw [← h3, h]
  exact Finset.sum_congr rfl fun _ _ => by ring

theorem sizeProbas_nonneg (n : ℕ) : ∀ q ∈ sizeProbas n, 0 ≤ q := by
  intro q hq
  simp only [sizeProbas, List.mem_map, sizeWeights_sum] at hq
  obtain ⟨x, ⟨i, -, rfl⟩, rfl⟩ := hq
  positivity

theorem sizeProbas_sum {n : ℕ} (hn : 0 < n) : (sizeProbas n).sum = 1 := by
  have hT : (0 : ℝ) < n * 2 ^ (n - 1) := by positivity
  unfold sizeProbas
  rw [sum_map_div, sizeWeights_sum, div_self hT.ne']

theorem law_sizeProbas {n : ℕ} (hn : 0 < n) :
    (npChoiceR (sizeProbas n)).Law (Finset.range n)
      fun i => (n.choose (i + 1) : ℝ) * (i + 1) / (n * 2 ^ (n - 1)) := by
  have hlen : (sizeProbas n).length = n := by simp [sizeProbas]
  intro f
  rw [law_npChoiceR (p := sizeProbas n) (by intro h; rw [h] at hlen; simp at hlen; omega) (sizeProbas_nonneg n)
    (sizeProbas_sum hn), hlen]
  apply Finset.sum_congr rfl
  intro i hi
  dsimp only
  rw [getD_lt (by rw [hlen]; exact Finset.mem_range.mp hi)]
  simp only [sizeProbas, List.getElem_map, List.getElem_range, sizeWeights_sum]

/-- The itemset of a given size drawn inside a row by the area sampler. -/
theorem expect_areaSize {order : Finset ℕ → List ℕ} (ho : Traverses order) {r : Finset ℕ} {j : ℕ} (hj' : j + 1 ≤ r.card)
    (f : Py (Finset ℕ) → ℝ) :
    (npPermutation r.card (order r) >>= fun perm => RandR.lift (areaItemset (j + 1) perm)).expect f =
      (∑ F ∈ r.powersetCard (j + 1), f (.ok F)) / (r.card.choose (j + 1) : ℝ) := by
  obtain ⟨h1, h2, h3⟩ := traverse_toFinset ho r
  have e : (npPermutation r.card (order r) >>= fun perm => RandR.lift (areaItemset (j + 1) perm)).expect f =
      (npPermutation r.card (order r)).expect
        (ofFirst (j + 1) fun F => if F.card = j + 1 then f (.ok F) else f (.error .assertionError)) := by
    rw [bind_eq, expect_bind]
    have key : ∀ x, (npPermutation r.card (order r)).Outcome x → True := fun _ _ => trivial
    -- exceptions of the permutation do not occur; compare on lists
    have hne : ∀ (n : ℕ) (t : List ℕ), t.length = n → ∀ (F G : Py (List ℕ) → ℝ),
        (∀ p, F (.ok p) = G (.ok p)) → (npPermutation n t).expect F = (npPermutation n t).expect G := by
      intro n
      induction n with
      | zero => intro t _ F G h; exact h []
      | succ n ih =>
        intro t ht F G h
        have hn : t.length ≠ 0 := by omega
        rw [npPermutation, bind_eq, (law_pyChoiceIdx hn).bind, (law_pyChoiceIdx hn).bind]
        apply Finset.sum_congr rfl
        intro i hi
        congr 1
        rw [bind_eq, expect_bind, expect_bind]
        apply ih
        · rw [List.length_eraseIdx_of_lt (Finset.mem_range.mp hi)]; omega
        · intro p
          exact h _
    apply hne _ _ h3
    intro p
    simp only [after, ofFirst, areaItemset, RandR.lift, RandR.expect]
    split <;> rfl
  rw [e, expect_permutation _ _ h1 h3 _ hj', h2]
  have hs : ∑ F ∈ r.powersetCard (j + 1), (if F.card = j + 1 then f (.ok F) else f (.error .assertionError)) =
      ∑ F ∈ r.powersetCard (j + 1), f (.ok F) := by
    apply Finset.sum_congr rfl
    intro F hF
    rw [if_pos (Finset.mem_powersetCard.mp hF).2]
  rw [hs]

/-- The itemset drawn inside a row by the area sampler. -/
theorem expect_areaRow {order : Finset ℕ → List ℕ} (ho : Traverses order) {r : Finset ℕ} (hr : 0 < r.card)
    (f : Py (Finset ℕ) → ℝ) :
    (do
      let j ← npChoiceR (sizeProbas (order r).length)
      let perm ← npPermutation (order r).length (order r)
      RandR.lift (areaItemset (j + 1) perm)).expect f =
      (∑ F ∈ r.powerset, (F.card : ℝ) * f (.ok F)) / (r.card * 2 ^ (r.card - 1)) := by
  obtain ⟨h1, h2, h3⟩ := traverse_toFinset ho r
  rw [bind_eq, h3, (law_sizeProbas hr).bind, sum_by_size, Finset.sum_div]
  apply Finset.sum_congr rfl
  intro j hj
  have hj' : j + 1 ≤ r.card := Finset.mem_range.mp hj
  rw [expect_areaSize ho hj']
  have hc : (r.card.choose (j + 1) : ℝ) ≠ 0 := by exact_mod_cast (Nat.choose_pos hj').ne'
  field_simp

theorem outcome_areaSize {order : Finset ℕ → List ℕ} (ho : Traverses order) {r : Finset ℕ} {j : ℕ} (hj' : j < r.card)
    {x : Py (Finset ℕ)}
    (h : (npPermutation r.card (order r) >>= fun perm => RandR.lift (areaItemset (j + 1) perm)).Outcome x) :
    ∃ F, x = .ok F ∧ F ≠ ∅ ∧ F ⊆ r := by
  obtain ⟨h1, h2, h3⟩ := traverse_toFinset ho r
  rw [bind_eq, outcome_bind] at h
  rcases h with ⟨p, hp, h⟩ | ⟨e, he, -⟩
  · obtain ⟨p', e, hperm⟩ := outcome_permutation _ _ h3 _ hp
    cases e
    have hnd : p.Nodup := hperm.nodup_iff.mpr h1
    have hl : p.length = r.card := hperm.length_eq.trans h3
    have hc : (p.take (j + 1)).toFinset.card = j + 1 := by
      rw [List.toFinset_card_of_nodup (hnd.sublist (List.take_sublist _ _)), List.length_take]
      omega
    unfold areaItemset at h
    rw [if_pos hc] at h
    refine ⟨_, h, ?_, ?_⟩
    · intro he
      rw [he] at hc
      simp at hc
    · intro y hy
      rw [← h2, List.mem_toFinset]
      exact hperm.mem_iff.mp (List.mem_of_mem_take (List.mem_toFinset.mp hy))
  · obtain ⟨p', e', -⟩ := outcome_permutation _ _ h3 _ he
    cases e'

theorem outcome_areaRow {order : Finset ℕ → List ℕ} (ho : Traverses order) {r : Finset ℕ} (hr : 0 < r.card)
    {x : Py (Finset ℕ)}
    (h : (do
      let j ← npChoiceR (sizeProbas (order r).length)
      let perm ← npPermutation (order r).length (order r)
      RandR.lift (areaItemset (j + 1) perm)).Outcome x) : ∃ F, x = .ok F ∧ F ≠ ∅ ∧ F ⊆ r := by
  obtain ⟨h1, h2, h3⟩ := traverse_toFinset ho r
  rw [h3, bind_eq, outcome_bind] at h
  have hlen : (sizeProbas r.card).length = r.card := by simp [sizeProbas]
  have hT : (0 : ℝ) < r.card * 2 ^ (r.card - 1) := by positivity
  have hj : ∀ y, (npChoiceR (sizeProbas r.card)).Outcome y → ∃ j < r.card, y = .ok j := by
    intro y hy
    unfold npChoiceR at hy
    rw [if_pos ⟨by intro h; rw [h] at hlen; simp at hlen; omega, sizeProbas_nonneg _, sizeProbas_sum hr⟩] at hy
    obtain ⟨i, hi, -, e⟩ := hy
    exact ⟨i, by rw [← hlen]; exact hi, e⟩
  rcases h with ⟨j, hjo, h⟩ | ⟨e, he, -⟩
  · obtain ⟨j', hj', e⟩ := hj _ hjo
    cases e
    exact outcome_areaSize ho hj' h
  · obtain ⟨j', -, e'⟩ := hj _ he
    cases e'

/-- Below `2^63` the integer weights do not wrap around. -/
theorem area_weights (rows : List (Finset ℕ)) (hr : ∀ r ∈ rows, 0 < r.card) (hne : rows ≠ [])
    (hlt : (rows.map fun r => r.card * 2 ^ (r.card - 1)).sum < 2 ^ 63) :
    (rows.map fun r => i64 (i64 (2 ^ (r.card - 1)) * r.card)) =
      (rows.map fun r => ((r.card * 2 ^ (r.card - 1) : ℕ) : ℤ)) ∧
    (rows.map fun r => ((r.card * 2 ^ (r.card - 1) : ℕ) : ℤ)).sum =
      (((rows.map fun r => r.card * 2 ^ (r.card - 1)).sum : ℕ) : ℤ) ∧
    0 < (rows.map fun r => r.card * 2 ^ (r.card - 1)).sum := by
  refine ⟨?_, ?_, ?_⟩
  · apply List.map_congr_left
    intro r hrm
    have h1 : r.card * 2 ^ (r.card - 1) < 2 ^ 63 :=
      lt_of_le_of_lt (List.single_le_sum (by simp) _
        (List.mem_map_of_mem (f := fun r : Finset ℕ => r.card * 2 ^ (r.card - 1)) hrm)) hlt
    have h2 : 2 ^ (r.card - 1) < 2 ^ 63 := lt_of_le_of_lt (Nat.le_mul_of_pos_left _ (hr r hrm)) h1
    rw [i64_small (z := 2 ^ (r.card - 1)) (by positivity) (by exact_mod_cast h2), i64_small (by positivity)]
    · push_cast; ring
    · have : ((2 : ℤ) ^ (r.card - 1) * r.card) = ((r.card * 2 ^ (r.card - 1) : ℕ) : ℤ) := by push_cast; ring
      rw [this]
      exact_mod_cast h1
  · push_cast
    rw [List.map_map]
    rfl
  · obtain ⟨r, hrm⟩ := List.exists_mem_of_ne_nil rows hne
    have := hr r hrm
    exact lt_of_lt_of_le (by positivity) (List.single_le_sum (by simp) _
      (List.mem_map_of_mem (f := fun r : Finset ℕ => r.card * 2 ^ (r.card - 1)) hrm))

/-- The area sampler on given rows. -/
theorem expect_area {order : Finset ℕ → List ℕ} (ho : Traverses order) (rows : List (Finset ℕ))
    (hr : ∀ r ∈ rows, 0 < r.card) (hne : rows ≠ [])
    (hlt : (rows.map fun r => r.card * 2 ^ (r.card - 1)).sum < 2 ^ 63) (f : Py (Finset ℕ) → ℝ) :
    (areaSampleOnce order rows
        (normaliseI64 (rows.map fun r => i64 (i64 (2 ^ (r.card - 1)) * r.card)))).expect f =
      (rows.map fun r => ∑ F ∈ r.powerset, (F.card : ℝ) * f (.ok F)).sum /
        ((rows.map fun r => r.card * 2 ^ (r.card - 1)).sum : ℕ) := by
  obtain ⟨hw, hsum, hpos⟩ := area_weights rows hr hne hlt
  rw [hw]
  unfold areaSampleOnce
  rw [bind_eq, expect_bind, expect_rowDraw rows _ (by intros; positivity)
    (by rw [hsum]; exact_mod_cast hpos) (by rw [hsum]; exact_mod_cast hlt), hsum]
  congr 1
  rw [← sum_rows]
  apply Finset.sum_congr rfl
  intro i hi
  have hi' : i < rows.length := Finset.mem_range.mp hi
  have hri : 0 < (rows.getD i ∅).card := by
    rw [getD_lt hi']; exact hr _ (List.getElem_mem _)
  simp only [after]
  rw [expect_areaRow ho hri]
  have : (0 : ℝ) < (rows.getD i ∅).card * 2 ^ ((rows.getD i ∅).card - 1) := by positivity
  push_cast
  field_simp

/-! ### Rows of a binary matrix -/

/-- The set of stored columns of a row. -/
def rowSet (Y : Cmp) (i : ℕ) : Finset ℕ := (Y.segIdx i).toFinset

theorem mem_rowSet {Y : Cmp} {i j : ℕ} : j ∈ rowSet Y i ↔ Y.Stored i j := by
  rw [rowSet, List.mem_toFinset, Cmp.mem_segIdx]

theorem rowSet_subset {Y : Cmp} (h : Y.WF) (i : ℕ) : rowSet Y i ⊆ Finset.range Y.nMinor := by
  intro j hj
  exact Finset.mem_range.mpr ((mem_rowSet.mp hj).minor_lt h)

theorem entries_set {Y : Cmp} (hb : Y.Binary) (i : ℕ) :
    (((Y.entries i).filter (fun e => e.2 ≠ 0)).map Prod.fst).toFinset = rowSet Y i := by
  have : (Y.entries i).filter (fun e => e.2 ≠ 0) = Y.entries i := by
    rw [List.filter_eq_self]
    intro e he
    rw [hb.entries_eq he]
    decide
  rw [this, Cmp.entries_fst hb.toWF]
  rfl

theorem sets_binary {Y : Cmp} (hb : Y.Binary) :
    convertMatrixToSets Y = (List.range Y.nMajor).map (rowSet Y) := by
  unfold convertMatrixToSets
  exact List.map_congr_left fun i _ => entries_set hb i

theorem sets_v2 (Y : Cmp) : convertMatrixToSetsV2 Y = (List.range Y.nMajor).map (rowSet Y) := rfl

theorem rowTotal_pos {Y : Cmp} (hb : Y.Binary) (i : ℕ) :
    0 < ((Y.entries i).map Prod.snd).sum ↔ 0 < (rowSet Y i).card := by
  have h1 : (Y.entries i).map Prod.snd = List.replicate (Y.entries i).length 1 := by
    rw [List.eq_replicate_iff]
    refine ⟨by simp, ?_⟩
    intro x hx
    obtain ⟨e, he, rfl⟩ := List.mem_map.mp hx
    exact hb.entries_eq he
  have h2 : (rowSet Y i).card = (Y.entries i).length := by
    rw [rowSet, List.toFinset_card_of_nodup (hb.segIdx_nodup i), ← Cmp.entries_fst hb.toWF, List.length_map]
  rw [h1, h2]
  simp

theorem sets_selected {Y : Cmp} (hb : Y.Binary) :
    convertMatrixToSets (selectLines Y fun i => decide (0 < ((Y.entries i).map Prod.snd).sum)) =
      ((List.range Y.nMajor).filter fun i => decide (0 < (rowSet Y i).card)).map (rowSet Y) := by
  have hf : ((List.range Y.nMajor).filter fun i => decide (0 < ((Y.entries i).map Prod.snd).sum)) =
      (List.range Y.nMajor).filter fun i => decide (0 < (rowSet Y i).card) := by
    apply List.filter_congr
    intro i _
    simp only [rowTotal_pos hb]
  unfold selectLines convertMatrixToSets
  rw [hf]
  generalize (List.range Y.nMajor).filter (fun i => decide (0 < (rowSet Y i).card)) = l
  apply List.ext_getElem
  · simp [Cmp.ofLines]
  · intro k h1 h2
    have hk : k < l.length := by simpa using h2
    simp only [List.getElem_map, List.getElem_range]
    rw [Cmp.entries_ofLines _ _ _ (by simpa using hk)]
    simp only [List.getElem_map]
    exact entries_set hb _

theorem sum_list_range (n : ℕ) (h : ℕ → ℝ) : ((List.range n).map h).sum = ∑ i ∈ Finset.range n, h i := by
  rw [← List.sum_toFinset _ List.nodup_range, List.toFinset_range]

theorem sum_selected (Y : Cmp) (h : Finset ℕ → ℝ) (h0 : h ∅ = 0) :
    ((((List.range Y.nMajor).filter fun i => decide (0 < (rowSet Y i).card)).map (rowSet Y)).map h).sum =
      ∑ i ∈ Finset.range Y.nMajor, h (rowSet Y i) := by
  rw [← sum_list_range, List.map_map]
  generalize List.range Y.nMajor = l
  induction l with
  | nil => simp
  | cons a l ih =>
    rw [List.map_cons, List.sum_cons, ← ih, List.filter_cons]
    by_cases hp : 0 < (rowSet Y a).card
    · simp [hp]
    · have : rowSet Y a = ∅ := by rw [← Finset.card_eq_zero]; omega
      simp [this, h0]

/-- Summing over rows the itemsets they contain is summing over itemsets weighted by their support. -/
theorem sum_rows_itemsets {Y : Cmp} (h : Y.WF) (g : Finset ℕ → ℝ) :
    ∑ i ∈ Finset.range Y.nMajor, ∑ F ∈ (rowSet Y i).powerset, g F =
      ∑ F ∈ itemsets Y, (supportCount Y F : ℝ) * g F := by
  classical
  have h1 : ∀ i ∈ Finset.range Y.nMajor, ∑ F ∈ (rowSet Y i).powerset, g F =
      ∑ F ∈ itemsets Y, if F ⊆ rowSet Y i then g F else 0 := by
    intro i _
    rw [← Finset.sum_filter]
    apply Finset.sum_congr _ fun _ _ => rfl
    ext F
    simp only [Finset.mem_powerset, itemsets, Finset.mem_filter]
    exact ⟨fun hF => ⟨hF.trans (rowSet_subset h i), hF⟩, fun hF => hF.2⟩
  rw [Finset.sum_congr rfl h1, Finset.sum_comm]
  apply Finset.sum_congr rfl
  intro F _
  rw [← Finset.sum_filter, Finset.sum_const, nsmul_eq_mul]
  congr 2
  unfold supportCount
  congr 1
  ext i
  simp only [Finset.mem_filter, and_congr_right_iff]
  intro _
  exact ⟨fun hF j hj => mem_rowSet.mp (hF hj), fun hF j hj => mem_rowSet.mpr (hF j hj)⟩

theorem supportCount_eq_zero {Y : Cmp} (h : Y.WF) {F : Finset ℕ} (hF : F ∉ itemsets Y) : supportCount Y F = 0 := by
  unfold supportCount
  rw [Finset.card_eq_zero, Finset.eq_empty_iff_forall_notMem]
  intro i hi
  simp only [Finset.mem_filter] at hi
  have hall := hi.2
  apply hF
  simp only [itemsets, Finset.mem_powerset]
  intro j hj
  exact Finset.mem_range.mpr ((hall j hj).minor_lt h)

end Verif
