/-
Lemmas about the greedy tail sampler.
-/
import Verif.Spec.GreedyArea
import Verif.Lemmas.Rand

namespace Verif

namespace GreedyArea

theorem mem_ones {row : List ℤ} {j : ℕ} : j ∈ ones row ↔ row[j]? = some 1 := by
  unfold ones
  rw [List.mem_filter, List.mem_range, decide_eq_true_eq]
  constructor
  · rintro ⟨h, e⟩
    rw [getD_lt h] at e
    rw [List.getElem?_eq_getElem h, e]
  · intro h
    obtain ⟨h1, h2⟩ := List.getElem?_eq_some_iff.mp h
    exact ⟨h1, by rw [getD_lt h1, h2]⟩

theorem nodup_ones (row : List ℤ) : (ones row).Nodup := List.Nodup.filter _ List.nodup_range

/-! ### Tables -/

theorem read_bump (d : List (ℕ × ℕ)) (k k' : ℕ) :
    read (bump d k) k' = read d k' + if k = k' then 1 else 0 := by
  induction d with
  | nil => simp [bump, read]
  | cons e d ih =>
    obtain ⟨k0, n⟩ := e
    rw [bump]
    by_cases h : k0 = k
    · subst h
      rw [if_pos rfl, read, read]
      by_cases h' : k0 = k'
      · rw [if_pos h', if_pos h', if_pos h']
      · rw [if_neg h', if_neg h', if_neg h', Nat.add_zero]
    · rw [if_neg h, read, read]
      by_cases h' : k0 = k'
      · subst h'
        rw [if_pos rfl, if_pos rfl, if_neg (fun e => h e.symm), Nat.add_zero]
      · rw [if_neg h', if_neg h', ih]

theorem Table.read_bump (t : Table) (a b a' b' : ℕ) :
    (t.bump a b).read a' b' = t.read a' b' + if a = a' ∧ b = b' then 1 else 0 := by
  induction t with
  | nil =>
    rw [Table.bump, Table.read, Table.read]
    by_cases h : a = a'
    · subst h; simp [GreedyArea.read, Table.read]
    · rw [if_neg h, if_neg (fun e : a = a' ∧ b = b' => h e.1)]; rfl
  | cons e t ih =>
    obtain ⟨a0, d⟩ := e
    rw [Table.bump]
    by_cases h : a0 = a
    · subst h
      rw [if_pos rfl, Table.read, Table.read]
      by_cases h' : a0 = a'
      · subst h'; rw [if_pos rfl, if_pos rfl, GreedyArea.read_bump]; simp
      · rw [if_neg h', if_neg h']; simp [h']
    · rw [if_neg h, Table.read, Table.read]
      by_cases h' : a0 = a'
      · subst h'
        rw [if_pos rfl, if_pos rfl, if_neg (by rintro ⟨e, -⟩; exact h e.symm), Nat.add_zero]
      · rw [if_neg h', if_neg h', ih]

/-- A dict of positive counts. -/
def DictOk (d : List (ℕ × ℕ)) : Prop := (d.map Prod.fst).Nodup ∧ ∀ e ∈ d, 0 < e.2

theorem bump_keys (d : List (ℕ × ℕ)) (k x : ℕ) :
    x ∈ (bump d k).map Prod.fst ↔ x = k ∨ x ∈ d.map Prod.fst := by
  induction d with
  | nil => simp [bump]
  | cons e d ih =>
    obtain ⟨k0, n⟩ := e
    rw [bump]
    split
    · rename_i h; subst h; simp
    · rw [List.map_cons, List.mem_cons, ih, List.map_cons, List.mem_cons]; tauto

theorem DictOk.bump {d : List (ℕ × ℕ)} (h : DictOk d) (k : ℕ) : DictOk (bump d k) := by
  induction d with
  | nil => exact ⟨by simp [GreedyArea.bump], by simp [GreedyArea.bump]⟩
  | cons e d ih =>
    obtain ⟨k0, n⟩ := e
    obtain ⟨h1, h2⟩ := h
    rw [List.map_cons, List.nodup_cons] at h1
    rw [GreedyArea.bump]
    split
    · refine ⟨by rw [List.map_cons, List.nodup_cons]; exact h1, ?_⟩
      intro e he
      rcases List.mem_cons.mp he with rfl | he
      · exact Nat.succ_pos _
      · exact h2 e (List.mem_cons_of_mem _ he)
    · rename_i hne
      obtain ⟨i1, i2⟩ := ih ⟨h1.2, fun e he => h2 e (List.mem_cons_of_mem _ he)⟩
      refine ⟨?_, ?_⟩
      · rw [List.map_cons, List.nodup_cons]
        refine ⟨?_, i1⟩
        rw [bump_keys]
        rintro (e | e)
        · exact hne e
        · exact h1.1 e
      · intro e he
        rcases List.mem_cons.mp he with rfl | he
        · exact h2 _ List.mem_cons_self
        · exact i2 e he

theorem DictOk.mem_iff {d : List (ℕ × ℕ)} (h : DictOk d) (a n : ℕ) :
    (a, n) ∈ d ↔ read d a = n ∧ 0 < n := by
  induction d with
  | nil => simp [read]; omega
  | cons e d ih =>
    obtain ⟨k0, m⟩ := e
    obtain ⟨h1, h2⟩ := h
    rw [List.map_cons, List.nodup_cons] at h1
    have ih := ih ⟨h1.2, fun e he => h2 e (List.mem_cons_of_mem _ he)⟩
    rw [List.mem_cons, read, Prod.mk.injEq]
    by_cases hk : k0 = a
    · subst hk
      rw [if_pos rfl]
      have hm : 0 < m := h2 _ List.mem_cons_self
      constructor
      · rintro (⟨-, rfl⟩ | hx)
        · exact ⟨rfl, hm⟩
        · exact absurd (List.mem_map_of_mem hx) h1.1
      · rintro ⟨rfl, -⟩
        exact Or.inl ⟨rfl, rfl⟩
    · rw [if_neg hk, ← ih]
      constructor
      · rintro (⟨e, -⟩ | hx)
        · exact absurd e.symm hk
        · exact hx
      · exact Or.inr

/-- A table of positive counts. -/
def TableOk (t : Table) : Prop := (t.map Prod.fst).Nodup ∧ ∀ e ∈ t, e.2 ≠ [] ∧ DictOk e.2

theorem Table.bump_keys (t : Table) (a b x : ℕ) :
    x ∈ (t.bump a b).map Prod.fst ↔ x = a ∨ x ∈ t.map Prod.fst := by
  induction t with
  | nil => simp [Table.bump]
  | cons e d ih =>
    obtain ⟨k0, n⟩ := e
    rw [Table.bump]
    split
    · rename_i h; subst h; simp
    · rw [List.map_cons, List.mem_cons, ih, List.map_cons, List.mem_cons]; tauto

theorem bump_ne_nil (d : List (ℕ × ℕ)) (k : ℕ) : bump d k ≠ [] := by
  cases d with
  | nil => simp [bump]
  | cons e d => rw [bump]; split <;> simp

theorem TableOk.bump {t : Table} (h : TableOk t) (a b : ℕ) : TableOk (t.bump a b) := by
  induction t with
  | nil =>
    refine ⟨by simp [Table.bump], ?_⟩
    intro e he
    rw [Table.bump, List.mem_singleton] at he
    subst he
    exact ⟨by simp, by simp [DictOk]⟩
  | cons e t ih =>
    obtain ⟨k0, d⟩ := e
    obtain ⟨h1, h2⟩ := h
    rw [List.map_cons, List.nodup_cons] at h1
    rw [Table.bump]
    split
    · refine ⟨by rw [List.map_cons, List.nodup_cons]; exact h1, ?_⟩
      intro e he
      rcases List.mem_cons.mp he with rfl | he
      · exact ⟨bump_ne_nil _ _, (h2 _ List.mem_cons_self).2.bump b⟩
      · exact h2 e (List.mem_cons_of_mem _ he)
    · rename_i hne
      obtain ⟨i1, i2⟩ := ih ⟨h1.2, fun e he => h2 e (List.mem_cons_of_mem _ he)⟩
      refine ⟨?_, ?_⟩
      · rw [List.map_cons, List.nodup_cons]
        refine ⟨?_, i1⟩
        rw [Table.bump_keys]
        rintro (e | e)
        · exact hne e
        · exact h1.1 e
      · intro e he
        rcases List.mem_cons.mp he with rfl | he
        · exact h2 _ List.mem_cons_self
        · exact i2 e he

theorem TableOk.read {t : Table} (h : TableOk t) {l : ℕ} {d : List (ℕ × ℕ)} (hm : (l, d) ∈ t) (b : ℕ) :
    t.read l b = GreedyArea.read d b := by
  induction t with
  | nil => simp at hm
  | cons e t ih =>
    obtain ⟨k0, d0⟩ := e
    obtain ⟨h1, h2⟩ := h
    rw [List.map_cons, List.nodup_cons] at h1
    rw [Table.read]
    rcases List.mem_cons.mp hm with e | hm
    · cases e; rw [if_pos rfl]
    · rw [if_neg, ih ⟨h1.2, fun e he => h2 e (List.mem_cons_of_mem _ he)⟩ hm]
      rintro rfl
      exact h1.1 (List.mem_map.mpr ⟨_, hm, rfl⟩)

theorem Table.read_pos_key {t : Table} {a b : ℕ} (h : 0 < t.read a b) : a ∈ t.map Prod.fst := by
  induction t with
  | nil => simp [Table.read] at h
  | cons e t ih =>
    obtain ⟨k0, d⟩ := e
    rw [Table.read] at h
    rw [List.map_cons, List.mem_cons]
    by_cases hk : k0 = a
    · exact Or.inl hk.symm
    · rw [if_neg hk] at h; exact Or.inr (ih h)

/-! ### Adding a row -/

theorem read_foldl_pairs (a : ℕ) : ∀ (rest : List ℕ), (a :: rest).Nodup → ∀ (d : Table) (x y : ℕ),
    (rest.foldl (fun d b => (d.bump a b).bump b a) d).read x y = d.read x y +
      if (x = a ∧ y ∈ rest) ∨ (y = a ∧ x ∈ rest) then 1 else 0
  | [], _, d, x, y => by simp
  | b :: rest, h, d, x, y => by
    have h' : (a :: rest).Nodup := by
      simp only [List.nodup_cons, List.mem_cons] at h ⊢
      tauto
    have hab : a ≠ b := by
      rintro rfl
      simp at h
    have hb : b ∉ rest := by simp only [List.nodup_cons] at h; exact h.2.1
    have ha : a ∉ rest := by simp only [List.nodup_cons] at h'; exact h'.1
    rw [List.foldl_cons, read_foldl_pairs a rest h', Table.read_bump, Table.read_bump]
    by_cases hx : x = a
    · subst hx
      by_cases hy : y = b
      · subst hy
        simp [hb, hab, hab.symm]
      · have : ¬ (b = x ∧ x = y) := fun e => hab e.1.symm
        rw [if_neg this, if_neg (fun e : x = x ∧ b = y => hy e.2.symm)]
        simp [hy, ha, hab]
    · by_cases hy : y = a
      · subst hy
        by_cases hxb : x = b
        · subst hxb
          simp [hb, hab, hx]
        · rw [if_neg (fun e : b = x ∧ y = y => hxb e.1.symm), if_neg (fun e : y = x ∧ b = y => hx e.1.symm)]
          simp [hx, hxb, ha]
      · rw [if_neg (fun e : b = x ∧ a = y => hy e.2.symm), if_neg (fun e : a = x ∧ b = y => hx e.1.symm)]
        simp [hx, hy]

theorem read_addPairs : ∀ (l : List ℕ), l.Nodup → ∀ (d : Table) (x y : ℕ),
    (addPairs l d).read x y = d.read x y + if x ≠ y ∧ x ∈ l ∧ y ∈ l then 1 else 0
  | [], _, d, x, y => by simp [addPairs]
  | a :: rest, h, d, x, y => by
    have ha : a ∉ rest := (List.nodup_cons.mp h).1
    rw [addPairs, read_addPairs rest (List.nodup_cons.mp h).2, read_foldl_pairs a rest h]
    by_cases hx : x = a
    · subst hx
      by_cases hy : y = x
      · subst hy; simp [ha]
      · have hy' : x ≠ y := fun e => hy e.symm
        simp [ha, hy, hy']
    · by_cases hy : y = a
      · subst hy; simp [ha, hx]
      · simp [hx, hy]

theorem read_foldl_cross (l : ℕ) : ∀ (attrs : List ℕ), attrs.Nodup → ∀ (d : Table) (x y : ℕ),
    (attrs.foldl (fun d attr => d.bump l attr) d).read x y = d.read x y +
      if x = l ∧ y ∈ attrs then 1 else 0
  | [], _, d, x, y => by simp
  | b :: rest, h, d, x, y => by
    have hb : b ∉ rest := (List.nodup_cons.mp h).1
    rw [List.foldl_cons, read_foldl_cross l rest (List.nodup_cons.mp h).2, Table.read_bump]
    by_cases hx : x = l
    · subst hx
      by_cases hy : y = b
      · subst hy; simp [hb]
      · have hy' : b ≠ y := fun e => hy e.symm
        simp [hy, hy']
    · rw [if_neg (fun e : l = x ∧ b = y => hx e.1.symm)]
      simp [hx]

theorem read_addCross {attrs : List ℕ} (ha : attrs.Nodup) : ∀ (labels : List ℕ), labels.Nodup →
    ∀ (d : Table) (x y : ℕ), (addCross labels attrs d).read x y = d.read x y +
      if x ∈ labels ∧ y ∈ attrs then 1 else 0
  | [], _, d, x, y => by simp [addCross]
  | l :: rest, h, d, x, y => by
    have hl : l ∉ rest := (List.nodup_cons.mp h).1
    have ih := read_addCross ha rest (List.nodup_cons.mp h).2 (attrs.foldl (fun d attr => d.bump l attr) d) x y
    unfold addCross at ih ⊢
    rw [List.foldl_cons, ih, read_foldl_cross l attrs ha]
    by_cases hx : x = l
    · subst hx; simp [hl]
    · simp [hx]

theorem tableOk_foldl {α : Type} (f : Table → α → Table) (hf : ∀ t a, TableOk t → TableOk (f t a)) :
    ∀ (l : List α) (t : Table), TableOk t → TableOk (l.foldl f t)
  | [], _, h => h
  | a :: l, t, h => tableOk_foldl f hf l (f t a) (hf t a h)

theorem tableOk_addCross {labels attrs : List ℕ} {d : Table} (h : TableOk d) :
    TableOk (addCross labels attrs d) :=
  tableOk_foldl _ (fun t l ht => tableOk_foldl _ (fun t a ht => ht.bump l a) attrs t ht) labels d h

/-! ### All rows -/

theorem isOne_cons_succ {r : List ℤ} {M : List (List ℤ)} {i j : ℕ} : IsOne (r :: M) (i + 1) j ↔ IsOne M i j := by
  simp [IsOne]

theorem isOne_cons_zero {r : List ℤ} {M : List (List ℤ)} {j : ℕ} : IsOne (r :: M) 0 j ↔ r[j]? = some 1 := by
  simp [IsOne]

theorem together_cons (n : ℕ) (r s : List ℤ) (A B : List (List ℤ)) (a b : ℕ) :
    together (n + 1) (r :: A) (s :: B) a b =
      (if r[a]? = some 1 ∧ s[b]? = some 1 then 1 else 0) + together n A B a b := by
  classical
  unfold together
  rw [Finset.card_filter, Finset.card_filter, Finset.sum_range_succ']
  simp only [isOne_cons_succ, isOne_cons_zero]
  rw [Nat.add_comm]

/-- What the loop over the rows adds. -/
structure Added (n : ℕ) (X Y : List (List ℤ)) (acc acc' : Acc) : Prop where
  label : ∀ a b, acc'.label.read a b = acc.label.read a b + if a = b then 0 else together n Y Y a b
  attributes : ∀ a b, acc'.attributes.read a b = acc.attributes.read a b + if a = b then 0 else together n X X a b
  cross : ∀ a b, acc'.d.read a b = acc.d.read a b + together n Y X a b
  all : ∀ l, acc'.allLabels.count l = acc.allLabels.count l + together n Y Y l l
  ok : TableOk acc.d → TableOk acc'.d

theorem mem_order_ones {order : Finset ℕ → List ℕ} (ho : Traverses order) {row : List ℤ} {j : ℕ} :
    j ∈ order (ones row).toFinset ↔ row[j]? = some 1 := by
  rw [(ho _).2, List.mem_toFinset, mem_ones]

theorem addRows_ok {order : Finset ℕ → List ℕ} (ho : Traverses order) :
    ∀ (X Y : List (List ℤ)) (acc : Acc), X.length ≤ Y.length →
      ∃ acc', addRows order X Y acc = .ok acc' ∧ Added X.length X Y acc acc'
  | [], Y, acc, _ => ⟨acc, rfl, by
      constructor <;> intros <;> simp_all [together]⟩
  | x :: X, [], acc, h => by simp at h
  | x :: X, y :: Y, acc, h => by
    obtain ⟨acc', e, h1, h2, h3, h4, h5⟩ := addRows_ok ho X Y (addRow order acc x y) (by simpa using h)
    have n1 := (ho (ones y).toFinset).1
    have n2 := (ho (ones x).toFinset).1
    refine ⟨acc', e, ?_, ?_, ?_, ?_, ?_⟩
    · intro a b
      rw [h1, List.length_cons, together_cons]
      show (addPairs _ _).read a b + _ = _
      rw [read_addPairs _ n1]
      simp only [mem_order_ones ho]
      by_cases hab : a = b
      · simp [hab]
      · simp only [hab, ne_eq, not_false_eq_true, true_and, if_false]
        omega
    · intro a b
      rw [h2, List.length_cons, together_cons]
      show (addPairs _ _).read a b + _ = _
      rw [read_addPairs _ n2]
      simp only [mem_order_ones ho]
      by_cases hab : a = b
      · simp [hab]
      · simp only [hab, ne_eq, not_false_eq_true, true_and, if_false]
        omega
    · intro a b
      rw [h3, List.length_cons, together_cons]
      show (addCross _ _ _).read a b + _ = _
      rw [read_addCross n2 _ n1]
      simp only [mem_order_ones ho]
      omega
    · intro l
      rw [h4, List.length_cons, together_cons]
      show (acc.allLabels ++ order (ones y).toFinset).count l + _ = _
      rw [List.count_append, List.Nodup.count n1]
      simp only [mem_order_ones ho, and_self]
      omega
    · intro h
      exact h5 (tableOk_addCross h)

theorem addRows_short {order : Finset ℕ → List ℕ} : ∀ (X Y : List (List ℤ)) (acc : Acc),
    Y.length < X.length → addRows order X Y acc = .error .indexError
  | [], Y, acc, h => by simp at h
  | x :: X, [], acc, h => rfl
  | x :: X, y :: Y, acc, h => addRows_short X Y _ (by simpa using h)

/-! ### The greedy choice -/

/-- The smallest link of `e` to an element of the list. -/
def lk (co : ℕ → ℕ → ℕ) (e : ℕ) : List ℕ → ℕ
  | [] => 0
  | t :: T => T.foldl (fun m t => min m (co e t)) (co e t)

theorem minLink_ok (co : ℕ → ℕ → ℕ) (e : ℕ) {T : List ℕ} (h : T ≠ []) : minLink co e T = .ok (lk co e T) := by
  cases T with
  | nil => exact absurd rfl h
  | cons t T => rfl

theorem foldl_min_le (co : ℕ → ℕ → ℕ) (e : ℕ) : ∀ (T : List ℕ) (m : ℕ),
    T.foldl (fun m t => min m (co e t)) m ≤ m ∧ ∀ t ∈ T, T.foldl (fun m t => min m (co e t)) m ≤ co e t
  | [], m => ⟨le_refl _, by simp⟩
  | t :: T, m => by
    obtain ⟨h1, h2⟩ := foldl_min_le co e T (min m (co e t))
    rw [List.foldl_cons]
    refine ⟨h1.trans (min_le_left _ _), ?_⟩
    intro t' ht'
    rcases List.mem_cons.mp ht' with rfl | ht'
    · exact h1.trans (min_le_right _ _)
    · exact h2 t' ht'

theorem le_foldl_min (co : ℕ → ℕ → ℕ) (e c : ℕ) : ∀ (T : List ℕ) (m : ℕ), c ≤ m → (∀ t ∈ T, c ≤ co e t) →
    c ≤ T.foldl (fun m t => min m (co e t)) m
  | [], m, h, _ => h
  | t :: T, m, h, h' => by
    rw [List.foldl_cons]
    exact le_foldl_min co e c T _ (le_min h (h' t List.mem_cons_self)) (fun t' ht' => h' t' (List.mem_cons_of_mem _ ht'))

theorem le_lk_iff (co : ℕ → ℕ → ℕ) (e c : ℕ) {T : List ℕ} (h : T ≠ []) : c ≤ lk co e T ↔ ∀ t ∈ T, c ≤ co e t := by
  cases T with
  | nil => exact absurd rfl h
  | cons t T =>
    obtain ⟨h1, h2⟩ := foldl_min_le co e T (co e t)
    constructor
    · intro hc t' ht'
      rcases List.mem_cons.mp ht' with rfl | ht'
      · exact hc.trans h1
      · exact hc.trans (h2 t' ht')
    · intro hc
      exact le_foldl_min co e c T _ (hc t List.mem_cons_self) (fun t' ht' => hc t' (List.mem_cons_of_mem _ ht'))

theorem pickLoop_ok (co : ℕ → ℕ → ℕ) {T : List ℕ} (hT : T ≠ []) : ∀ (rest : List ℕ) (best : Option (ℕ × ℕ)),
    (∀ b, best = some b → b.2 = lk co b.1 T) → ∃ r, pickLoop co T rest best = .ok r ∧
      (r = none → best = none ∧ rest = []) ∧
      ∀ b, r = some b → b.2 = lk co b.1 T ∧ (b.1 ∈ rest ∨ best = some b) ∧ (∀ e ∈ rest, lk co e T ≤ b.2) ∧
        ∀ b0, best = some b0 → b0.2 ≤ b.2
  | [], best, hb => ⟨best, rfl, fun h => ⟨h, rfl⟩, fun b h => ⟨hb b h, Or.inr h, by simp, fun b0 h0 => by
      rw [h] at h0; cases h0; exact le_refl _⟩⟩
  | e :: rest, none, _ => by
    obtain ⟨r, h1, h2, h3⟩ := pickLoop_ok co hT rest (some (e, lk co e T)) (by rintro b ⟨⟩; rfl)
    refine ⟨r, ?_, ?_, ?_⟩
    · rw [pickLoop, minLink_ok co e hT]; exact h1
    · intro hr; exact absurd (h2 hr).1 (by simp)
    · intro b hb
      obtain ⟨g1, g2, g3, g4⟩ := h3 b hb
      refine ⟨g1, Or.inl ?_, ?_, by simp⟩
      · rcases g2 with g2 | g2
        · exact List.mem_cons_of_mem _ g2
        · cases g2; exact List.mem_cons_self
      · intro e' he'
        rcases List.mem_cons.mp he' with rfl | he'
        · exact g4 _ rfl
        · exact g3 e' he'
  | e :: rest, some b0, hb0 => by
    by_cases hlt : b0.2 < lk co e T
    · obtain ⟨r, h1, h2, h3⟩ := pickLoop_ok co hT rest (some (e, lk co e T)) (by rintro b ⟨⟩; rfl)
      refine ⟨r, ?_, ?_, ?_⟩
      · rw [pickLoop, minLink_ok co e hT]
        show (if b0.2 < lk co e T then _ else _) = _
        rw [if_pos hlt]; exact h1
      · intro hr; exact absurd (h2 hr).1 (by simp)
      · intro b hb
        obtain ⟨g1, g2, g3, g4⟩ := h3 b hb
        refine ⟨g1, Or.inl ?_, ?_, ?_⟩
        · rcases g2 with g2 | g2
          · exact List.mem_cons_of_mem _ g2
          · cases g2; exact List.mem_cons_self
        · intro e' he'
          rcases List.mem_cons.mp he' with rfl | he'
          · exact g4 _ rfl
          · exact g3 e' he'
        · rintro b1 ⟨⟩; exact hlt.le.trans (g4 _ rfl)
    · obtain ⟨r, h1, h2, h3⟩ := pickLoop_ok co hT rest (some b0) hb0
      refine ⟨r, ?_, ?_, ?_⟩
      · rw [pickLoop, minLink_ok co e hT]
        show (if b0.2 < lk co e T then _ else _) = _
        rw [if_neg hlt]; exact h1
      · intro hr; exact absurd (h2 hr).1 (by simp)
      · intro b hb
        obtain ⟨g1, g2, g3, g4⟩ := h3 b hb
        refine ⟨g1, ?_, ?_, g4⟩
        · rcases g2 with g2 | g2
          · exact Or.inl (List.mem_cons_of_mem _ g2)
          · exact Or.inr g2
        · intro e' he'
          rcases List.mem_cons.mp he' with rfl | he'
          · exact (not_lt.mp hlt).trans (g4 _ rfl)
          · exact g3 e' he'

theorem grow_ok (co : ℕ → ℕ → ℕ) {order : Finset ℕ → List ℕ} (ho : Traverses order) (L : Finset ℕ) :
    ∀ (todo : ℕ) (run : List ℕ), GreedyRun co L run → run ≠ [] → run.length + todo ≤ L.card →
      ∃ run', GreedyRun co L run' ∧ run <+: run' ∧ run'.length = run.length + todo ∧
        grow co order todo run.toFinset (L \ run.toFinset) = .ok run'.toFinset
  | 0, run, h, _, _ => ⟨run, h, List.prefix_refl _, rfl, rfl⟩
  | todo + 1, run, h, hne, hc => by
    have hT : order run.toFinset ≠ [] := by
      obtain ⟨a, ha⟩ := List.exists_mem_of_ne_nil run hne
      have := ((ho run.toFinset).2 a).mpr (List.mem_toFinset.mpr ha)
      intro e
      rw [e] at this
      simp at this
    obtain ⟨r, h1, h2, h3⟩ := pickLoop_ok co hT (order (L \ run.toFinset)) none (by simp)
    have hcard : run.toFinset.card = run.length := List.toFinset_card_of_nodup h.nodup
    have hne' : order (L \ run.toFinset) ≠ [] := by
      have hpos : 0 < (L \ run.toFinset).card := by
        have := Finset.le_card_sdiff run.toFinset L
        omega
      obtain ⟨a, ha⟩ := Finset.card_pos.mp hpos
      have := ((ho (L \ run.toFinset)).2 a).mpr ha
      intro e
      rw [e] at this
      simp at this
    cases r with
    | none => exact absurd (h2 rfl).2 hne'
    | some b =>
      obtain ⟨g1, g2, g3, -⟩ := h3 b rfl
      have hb : b.1 ∈ order (L \ run.toFinset) := by
        rcases g2 with g2 | g2
        · exact g2
        · cases g2
      rw [(ho _).2, Finset.mem_sdiff, List.mem_toFinset] at hb
      have hrun : GreedyRun co L (run ++ [b.1]) := by
        refine ⟨?_, ?_, ?_⟩
        · rw [List.nodup_append]
          refine ⟨h.nodup, by simp, ?_⟩
          intro x hx y hy
          rw [List.mem_singleton] at hy
          rintro rfl
          subst hy
          exact hb.2 hx
        · intro e he
          rw [List.mem_append, List.mem_singleton] at he
          rcases he with he | rfl
          · exact h.inside e he
          · exact hb.1
        · intro k hk hk0 e he hn
          rw [List.length_append, List.length_singleton] at hk
          by_cases hlt : k < run.length
          · rw [List.take_append_of_le_length hlt.le] at hn ⊢
            rw [List.getElem_append_left hlt]
            exact h.best k hlt hk0 e he hn
          · have hke : k = run.length := by omega
            subst hke
            rw [List.take_left'  rfl] at hn ⊢
            rw [List.getElem_append_right (le_refl _)]
            simp only [Nat.sub_self, List.getElem_cons_zero]
            intro c hc t ht
            have hmem : ∀ t, t ∈ order run.toFinset ↔ t ∈ run.toFinset := fun t => (ho _).2 t
            have he' : c ≤ lk co e (order run.toFinset) :=
              (le_lk_iff co e c hT).mpr fun t ht => hc t ((hmem t).mp ht)
            have := g3 e ((ho _).2 e |>.mpr (Finset.mem_sdiff.mpr ⟨he, fun h => hn (List.mem_toFinset.mp h)⟩))
            rw [g1] at this
            exact (le_lk_iff co b.1 c hT).mp (he'.trans this) t ((hmem t).mpr ht)
      obtain ⟨run', k1, k2, k3, k4⟩ := grow_ok co ho L todo (run ++ [b.1]) hrun (by simp) (by simp; omega)
      refine ⟨run', k1, (List.prefix_append _ _).trans k2, by rw [k3]; simp; omega, ?_⟩
      have e1 : (run ++ [b.1]).toFinset = insert b.1 run.toFinset := by
        ext x; simp [or_comm]
      have e2 : L \ (run ++ [b.1]).toFinset = (L \ run.toFinset).erase b.1 := by
        ext x; simp; tauto
      rw [e2, e1] at k4
      rw [grow, h1]
      exact k4

/-- Only the links between different labels matter. -/
theorem GreedyRun.congr {co co' : ℕ → ℕ → ℕ} {L : Finset ℕ} {run : List ℕ} (h : GreedyRun co L run)
    (hco : ∀ a b, a ≠ b → co a b = co' a b) : GreedyRun co' L run := by
  refine ⟨h.nodup, h.inside, ?_⟩
  intro k hk hk0 e he hn c hc t ht
  have hnk : run[k] ∉ run.take k := by
    intro hmem
    obtain ⟨i, hi, hie⟩ := List.mem_iff_getElem.mp hmem
    rw [List.getElem_take] at hie
    have := (List.Nodup.getElem_inj_iff h.nodup).mp hie
    rw [List.length_take] at hi
    omega
  rw [List.mem_toFinset] at ht
  rw [← hco]
  · refine h.best k hk hk0 e he hn c ?_ t (List.mem_toFinset.mpr ht)
    intro t' ht'
    rw [hco]
    · exact hc t' ht'
    · rintro rfl; exact hn (List.mem_toFinset.mp ht')
  · rintro e'; exact hnk (e' ▸ ht)

/-! ### Draws -/

theorem sum_pos_of_ne {w : List ℚ} (hw : ∀ q ∈ w, 0 ≤ q) (h : w.sum ≠ 0) : 0 < w.sum :=
  lt_of_le_of_ne (List.sum_nonneg hw) (Ne.symm h)

theorem choices_pos {strict : Bool} {ws : List ℚ} (h : ws.sum ≠ 0) :
    choices strict ws = npChoice (ws.map (· / ws.sum)) := by
  unfold choices
  rw [if_neg (by rintro rfl; simp at h), if_neg h]

end GreedyArea

end Verif
