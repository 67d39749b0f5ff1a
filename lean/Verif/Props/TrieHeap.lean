/-
C113: nodes of a trie as objects. Both classes keep the same contract under any history of calls, give the same
answers, and a `SetTrie` made of them behaves as the value of `Verif.Model.Trie` about which C42 to C45 are proved.
-/
import Verif.Lemmas.TrieTree
import Verif.Props.Trie

namespace Verif

namespace TrieHeap

/-! ### Histories keep the invariant -/

theorem inv_call {c : Cls} {h : Heap} (hI : Inv c h) (a : Call) : Inv c (a.run c h).2 := by
  cases a with
  | make item last => exact hI.new item last
  | addChild n x last =>
    simp only [Call.run]
    split
    · rename_i hn; exact hI.addChild hn x last
    · exact hI
  | mark n => exact hI.setLast n
  | populate n =>
    unfold Call.run
    simp only
    split
    · exact hI.populate _ n
    · exact hI

theorem inv_calls {c : Cls} (calls : List Call) : ∀ {h : Heap}, Inv c h → Inv c (runCalls c h calls).2 := by
  induction calls with
  | nil => intro h hI; exact hI
  | cons a as ih => intro h hI; exact ih (inv_call hI a)

theorem inv_history (c : Cls) (calls : List Call) : Inv c (runCalls c [] calls).2 := inv_calls calls (inv_nil c)

/-! ### Ways -/

theorem way_unique {c : Cls} {h : Heap} (hI : Inv c h) {r k : ℕ} {w : List ℤ} (hw : Way h r k w) :
    w = recurseUp h k := by
  induction hw with
  | root hr => rw [recurseUp_eq, hr]
  | step hw hk ih =>
    rw [recurseUp_eq, hk.1]
    simp only
    rw [if_pos (hI.older _ _ hk.1), ← ih, hk.2]
    rfl

theorem way_exists {c : Cls} {h : Heap} (hI : Inv c h) (k : ℕ) : ∃ r, Way h r k (recurseUp h k) := by
  induction k using Nat.strong_induction_on with
  | _ k ih =>
    rcases hp : (nd h k).parent with _ | p
    · refine ⟨k, ?_⟩
      have : recurseUp h k = [] := by rw [recurseUp_eq, hp]
      rw [this]; exact .root hp
    · have hlt := hI.older _ _ hp
      obtain ⟨r, hr⟩ := ih p hlt
      obtain ⟨x, hx⟩ := hI.item k p hp
      refine ⟨r, ?_⟩
      have : recurseUp h k = recurseUp h p ++ [x] := by
        rw [recurseUp_eq, hp]; simp only; rw [if_pos hlt, hx]; rfl
      rw [this]
      exact .step hr ⟨hp, hx⟩

theorem way_root {h : Heap} {r k : ℕ} {w : List ℤ} (hw : Way h r k w) : (nd h r).parent = none := by
  induction hw with
  | root hr => exact hr
  | step _ _ ih => exact ih

theorem way_nil {h : Heap} {r k : ℕ} {w : List ℤ} (hw : Way h r k w) (he : w = []) : k = r := by
  cases hw with
  | root hr => rfl
  | step _ _ => simp at he

theorem way_inj {c : Cls} {h : Heap} (hI : Inv c h) {r k : ℕ} {w : List ℤ} (hw : Way h r k w) :
    ∀ {k' : ℕ}, Way h r k' w → k = k' := by
  induction hw with
  | root hr => intro k' h2; exact (way_nil h2 rfl).symm
  | @step n k x w hw hk ih =>
    intro k' h2
    generalize hv : w ++ [x] = v at h2
    cases h2 with
    | root => simp at hv
    | @step n' _ x' w' hw' hk' =>
      obtain ⟨rfl, hx⟩ := List.append_inj' hv rfl
      simp at hx
      subst hx
      have := ih hw'
      subst this
      exact hI.child_unique hk.1 hk'.1 hk.2 hk'.2

/-- The last item of a way is larger than the others and than the item of the root. -/
theorem way_sorted {c : Cls} {h : Heap} (hI : Inv c h) {r k : ℕ} {w : List ℤ} (hw : Way h r k w) :
    w.Pairwise (· < ·) ∧ (∀ y, (nd h r).item = some y → ∀ x ∈ w, y < x) ∧
      (∀ x ∈ w, ∀ z, (nd h k).item = some z → x ≤ z) ∧ (∀ z, (nd h k).item = some z → ∀ y, (nd h r).item = some y → y ≤ z) := by
  induction hw with
  | root hr =>
    refine ⟨List.Pairwise.nil, by simp, by simp, ?_⟩
    intro z hz y hy
    rw [hz] at hy; cases hy; exact le_rfl
  | @step n k x w hw hk ih =>
    obtain ⟨h1, h2, h3, h4⟩ := ih
    -- items of `w` lie below `x`
    have hwx : ∀ y ∈ w, y < x := by
      intro y hy
      rcases hn : (nd h n).item with _ | z
      · exfalso
        cases hw with
        | root => simp at hy
        | step _ hk' => rw [hk'.2] at hn; cases hn
      · exact lt_of_le_of_lt (h3 y hy z hn) (hI.above k n x z hk.1 hk.2 hn)
    refine ⟨?_, ?_, ?_, ?_⟩
    · rw [List.pairwise_append]
      exact ⟨h1, by simp, fun a ha b hb => by simp at hb; subst hb; exact hwx a ha⟩
    · intro y hy a ha
      rw [List.mem_append, List.mem_singleton] at ha
      rcases ha with ha | rfl
      · exact h2 y hy a ha
      · rcases hn : (nd h n).item with _ | z
        · exfalso
          cases hw with
          | root => rw [hy] at hn; cases hn
          | step _ hk' => rw [hk'.2] at hn; cases hn
        · exact lt_of_le_of_lt (h4 z hn y hy) (hI.above k n a z hk.1 hk.2 hn)
    · intro a ha z hz
      rw [hk.2] at hz; cases hz
      rw [List.mem_append, List.mem_singleton] at ha
      rcases ha with ha | rfl
      · exact (hwx a ha).le
      · exact le_rfl
    · intro z hz y hy
      rw [hk.2] at hz; cases hz
      rcases hn : (nd h n).item with _ | z
      · exfalso
        cases hw with
        | root => rw [hy] at hn; cases hn
        | step _ hk' => rw [hk'.2] at hn; cases hn
      · exact (lt_of_le_of_lt (h4 z hn y hy) (hI.above k n _ z hk.1 hk.2 hn)).le

/-! ### The contract -/

/-- A history of calls on nodes: `a` with children 2 and 5 (marked), 5 with child 9, and calls that fail. -/
def exampleCalls : List Call :=
  [.make none false, .addChild 0 5 true, .addChild 0 2 false, .addChild 1 9 true, .addChild 0 5 false, .addChild 1 4 false,
   .populate 0]

/-- **C113.** After any history of calls on nodes of either class, at every node: the children are exactly the nodes made
by `add_child` on it, in increasing order of their items; `has_child`, `get_child` (a `KeyError` if there is none),
`num_children` and `is_leaf` answer accordingly. -/
theorem C113_children (c : Cls) (calls : List Call) (n : ℕ) : let h := (runCalls c [] calls).2
    (∃ xs : List ℤ, (nd h n).children.map (fun k => (nd h k).item) = xs.map some ∧ (nd h n).childrenItems = xs ∧
      xs.Pairwise (· < ·)) ∧
    (∀ k, k ∈ (nd h n).children ↔ ∃ x, Below h n k x) ∧
    (∀ x, hasChild c h n x = true ↔ ∃ k, Below h n k x) ∧
    (∀ x k, getChild c h n x = .ok k ↔ Below h n k x) ∧
    (∀ x, (¬ ∃ k, Below h n k x) → getChild c h n x = .error .keyError) ∧
    numChildren c h n = (nd h n).children.length ∧ (isLeaf c h n = true ↔ ¬ ∃ k x, Below h n k x) := by
  intro h
  have hI : Inv c h := inv_history c calls
  have hnum : numChildren c h n = (nd h n).children.length := by
    cases c with
    | node => rfl
    | nodeV2 =>
      have := (hI.dict rfl n).length_eq
      rw [List.length_zip] at this
      unfold numChildren
      simp only
      rw [this]
      simp [itemsOf]
  have hmem : ∀ k, k ∈ (nd h n).children ↔ ∃ x, Below h n k x := by
    intro k
    rw [hI.mem]
    constructor
    · rintro ⟨-, h2⟩
      obtain ⟨x, hx⟩ := hI.item k n h2
      exact ⟨x, h2, hx⟩
    · rintro ⟨x, h2, -⟩
      exact ⟨(hI.parent_lt h2).1, h2⟩
  refine ⟨⟨itemsOf h n, ?_, hI.items n, hI.sorted n⟩, hmem, fun x => hI.hasChild_iff n x,
    fun x k => hI.getChild_ok n k x, ?_, hnum, ?_⟩
  · unfold itemsOf
    rw [List.map_map]
    apply List.map_congr_left
    intro k hk
    obtain ⟨x, hx⟩ := hI.item k n ((hI.mem n k).mp hk).2
    simp [hx]
  · intro x hx
    rcases hI.getChild_error n x with ⟨k, hk⟩ | he
    · exact absurd ⟨k, (hI.getChild_ok n k x).mp hk⟩ hx
    · exact he
  · unfold isLeaf
    rw [hnum, decide_eq_true_eq, List.length_eq_zero_iff, List.eq_nil_iff_forall_not_mem]
    constructor
    · rintro h1 ⟨k, x, hk⟩; exact h1 k ((hmem k).mpr ⟨x, hk⟩)
    · intro h1 k hk; obtain ⟨x, hx⟩ := (hmem k).mp hk; exact h1 ⟨k, x, hx⟩

example : let h := (runCalls .nodeV2 [] exampleCalls).2
    (nd h 0).children = [2, 1] ∧ Below h 0 1 5 ∧ Below h 1 3 9 ∧ h.length = 4 := by decide +kernel

example : (runCalls .node [] exampleCalls).1 =
    [some (.ok 0), some (.ok 1), some (.ok 2), some (.ok 3), some (.error .valueError), some (.error .valueError), none] := by
  decide +kernel

/-- **C113.** `add_child` after any history: it raises `ValueError` and changes nothing exactly if the item is not larger
than that of the node or is the item of a child; otherwise it makes one new node below it, and no other node changes its
item, its parent, its flag or the set kept for it. -/
theorem C113_add_child (c : Cls) (calls : List Call) (n : ℕ) (x : ℤ) (last : Bool) :
    let h := (runCalls c [] calls).2
    let r := addChild c h n x last
    n < h.length →
    (((∃ y, (nd h n).item = some y ∧ x ≤ y) ∨ ∃ k, Below h n k x) ∧ r = (.error .valueError, h)) ∨
    ((∀ y, (nd h n).item = some y → y < x) ∧ (¬ ∃ k, Below h n k x) ∧ r.1 = .ok h.length ∧ r.2.length = h.length + 1 ∧
      Below r.2 n h.length x ∧ (nd r.2 h.length).isLast = last ∧ (nd r.2 h.length).cache = none ∧
      (nd r.2 h.length).children = [] ∧
      ∀ k, k < h.length → (nd r.2 k).item = (nd h k).item ∧ (nd r.2 k).parent = (nd h k).parent ∧
        (nd r.2 k).isLast = (nd h k).isLast ∧ (nd r.2 k).cache = (nd h k).cache ∧
        (k ≠ n → (nd r.2 k).children = (nd h k).children)) := by
  intro h r hn
  have hI : Inv c h := inv_history c calls
  have hgood : (∀ y, (nd h n).item = some y → y < x) → (¬ ∃ k, Below h n k x) →
      r = (.ok h.length, upd (new h (some x) last (some n)) n (attach c x h.length)) := by
    intro h1 h2
    have hnc : ¬ hasChild c h n x = true := fun h3 => h2 ((hI.hasChild_iff n x).mp h3)
    change addChild c h n x last = _
    unfold addChild
    split
    · rename_i it hit
      have := h1 it hit
      rw [if_neg (by omega), if_neg hnc]
    · rw [if_neg hnc]
  by_cases hle : ∃ y, (nd h n).item = some y ∧ x ≤ y
  · left
    refine ⟨Or.inl hle, ?_⟩
    obtain ⟨y, hy, hxy⟩ := hle
    change addChild c h n x last = _
    unfold addChild
    rw [hy]
    simp only
    rw [if_pos hxy]
  · by_cases hex : ∃ k, Below h n k x
    · left
      refine ⟨Or.inr hex, ?_⟩
      have hnc : hasChild c h n x = true := (hI.hasChild_iff n x).mpr hex
      change addChild c h n x last = _
      unfold addChild
      split
      · rename_i it hit
        have : ¬ x ≤ it := fun h1 => hle ⟨it, hit, h1⟩
        rw [if_neg this, if_pos hnc]
      · rw [if_pos hnc]
    · right
      have hlt : ∀ y, (nd h n).item = some y → y < x := by
        intro y hy; by_contra hc; exact hle ⟨y, hy, by omega⟩
      rw [hgood hlt hex]
      have hnew : nd (upd (new h (some x) last (some n)) n (attach c x h.length)) h.length = blank (some x) last (some n) := by
        rw [nd_upd, if_neg (by omega), nd_new, if_pos rfl]
      refine ⟨hlt, hex, rfl, by simp, ?_, ?_, ?_, ?_, ?_⟩
      · simp only [Below, hnew]; exact ⟨rfl, rfl⟩
      · simp only [hnew]; rfl
      · simp only [hnew]; rfl
      · simp only [hnew]; rfl
      · intro k hk
        simp only
        by_cases hkn : k = n
        · subst hkn
          rw [nd_upd, if_pos ⟨rfl, by simp; omega⟩, nd_new, if_neg (by omega)]
          exact ⟨rfl, rfl, rfl, rfl, fun h => absurd rfl h⟩
        · rw [nd_upd, if_neg (fun h => hkn h.1), nd_new, if_neg (by omega)]
          exact ⟨rfl, rfl, rfl, rfl, fun _ => rfl⟩

/-- **C113.** After any history every node is reached from exactly one node without parent, by exactly one way; the items on
it increase and are larger than that of the start; different nodes have different ways. `Node.get_set` is the way for a
marked node and `None` for any other. `NodeV2.get_set` is the same or `None`. -/
theorem C113_sets (c : Cls) (calls : List Call) (k : ℕ) : let h := (runCalls c [] calls).2
    ∃ r w, Way h r k w ∧ (∀ r' w', Way h r' k w' → r' = r ∧ w' = w) ∧ w.Pairwise (· < ·) ∧
      (∀ y, (nd h r).item = some y → ∀ x ∈ w, y < x) ∧ (∀ k', Way h r k' w → k' = k) ∧
      getSetUp h k = (if (nd h k).isLast then some w else none) ∧
      (c = .node → getSet c h k = if (nd h k).isLast then some w else none) ∧
      (c = .nodeV2 → getSet c h k = none ∨ ((nd h k).isLast = true ∧ getSet c h k = some w)) := by
  intro h
  have hI : Inv c h := inv_history c calls
  obtain ⟨r, hr⟩ := way_exists hI k
  have hroot : ∀ {r r' k w w'}, Way h r k w → Way h r' k w' → r' = r := by
    intro r r' k w w' h1
    induction h1 generalizing r' w' with
    | root hr =>
      intro h2
      cases h2 with
      | root => rfl
      | step _ hk => rw [hk.1] at hr; cases hr
    | step _ hk ih =>
      intro h2
      cases h2 with
      | root hr => rw [hk.1] at hr; cases hr
      | step hw' hk' =>
        have := hk.1.symm.trans hk'.1
        cases this
        exact ih hw'
  have hs := way_sorted hI hr
  refine ⟨r, recurseUp h k, hr, fun r' w' h2 => ⟨hroot hr h2, way_unique hI h2⟩, hs.1, hs.2.1,
    fun k' h2 => (way_inj hI hr h2).symm, rfl, ?_, ?_⟩
  · rintro rfl; rfl
  · rintro rfl
    unfold getSet
    rcases hc : (nd h k).cache with _ | s
    · exact Or.inl rfl
    · obtain ⟨h1, h2⟩ := hI.cache k s hc
      exact Or.inr ⟨h1, by rw [h2]⟩

example : Way (runCalls .nodeV2 [] exampleCalls).2 0 3 [5, 9] := by
  have h0 : Way (runCalls .nodeV2 [] exampleCalls).2 0 0 [] := .root (by decide +kernel)
  have h1 : Way (runCalls .nodeV2 [] exampleCalls).2 0 1 [5] := .step h0 (by decide +kernel)
  exact .step h1 (by decide +kernel)

/-- **C113.** `populate_sets` on a node, after any history: every node on or below it then answers `get_set` with its
way if it is marked and with `None` if not; other nodes answer as before; nothing else changes. -/
theorem C113_populate (calls : List Call) (n : ℕ) : let h := (runCalls .nodeV2 [] calls).2
    let h' := (runCalls .nodeV2 [] (calls ++ [.populate n])).2
    n < h.length →
    (∀ k, (nd h' k).item = (nd h k).item ∧ (nd h' k).parent = (nd h k).parent ∧ (nd h' k).isLast = (nd h k).isLast ∧
      (nd h' k).children = (nd h k).children) ∧
    (∀ k, Relation.ReflTransGen (fun a b => ∃ x, Below h a b x) n k → getSet .nodeV2 h' k = getSetUp h k) ∧
    (∀ k, ¬ Relation.ReflTransGen (fun a b => ∃ x, Below h a b x) n k → getSet .nodeV2 h' k = getSet .nodeV2 h k) := by
  intro h h' hn
  have hI : Inv .nodeV2 h := inv_history .nodeV2 calls
  have happ : ∀ (as : List Call) (g : Heap), (runCalls .nodeV2 g (as ++ [.populate n])).2 =
      ((Call.populate n).run .nodeV2 (runCalls .nodeV2 g as).2).2 := by
    intro as
    induction as with
    | nil => intro g; rfl
    | cons a as ih => intro g; exact ih _
  have hh' : h' = populate h.length h n := by
    change (runCalls .nodeV2 [] (calls ++ [.populate n])).2 = _
    rw [happ]
    unfold Call.run
    simp only
    rw [if_pos ⟨trivial, hn⟩]
  obtain ⟨-, hnd⟩ := populate_nd h.length h n hI rfl hn (by omega)
  have hD : ∀ k, Relation.ReflTransGen (fun a b => ∃ x, Below h a b x) n k ↔ Desc h n k := by
    intro k
    constructor
    · intro hr
      induction hr with
      | refl => exact .refl
      | tail _ hb ih => obtain ⟨x, hx⟩ := hb; exact .step ih hx.1
    · intro hd
      induction hd with
      | refl => exact .refl
      | step _ hk ih =>
        obtain ⟨x, hx⟩ := hI.item _ _ hk
        exact ih.tail ⟨x, hk, hx⟩
  refine ⟨?_, ?_, ?_⟩
  · intro k
    rw [hh']
    by_cases hd : Desc h n k
    · rw [(hnd k).1 hd]; exact ⟨rfl, rfl, rfl, rfl⟩
    · rw [(hnd k).2 hd]; exact ⟨rfl, rfl, rfl, rfl⟩
  · intro k hr
    unfold getSet
    simp only
    rw [hh', (hnd k).1 ((hD k).mp hr)]
    unfold filled TNode.fillCache getSetUp
    simp only
    rcases hc : (nd h k).cache with _ | s
    · rfl
    · obtain ⟨h1, h2⟩ := hI.cache k s hc
      rw [h1, h2]; rfl
  · intro k hr
    unfold getSet
    simp only
    rw [hh', (hnd k).2 (fun h => hr ((hD k).mpr h))]

example : let h := (runCalls .nodeV2 [] exampleCalls).2
    getSet .nodeV2 h 3 = some [5, 9] ∧ getSet .nodeV2 h 2 = none ∧ getSet .nodeV2 (runCalls .nodeV2 [] (exampleCalls.take 4)).2 3 = none ∧
    getSet .node (runCalls .node [] (exampleCalls.take 4)).2 3 = some [5, 9] := by
  decide +kernel

/-! ### The two classes give the same answers -/

/-- The attributes that both classes have are the same. -/
def Agree (h h' : Heap) : Prop := h.length = h'.length ∧ ∀ k, (nd h k).item = (nd h' k).item ∧
  (nd h k).children = (nd h' k).children ∧ (nd h k).childrenItems = (nd h' k).childrenItems ∧
  (nd h k).isLast = (nd h' k).isLast ∧ (nd h k).parent = (nd h' k).parent

theorem agree_hasChild {h h' : Heap} (ha : Agree h h') (hI : Inv .node h) (hI' : Inv .nodeV2 h') (n : ℕ) (x : ℤ) :
    hasChild .node h n x = hasChild .nodeV2 h' n x := by
  rw [Bool.eq_iff_iff, hI.hasChild_iff, hI'.hasChild_iff]
  simp only [(ha.2 _).1, (ha.2 _).2.2.2.2]

theorem agree_getChild {h h' : Heap} (ha : Agree h h') (hI : Inv .node h) (hI' : Inv .nodeV2 h') (n : ℕ) (x : ℤ) :
    getChild .node h n x = getChild .nodeV2 h' n x := by
  have hiff : ∀ k, getChild .node h n x = .ok k ↔ getChild .nodeV2 h' n x = .ok k := by
    intro k
    rw [hI.getChild_ok, hI'.getChild_ok, (ha.2 _).1, (ha.2 _).2.2.2.2]
  rcases hI.getChild_error n x with ⟨k, hk⟩ | he
  · rw [hk, (hiff k).mp hk]
  · rcases hI'.getChild_error n x with ⟨k, hk⟩ | he'
    · rw [hk, (hiff k).mpr hk]
    · rw [he, he']

theorem agree_addChild {h h' : Heap} (ha : Agree h h') (hI : Inv .node h) (hI' : Inv .nodeV2 h') (n : ℕ) (x : ℤ) (l : Bool) :
    (addChild .node h n x l).1 = (addChild .nodeV2 h' n x l).1 ∧
      Agree (addChild .node h n x l).2 (addChild .nodeV2 h' n x l).2 := by
  have hh := agree_hasChild ha hI hI' n x
  have hup : Agree (upd (new h (some x) l (some n)) n (attach .node x h.length))
      (upd (new h' (some x) l (some n)) n (attach .nodeV2 x h'.length)) := by
    refine ⟨by simp [ha.1], ?_⟩
    intro k
    have hb : ∀ j, (nd (new h (some x) l (some n)) j).item = (nd (new h' (some x) l (some n)) j).item ∧
        (nd (new h (some x) l (some n)) j).children = (nd (new h' (some x) l (some n)) j).children ∧
        (nd (new h (some x) l (some n)) j).childrenItems = (nd (new h' (some x) l (some n)) j).childrenItems ∧
        (nd (new h (some x) l (some n)) j).isLast = (nd (new h' (some x) l (some n)) j).isLast ∧
        (nd (new h (some x) l (some n)) j).parent = (nd (new h' (some x) l (some n)) j).parent := by
      intro j
      rw [nd_new, nd_new, ha.1]
      split
      · exact ⟨rfl, rfl, rfl, rfl, rfl⟩
      · exact ha.2 j
    rw [nd_upd, nd_upd]
    simp only [length_new, ha.1]
    split
    · obtain ⟨b1, b2, b3, b4, b5⟩ := hb n
      unfold attach
      simp only [b1, b2, b3, b4, b5, and_self]
    · exact hb k
  unfold addChild
  rw [(ha.2 n).1, hh, ha.1] at *
  split
  · split
    · exact ⟨rfl, ha⟩
    · split
      · exact ⟨rfl, ha⟩
      · exact ⟨rfl, hup⟩
  · split
    · exact ⟨rfl, ha⟩
    · exact ⟨rfl, hup⟩

theorem agree_setLast {h h' : Heap} (ha : Agree h h') (n : ℕ) : Agree (setLast h n) (setLast h' n) := by
  unfold setLast
  refine ⟨by simp [ha.1], ?_⟩
  intro k
  rw [nd_upd, nd_upd, ha.1]
  split
  · have := ha.2 n
    exact ⟨this.1, this.2.1, this.2.2.1, rfl, this.2.2.2.2⟩
  · exact ha.2 k

theorem agree_populate {h h' : Heap} (ha : Agree h h') (hI' : Inv .nodeV2 h') (n : ℕ) (hn : n < h'.length) :
    Agree h (populate h'.length h' n) := by
  obtain ⟨hl, hnd⟩ := populate_nd h'.length h' n hI' rfl hn (by omega)
  refine ⟨by rw [hl, ha.1], ?_⟩
  intro k
  by_cases hd : Desc h' n k
  · rw [(hnd k).1 hd]; exact ha.2 k
  · rw [(hnd k).2 hd]; exact ha.2 k

/-- **C113.** The same history of calls gives the same results for both classes, and nodes with the same items, parents,
flags and children; `has_child`, `get_child`, `num_children`, `is_leaf` and what `Node.get_set` computes are the same
after it. -/
theorem C113_same_answers (calls : List Call) : let h := (runCalls .node [] calls).2
    let h' := (runCalls .nodeV2 [] calls).2
    (runCalls .node [] calls).1 = (runCalls .nodeV2 [] calls).1 ∧ h.length = h'.length ∧
    ∀ n, (nd h n).item = (nd h' n).item ∧ (nd h n).children = (nd h' n).children ∧
      (nd h n).childrenItems = (nd h' n).childrenItems ∧ (nd h n).isLast = (nd h' n).isLast ∧
      (nd h n).parent = (nd h' n).parent ∧ (∀ x, hasChild .node h n x = hasChild .nodeV2 h' n x) ∧
      (∀ x, getChild .node h n x = getChild .nodeV2 h' n x) ∧ numChildren .node h n = numChildren .nodeV2 h' n ∧
      isLeaf .node h n = isLeaf .nodeV2 h' n ∧ getSet .node h n = getSetUp h' n := by
  have key : ∀ (as : List Call) (h h' : Heap), Agree h h' → Inv .node h → Inv .nodeV2 h' →
      (runCalls .node h as).1 = (runCalls .nodeV2 h' as).1 ∧ Agree (runCalls .node h as).2 (runCalls .nodeV2 h' as).2 := by
    intro as
    induction as with
    | nil => intro h h' ha _ _; exact ⟨rfl, ha⟩
    | cons a as ih =>
      intro h h' ha hI hI'
      have h1 : (a.run .node h).1 = (a.run .nodeV2 h').1 ∧ Agree (a.run .node h).2 (a.run .nodeV2 h').2 := by
        cases a with
        | make item last =>
          refine ⟨by simp [Call.run, ha.1], by simp [Call.run, ha.1], ?_⟩
          intro k
          simp only [Call.run]
          rw [nd_new, nd_new, ha.1]
          split
          · exact ⟨rfl, rfl, rfl, rfl, rfl⟩
          · exact ha.2 k
        | addChild n x last =>
          unfold Call.run
          simp only [ha.1]
          split
          · obtain ⟨h1, h2⟩ := agree_addChild ha hI hI' n x last
            exact ⟨by rw [h1], h2⟩
          · exact ⟨rfl, ha⟩
        | mark n => exact ⟨rfl, agree_setLast ha n⟩
        | populate n =>
          unfold Call.run
          refine ⟨rfl, ?_⟩
          simp only [reduceCtorEq, false_and, if_false, true_and]
          split
          · rename_i hn; exact agree_populate ha hI' n hn
          · exact ha
      obtain ⟨h2, h3⟩ := ih _ _ h1.2 (inv_call hI a) (inv_call hI' a)
      rw [runCalls, runCalls]
      exact ⟨by rw [h1.1, h2], h3⟩
  intro h h'
  have hI : Inv .node h := inv_history .node calls
  have hI' : Inv .nodeV2 h' := inv_history .nodeV2 calls
  obtain ⟨h1, h2⟩ := key calls [] [] ⟨rfl, fun _ => ⟨rfl, rfl, rfl, rfl, rfl⟩⟩ (inv_nil _) (inv_nil _)
  refine ⟨h1, h2.1, ?_⟩
  intro n
  have hn : numChildren .node h n = numChildren .nodeV2 h' n := by
    have e1 := (C113_children .node calls n).2.2.2.2.2.1
    have e2 := (C113_children .nodeV2 calls n).2.2.2.2.2.1
    refine e1.trans (Eq.trans ?_ e2.symm)
    rw [(h2.2 n).2.1]
  obtain ⟨g1, g2, g3, g4, g5⟩ := h2.2 n
  refine ⟨g1, g2, g3, g4, g5, fun x => agree_hasChild h2 hI hI' n x, fun x => agree_getChild h2 hI hI' n x, hn, ?_, ?_⟩
  · unfold isLeaf; rw [hn]
  · change getSetUp h n = _
    unfold getSetUp
    rw [g4, recurseUp_congr (h := h') (h' := h) (n := n + 1) (fun k _ => ⟨(h2.2 k).2.2.2.2, (h2.2 k).1⟩) n (by omega)]

end TrieHeap

end Verif
