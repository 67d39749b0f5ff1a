/-
Invariants of the set trie.
-/
import Verif.Model.Trie
import Mathlib.Data.List.TakeWhile

namespace Verif
namespace TNode

/-- The item of a non-root node. -/
def key (n : TNode) : ℤ := n.item.getD 0

/-- The path `p` below `n` ends in a node marked as last. -/
def Has : TNode → List ℤ → Prop
  | n, [] => n.isLast = true
  | n, a :: p => ∃ c ∈ n.children, c.item = some a ∧ Has c p

/-- Invariant of a node whose path from the root is `pre`: children sorted, larger than the node,
caches right where filled, and no dead branch. -/
inductive Inv : List ℤ → TNode → Prop
  | mk {pre : List ℤ} {i : Option ℤ} {l : Bool} {c : Option (List ℤ)} {cs : List TNode}
      (hcache : ∀ x, c = some x → x = pre)
      (hitem : ∀ x ∈ cs, x.item = some x.key)
      (hgt : ∀ x ∈ cs, ∀ a, i = some a → a < x.key)
      (hsort : cs.Pairwise fun x y => x.key < y.key)
      (hlive : ∀ x ∈ cs, ∃ p, Has x p)
      (hrec : ∀ x ∈ cs, Inv (pre ++ [x.key]) x) : Inv pre (.mk i l c cs)

/-- Every last node has its cache filled. -/
inductive Full : List ℤ → TNode → Prop
  | mk {pre : List ℤ} {i : Option ℤ} {l : Bool} {c : Option (List ℤ)} {cs : List TNode}
      (hcache : l = true → c = some pre)
      (hrec : ∀ x ∈ cs, Full (pre ++ [x.key]) x) : Full pre (.mk i l c cs)

/-- No cache is filled. -/
inductive Bare : TNode → Prop
  | mk {i : Option ℤ} {l : Bool} {cs : List TNode} (hrec : ∀ x ∈ cs, Bare x) : Bare (.mk i l none cs)

theorem key_of_item {n : TNode} {a : ℤ} (h : n.item = some a) : n.key = a := by simp [key, h]

theorem Inv.item {pre : List ℤ} {n : TNode} (h : Inv pre n) : ∀ x ∈ n.children, x.item = some x.key := by
  cases h; assumption

theorem Inv.gt {pre : List ℤ} {n : TNode} (h : Inv pre n) :
    ∀ x ∈ n.children, ∀ a, n.item = some a → a < x.key := by
  cases h; assumption

theorem Inv.sort {pre : List ℤ} {n : TNode} (h : Inv pre n) :
    n.children.Pairwise fun x y => x.key < y.key := by
  cases h; assumption

theorem Inv.live {pre : List ℤ} {n : TNode} (h : Inv pre n) : ∀ x ∈ n.children, ∃ p, Has x p := by
  cases h; assumption

theorem Inv.child {pre : List ℤ} {n : TNode} (h : Inv pre n) :
    ∀ x ∈ n.children, Inv (pre ++ [x.key]) x := by
  cases h; assumption

theorem Inv.cacheOk {pre : List ℤ} {n : TNode} (h : Inv pre n) : ∀ x, n.cache = some x → x = pre := by
  cases h; assumption

theorem Full.child {pre : List ℤ} {n : TNode} (h : Full pre n) :
    ∀ x ∈ n.children, Full (pre ++ [x.key]) x := by
  cases h; assumption

theorem Full.cacheEq {pre : List ℤ} {n : TNode} (h : Full pre n) (hl : n.isLast = true) :
    n.cache = some pre := by
  cases h with | mk hc _ => exact hc hl

theorem unique_key {cs : List TNode} (h : cs.Pairwise fun x y => x.key < y.key) {x y : TNode}
    (hx : x ∈ cs) (hy : y ∈ cs) (hk : x.key = y.key) : x = y := by
  induction h with
  | nil => simp at hx
  | @cons a l ha hl ih =>
    rcases List.mem_cons.mp hx with rfl | hx'
    · rcases List.mem_cons.mp hy with rfl | hy'
      · rfl
      · exact absurd hk (ne_of_lt (ha y hy'))
    · rcases List.mem_cons.mp hy with rfl | hy'
      · exact absurd hk.symm (ne_of_lt (ha x hx'))
      · exact ih hx' hy'

theorem getChild_some {pre : List ℤ} {n : TNode} (h : Inv pre n) {a : ℤ} {c : TNode} :
    n.getChild a = some c ↔ c ∈ n.children ∧ c.item = some a := by
  unfold getChild
  constructor
  · intro hf
    have h1 := List.mem_of_find?_eq_some hf
    have h2 := List.find?_some hf
    exact ⟨h1, by simpa using h2⟩
  · rintro ⟨h1, h2⟩
    rcases hf : n.children.find? (fun c => c.item == some a) with _ | d
    · rw [List.find?_eq_none] at hf
      exact absurd h2 (by simpa using hf c h1)
    · have h3 := List.mem_of_find?_eq_some hf
      have h4 : d.item = some a := by simpa using List.find?_some hf
      have : d = c := unique_key h.sort h3 h1 (by rw [key_of_item h4, key_of_item h2])
      rw [← this]; exact hf

theorem getChild_none {n : TNode} {a : ℤ} :
    n.getChild a = none ↔ ∀ c ∈ n.children, c.item ≠ some a := by
  unfold getChild
  rw [List.find?_eq_none]
  simp

theorem has_cons {n : TNode} {a : ℤ} {p : List ℤ} :
    Has n (a :: p) ↔ ∃ c ∈ n.children, c.item = some a ∧ Has c p := Iff.rfl

theorem has_nil {n : TNode} : Has n [] ↔ n.isLast = true := Iff.rfl

/-- Paths are strictly increasing and larger than the node. -/
theorem has_sorted : ∀ {p : List ℤ} {pre : List ℤ} {n : TNode}, Inv pre n → Has n p →
    p.Pairwise (· < ·) ∧ ∀ b ∈ p, ∀ a, n.item = some a → a < b
  | [], _, _, _, _ => by simp
  | a :: p, pre, n, h, ⟨c, hc, hi, hp⟩ => by
    obtain ⟨h1, h2⟩ := has_sorted (h.child c hc) hp
    have hk := key_of_item hi
    constructor
    · rw [List.pairwise_cons]
      exact ⟨fun b hb => h2 b hb a hi, h1⟩
    · intro b hb x hx
      have hxa := h.gt c hc x hx
      rw [hk] at hxa
      rcases List.mem_cons.mp hb with rfl | hb
      · exact hxa
      · exact hxa.trans (h2 b hb a hi)

/-! ### Insertion -/

theorem setLast_has (n : TNode) (p : List ℤ) : Has n.setLast p ↔ Has n p ∨ p = [] := by
  cases n with
  | mk i l c cs =>
    cases p with
    | nil => simp [Has, setLast, isLast]
    | cons a p => simp [Has, setLast, children]

theorem setLast_inv {pre : List ℤ} {n : TNode} (h : Inv pre n) : Inv pre n.setLast := by
  cases h with
  | mk h1 h2 h3 h4 h5 h6 => exact .mk h1 h2 h3 h4 h5 h6

theorem setLast_item (n : TNode) : n.setLast.item = n.item := by cases n; rfl

theorem setLast_bare {n : TNode} (h : Bare n) : Bare n.setLast := by
  cases h with | mk h => exact .mk h

theorem replace_children (n : TNode) (a : ℤ) (new : TNode) :
    (n.replaceChild a new).children = n.children.map fun x => if x.item == some a then new else x := by
  cases n; rfl

theorem replace_fields (n : TNode) (a : ℤ) (new : TNode) :
    (n.replaceChild a new).item = n.item ∧ (n.replaceChild a new).isLast = n.isLast ∧
      (n.replaceChild a new).cache = n.cache := by
  cases n; exact ⟨rfl, rfl, rfl⟩

theorem add_fields (n : TNode) (a : ℤ) (new : TNode) :
    (n.addChildNode a new).item = n.item ∧ (n.addChildNode a new).isLast = n.isLast ∧
      (n.addChildNode a new).cache = n.cache := by
  cases n; exact ⟨rfl, rfl, rfl⟩

theorem add_children (n : TNode) (a : ℤ) (new : TNode) :
    (n.addChildNode a new).children = n.children.take (bisectLeft n.children a) ++
      new :: n.children.drop (bisectLeft n.children a) := by
  cases n; rfl

theorem inv_of_fields {pre : List ℤ} {n : TNode} (hcache : ∀ x, n.cache = some x → x = pre)
    (hitem : ∀ x ∈ n.children, x.item = some x.key)
    (hgt : ∀ x ∈ n.children, ∀ a, n.item = some a → a < x.key)
    (hsort : n.children.Pairwise fun x y => x.key < y.key)
    (hlive : ∀ x ∈ n.children, ∃ p, Has x p)
    (hrec : ∀ x ∈ n.children, Inv (pre ++ [x.key]) x) : Inv pre n := by
  cases n; exact .mk hcache hitem hgt hsort hlive hrec

/-- Everything that is known about the node replaced or added for item `a`. -/
structure ChildOk (pre : List ℤ) (a : ℤ) (new : TNode) : Prop where
  item : new.item = some a
  inv : Inv (pre ++ [a]) new
  live : ∃ p, Has new p

theorem replace_inv {pre : List ℤ} {n : TNode} (h : Inv pre n) {a : ℤ} {new : TNode}
    (hn : ChildOk pre a new) : Inv pre (n.replaceChild a new) := by
  obtain ⟨f1, -, f3⟩ := replace_fields n a new
  have hmem : ∀ x ∈ (n.replaceChild a new).children,
      (x = new ∧ ∃ y ∈ n.children, y.item = some a) ∨ x ∈ n.children := by
    intro x hx
    rw [replace_children, List.mem_map] at hx
    obtain ⟨y, hy, rfl⟩ := hx
    by_cases hc : y.item = some a
    · left; simp [hc]; exact ⟨y, hy, hc⟩
    · right; simpa [hc] using hy
  have hkey : new.key = a := key_of_item hn.item
  apply inv_of_fields
  · rw [f3]; exact h.cacheOk
  · intro x hx
    rcases hmem x hx with ⟨rfl, -⟩ | hx
    · rw [hkey]; exact hn.item
    · exact h.item x hx
  · rw [f1]
    intro x hx b hb
    rcases hmem x hx with ⟨rfl, y, hy, hya⟩ | hx
    · have := h.gt y hy b hb
      rwa [key_of_item hya, ← hkey] at this
    · exact h.gt x hx b hb
  · rw [replace_children, List.pairwise_map]
    apply h.sort.imp_of_mem
    intro x y hx hy hxy
    have hk : ∀ z : TNode, (if z.item == some a then new else z).key = z.key := by
      intro z
      by_cases hc : z.item = some a
      · simp [hc, hkey, key_of_item hc]
      · simp [hc]
    rw [hk, hk]; exact hxy
  · intro x hx
    rcases hmem x hx with ⟨rfl, -⟩ | hx
    · exact hn.live
    · exact h.live x hx
  · intro x hx
    rcases hmem x hx with ⟨rfl, -⟩ | hx
    · rw [hkey]; exact hn.inv
    · exact h.child x hx

theorem replace_has {n : TNode} {a : ℤ} {c new : TNode}
    (hc : c ∈ n.children) (hca : c.item = some a) (hn : new.item = some a) (p : List ℤ) :
    Has (n.replaceChild a new) p ↔
      (∀ p', p = a :: p' → Has new p') ∧ ((∀ p', p ≠ a :: p') → Has n p) := by
  obtain ⟨-, f2, -⟩ := replace_fields n a new
  cases p with
  | nil => simp [Has, f2]
  | cons b p =>
    rw [has_cons, replace_children]
    by_cases hb : b = a
    · subst hb
      constructor
      · rintro ⟨x, hx, hxi, hxp⟩
        rw [List.mem_map] at hx
        obtain ⟨y, hy, rfl⟩ := hx
        by_cases hyc : y.item = some b
        · simp only [hyc, beq_self_eq_true, if_true] at hxp
          exact ⟨fun p' hp' => by cases hp'; exact hxp, fun hne => absurd rfl (hne p)⟩
        · simp [hyc] at hxi
      · rintro ⟨h1, -⟩
        refine ⟨new, ?_, hn, h1 p rfl⟩
        rw [List.mem_map]
        exact ⟨c, hc, by simp [hca]⟩
    · constructor
      · rintro ⟨x, hx, hxi, hxp⟩
        rw [List.mem_map] at hx
        obtain ⟨y, hy, rfl⟩ := hx
        refine ⟨fun p' hp' => by cases hp'; exact absurd rfl hb, fun _ => ?_⟩
        by_cases hyc : y.item = some a
        · simp only [hyc, beq_self_eq_true, if_true] at hxi
          rw [hn] at hxi
          exact absurd (Option.some.inj hxi).symm hb
        · simp only [beq_iff_eq, hyc, if_false] at hxi hxp
          exact ⟨y, hy, hxi, hxp⟩
      · rintro ⟨-, h2⟩
        obtain ⟨y, hy, hyi, hyp⟩ := h2 (fun p' hp' => hb (by cases hp'; rfl))
        refine ⟨y, ?_, hyi, hyp⟩
        rw [List.mem_map]
        refine ⟨y, hy, ?_⟩
        have : y.item ≠ some a := by rw [hyi]; exact fun h => hb (Option.some.inj h)
        simp [this]

theorem bisect_take {cs : List TNode} (hitem : ∀ x ∈ cs, x.item = some x.key) {a : ℤ} :
    ∀ x ∈ cs.take (bisectLeft cs a), x.key < a := by
  intro x hx
  have : cs.take (bisectLeft cs a) = cs.takeWhile fun c => decide (c.item.getD a < a) := by
    unfold bisectLeft
    exact List.prefix_iff_eq_take.mp (List.takeWhile_prefix _) |>.symm
  rw [this] at hx
  have h1 := List.mem_takeWhile_imp hx
  have h2 : x ∈ cs := (List.takeWhile_prefix _).subset hx
  rw [hitem x h2] at h1
  simpa using h1

theorem bisect_drop {cs : List TNode} (hitem : ∀ x ∈ cs, x.item = some x.key) {a : ℤ}
    (hsort : cs.Pairwise fun x y => x.key < y.key) (hne : ∀ x ∈ cs, x.key ≠ a) :
    ∀ x ∈ cs.drop (bisectLeft cs a), a < x.key := by
  induction cs with
  | nil => simp [bisectLeft]
  | cons c cs ih =>
    rw [List.pairwise_cons] at hsort
    have hic := hitem c (by simp)
    have ih' := ih (fun x hx => hitem x (by simp [hx])) hsort.2 (fun x hx => hne x (by simp [hx]))
    by_cases hc : c.key < a
    · have : bisectLeft (c :: cs) a = bisectLeft cs a + 1 := by
        simp [bisectLeft, hic, hc]
      rw [this, List.drop_succ_cons]
      exact ih'
    · have : bisectLeft (c :: cs) a = 0 := by
        simp [bisectLeft, hic, hc]
      rw [this, List.drop_zero]
      have hca : a < c.key := lt_of_le_of_ne (not_lt.mp hc) (Ne.symm (hne c (by simp)))
      intro x hx
      rcases List.mem_cons.mp hx with rfl | hx
      · exact hca
      · exact hca.trans (hsort.1 x hx)

theorem mem_add (n : TNode) (a : ℤ) (new x : TNode) :
    x ∈ (n.addChildNode a new).children ↔ x = new ∨ x ∈ n.children := by
  rw [add_children, List.mem_append, List.mem_cons]
  have := List.mem_append (a := x) (s := n.children.take (bisectLeft n.children a))
    (t := n.children.drop (bisectLeft n.children a))
  rw [List.take_append_drop] at this
  rw [this]; tauto

theorem add_inv {pre : List ℤ} {n : TNode} (h : Inv pre n) {a : ℤ} {new : TNode}
    (hn : ChildOk pre a new) (hfresh : ∀ c ∈ n.children, c.item ≠ some a)
    (hgt : ∀ b, n.item = some b → b < a) : Inv pre (n.addChildNode a new) := by
  obtain ⟨f1, -, f3⟩ := add_fields n a new
  have hkey : new.key = a := key_of_item hn.item
  have hne : ∀ x ∈ n.children, x.key ≠ a := by
    intro x hx hk
    exact hfresh x hx (by rw [h.item x hx, hk])
  apply inv_of_fields
  · rw [f3]; exact h.cacheOk
  · intro x hx
    rcases (mem_add n a new x).mp hx with rfl | hx
    · rw [hkey]; exact hn.item
    · exact h.item x hx
  · rw [f1]
    intro x hx b hb
    rcases (mem_add n a new x).mp hx with rfl | hx
    · rw [hkey]; exact hgt b hb
    · exact h.gt x hx b hb
  · rw [add_children, List.pairwise_append]
    have hs := h.sort
    rw [← List.take_append_drop (bisectLeft n.children a) n.children, List.pairwise_append] at hs
    refine ⟨hs.1, ?_, ?_⟩
    · rw [List.pairwise_cons]
      refine ⟨fun x hx => ?_, hs.2.1⟩
      rw [hkey]
      exact bisect_drop h.item h.sort hne x hx
    · intro x hx y hy
      rcases List.mem_cons.mp hy with rfl | hy
      · rw [hkey]; exact bisect_take h.item x hx
      · exact hs.2.2 x hx y hy
  · intro x hx
    rcases (mem_add n a new x).mp hx with rfl | hx
    · exact hn.live
    · exact h.live x hx
  · intro x hx
    rcases (mem_add n a new x).mp hx with rfl | hx
    · rw [hkey]; exact hn.inv
    · exact h.child x hx

theorem add_has {n : TNode} {a : ℤ} {new : TNode} (hfresh : ∀ c ∈ n.children, c.item ≠ some a)
    (hn : new.item = some a) (p : List ℤ) :
    Has (n.addChildNode a new) p ↔
      (∀ p', p = a :: p' → Has new p') ∧ ((∀ p', p ≠ a :: p') → Has n p) := by
  obtain ⟨-, f2, -⟩ := add_fields n a new
  cases p with
  | nil => simp [Has, f2]
  | cons b p =>
    rw [has_cons]
    simp only [mem_add]
    by_cases hb : b = a
    · subst hb
      constructor
      · rintro ⟨x, rfl | hx, hxi, hxp⟩
        · exact ⟨fun p' hp' => by cases hp'; exact hxp, fun hne => absurd rfl (hne p)⟩
        · exact absurd hxi (hfresh x hx)
      · rintro ⟨h1, -⟩
        exact ⟨new, Or.inl rfl, hn, h1 p rfl⟩
    · constructor
      · rintro ⟨x, rfl | hx, hxi, hxp⟩
        · rw [hn] at hxi
          exact absurd (Option.some.inj hxi).symm hb
        · exact ⟨fun p' hp' => by cases hp'; exact absurd rfl hb, fun _ => ⟨x, hx, hxi, hxp⟩⟩
      · rintro ⟨-, h2⟩
        obtain ⟨y, hy, hyi, hyp⟩ := h2 (fun p' hp' => hb (by cases hp'; rfl))
        exact ⟨y, Or.inr hy, hyi, hyp⟩

theorem leaf_inv (pre : List ℤ) (i : Option ℤ) (l : Bool) : Inv pre (.mk i l none []) :=
  .mk (by simp) (by simp) (by simp) List.Pairwise.nil (by simp) (by simp)

theorem leaf_has (i : Option ℤ) (p : List ℤ) : ¬ Has (.mk i false none []) p := by
  cases p <;> simp [Has, isLast, children]

/-- Inserting a strictly increasing list that starts above the node never raises, keeps the invariant
and adds exactly that path. -/
theorem insert_spec : ∀ (as : List ℤ) (pre : List ℤ) (n : TNode), Inv pre n → as.Pairwise (· < ·) →
    (∀ a ∈ as, ∀ i, n.item = some i → i < a) →
    ∃ n', n.insertList as = .ok n' ∧ Inv pre n' ∧ n'.item = n.item ∧
      (∀ p, Has n' p ↔ Has n p ∨ (p = as ∧ as ≠ [])) ∧ (Bare n → Bare n')
  | [], pre, n, h, _, _ => ⟨n, rfl, h, rfl, by simp, id⟩
  | a :: as, pre, n, h, hs, hgt => by
    rw [List.pairwise_cons] at hs
    -- the child obtained by inserting the rest below `c`
    have step : ∀ c : TNode, Inv (pre ++ [a]) c → c.item = some a →
        ∃ child, c.insertList as = .ok child ∧
          ChildOk pre a (if as = [] then child.setLast else child) ∧
          (∀ p, Has (if as = [] then child.setLast else child) p ↔ Has c p ∨ p = as) ∧
          (Bare c → Bare (if as = [] then child.setLast else child)) := by
      intro c hc hci
      obtain ⟨child, h1, h2, h3, h4, h5⟩ := insert_spec as (pre ++ [a]) c hc hs.2 (by
        intro b hb i hi
        rw [hci] at hi
        cases hi
        exact hs.1 b hb)
      have hhas : ∀ p, Has (if as = [] then child.setLast else child) p ↔ Has c p ∨ p = as := by
        intro p
        split
        · rename_i h0
          subst h0
          rw [setLast_has, h4]
          simp
        · rename_i h0
          rw [h4]
          simp [h0]
      refine ⟨child, h1, ⟨?_, ?_, ⟨as, (hhas as).mpr (Or.inr rfl)⟩⟩, hhas, ?_⟩
      · split
        · rw [setLast_item, h3, hci]
        · rw [h3, hci]
      · split
        · exact setLast_inv h2
        · exact h2
      · intro hb
        split
        · exact setLast_bare (h5 hb)
        · exact h5 hb
    rw [insertList]
    rcases hg : n.getChild a with _ | c
    · simp only
      have hfresh := getChild_none.mp hg
      have hts : n.tooSmall a = false := by
        unfold tooSmall
        rcases hi : n.item with _ | i
        · rfl
        · simpa using hgt a (by simp) i hi
      rw [hts]
      simp only [Bool.false_eq_true, if_false]
      obtain ⟨child, h1, h2, h3, h4⟩ := step (.mk (some a) false none []) (leaf_inv _ _ _) rfl
      rw [h1]
      refine ⟨_, rfl, add_inv h h2 hfresh (hgt a (by simp)), (add_fields _ _ _).1, ?_, ?_⟩
      · intro p
        rw [add_has hfresh h2.item]
        constructor
        · rintro ⟨k1, k2⟩
          by_cases hp : ∃ p', p = a :: p'
          · obtain ⟨p', rfl⟩ := hp
            rcases (h3 p').mp (k1 p' rfl) with h | rfl
            · exact absurd h (leaf_has _ _)
            · right; simp
          · push Not at hp
            exact Or.inl (k2 hp)
        · rintro (hp | ⟨rfl, -⟩)
          · refine ⟨?_, fun _ => hp⟩
            rintro p' rfl
            obtain ⟨c, hc, hci, -⟩ := hp
            exact absurd hci (hfresh c hc)
          · exact ⟨fun p' hp' => by cases hp'; exact (h3 as).mpr (Or.inr rfl),
              fun hne => absurd rfl (hne as)⟩
      · intro hb
        cases n with
        | mk i l c cs =>
          cases hb with
          | mk hrec =>
            refine .mk ?_
            intro x hx
            have := (mem_add (.mk i l none cs) a _ x).mp hx
            rcases this with rfl | hx
            · exact h4 (.mk (by simp))
            · exact hrec x hx
    · simp only
      obtain ⟨hc, hci⟩ := (getChild_some h).mp hg
      have hck := key_of_item hci
      have hinv := h.child c hc
      rw [hck] at hinv
      obtain ⟨child, h1, h2, h3, h4⟩ := step c hinv hci
      rw [h1]
      refine ⟨_, rfl, replace_inv h h2, (replace_fields _ _ _).1, ?_, ?_⟩
      · intro p
        rw [replace_has hc hci h2.item]
        constructor
        · rintro ⟨k1, k2⟩
          by_cases hp : ∃ p', p = a :: p'
          · obtain ⟨p', rfl⟩ := hp
            rcases (h3 p').mp (k1 p' rfl) with h | rfl
            · exact Or.inl ⟨c, hc, hci, h⟩
            · right; simp
          · push Not at hp
            exact Or.inl (k2 hp)
        · rintro (hp | ⟨rfl, -⟩)
          · refine ⟨?_, fun _ => hp⟩
            rintro p' rfl
            obtain ⟨d, hd, hdi, hdp⟩ := hp
            have : d = c := unique_key h.sort hd hc (by rw [key_of_item hdi, hck])
            subst this
            exact (h3 p').mpr (Or.inl hdp)
          · exact ⟨fun p' hp' => by cases hp'; exact (h3 as).mpr (Or.inr rfl),
              fun hne => absurd rfl (hne as)⟩
      · intro hb
        cases n with
        | mk i l c' cs =>
          cases hb with
          | mk hrec =>
            refine .mk ?_
            intro x hx
            rw [List.mem_map] at hx
            obtain ⟨y, hy, rfl⟩ := hx
            split
            · exact h4 (hrec c hc)
            · exact hrec y hy

/-! ### Populating the caches -/

theorem populateLoop_eq (cs : List TNode) (path : List ℤ) :
    populateLoop cs path = cs.map fun c => populate c (path ++ c.item.toList) := by
  induction cs with
  | nil => rfl
  | cons c cs ih => rw [populateLoop, ih]; rfl

theorem populate_item (n : TNode) (path : List ℤ) : (populate n path).item = n.item := by
  cases n; rw [populate]; rfl

theorem populate_isLast (n : TNode) (path : List ℤ) : (populate n path).isLast = n.isLast := by
  cases n; rw [populate]; rfl

theorem populate_children (n : TNode) (path : List ℤ) :
    (populate n path).children = n.children.map fun c => populate c (path ++ c.item.toList) := by
  cases n; rw [populate, populateLoop_eq]; rfl

theorem populate_has : ∀ (p : List ℤ) (n : TNode) (path : List ℤ), Has (populate n path) p ↔ Has n p
  | [], n, path => by simp only [Has, populate_isLast]
  | a :: p, n, path => by
    simp only [has_cons, populate_children, List.mem_map]
    constructor
    · rintro ⟨x, ⟨y, hy, rfl⟩, hi, hp⟩
      rw [populate_item] at hi
      exact ⟨y, hy, hi, (populate_has p y _).mp hp⟩
    · rintro ⟨y, hy, hi, hp⟩
      exact ⟨_, ⟨y, hy, rfl⟩, by rw [populate_item]; exact hi, (populate_has p y _).mpr hp⟩

theorem populate_key (n : TNode) (path : List ℤ) : (populate n path).key = n.key := by
  simp [key, populate_item]

theorem populate_spec {pre : List ℤ} {n : TNode} (h : Inv pre n) :
    Inv pre (populate n pre) ∧ Full pre (populate n pre) := by
  induction h with
  | @mk pre i l c cs hcache hitem hgt hsort hlive hrec ih =>
    have hc : ∀ x ∈ cs, pre ++ x.item.toList = pre ++ [x.key] := by
      intro x hx
      have := hitem x hx
      rw [this]
      rfl
    constructor
    · rw [populate, populateLoop_eq]
      refine .mk ?_ ?_ ?_ ?_ ?_ ?_
      · intro x hx
        cases c with
        | some y => simp only [fillCache, Option.some.injEq] at hx; exact hx ▸ hcache y rfl
        | none =>
          by_cases hl : l = true
          · simp only [fillCache, hl, if_true, Option.some.injEq] at hx; exact hx.symm
          · simp [fillCache, hl] at hx
      · intro x hx
        obtain ⟨y, hy, rfl⟩ := List.mem_map.mp hx
        rw [populate_item, populate_key]; exact hitem y hy
      · intro x hx a ha
        obtain ⟨y, hy, rfl⟩ := List.mem_map.mp hx
        rw [populate_key]; exact hgt y hy a ha
      · rw [List.pairwise_map]
        simpa only [populate_key] using hsort
      · intro x hx
        obtain ⟨y, hy, rfl⟩ := List.mem_map.mp hx
        obtain ⟨p, hp⟩ := hlive y hy
        exact ⟨p, (populate_has _ _ _).mpr hp⟩
      · intro x hx
        obtain ⟨y, hy, rfl⟩ := List.mem_map.mp hx
        rw [populate_key, hc y hy]
        exact (ih y hy).1
    · rw [populate, populateLoop_eq]
      refine .mk ?_ ?_
      · intro hl
        cases c with
        | some y => simp only [fillCache, hcache y rfl]
        | none => simp [fillCache, hl]
      · intro x hx
        obtain ⟨y, hy, rfl⟩ := List.mem_map.mp hx
        rw [populate_key, hc y hy]
        exact (ih y hy).2

/-! ### Searching -/

theorem search_spec : ∀ (q : List ℤ) (pre : List ℤ) (n : TNode), Inv pre n →
    (n.searchList q = true ↔ q ≠ [] ∧ Has n q)
  | [], pre, n, _ => by simp [searchList]
  | a :: q, pre, n, h => by
    rw [searchList]
    rcases hg : n.getChild a with _ | c
    · have := getChild_none.mp hg
      simp only [Bool.false_eq_true, ne_eq, reduceCtorEq, not_false_eq_true, true_and, false_iff]
      rintro ⟨c, hc, hci, -⟩
      exact this c hc hci
    · obtain ⟨hc, hci⟩ := (getChild_some h).mp hg
      have huniq : ∀ p, Has n (a :: p) ↔ Has c p := by
        intro p
        constructor
        · rintro ⟨d, hd, hdi, hdp⟩
          have : d = c := unique_key h.sort hd hc (by rw [key_of_item hdi, key_of_item hci])
          exact this ▸ hdp
        · intro hp; exact ⟨c, hc, hci, hp⟩
      simp only [huniq, ne_eq, reduceCtorEq, not_false_eq_true, true_and]
      split
      · rename_i h0; subst h0; rfl
      · rename_i h0
        rw [search_spec q _ c (h.child c hc)]
        simp [h0]

theorem subsets_spec : ∀ (q : List ℤ) (pre : List ℤ) (n : TNode), Inv pre n → Full pre n →
    ∀ x, x ∈ n.searchSubsetsList q ↔
      ∃ p, p ≠ [] ∧ Has n p ∧ p.Sublist q ∧ x = some (pre ++ p)
  | [], pre, n, _, _, x => by
    simp only [searchSubsetsList, Finset.notMem_empty, List.sublist_nil, false_iff]
    rintro ⟨p, h1, -, h2, -⟩
    exact h1 h2
  | a :: q, pre, n, h, hf, x => by
    rw [searchSubsetsList, Finset.mem_union, subsets_spec q pre n h hf x]
    have hsub : ∀ p : List ℤ, p ≠ [] → (p.Sublist (a :: q) ↔
        p.Sublist q ∨ ∃ p', p = a :: p' ∧ p'.Sublist q) := by
      intro p hp
      cases p with
      | nil => exact absurd rfl hp
      | cons b p =>
        rw [List.cons_sublist_cons']
        constructor
        · rintro (h | ⟨rfl, h⟩)
          · exact Or.inl h
          · exact Or.inr ⟨p, rfl, h⟩
        · rintro (h | ⟨p', h1, h⟩)
          · exact Or.inl h
          · cases h1; exact Or.inr ⟨rfl, h⟩
    rcases hg : n.getChild a with _ | c
    · have hfresh := getChild_none.mp hg
      simp only [Finset.notMem_empty, false_or]
      constructor
      · rintro ⟨p, h1, h2, h3, h4⟩
        exact ⟨p, h1, h2, (hsub p h1).mpr (Or.inl h3), h4⟩
      · rintro ⟨p, h1, h2, h3, h4⟩
        rcases (hsub p h1).mp h3 with h3 | ⟨p', rfl, -⟩
        · exact ⟨p, h1, h2, h3, h4⟩
        · obtain ⟨c, hc, hci, -⟩ := h2
          exact absurd hci (hfresh c hc)
    · obtain ⟨hc, hci⟩ := (getChild_some h).mp hg
      have hck := key_of_item hci
      have hci' := h.child c hc
      have hcf := hf.child c hc
      rw [hck] at hci' hcf
      have huniq : ∀ p, Has n (a :: p) ↔ Has c p := by
        intro p
        constructor
        · rintro ⟨d, hd, hdi, hdp⟩
          have : d = c := unique_key h.sort hd hc (by rw [key_of_item hdi, hck])
          exact this ▸ hdp
        · intro hp; exact ⟨c, hc, hci, hp⟩
      simp only [Finset.mem_union, subsets_spec q _ c hci' hcf x]
      constructor
      · rintro ((hl | ⟨p, h1, h2, h3, h4⟩) | ⟨p, h1, h2, h3, h4⟩)
        · split at hl
          · rename_i hlast
            rw [Finset.mem_singleton, hcf.cacheEq hlast] at hl
            exact ⟨[a], by simp, (huniq []).mpr hlast, by simp, hl⟩
          · simp at hl
        · refine ⟨a :: p, by simp, (huniq p).mpr h2, h3.cons_cons a, ?_⟩
          rw [h4]; simp
        · exact ⟨p, h1, h2, (hsub p h1).mpr (Or.inl h3), h4⟩
      · rintro ⟨p, h1, h2, h3, h4⟩
        rcases (hsub p h1).mp h3 with h5 | ⟨p', rfl, h5⟩
        · exact Or.inr ⟨p, h1, h2, h5, h4⟩
        · left
          rw [huniq] at h2
          cases p' with
          | nil =>
            left
            have hl : c.isLast = true := h2
            rw [if_pos hl, Finset.mem_singleton, hcf.cacheEq hl]
            exact h4
          | cons b p' =>
            right
            exact ⟨b :: p', by simp, h2, h5, by rw [h4]; simp⟩

/-- Without filled caches the subset search reports only `None`, as soon as there is a subset. -/
theorem subsets_bare : ∀ (q : List ℤ) (pre : List ℤ) (n : TNode), Inv pre n → Bare n →
    ∀ x, x ∈ n.searchSubsetsList q ↔ x = none ∧ ∃ p, p ≠ [] ∧ Has n p ∧ p.Sublist q
  | [], pre, n, _, _, x => by
    simp only [searchSubsetsList, Finset.notMem_empty, List.sublist_nil, false_iff]
    rintro ⟨-, p, h1, -, h2⟩
    exact h1 h2
  | a :: q, pre, n, h, hb, x => by
    rw [searchSubsetsList, Finset.mem_union, subsets_bare q pre n h hb x]
    have hsub : ∀ p : List ℤ, p ≠ [] → (p.Sublist (a :: q) ↔
        p.Sublist q ∨ ∃ p', p = a :: p' ∧ p'.Sublist q) := by
      intro p hp
      cases p with
      | nil => exact absurd rfl hp
      | cons b p =>
        rw [List.cons_sublist_cons']
        constructor
        · rintro (h | ⟨rfl, h⟩)
          · exact Or.inl h
          · exact Or.inr ⟨p, rfl, h⟩
        · rintro (h | ⟨p', h1, h⟩)
          · exact Or.inl h
          · cases h1; exact Or.inr ⟨rfl, h⟩
    rcases hg : n.getChild a with _ | c
    · have hfresh := getChild_none.mp hg
      simp only [Finset.notMem_empty, false_or]
      constructor
      · rintro ⟨h0, p, h1, h2, h3⟩
        exact ⟨h0, p, h1, h2, (hsub p h1).mpr (Or.inl h3)⟩
      · rintro ⟨h0, p, h1, h2, h3⟩
        rcases (hsub p h1).mp h3 with h3 | ⟨p', rfl, -⟩
        · exact ⟨h0, p, h1, h2, h3⟩
        · obtain ⟨c, hc, hci, -⟩ := h2
          exact absurd hci (hfresh c hc)
    · obtain ⟨hc, hci⟩ := (getChild_some h).mp hg
      have hck := key_of_item hci
      have hci' := h.child c hc
      rw [hck] at hci'
      have hcb : Bare c := by
        cases hb with | mk hrec => exact hrec c hc
      have hcnone : c.cache = none := by cases hcb; rfl
      have huniq : ∀ p, Has n (a :: p) ↔ Has c p := by
        intro p
        constructor
        · rintro ⟨d, hd, hdi, hdp⟩
          have : d = c := unique_key h.sort hd hc (by rw [key_of_item hdi, hck])
          exact this ▸ hdp
        · intro hp; exact ⟨c, hc, hci, hp⟩
      simp only [Finset.mem_union, subsets_bare q _ c hci' hcb x]
      constructor
      · rintro ((hl | ⟨h0, p, h1, h2, h3⟩) | ⟨h0, p, h1, h2, h3⟩)
        · split at hl
          · rename_i hlast
            rw [Finset.mem_singleton, hcnone] at hl
            exact ⟨hl, [a], by simp, (huniq []).mpr hlast, by simp⟩
          · simp at hl
        · exact ⟨h0, a :: p, by simp, (huniq p).mpr h2, h3.cons_cons a⟩
        · exact ⟨h0, p, h1, h2, (hsub p h1).mpr (Or.inl h3)⟩
      · rintro ⟨h0, p, h1, h2, h3⟩
        rcases (hsub p h1).mp h3 with h5 | ⟨p', rfl, h5⟩
        · exact Or.inr ⟨h0, p, h1, h2, h5⟩
        · left
          rw [huniq] at h2
          cases p' with
          | nil =>
            left
            have hl : c.isLast = true := h2
            rw [if_pos hl, Finset.mem_singleton, hcnone]
            exact h0
          | cons b p' =>
            right
            exact ⟨h0, b :: p', by simp, h2, h5⟩

theorem mem_allSupersetsLoop (cs : List TNode) (x : Option (List ℤ)) :
    x ∈ allSupersetsLoop cs ↔ ∃ c ∈ cs, x ∈ allSupersets c := by
  induction cs with
  | nil => simp [allSupersetsLoop]
  | cons c cs ih => simp [allSupersetsLoop, ih]

theorem allSupersets_spec {pre : List ℤ} {n : TNode} (h : Inv pre n) : Full pre n →
    ∀ x, x ∈ allSupersets n ↔ ∃ p, Has n p ∧ x = some (pre ++ p) := by
  induction h with
  | @mk pre i l c cs hcache hitem hgt hsort hlive hrec ih =>
    intro hf x
    have hf' := hf.child
    rw [allSupersets, Finset.mem_union, mem_allSupersetsLoop]
    constructor
    · rintro (hl | ⟨d, hd, hx⟩)
      · split at hl
        · rename_i hlast
          rw [Finset.mem_singleton] at hl
          have := hf.cacheEq hlast
          refine ⟨[], hlast, ?_⟩
          rw [hl, List.append_nil]
          exact this
        · simp at hl
      · obtain ⟨p, hp, hx⟩ := (ih d hd (hf' d hd) x).mp hx
        exact ⟨d.key :: p, ⟨d, hd, hitem d hd, hp⟩, by rw [hx]; simp⟩
    · rintro ⟨p, hp, hx⟩
      cases p with
      | nil =>
        left
        have hl : l = true := hp
        rw [if_pos hl, Finset.mem_singleton, hx, List.append_nil]
        exact (hf.cacheEq hp).symm
      | cons a p =>
        right
        obtain ⟨d, hd, hdi, hdp⟩ := hp
        have hk := key_of_item hdi
        exact ⟨d, hd, (ih d hd (hf' d hd) x).mpr ⟨p, hdp, by rw [hx, hk]; simp⟩⟩

theorem supersets_spec {pre : List ℤ} {n : TNode} (h : Inv pre n) : Full pre n →
    ∀ (q : ℤ) (qs : List ℤ) (x : Option (List ℤ)), (q :: qs).Pairwise (· < ·) →
      (x ∈ searchSupersetsList n q qs ↔
        ∃ p, Has n p ∧ (q :: qs).Sublist p ∧ x = some (pre ++ p)) := by
  induction h with
  | @mk pre i l c cs hcache hitem hgt hsort hlive hrec ih =>
    intro hf q qs x hq
    have hf' := hf.child
    -- no path through a child with a larger key contains `q`
    have hbig : ∀ d ∈ cs, q < d.key → ∀ p, Has d p → ¬ (q :: qs).Sublist (d.key :: p) := by
      intro d hd hlt p hp hsub
      have hmem : q ∈ d.key :: p := hsub.subset (by simp)
      rcases List.mem_cons.mp hmem with h | h
      · exact absurd h (ne_of_lt hlt)
      · exact absurd ((has_sorted (hrec d hd) hp).2 q h d.key (hitem d hd)) (not_lt.mpr hlt.le)
    have loop : ∀ ds : List TNode, (∀ d ∈ ds, d ∈ cs) → ds.Pairwise (fun x y => x.key < y.key) →
        (x ∈ searchSupersetsLoop ds q qs ↔
          ∃ d ∈ ds, ∃ p, Has d p ∧ (q :: qs).Sublist (d.key :: p) ∧ x = some (pre ++ d.key :: p)) := by
      intro ds
      induction ds with
      | nil => intro _ _; simp [searchSupersetsLoop]
      | cons d ds ihl =>
        intro hmem hpw
        rw [List.pairwise_cons] at hpw
        have hd := hmem d (by simp)
        have hi : d.item.getD q = d.key := by rw [hitem d hd]; rfl
        have ihl' := ihl (fun e he => hmem e (by simp [he])) hpw.2
        rw [searchSupersetsLoop.eq_def]
        simp only [hi]
        simp only [List.mem_cons, exists_eq_or_imp]
        by_cases hle : d.key ≤ q
        · rw [if_pos hle]
          by_cases heq : d.key = q
          · rw [if_pos heq]
            cases qs with
            | nil =>
              simp only [Finset.mem_union]
              rw [ihl', allSupersets_spec (hrec d hd) (hf' d hd)]
              apply or_congr _ Iff.rfl
              constructor
              · rintro ⟨p, hp, hx⟩
                exact ⟨p, hp, by rw [heq]; simp, by rw [hx]; simp⟩
              · rintro ⟨p, hp, -, hx⟩
                exact ⟨p, hp, by rw [hx]; simp⟩
            | cons q' qs' =>
              simp only
              rw [ih d hd (hf' d hd) q' qs' x (List.pairwise_cons.mp hq).2]
              constructor
              · rintro ⟨p, hp, hsub, hx⟩
                exact Or.inl ⟨p, hp, by rw [heq]; exact hsub.cons_cons q, by rw [hx]; simp⟩
              · rintro (⟨p, hp, hsub, hx⟩ | ⟨e, he, p, hp, hsub, hx⟩)
                · rw [heq] at hsub
                  exact ⟨p, hp, List.cons_sublist_cons.mp hsub, by rw [hx]; simp⟩
                · exfalso
                  exact hbig e (hmem e (by simp [he])) (heq ▸ hpw.1 e he) p hp hsub
          · rw [if_neg heq, Finset.mem_union, ihl', ih d hd (hf' d hd) q qs x hq]
            apply or_congr _ Iff.rfl
            constructor
            · rintro ⟨p, hp, hsub, hx⟩
              exact ⟨p, hp, hsub.cons _, by rw [hx]; simp⟩
            · rintro ⟨p, hp, hsub, hx⟩
              refine ⟨p, hp, ?_, by rw [hx]; simp⟩
              rcases List.cons_sublist_cons'.mp hsub with h | ⟨h, -⟩
              · exact h
              · exact absurd h.symm heq
        · rw [if_neg hle, ihl']
          constructor
          · intro h; exact Or.inr h
          · rintro (⟨p, hp, hsub, -⟩ | h)
            · exact absurd hsub (hbig d hd (not_le.mp hle) p hp)
            · exact h
    rw [searchSupersetsList, loop cs (fun _ h => h) hsort]
    constructor
    · rintro ⟨d, hd, p, hp, hsub, hx⟩
      exact ⟨d.key :: p, ⟨d, hd, hitem d hd, hp⟩, hsub, hx⟩
    · rintro ⟨p, hp, hsub, hx⟩
      cases p with
      | nil => simp at hsub
      | cons a p =>
        obtain ⟨d, hd, hdi, hdp⟩ := hp
        have hk := key_of_item hdi
        subst hk
        exact ⟨d, hd, p, hdp, hsub, hx⟩

/-! ### Comparison -/

theorem beq_iff {pre : List ℤ} {n : TNode} (h : Inv pre n) : ∀ (m : TNode), Inv pre m →
    n.item = m.item → (beq n m = true ↔ ∀ p, Has n p ↔ Has m p) := by
  induction h with
  | @mk pre i l c cs hcache hitem hgt hsort hlive hrec ih =>
    intro m hm him
    cases m with
    | mk i' l' c' cs' =>
      have hi : i = i' := him
      subst hi
      have hitem' : ∀ x ∈ cs', x.item = some x.key := hm.item
      have hsort' : cs'.Pairwise fun x y => x.key < y.key := hm.sort
      have hlive' : ∀ x ∈ cs', ∃ p, Has x p := hm.live
      have hrec' : ∀ x ∈ cs', Inv (pre ++ [x.key]) x := hm.child
      rw [beq]
      constructor
      · intro hb
        split at hb
        · cases hb
        rename_i hil
        push Not at hil
        split at hb
        · cases hb
        rename_i hlen
        push Not at hlen
        -- equal children have equal content
        have key : ∀ (as bs : List TNode), (∀ x ∈ as, x ∈ cs) → (∀ x ∈ bs, x ∈ cs') →
            as.length = bs.length → beqLoop as bs = true →
            ∀ a p, (∃ x ∈ as, x.item = some a ∧ Has x p) ↔ (∃ x ∈ bs, x.item = some a ∧ Has x p) := by
          intro as
          induction as with
          | nil =>
            intro bs _ _ hl _ a p
            cases bs with
            | nil => simp
            | cons b bs => simp at hl
          | cons x as iha =>
            intro bs hm1 hm2 hl hbq a p
            cases bs with
            | nil => simp at hl
            | cons y bs =>
              rw [beqLoop] at hbq
              split at hbq
              · rename_i hxy
                have hitemxy : x.item = y.item := by
                  cases x with
                  | mk ix lx cx csx =>
                    cases y with
                    | mk iy ly cy csy =>
                      rw [beq] at hxy
                      split at hxy
                      · cases hxy
                      · rename_i h1
                        push Not at h1
                        exact h1.1
                have hkxy : x.key = y.key := by simp [TNode.key, hitemxy]
                have hxc := hm1 x (by simp)
                have hyc := hm2 y (by simp)
                have hcont := (ih x hxc y (by rw [hkxy]; exact hrec' y hyc) hitemxy).mp hxy
                have ihx := iha bs (fun z hz => hm1 z (by simp [hz])) (fun z hz => hm2 z (by simp [hz]))
                  (by simpa using hl) hbq a p
                simp only [List.mem_cons, exists_eq_or_imp, hitemxy, hcont p, ihx]
              · cases hbq
        intro p
        cases p with
        | nil => simp only [Has, isLast]; rw [hil.2]
        | cons a p =>
          exact key cs cs' (fun _ h => h) (fun _ h => h) hlen hb a p
      · intro hhas
        have hl : l = l' := by
          have h0 := hhas []
          simp only [Has, isLast] at h0
          cases l <;> cases l' <;> simp_all
        rw [if_neg (by push Not; exact ⟨rfl, hl⟩)]
        -- the lists of keys agree
        have hmk : ∀ a, a ∈ cs.map key ↔ a ∈ cs'.map key := by
          intro a
          simp only [List.mem_map]
          constructor
          · rintro ⟨x, hx, rfl⟩
            obtain ⟨p, hp⟩ := hlive x hx
            obtain ⟨y, hy, hyi, -⟩ := (hhas (x.key :: p)).mp ⟨x, hx, hitem x hx, hp⟩
            exact ⟨y, hy, key_of_item hyi⟩
          · rintro ⟨x, hx, rfl⟩
            obtain ⟨p, hp⟩ := hlive' x hx
            obtain ⟨y, hy, hyi, -⟩ := (hhas (x.key :: p)).mpr ⟨x, hx, hitem' x hx, hp⟩
            exact ⟨y, hy, key_of_item hyi⟩
        have hs1 : (cs.map key).Pairwise (· < ·) := by rw [List.pairwise_map]; exact hsort
        have hs2 : (cs'.map key).Pairwise (· < ·) := by rw [List.pairwise_map]; exact hsort'
        have hkeys : cs.map key = cs'.map key := by
          have hperm : (cs.map key).Perm (cs'.map key) :=
            (List.perm_ext_iff_of_nodup (hs1.imp ne_of_lt) (hs2.imp ne_of_lt)).mpr hmk
          exact hperm.eq_of_pairwise (fun a b _ _ h1 h2 => absurd h1 (not_lt.mpr h2.le)) hs1 hs2
        have hlen : cs.length = cs'.length := by
          have := congrArg List.length hkeys; simpa using this
        rw [if_neg (by push Not; exact hlen)]
        have hpair : ∀ x ∈ cs, ∀ y ∈ cs', x.key = y.key → beq x y = true := by
          intro x hx y hy hxy
          have hxyi : x.item = y.item := by rw [hitem x hx, hitem' y hy, hxy]
          rw [ih x hx y (by rw [hxy]; exact hrec' y hy) hxyi]
          intro p
          have h1 : Has x p ↔ Has (.mk i l c cs) (x.key :: p) := by
            constructor
            · intro hp; exact ⟨x, hx, hitem x hx, hp⟩
            · rintro ⟨z, hz, hzi, hzp⟩
              exact unique_key hsort hz hx (key_of_item hzi) ▸ hzp
          have h2 : Has y p ↔ Has (.mk i l' c' cs') (y.key :: p) := by
            constructor
            · intro hp; exact ⟨y, hy, hitem' y hy, hp⟩
            · rintro ⟨z, hz, hzi, hzp⟩
              exact unique_key hsort' hz hy (key_of_item hzi) ▸ hzp
          rw [h1, h2, hxy]
          exact hhas _
        have loop : ∀ (as bs : List TNode), (∀ x ∈ as, x ∈ cs) → (∀ x ∈ bs, x ∈ cs') →
            as.map key = bs.map key → beqLoop as bs = true := by
          intro as
          induction as with
          | nil => intro bs _ _ _; rw [beqLoop]
          | cons x as iha =>
            intro bs h1 h2 hk
            cases bs with
            | nil => rw [beqLoop]; simp
            | cons y bs =>
              simp only [List.map_cons, List.cons.injEq] at hk
              rw [beqLoop, if_pos (hpair x (h1 x (by simp)) y (h2 y (by simp)) hk.1)]
              exact iha bs (fun z hz => h1 z (by simp [hz])) (fun z hz => h2 z (by simp [hz])) hk.2
        exact loop cs cs' (fun _ h => h) (fun _ h => h) hkeys

end TNode
end Verif
