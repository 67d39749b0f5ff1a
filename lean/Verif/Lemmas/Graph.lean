/-
Lemmas on label graphs and probable-clique enumeration.
-/
import Verif.Spec.Graph
import Verif.Lemmas.Rand
import Verif.Lemmas.Sparse

namespace Verif
namespace UGraph

variable {K : Type}

theorem joins_comm (u v : ℕ) : joins (K := K) u v = joins v u := by
  funext e; simp only [joins]; rw [Bool.or_comm]

theorem weight_comm (g : UGraph K) (u v : ℕ) : g.weight u v = g.weight v u := by
  unfold weight; rw [joins_comm]

theorem weight_mem {g : UGraph K} {u v : ℕ} {w : K} (h : g.weight u v = some w) :
    ((u, v), w) ∈ g.edges ∨ ((v, u), w) ∈ g.edges := by
  unfold weight at h
  rw [Option.map_eq_some_iff] at h
  obtain ⟨e, he, rfl⟩ := h
  have h1 := List.mem_of_find?_eq_some he
  have h2 := List.find?_some he
  simp only [joins, Bool.or_eq_true, beq_iff_eq] at h2
  rcases h2 with h2 | h2
  · left; rw [← h2]; exact h1
  · right; rw [← h2]; exact h1

theorem adj_of_mem {g : UGraph K} {e : (ℕ × ℕ) × K} (h : e ∈ g.edges) : g.Adj e.1.1 e.1.2 := by
  unfold Adj weight
  rcases hf : g.edges.find? (joins e.1.1 e.1.2) with _ | d
  · rw [List.find?_eq_none] at hf
    exact absurd (by simp [joins]) (hf e h)
  · exact ⟨d.2, rfl⟩

theorem adj_comm {g : UGraph K} {u v : ℕ} : g.Adj u v ↔ g.Adj v u := by
  unfold Adj; rw [weight_comm]

theorem mem_nbrs {g : UGraph K} {u v : ℕ} : v ∈ g.nbrs u ↔ g.Adj u v := by
  unfold nbrs
  rw [List.mem_toFinset, List.mem_filterMap]
  constructor
  · rintro ⟨e, he, h⟩
    split at h
    · rename_i h1
      have := adj_of_mem he
      rw [h1, Option.some.inj h] at this
      exact this
    · split at h
      · rename_i h1
        have := adj_of_mem he
        rw [h1, Option.some.inj h] at this
        exact adj_comm.mp this
      · cases h
  · rintro ⟨w, hw⟩
    rcases weight_mem hw with h | h
    · exact ⟨_, h, by simp⟩
    · refine ⟨_, h, ?_⟩
      by_cases hvu : v = u
      · simp [hvu]
      · simp [hvu]

theorem adj_nodes {g : UGraph K} (h : g.WF) {u v : ℕ} (ha : g.Adj u v) : u ∈ g.nodes ∧ v ∈ g.nodes := by
  obtain ⟨w, hw⟩ := ha
  rcases weight_mem hw with h1 | h1
  · exact h.ends _ h1
  · exact (h.ends _ h1).symm

theorem weight_valid {g : UGraph K} {Valid : K → Prop} (h : g.AllWeights Valid) {u v : ℕ} {w : K}
    (hw : g.weight u v = some w) : Valid w := by
  rcases weight_mem hw with h1 | h1
  · exact h _ h1
  · exact h _ h1

/-- The list form of a clique. -/
structure CliqueList (g : UGraph K) (T : List ℕ) : Prop where
  sorted : T.Pairwise (· < ·)
  nodes : ∀ x ∈ T, x ∈ g.nodes
  adj : T.Pairwise fun a b => g.Adj a b

theorem CliqueList.prefix {g : UGraph K} {S E : List ℕ} (h : g.CliqueList (S ++ E)) :
    g.CliqueList S :=
  ⟨(List.pairwise_append.mp h.sorted).1, fun x hx => h.nodes x (by simp [hx]),
    (List.pairwise_append.mp h.adj).1⟩

theorem CliqueList.sublist {g : UGraph K} {S T : List ℕ} (h : g.CliqueList T) (hs : S.Sublist T) :
    g.CliqueList S :=
  ⟨h.sorted.sublist hs, fun x hx => h.nodes x (hs.subset hx), h.adj.sublist hs⟩

theorem CliqueList.isClique {g : UGraph K} {T : List ℕ} (h : g.CliqueList T) :
    g.IsClique T.toFinset := by
  refine ⟨fun x hx => h.nodes x (List.mem_toFinset.mp hx), ?_⟩
  intro x hx y hy hne
  rw [List.mem_toFinset] at hx hy
  obtain ⟨i, hi, rfl⟩ := List.getElem_of_mem hx
  obtain ⟨j, hj, rfl⟩ := List.getElem_of_mem hy
  have hp := List.pairwise_iff_getElem.mp h.adj
  rcases Nat.lt_trichotomy i j with hlt | heq | hgt
  · exact hp i j hi hj hlt
  · subst heq; exact absurd rfl hne
  · exact adj_comm.mp (hp j i hj hi hgt)

theorem cliqueList_of_isClique {g : UGraph K} {T : List ℕ} (hs : T.Pairwise (· < ·))
    (h : g.IsClique T.toFinset) : g.CliqueList T := by
  refine ⟨hs, fun x hx => h.1 x (List.mem_toFinset.mpr hx), ?_⟩
  apply hs.imp_of_mem
  intro a b ha hb hab
  exact h.2 a (List.mem_toFinset.mpr ha) b (List.mem_toFinset.mpr hb) (ne_of_lt hab)

end UGraph

open UGraph

section Prob
variable {K : Type} [LinearOrder K] {ops : ProbOps K} {Valid : K → Prop} {g : UGraph K}

theorem getD_valid (hl : ops.Lawful Valid) (hg : g.AllWeights Valid) (u v : ℕ) :
    Valid ((g.weight u v).getD ops.one) := by
  rcases h : g.weight u v with _ | w
  · exact hl.one
  · exact weight_valid hg h

theorem extendAll_valid (hl : ops.Lawful Valid) (hg : g.AllWeights Valid) (u : ℕ) :
    ∀ (vs : List ℕ) (p : K), Valid p → Valid (extendAll ops g u vs p)
  | [], _, h => h
  | v :: vs, p, h => extendAll_valid hl hg u vs _ (hl.mul _ _ h (getD_valid hl hg u v))

theorem extendAll_le (hl : ops.Lawful Valid) (hg : g.AllWeights Valid) (u : ℕ) :
    ∀ (vs : List ℕ) (p : K), Valid p → extendAll ops g u vs p ≤ p
  | [], _, _ => le_rfl
  | v :: vs, p, h => by
    have h1 := hl.mul _ _ h (getD_valid hl hg u v)
    exact (extendAll_le hl hg u vs _ h1).trans (hl.le_left _ _ h (getD_valid hl hg u v))

theorem extendAll_sublist (hl : ops.Lawful Valid) (hg : g.AllWeights Valid) (u : ℕ) {vs vs' : List ℕ}
    (hs : vs'.Sublist vs) : ∀ (p p' : K), Valid p → Valid p' → p ≤ p' →
      extendAll ops g u vs p ≤ extendAll ops g u vs' p' := by
  induction hs with
  | slnil => intro p p' _ _ h; exact h
  | @cons vs' vs v _ ih =>
    intro p p' hp hp' h
    have h1 := hl.mul _ _ hp (getD_valid hl hg u v)
    exact ih _ _ h1 hp' ((hl.le_left _ _ hp (getD_valid hl hg u v)).trans h)
  | @cons_cons vs' vs v _ ih =>
    intro p p' hp hp' h
    exact ih _ _ (hl.mul _ _ hp (getD_valid hl hg u v)) (hl.mul _ _ hp' (getD_valid hl hg u v))
      (hl.mono _ _ _ hp hp' (getD_valid hl hg u v) h)

theorem orderedProbAux_append (pre S E : List ℕ) (p : K) :
    orderedProbAux ops g pre (S ++ E) p =
      orderedProbAux ops g (pre ++ S) E (orderedProbAux ops g pre S p) := by
  induction S generalizing pre p with
  | nil => simp [orderedProbAux]
  | cons u us ih => simp [orderedProbAux, ih]

theorem orderedProb_snoc (S : List ℕ) (u : ℕ) :
    orderedProb ops g (S ++ [u]) = extendAll ops g u S (orderedProb ops g S) := by
  unfold orderedProb
  rw [orderedProbAux_append]
  rfl

theorem orderedProbAux_valid (hl : ops.Lawful Valid) (hg : g.AllWeights Valid) :
    ∀ (us pre : List ℕ) (p : K), Valid p → Valid (orderedProbAux ops g pre us p)
  | [], _, _, h => h
  | u :: us, pre, p, h => orderedProbAux_valid hl hg us _ _ (extendAll_valid hl hg u pre p h)

theorem orderedProb_valid (hl : ops.Lawful Valid) (hg : g.AllWeights Valid) (T : List ℕ) :
    Valid (orderedProb ops g T) := orderedProbAux_valid hl hg _ _ _ hl.one

theorem orderedProbAux_sublist (hl : ops.Lawful Valid) (hg : g.AllWeights Valid) {us us' : List ℕ}
    (hs : us'.Sublist us) : ∀ (pre pre' : List ℕ) (p p' : K), pre'.Sublist pre → Valid p → Valid p' →
      p ≤ p' → orderedProbAux ops g pre us p ≤ orderedProbAux ops g pre' us' p' := by
  induction hs with
  | slnil => intro pre pre' p p' _ _ _ h; exact h
  | @cons us' us u _ ih =>
    intro pre pre' p p' hpre hp hp' h
    exact ih _ _ _ _ (hpre.trans (List.sublist_append_left _ _)) (extendAll_valid hl hg u pre p hp) hp'
      ((extendAll_le hl hg u pre p hp).trans h)
  | @cons_cons us' us u _ ih =>
    intro pre pre' p p' hpre hp hp' h
    exact ih _ _ _ _ (hpre.append (List.Sublist.refl _)) (extendAll_valid hl hg u pre p hp)
      (extendAll_valid hl hg u pre' p' hp') (extendAll_sublist hl hg u hpre p p' hp hp' h)

/-- A larger clique is at most as probable. -/
theorem orderedProb_sublist (hl : ops.Lawful Valid) (hg : g.AllWeights Valid) {S T : List ℕ}
    (hs : S.Sublist T) : orderedProb ops g T ≤ orderedProb ops g S :=
  orderedProbAux_sublist hl hg hs _ _ _ _ (List.Sublist.refl _) hl.one hl.one le_rfl

theorem orderedProb_le_edge (hl : ops.Lawful Valid) (hg : g.AllWeights Valid) {T : List ℕ} {a b : ℕ}
    (hs : [a, b].Sublist T) {w : K} (hw : g.weight b a = some w) : orderedProb ops g T ≤ w := by
  refine (orderedProb_sublist hl hg hs).trans ?_
  have : orderedProb ops g [a, b] = ops.mul ops.one w := by
    simp [orderedProb, orderedProbAux, extendAll, hw]
  rw [this]
  exact hl.le_right _ _ hl.one (weight_valid hg hw)

theorem extendProba_spec (hl : ops.Lawful Valid) (hg : g.AllWeights Valid) (alpha : K) (u : ℕ) :
    ∀ (S : List ℕ) (p : K), Valid p → (∀ v ∈ S, g.Adj u v) → (S ≠ [] ∨ alpha ≤ p) →
      extendProba ops g alpha u S p =
        .ok (if extendAll ops g u S p < alpha then none else some (extendAll ops g u S p))
  | [], p, _, _, h => by
    have : alpha ≤ p := by rcases h with h | h; exact absurd rfl h; exact h
    simp [extendProba, extendAll, not_lt.mpr this]
  | v :: vs, p, hp, hadj, _ => by
    obtain ⟨w, hw⟩ := hadj v (by simp)
    have hv := weight_valid hg hw
    have hq := hl.mul _ _ hp hv
    have hea : extendAll ops g u (v :: vs) p = extendAll ops g u vs (ops.mul p w) := by
      simp [extendAll, hw]
    rw [extendProba, hw, hea]
    simp only
    split
    · rename_i hlt
      rw [if_pos ((extendAll_le hl hg u vs _ hq).trans_lt hlt)]
    · rename_i hge
      exact extendProba_spec hl hg alpha u vs _ hq (fun x hx => hadj x (by simp [hx]))
        (Or.inr (not_lt.mp hge))

/-- What the recursion returns for the extensions of `S`. -/
def DfsSpec (ops : ProbOps K) (g : UGraph K) (alpha : K) (S : List ℕ) (L : List (List ℕ × K)) : Prop :=
  (L.map Prod.fst).Nodup ∧ ∀ T p, (T, p) ∈ L ↔
    ∃ E, T = S ++ E ∧ g.CliqueList T ∧ p = orderedProb ops g T ∧ (E = [] ∨ alpha ≤ p)

theorem flatten_map_nodup {α β : Type} {l : List α} {F : α → List (List β × K)} (hl : l.Nodup)
    (h1 : ∀ a ∈ l, ((F a).map Prod.fst).Nodup)
    (h2 : ∀ a ∈ l, ∀ b ∈ l, a ≠ b → ∀ x ∈ F a, ∀ y ∈ F b, x.1 ≠ y.1) :
    (((l.map F).flatten).map Prod.fst).Nodup := by
  rw [List.map_flatten, List.map_map, List.nodup_flatten]
  constructor
  · intro t ht
    obtain ⟨a, ha, rfl⟩ := List.mem_map.mp ht
    exact h1 a ha
  · rw [List.pairwise_map]
    apply hl.imp_of_mem
    intro a b ha hb hab
    rw [List.disjoint_left]
    intro T hT hT'
    simp only [Function.comp, List.mem_map] at hT hT'
    obtain ⟨x, hx, rfl⟩ := hT
    obtain ⟨y, hy, hxy⟩ := hT'
    exact h2 a ha b hb hab x hx y hy hxy.symm

theorem dfs_spec (hl : ops.Lawful Valid) (hg : g.AllWeights Valid) (hwf : g.WF) (alpha : K)
    {order : Finset ℕ → List ℕ} (ho : Traverses order) :
    ∀ (d : ℕ) (S : List ℕ) (last : ℕ) (shared : Finset ℕ), S.getLast? = some last →
      g.CliqueList S → (∀ x, x ∈ shared ↔ x ∈ g.nodes ∧ ∀ s ∈ S, g.Adj x s) →
      (shared.filter (last < ·)).card < d →
      ∃ L, dfs ops g alpha order d S (orderedProb ops g S) shared = .ok L ∧ DfsSpec ops g alpha S L := by
  intro d
  induction d with
  | zero => intro S last shared _ _ _ h; omega
  | succ d ih =>
    intro S last shared hlast hcl hshared hcard
    have hSne : S ≠ [] := by rintro rfl; simp at hlast
    have hlastmem : last ∈ S := List.mem_of_getLast? hlast
    have hmax : ∀ s ∈ S, s ≤ last := by
      intro s hs
      obtain ⟨S', rfl⟩ := List.getLast?_eq_some_iff.mp hlast
      have := (List.pairwise_append.mp hcl.sorted).2.2
      rcases List.mem_append.mp hs with h | h
      · exact (this s h last (by simp)).le
      · simp at h; omega
    -- one iteration of the loop
    have step : ∀ u ∈ order shared, ∃ Lu,
        dfsBranch ops g alpha S last (orderedProb ops g S) (fun u p =>
          dfs ops g alpha order d (S ++ [u]) p (shared ∩ g.nbrs u)) u = .ok Lu ∧ (Lu.map Prod.fst).Nodup ∧
        ∀ T p, (T, p) ∈ Lu ↔ ∃ E, T = S ++ u :: E ∧ g.CliqueList T ∧ p = orderedProb ops g T ∧
          alpha ≤ p := by
      intro u hu
      rw [(ho _).2, hshared] at hu
      obtain ⟨hun, huadj⟩ := hu
      unfold dfsBranch
      by_cases hlt : last < u
      · rw [if_pos hlt, extendProba_spec hl hg alpha u S _ (orderedProb_valid hl hg S) huadj
          (Or.inl hSne), ← orderedProb_snoc]
        have hcl' : g.CliqueList (S ++ [u]) := by
          refine ⟨?_, ?_, ?_⟩
          · rw [List.pairwise_append]
            exact ⟨hcl.sorted, by simp, fun a ha b hb => by
              simp at hb; subst hb; exact (hmax a ha).trans_lt hlt⟩
          · intro x hx
            rcases List.mem_append.mp hx with h | h
            · exact hcl.nodes x h
            · simp at h; subst h; exact hun
          · rw [List.pairwise_append]
            exact ⟨hcl.adj, by simp, fun a ha b hb => by
              simp at hb; subst hb; exact adj_comm.mp (huadj a ha)⟩
        by_cases hal : orderedProb ops g (S ++ [u]) < alpha
        · rw [if_pos hal]
          refine ⟨[], rfl, by simp, ?_⟩
          intro T p
          simp only [List.not_mem_nil, false_iff]
          rintro ⟨E, rfl, -, rfl, hge⟩
          have h1 : (S ++ [u]).Sublist (S ++ u :: E) := by
            rw [show S ++ u :: E = (S ++ [u]) ++ E by simp]
            exact List.sublist_append_left _ _
          exact absurd (hge.trans (orderedProb_sublist hl hg h1)) (not_le.mpr hal)
        · rw [if_neg hal]
          simp only
          have hcard' : ((shared ∩ g.nbrs u).filter (u < ·)).card < d := by
            have hss : (shared ∩ g.nbrs u).filter (u < ·) ⊂ shared.filter (last < ·) := by
              rw [Finset.ssubset_iff_of_subset]
              · refine ⟨u, ?_, ?_⟩
                · rw [Finset.mem_filter, hshared]; exact ⟨⟨hun, huadj⟩, hlt⟩
                · simp
              · intro x hx
                rw [Finset.mem_filter, Finset.mem_inter] at hx
                rw [Finset.mem_filter]
                exact ⟨hx.1.1, hlt.trans hx.2⟩
            have := Finset.card_lt_card hss
            omega
          obtain ⟨L, h1, h2, h3⟩ := ih (S ++ [u]) u (shared ∩ g.nbrs u) (by simp) hcl' (by
            intro x
            rw [Finset.mem_inter, hshared, mem_nbrs]
            constructor
            · rintro ⟨⟨k1, k2⟩, k3⟩
              refine ⟨k1, fun s hs => ?_⟩
              rcases List.mem_append.mp hs with h | h
              · exact k2 s h
              · simp at h; subst h; exact adj_comm.mp k3
            · rintro ⟨k1, k2⟩
              exact ⟨⟨k1, fun s hs => k2 s (by simp [hs])⟩, adj_comm.mp (k2 u (by simp))⟩) hcard'
          refine ⟨L, h1, h2, ?_⟩
          intro T p
          rw [h3]
          constructor
          · rintro ⟨E, rfl, k1, rfl, k3⟩
            refine ⟨E, by simp, k1, rfl, ?_⟩
            rcases k3 with rfl | k3
            · simpa using not_lt.mp hal
            · exact k3
          · rintro ⟨E, rfl, k1, rfl, k3⟩
            exact ⟨E, by simp, k1, rfl, Or.inr k3⟩
      · rw [if_neg hlt]
        refine ⟨[], rfl, by simp, ?_⟩
        intro T p
        simp only [List.not_mem_nil, false_iff]
        rintro ⟨E, rfl, k1, -, -⟩
        exact hlt ((List.pairwise_append.mp k1.sorted).2.2 last hlastmem u (by simp))
    choose! F hF using step
    refine ⟨(S, orderedProb ops g S) :: ((order shared).map F).flatten, ?_, ?_, ?_⟩
    · rw [dfs, hlast]
      have hm : (order shared).mapM (dfsBranch ops g alpha S last (orderedProb ops g S) (fun u p =>
          dfs ops g alpha order d (S ++ [u]) p (shared ∩ g.nbrs u))) =
            (.ok ((order shared).map F) : Py _) := by
        rw [mapM_eq_ok_iff, List.forall₂_map_right_iff, List.forall₂_same]
        intro u hu
        exact (hF u hu).1
      simp only
      rw [hm]
      rfl
    · rw [List.map_cons, List.nodup_cons]
      constructor
      · intro h
        obtain ⟨x, hx, hxS⟩ := List.mem_map.mp h
        rw [List.mem_flatten] at hx
        obtain ⟨l, hl', hx⟩ := hx
        obtain ⟨u, hu, rfl⟩ := List.mem_map.mp hl'
        obtain ⟨E, hE, -⟩ := ((hF u hu).2.2 x.1 x.2).mp hx
        rw [hE] at hxS
        simp at hxS
      · apply flatten_map_nodup (ho _).1 (fun u hu => (hF u hu).2.1)
        intro a ha b hb hab x hx y hy hxy
        obtain ⟨E, hE, -⟩ := ((hF a ha).2.2 x.1 x.2).mp hx
        obtain ⟨E', hE', -⟩ := ((hF b hb).2.2 y.1 y.2).mp hy
        rw [hE, hE'] at hxy
        have := List.append_cancel_left hxy
        simp at this
        exact hab this.1
    · intro T p
      rw [List.mem_cons, List.mem_flatten]
      constructor
      · rintro (h | ⟨l, hl', hx⟩)
        · cases h
          exact ⟨[], by simp, hcl, rfl, Or.inl rfl⟩
        · obtain ⟨u, hu, rfl⟩ := List.mem_map.mp hl'
          obtain ⟨E, k1, k2, k3, k4⟩ := ((hF u hu).2.2 T p).mp hx
          exact ⟨u :: E, k1, k2, k3, Or.inr k4⟩
      · rintro ⟨E, rfl, k2, rfl, k4⟩
        cases E with
        | nil => left; simp
        | cons u E =>
          right
          have hu : u ∈ order shared := by
            rw [(ho _).2, hshared]
            refine ⟨k2.nodes u (by simp), fun s hs => ?_⟩
            exact adj_comm.mp ((List.pairwise_append.mp k2.adj).2.2 s hs u (by simp))
          refine ⟨F u, List.mem_map.mpr ⟨u, hu, rfl⟩, ((hF u hu).2.2 _ _).mpr ⟨E, rfl, k2, rfl, ?_⟩⟩
          rcases k4 with k4 | k4
          · cases k4
          · exact k4

theorem cliqueList_single {u : ℕ} (h : u ∈ g.nodes) : g.CliqueList [u] :=
  ⟨by simp, by simpa using h, by simp⟩

/-- The complete enumeration. -/
theorem enumerate_spec (hl : ops.Lawful Valid) (hg : g.AllWeights Valid) (hwf : g.WF) (alpha : K)
    {order : Finset ℕ → List ℕ} (ho : Traverses order) (depth : ℕ) (hd : g.nodes.length < depth) :
    ∃ L, enumerateCliques ops g alpha order depth = .ok L ∧ (L.map Prod.fst).Nodup ∧
      ∀ T p, (T, p) ∈ L ↔ T ≠ [] ∧ g.CliqueList T ∧ p = orderedProb ops g T ∧
        (T.length = 1 ∨ alpha ≤ p) := by
  obtain ⟨d, rfl⟩ : ∃ d, depth = d + 1 := ⟨depth - 1, by omega⟩
  have hone : ∀ u, orderedProb ops g [u] = ops.one := by
    intro u; simp [orderedProb, orderedProbAux, extendAll]
  have step : ∀ u ∈ g.nodes, ∃ Lu, dfs ops g alpha order d [u] ops.one (g.nbrs u) = .ok Lu ∧
      DfsSpec ops g alpha [u] Lu := by
    intro u hu
    have := dfs_spec hl hg hwf alpha ho d [u] u (g.nbrs u) (by simp) (cliqueList_single hu) (by
      intro x
      rw [mem_nbrs]
      constructor
      · intro h
        exact ⟨(adj_nodes hwf h).2, by simpa using adj_comm.mp h⟩
      · rintro ⟨-, h⟩
        exact adj_comm.mp (h u (by simp))) (by
      have h1 : (g.nbrs u).filter (u < ·) ⊂ g.nodes.toFinset := by
        rw [Finset.ssubset_iff_of_subset]
        · exact ⟨u, by simpa using hu, by simp⟩
        · intro x hx
          rw [Finset.mem_filter, mem_nbrs] at hx
          simpa using (adj_nodes hwf hx.1).2
      have h2 := Finset.card_lt_card h1
      rw [List.toFinset_card_of_nodup hwf.nodup] at h2
      omega)
    rwa [hone] at this
  choose! F hF using step
  refine ⟨(g.nodes.map F).flatten, ?_, ?_, ?_⟩
  · unfold enumerateCliques
    rw [dfs]
    have hm : (g.nodes.mapM fun u => dfs ops g alpha order d [u] ops.one (g.nbrs u)) =
        .ok (g.nodes.map F) := by
      rw [mapM_eq_ok_iff, List.forall₂_map_right_iff, List.forall₂_same]
      intro u hu
      exact (hF u hu).1
    simp only [List.getLast?_nil]
    rw [hm]
    rfl
  · apply flatten_map_nodup hwf.nodup (fun u hu => (hF u hu).2.1)
    intro a ha b hb hab x hx y hy hxy
    obtain ⟨E, hE, -⟩ := ((hF a ha).2.2 x.1 x.2).mp hx
    obtain ⟨E', hE', -⟩ := ((hF b hb).2.2 y.1 y.2).mp hy
    rw [hE, hE'] at hxy
    simp at hxy
    exact hab hxy.1
  · intro T p
    rw [List.mem_flatten]
    constructor
    · rintro ⟨l, hl', hx⟩
      obtain ⟨u, hu, rfl⟩ := List.mem_map.mp hl'
      obtain ⟨E, rfl, k2, k3, k4⟩ := ((hF u hu).2.2 T p).mp hx
      refine ⟨by simp, k2, k3, ?_⟩
      rcases k4 with rfl | k4
      · left; simp
      · exact Or.inr k4
    · rintro ⟨hne, k2, k3, k4⟩
      cases T with
      | nil => exact absurd rfl hne
      | cons u E =>
        have hu : u ∈ g.nodes := k2.nodes u (by simp)
        refine ⟨F u, List.mem_map.mpr ⟨u, hu, rfl⟩, ((hF u hu).2.2 _ _).mpr ⟨E, rfl, k2, k3, ?_⟩⟩
        rcases k4 with k4 | k4
        · left; simpa using k4
        · exact Or.inr k4

/-! ### The compiled back end -/

theorem extendProbaV2_eq (alpha : K) (u : ℕ) : ∀ (S : List ℕ) (p : K), (∀ v ∈ S, g.Adj u v) →
    extendProba ops g alpha u S p = .ok (extendProbaV2 ops g alpha u S p)
  | [], p, _ => rfl
  | v :: vs, p, h => by
    obtain ⟨w, hw⟩ := h v (by simp)
    rw [extendProba, extendProbaV2, hw]
    simp only [Option.getD_some]
    split
    · rfl
    · exact extendProbaV2_eq alpha u vs _ fun x hx => h x (by simp [hx])

theorem mapM_congr_mem {α β : Type} {l : List α} {f f' : α → Py β} (h : ∀ a ∈ l, f a = f' a) :
    l.mapM f = l.mapM f' := by
  induction l with
  | nil => rfl
  | cons a l ih =>
    rw [List.mapM_cons, List.mapM_cons, h a (by simp), ih fun b hb => h b (by simp [hb])]

theorem dfsV2_eq (n : ℕ) (alpha : K) {order : Finset ℕ → List ℕ} (ho : Traverses order) :
    ∀ (d : ℕ) (S : List ℕ) (p : K) (shared : Finset ℕ), S ≠ [] →
      (∀ x ∈ shared, ∀ s ∈ S, g.Adj x s) →
      dfsV2 ops g n alpha order d S p shared = dfs ops g alpha order d S p shared := by
  intro d
  induction d with
  | zero => intro S p shared _ _; rfl
  | succ d ih =>
    intro S p shared hne hadj
    rw [dfsV2, dfs]
    rcases hlast : S.getLast? with _ | last
    · rw [List.getLast?_eq_none_iff] at hlast
      exact absurd hlast hne
    · simp only
      congr 1
      apply mapM_congr_mem
      intro u hu
      rw [(ho _).2] at hu
      unfold dfsBranch dfsBranchV2
      split
      · rw [extendProbaV2_eq alpha u S p (hadj u hu)]
        rcases extendProbaV2 ops g alpha u S p with _ | q
        · rfl
        · simp only
          apply ih _ _ _ (by simp)
          intro x hx s hs
          rw [Finset.mem_inter, mem_nbrs] at hx
          rcases List.mem_append.mp hs with h | h
          · exact hadj x hx.1 s h
          · simp at h; subst h; exact adj_comm.mp hx.2
      · rfl

theorem dfsV2_top {n : ℕ} (hn : g.nodes = List.range n) (alpha : K)
    {order : Finset ℕ → List ℕ} (ho : Traverses order) (depth : ℕ) :
    (do let l ← dfsV2 ops g n alpha order depth [] ops.one ∅
        return l.tail) = enumerateCliques ops g alpha order depth := by
  unfold enumerateCliques
  cases depth with
  | zero => rfl
  | succ d =>
    have : dfsV2 ops g n alpha order (d + 1) [] ops.one ∅ =
        dfs ops g alpha order (d + 1) [] ops.one g.nodes.toFinset := by
      rw [dfsV2, dfs, hn]
      simp only [List.getLast?_nil]
      congr 1
      apply mapM_congr_mem
      intro u _
      apply dfsV2_eq n alpha ho d [u] ops.one (g.nbrs u) (by simp)
      intro x hx s hs
      simp at hs
      subst hs
      exact adj_comm.mp (mem_nbrs.mp hx)
    rw [this]

/-- The compiled back end is the Python one on the wrapped graph. -/
theorem enumerateV2_wrap {K₀ : Type} (cast : K₀ → K) {g₀ : UGraph K₀} {w : UGraph K}
    (hw : wrapGraph cast g₀ = .ok w) (alpha : K₀) {order : Finset ℕ → List ℕ} (ho : Traverses order)
    (depth : ℕ) :
    enumerateCliquesV2 cast ops g₀ alpha order depth = enumerateCliques ops w (cast alpha) order depth := by
  have hn : w.nodes = List.range w.nodes.length := by
    unfold wrapGraph at hw
    split at hw
    · cases hw
    · cases hw; simp
  unfold enumerateCliquesV2
  rw [hw]
  exact dfsV2_top hn (cast alpha) ho depth

theorem idxOf_range {n i : ℕ} (h : i < n) : (List.range n).idxOf i = i := by
  have := List.Nodup.idxOf_getElem (List.nodup_range (n := n)) i (by simpa using h)
  simpa using this

theorem wrapGraph_range (hwf : g.WF) {n : ℕ} (hn : g.nodes = List.range n) (hpos : 0 < n) :
    wrapGraph id g = .ok g := by
  unfold wrapGraph
  have hne : g.nodes ≠ [] := by
    intro h
    rw [hn, List.range_eq_nil] at h
    omega
  rw [if_neg hne, hn, List.length_range]
  congr 1
  have : g.edges.map (fun e => (((List.range n).idxOf e.1.1, (List.range n).idxOf e.1.2), id e.2)) =
      g.edges := by
    conv_rhs => rw [← List.map_id g.edges]
    apply List.map_congr_left
    intro e he
    obtain ⟨h1, h2⟩ := hwf.ends e he
    rw [hn, List.mem_range] at h1 h2
    simp [idxOf_range h1, idxOf_range h2]
  rw [this, ← hn]

theorem enumerateV2_eq (hwf : g.WF) {n : ℕ} (hn : g.nodes = List.range n) (hpos : 0 < n) (alpha : K)
    {order : Finset ℕ → List ℕ} (ho : Traverses order) (depth : ℕ) :
    enumerateCliquesV2 id ops g alpha order depth = enumerateCliques ops g alpha order depth :=
  enumerateV2_wrap id (wrapGraph_range hwf hn hpos) alpha ho depth

/-! ### Pruning -/

theorem prune_weight (hwf : g.WF) (m : K) (u v : ℕ) :
    (pruneEdges g m).weight u v = (g.weight u v).filter fun w => decide (m ≤ w) := by
  unfold UGraph.weight pruneEdges
  simp only
  rcases hf : g.edges.find? (joins u v) with _ | e
  · have : (g.edges.filter fun e => decide (m ≤ e.2)).find? (joins u v) = none := by
      rw [List.find?_eq_none] at hf ⊢
      intro x hx
      exact hf x (List.mem_of_mem_filter hx)
    rw [this]; rfl
  · have he := List.mem_of_find?_eq_some hf
    have hj := List.find?_some hf
    -- every edge between u and v carries the same value
    have hsame : ∀ x ∈ g.edges, joins u v x = true → x.2 = e.2 := by
      intro x hx hxj
      have hsx := hwf.simple x hx
      have hwuv : g.weight u v = some e.2 := by unfold UGraph.weight; rw [hf]; rfl
      simp only [joins, Bool.or_eq_true, beq_iff_eq] at hxj
      rcases hxj with h | h
      · rw [h] at hsx; simp only at hsx; rw [hwuv] at hsx; exact (Option.some.inj hsx).symm
      · rw [h] at hsx; simp only at hsx; rw [weight_comm, hwuv] at hsx; exact (Option.some.inj hsx).symm
    by_cases hm : m ≤ e.2
    · rcases hf' : (g.edges.filter fun e => decide (m ≤ e.2)).find? (joins u v) with _ | x
      · rw [List.find?_eq_none] at hf'
        exact absurd hj (hf' e (List.mem_filter.mpr ⟨he, by simpa using hm⟩))
      · have hx := List.mem_of_mem_filter (List.mem_of_find?_eq_some hf')
        rw [hf', Option.map_some, hsame x hx (List.find?_some hf')]
        simp [Option.filter, hm]
    · have : (g.edges.filter fun e => decide (m ≤ e.2)).find? (joins u v) = none := by
        rw [List.find?_eq_none]
        intro x hx hxj
        have h2 := (List.mem_filter.mp hx).2
        rw [hsame x (List.mem_of_mem_filter hx) hxj] at h2
        exact hm (by simpa using h2)
      rw [this]
      simp [Option.filter, hm]

theorem prune_wf (hwf : g.WF) (m : K) : (pruneEdges g m).WF := by
  refine ⟨hwf.nodup, fun e he => hwf.ends e (List.mem_of_mem_filter he), ?_⟩
  intro e he
  rw [prune_weight hwf, hwf.simple e (List.mem_of_mem_filter he)]
  have := (List.mem_filter.mp he).2
  simp only [Option.filter, this, if_true]

theorem prune_valid (hg : g.AllWeights Valid) (m : K) : (pruneEdges g m).AllWeights Valid :=
  fun e he => hg e (List.mem_of_mem_filter he)

theorem extendAll_congr {g' : UGraph K} {u : ℕ} : ∀ {vs : List ℕ} {p : K},
    (∀ v ∈ vs, g.weight u v = g'.weight u v) → extendAll ops g u vs p = extendAll ops g' u vs p
  | [], _, _ => rfl
  | v :: vs, p, h => by
    have := extendAll_congr (g' := g') (u := u) (vs := vs)
      (p := ops.mul p ((g.weight u v).getD ops.one)) fun x hx => h x (by simp [hx])
    rw [show extendAll ops g u (v :: vs) p =
      extendAll ops g u vs (ops.mul p ((g.weight u v).getD ops.one)) from rfl, this, h v (by simp)]
    rfl

theorem orderedProbAux_congr {g' : UGraph K} : ∀ (us pre : List ℕ) (p : K),
    (pre ++ us).Pairwise (fun a b => g.weight b a = g'.weight b a) →
    orderedProbAux ops g pre us p = orderedProbAux ops g' pre us p
  | [], _, _, _ => rfl
  | u :: us, pre, p, h => by
    rw [orderedProbAux, orderedProbAux, extendAll_congr (g' := g')]
    · exact orderedProbAux_congr us _ _ (by simpa using h)
    · intro v hv
      exact (List.pairwise_append.mp h).2.2 v hv u (by simp)

theorem orderedProb_congr {g' : UGraph K} {T : List ℕ}
    (h : T.Pairwise fun a b => g.weight b a = g'.weight b a) :
    orderedProb ops g T = orderedProb ops g' T :=
  orderedProbAux_congr T [] ops.one (by simpa using h)

/-- Pruning at the threshold keeps exactly the probable cliques. -/
theorem prune_same (hl : ops.Lawful Valid) (hg : g.AllWeights Valid) (hwf : g.WF) (alpha : K)
    (T : List ℕ) (p : K) :
    (T ≠ [] ∧ (pruneEdges g alpha).CliqueList T ∧ p = orderedProb ops (pruneEdges g alpha) T ∧
      (T.length = 1 ∨ alpha ≤ p)) ↔
    (T ≠ [] ∧ g.CliqueList T ∧ p = orderedProb ops g T ∧ (T.length = 1 ∨ alpha ≤ p)) := by
  have hkeep : ∀ u v, (pruneEdges g alpha).Adj u v → (pruneEdges g alpha).weight u v = g.weight u v := by
    rintro u v ⟨w, hw⟩
    rw [prune_weight hwf] at hw ⊢
    rcases h : g.weight u v with _ | x
    · rfl
    · rw [h] at hw
      simp only [Option.filter] at hw ⊢
      split at hw
      · rename_i h1; simp [h1]
      · cases hw
  constructor
  · rintro ⟨h1, h2, h3, h4⟩
    have heq : T.Pairwise fun a b => (pruneEdges g alpha).weight b a = g.weight b a :=
      h2.adj.imp fun h => hkeep _ _ (adj_comm.mp h)
    refine ⟨h1, ⟨h2.sorted, h2.nodes, ?_⟩, ?_, h4⟩
    · apply h2.adj.imp
      intro a b hab
      obtain ⟨w, hw⟩ := hab
      exact ⟨w, by rw [← hkeep a b ⟨w, hw⟩]; exact hw⟩
    · rw [h3]; exact orderedProb_congr heq
  · rintro ⟨h1, h2, h3, h4⟩
    have hadj : T.Pairwise fun a b => (pruneEdges g alpha).Adj a b := by
      rcases h4 with h4 | h4
      · obtain ⟨x, rfl⟩ := List.length_eq_one_iff.mp h4
        simp
      · rw [List.pairwise_iff_forall_sublist]
        intro a b hab
        have hwab := List.pairwise_iff_forall_sublist.mp h2.adj hab
        obtain ⟨w, hw⟩ := adj_comm.mp hwab
        have hle : alpha ≤ w := by
          rw [h3] at h4
          exact h4.trans (orderedProb_le_edge hl hg hab hw)
        apply adj_comm.mp
        exact ⟨w, by rw [prune_weight hwf, hw]; simp [Option.filter, hle]⟩
    have heq : T.Pairwise fun a b => (pruneEdges g alpha).weight b a = g.weight b a :=
      hadj.imp fun h => hkeep _ _ (adj_comm.mp h)
    exact ⟨h1, ⟨h2.sorted, h2.nodes, hadj⟩, by rw [h3]; exact (orderedProb_congr heq).symm, h4⟩

end Prob

/-! ### Exact arithmetic -/

theorem ratOps_lawful : ratOps.Lawful fun p : ℚ => 0 ≤ p ∧ p ≤ 1 where
  one := by simp [ratOps]
  mul p w hp hw := ⟨mul_nonneg hp.1 hw.1, by
    calc p * w ≤ 1 * 1 := mul_le_mul hp.2 hw.2 hw.1 (by norm_num)
      _ = 1 := by norm_num⟩
  le_left p w hp hw := mul_le_of_le_one_right hp.1 hw.2
  le_right p w hp hw := mul_le_of_le_one_left hw.1 hp.2
  mono p q w hp hq hw h := mul_le_mul_of_nonneg_right h hw.1

theorem extendAll_rat (g : UGraph ℚ) (u : ℕ) : ∀ (vs : List ℕ) (p : ℚ),
    extendAll ratOps g u vs p = p * (vs.map fun v => (g.weight u v).getD 1).prod
  | [], p => by simp [extendAll]
  | v :: vs, p => by
    have := extendAll_rat g u vs (ratOps.mul p ((g.weight u v).getD ratOps.one))
    rw [show extendAll ratOps g u (v :: vs) p =
      extendAll ratOps g u vs (ratOps.mul p ((g.weight u v).getD ratOps.one)) from rfl, this]
    simp [ratOps, mul_assoc]

theorem cliqueProb_insert (g : UGraph ℚ) {T : Finset ℕ} {u : ℕ} (h : ∀ x ∈ T, x < u) :
    g.cliqueProb (insert u T) = g.cliqueProb T * ∏ v ∈ T, (g.weight u v).getD 1 := by
  have hu : u ∉ T := fun hu => absurd (h u hu) (lt_irrefl u)
  unfold UGraph.cliqueProb
  rw [Finset.prod_insert hu, mul_comm]
  congr 1
  · apply Finset.prod_congr rfl
    intro x hx
    have : (insert u T).filter (· < x) = T.filter (· < x) := by
      rw [Finset.filter_insert, if_neg (not_lt.mpr (h x hx).le)]
    rw [this]
  · have : (insert u T).filter (· < u) = T := by
      rw [Finset.filter_insert, if_neg (lt_irrefl u)]
      exact Finset.filter_true_of_mem h
    rw [this]

theorem orderedProb_rat (g : UGraph ℚ) {T : List ℕ} (h : T.Pairwise (· < ·)) :
    orderedProb ratOps g T = g.cliqueProb T.toFinset := by
  induction T using List.reverseRecOn with
  | nil => simp [orderedProb, orderedProbAux, ratOps, UGraph.cliqueProb]
  | append_singleton T u ih =>
    rw [List.pairwise_append] at h
    have hnd : T.Nodup := h.1.imp ne_of_lt
    have hlt : ∀ x ∈ T.toFinset, x < u := by
      intro x hx
      exact h.2.2 x (List.mem_toFinset.mp hx) u (by simp)
    rw [orderedProb_snoc, extendAll_rat, ih h.1]
    have : (T ++ [u]).toFinset = insert u T.toFinset := by
      ext x; simp [or_comm]
    rw [this, cliqueProb_insert g hlt]
    congr 1
    rw [List.prod_toFinset _ hnd]

end Verif
