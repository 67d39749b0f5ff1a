/-
C104: the law of `sample_clique`.
-/
import Verif.Spec.SampleClique
import Verif.Props.Graph
import Mathlib.Algebra.BigOperators.Ring.Finset
import Mathlib.Tactic.Ring

namespace Verif

theorem mem_orders {A : Finset ℕ} {m : List ℕ} : m ∈ orders A ↔ m.Nodup ∧ m.toFinset = A := by
  rw [orders, List.mem_toFinset, List.mem_permutations]
  constructor
  · intro h
    refine ⟨h.nodup_iff.mpr (Finset.sort_nodup _ _), ?_⟩
    ext x
    rw [List.mem_toFinset, h.mem_iff, Finset.mem_sort]
  · rintro ⟨h1, rfl⟩
    rw [List.perm_ext_iff_of_nodup h1 (Finset.sort_nodup _ _)]
    intro x
    rw [Finset.mem_sort, List.mem_toFinset]

theorem sum_orders_empty (F : List ℕ → ℚ) : ∑ m ∈ orders ∅, F m = F [] := by
  rw [Finset.sum_eq_single []]
  · intro m hm hne
    rw [mem_orders, List.toFinset_eq_empty_iff] at hm
    exact absurd hm.2 hne
  · intro h
    exact absurd (mem_orders.mpr ⟨List.nodup_nil, rfl⟩) h

theorem sum_orders {A : Finset ℕ} (hA : A ≠ ∅) (F : List ℕ → ℚ) :
    ∑ m ∈ orders A, F m = ∑ v ∈ A, ∑ m ∈ orders (A.erase v), F (v :: m) := by
  rw [Finset.sum_sigma']
  symm
  refine Finset.sum_bij (fun x _ => x.1 :: x.2) ?_ ?_ ?_ ?_
  · rintro ⟨v, m⟩ h
    simp only [Finset.mem_sigma, mem_orders] at h ⊢
    obtain ⟨hv, hn, hm⟩ := h
    refine ⟨List.nodup_cons.mpr ⟨?_, hn⟩, ?_⟩
    · intro hvm
      have : v ∈ A.erase v := hm ▸ List.mem_toFinset.mpr hvm
      simp at this
    · rw [List.toFinset_cons, hm, Finset.insert_erase hv]
  · rintro ⟨v, m⟩ _ ⟨v', m'⟩ _ h
    simp only [List.cons.injEq] at h
    obtain ⟨rfl, rfl⟩ := h
    rfl
  · intro l hl
    rw [mem_orders] at hl
    cases l with
    | nil => exact absurd hl.2.symm (by simpa using hA)
    | cons v m =>
      obtain ⟨hn, hm⟩ := hl
      rw [List.nodup_cons] at hn
      refine ⟨⟨v, m⟩, ?_, rfl⟩
      rw [Finset.mem_sigma, mem_orders, ← hm]
      refine ⟨by simp, hn.2, ?_⟩
      rw [List.toFinset_cons, Finset.erase_insert (by simpa using hn.1)]
  · rintro ⟨v, m⟩ _
    rfl

namespace Rand

/-- The law of the kept candidates. -/
theorem expect_drawCandidates (wt : ℕ → ℚ) : ∀ (es : List (ℕ × ℚ)), (es.map Prod.fst).Nodup →
    (∀ e ∈ es, e.2 = wt e.1 ∧ 0 ≤ e.2 ∧ e.2 ≤ 1) → ∀ f : Py (List (ℕ × ℚ)) → ℚ,
    (drawCandidates es).expect f = ∑ O ∈ (es.map Prod.fst).toFinset.powerset,
      (∏ x ∈ O, wt x) * (∏ x ∈ (es.map Prod.fst).toFinset \ O, (1 - wt x)) *
        f (.ok (es.filter fun e => e.1 ∈ O))
  | [], _, _, f => by
    simp [drawCandidates, expect]
  | e :: es, hnd, hes, f => by
    rw [List.map_cons, List.nodup_cons] at hnd
    obtain ⟨he, h0, h1⟩ := hes e List.mem_cons_self
    have hb : (drawCandidates (e :: es)).expect f =
        (bernoulli e.2).expect (cont f (fun b => (drawCandidates es).bind fun rest =>
          pure (if b then e :: rest else rest))) := by
      rw [← expect_bind]; rfl
    have ih := fun f => expect_drawCandidates wt es hnd.2 (fun x hx => hes x (List.mem_cons_of_mem _ hx)) f
    have hnot : e.1 ∉ (es.map Prod.fst).toFinset := by simpa using hnd.1
    rw [hb, expect_bernoulli h0 h1]
    simp only [cont, expect_bind, ih]
    rw [List.map_cons, List.toFinset_cons, Finset.sum_powerset_insert hnot, add_comm, Finset.mul_sum, Finset.mul_sum]
    congr 1
    · apply Finset.sum_congr rfl
      intro O hO
      have hO := Finset.mem_powerset.mp hO
      have heO : e.1 ∉ O := fun h => hnot (hO h)
      have hfil : ((e :: es).filter fun x => decide (x.1 ∈ O)) = es.filter fun x => decide (x.1 ∈ O) := by
        rw [List.filter_cons, if_neg (by simpa using heO)]
      rw [Finset.insert_sdiff_of_notMem _ heO, Finset.prod_insert (by simp [hnot]), hfil, he]
      simp only [pure, expect, if_neg Bool.false_ne_true]
      ring
    · apply Finset.sum_congr rfl
      intro O hO
      have hO := Finset.mem_powerset.mp hO
      have heO : e.1 ∉ O := fun h => hnot (hO h)
      have hsd : insert e.1 (es.map Prod.fst).toFinset \ insert e.1 O = (es.map Prod.fst).toFinset \ O := by
        rw [Finset.insert_sdiff_insert, Finset.sdiff_insert_of_notMem hnot]
      have hfil : ((e :: es).filter fun x => decide (x.1 ∈ insert e.1 O)) = e :: es.filter fun x => decide (x.1 ∈ O) := by
        rw [List.filter_cons, if_pos (by simp)]
        congr 1
        apply List.filter_congr
        intro x hx
        have : x.1 ≠ e.1 := by
          rintro h
          exact hnd.1 (h ▸ List.mem_map_of_mem hx)
        simp [this]
      rw [hsd, Finset.prod_insert heO, hfil, he]
      simp only [pure, expect, if_true]
      ring

end Rand

/-- The value drawn from the kept candidates. -/
theorem expect_pick (wt : ℕ → ℚ) {cand : List (ℕ × ℚ)} (hnd : (cand.map Prod.fst).Nodup)
    (hc : ∀ e ∈ cand, e.2 = wt e.1 ∧ 0 < e.2) (hne : cand ≠ []) (G : ℕ → ℚ) (f : Py ℕ → ℚ)
    (hf : ∀ i, f (.ok i) = G (cand.getD i (0, 0)).1) :
    (npChoice ((cand.map Prod.snd).map fun p => p / (cand.map Prod.snd).sum)).expect f =
      ∑ v ∈ (cand.map Prod.fst).toFinset, wt v / (∑ x ∈ (cand.map Prod.fst).toFinset, wt x) * G v := by
  have hsum : (cand.map Prod.snd).sum = ∑ x ∈ (cand.map Prod.fst).toFinset, wt x := by
    rw [List.sum_toFinset _ hnd, List.map_map]
    congr 1
    apply List.map_congr_left
    intro e he
    exact (hc e he).1
  have hpos : 0 < (cand.map Prod.snd).sum := by
    apply List.sum_pos
    · intro x hx
      obtain ⟨e, he, rfl⟩ := List.mem_map.mp hx
      exact (hc e he).2
    · simpa using hne
  have hnn : ∀ q ∈ cand.map Prod.snd, 0 ≤ q := by
    intro x hx
    obtain ⟨e, he, rfl⟩ := List.mem_map.mp hx
    exact (hc e he).2.le
  rw [expect_normalised hnn hpos, List.length_map]
  have e1 : ∑ i ∈ Finset.range cand.length, (cand.map Prod.snd).getD i 0 * f (.ok i) =
      (cand.map fun e => e.2 * G e.1).sum := by
    rw [Finset.sum_range, ← List.sum_ofFn]
    congr 1
    apply List.ext_getElem
    · simp
    · intro i h1 h2
      have hi : i < cand.length := by simpa using h1
      rw [List.getElem_ofFn, List.getElem_map, hf, getD_lt (by simpa using hi), getD_lt hi, List.getElem_map]
  have e2 : ∑ v ∈ (cand.map Prod.fst).toFinset, wt v * G v = (cand.map fun e => e.2 * G e.1).sum := by
    rw [List.sum_toFinset _ hnd, List.map_map]
    congr 1
    apply List.map_congr_left
    intro e he
    rw [(hc e he).1]; rfl
  rw [e1, ← e2, ← hsum, Finset.sum_div]
  apply Finset.sum_congr rfl
  intro v _
  ring

namespace DiG

variable {g : DiG}

theorem lookup_of_mem {α β : Type} [BEq α] [LawfulBEq α] {a : α} {b : β} : ∀ {l : List (α × β)}, (l.map Prod.fst).Nodup →
    (a, b) ∈ l → l.lookup a = some b
  | [], _, h => by cases h
  | (x, y) :: l, hnd, h => by
    rw [List.map_cons, List.nodup_cons] at hnd
    rcases List.mem_cons.mp h with h' | h'
    · cases h'; simp [List.lookup]
    · have : a ≠ x := by
        rintro rfl
        exact hnd.1 (List.mem_map.mpr ⟨_, h', rfl⟩)
      rw [List.lookup_cons, show (a == x) = false by simpa using this]
      exact lookup_of_mem hnd.2 h'

theorem mem_of_lookup {α β : Type} [BEq α] [LawfulBEq α] {a : α} {b : β} : ∀ {l : List (α × β)}, l.lookup a = some b → (a, b) ∈ l
  | [], h => by cases h
  | (x, y) :: l, h => by
    rw [List.lookup_cons] at h
    by_cases hx : a = x
    · subst hx
      simp at h
      subst h
      exact List.mem_cons_self
    · rw [show (a == x) = false by simpa using hx] at h
      exact List.mem_cons_of_mem _ (mem_of_lookup h)

theorem mem_outEdges (hg : g.Weighted) {u : ℕ} {e : ℕ × ℚ} : e ∈ g.outEdges u ↔ g.weight u e.1 = some e.2 := by
  rw [outEdges, List.mem_map]
  constructor
  · rintro ⟨⟨⟨a, b⟩, p⟩, h, rfl⟩
    rw [List.mem_filter] at h
    obtain ⟨h1, h2⟩ := h
    have h2 : a = u := by simpa using h2
    subst h2
    exact lookup_of_mem hg.once h1
  · intro h
    exact ⟨((u, e.1), e.2), List.mem_filter.mpr ⟨mem_of_lookup h, by simp⟩, rfl⟩

theorem outEdges_keys (hg : g.Weighted) (u : ℕ) : ((g.outEdges u).map Prod.fst).Nodup := by
  have h := hg.once
  rw [outEdges, List.map_map]
  have h2 : ((g.edges.filter fun e => decide (e.1.1 = u)).map Prod.fst).Nodup :=
    h.sublist (List.filter_sublist.map _)
  refine List.Nodup.of_map (fun v => (u, v)) ?_
  rw [List.map_map]
  convert h2 using 1
  apply List.map_congr_left
  rintro ⟨⟨a, b⟩, p⟩ he
  have : a = u := by simpa using (List.mem_filter.mp he).2
  simp [this]

theorem outEdges_toFinset (hg : g.Weighted) (u : ℕ) : ((g.outEdges u).map Prod.fst).toFinset = g.out u := by
  ext v
  rw [List.mem_toFinset, List.mem_map, out, Finset.mem_filter, List.mem_toFinset]
  constructor
  · rintro ⟨e, he, rfl⟩
    have := (mem_outEdges hg).mp he
    have h2 : g.hasEdge u e.1 = true := by rw [hasEdge, this]; rfl
    exact ⟨(hg.ends _ _ h2).2, h2⟩
  · rintro ⟨-, h⟩
    rw [hasEdge, Option.isSome_iff_exists] at h
    obtain ⟨p, hp⟩ := h
    exact ⟨(v, p), (mem_outEdges hg).mpr hp, rfl⟩

theorem outEdges_pr (hg : g.Weighted) {u : ℕ} {e : ℕ × ℚ} (he : e ∈ g.outEdges u) :
    e.2 = g.pr u e.1 ∧ 0 ≤ e.2 ∧ e.2 ≤ 1 := by
  have := (mem_outEdges hg).mp he
  exact ⟨by rw [pr, this]; rfl, hg.range _ _ _ this⟩

theorem pr_nonneg (hg : g.Weighted) (u v : ℕ) : 0 ≤ g.pr u v := by
  rw [pr]
  cases h : g.weight u v with
  | none => simp
  | some p => exact (hg.range _ _ _ h).1

/-- A kept set that is possible has positive probabilities only. -/
theorem pr_pos_of_keep (hg : g.Weighted) {u : ℕ} {O : Finset ℕ} (h : g.keepProb u O ≠ 0) {v : ℕ} (hv : v ∈ O) :
    0 < g.pr u v := by
  refine lt_of_le_of_ne (pr_nonneg hg u v) (fun h0 => h ?_)
  rw [keepProb, Finset.prod_eq_zero hv h0.symm, zero_mul]

theorem sum_keepProb (g : DiG) (u : ℕ) : ∑ O ∈ (g.out u).powerset, g.keepProb u O = 1 := by
  have := Finset.prod_add (fun x => g.pr u x) (fun x => 1 - g.pr u x) (g.out u)
  simp only [add_sub_cancel, Finset.prod_const_one] at this
  exact this.symm

theorem sum_step (g : DiG) (u : ℕ) (G : ℕ → ℚ) : ∑ v ∈ g.out u, g.stepProb u v * G v =
    ∑ O ∈ (g.out u).powerset, g.keepProb u O * ∑ v ∈ O, g.pr u v / (∑ x ∈ O, g.pr u x) * G v := by
  have h1 : ∀ v, g.stepProb u v * G v = ∑ O ∈ (g.out u).powerset, if v ∈ O then
      g.keepProb u O * (g.pr u v / (∑ x ∈ O, g.pr u x) * G v) else 0 := by
    intro v
    rw [stepProb, Finset.sum_mul, Finset.sum_filter]
    apply Finset.sum_congr rfl
    intro O _
    split
    · ring
    · rfl
  simp only [h1]
  rw [Finset.sum_comm]
  apply Finset.sum_congr rfl
  intro O hO
  rw [Finset.mul_sum, ← Finset.sum_filter]
  congr 1
  ext v
  rw [Finset.mem_filter]
  exact ⟨fun h => h.2, fun h => ⟨Finset.mem_powerset.mp hO h, h⟩⟩

theorem keepProb_empty (hg : g.Weighted) (u : ℕ) : g.keepProb u ∅ = 1 - ∑ v ∈ g.out u, g.stepProb u v := by
  have h1 := sum_step g u (fun _ => 1)
  simp only [mul_one] at h1
  rw [h1, ← sum_keepProb g u, ← Finset.sum_sub_distrib]
  rw [Finset.sum_eq_single ∅]
  · simp
  · intro O _ hO
    by_cases hk : g.keepProb u O = 0
    · rw [hk]; ring
    · have hpos : 0 < ∑ x ∈ O, g.pr u x :=
        Finset.sum_pos (fun x hx => pr_pos_of_keep hg hk hx) (Finset.nonempty_iff_ne_empty.mpr hO)
      rw [← Finset.sum_div, div_self hpos.ne']
      ring
  · intro h; simp at h

end DiG

open DiG in
/-- One iteration of the loop. -/
theorem expect_cliqueLoop {g : DiG} (hg : g.Weighted) (fuel : ℕ) (S : Finset ℕ) (u : ℕ)
    (f : Py (Option (Finset ℕ)) → ℚ) :
    (cliqueLoop g (fuel + 1) S u).expect f =
      (1 - ∑ v ∈ g.out u, g.stepProb u v) * f (.ok (some S)) +
      ∑ v ∈ g.out u, g.stepProb u v *
        (if formsClique g S v then (cliqueLoop g fuel (insert v S) v).expect f else f (.ok (some S))) := by
  obtain ⟨G, hG⟩ : ∃ G : ℕ → ℚ, G = fun v =>
    if formsClique g S v then (cliqueLoop g fuel (insert v S) v).expect f else f (.ok (some S)) := ⟨_, rfl⟩
  rw [← keepProb_empty hg]
  have hGs : ∑ v ∈ g.out u, g.stepProb u v *
      (if formsClique g S v then (cliqueLoop g fuel (insert v S) v).expect f else f (.ok (some S))) =
      ∑ v ∈ g.out u, g.stepProb u v * G v := by rw [hG]
  rw [hGs, sum_step]
  by_cases hout : g.outEdges u = []
  · have : g.out u = ∅ := by rw [← outEdges_toFinset hg, hout]; rfl
    rw [cliqueLoop, if_pos hout]
    simp [keepProb, this]
  · rw [cliqueLoop, if_neg hout]
    show ((drawCandidates (g.outEdges u)).bind _).expect f = _
    rw [Rand.expect_bind, Rand.expect_drawCandidates (g.pr u) _ (outEdges_keys hg u) (fun e he => outEdges_pr hg he),
      outEdges_toFinset hg]
    have hsplit : ∀ F H : Finset ℕ → ℚ, F ∅ = H ∅ → (∀ O ∈ (g.out u).powerset, O ≠ ∅ → F O = H O) →
        ∑ O ∈ (g.out u).powerset, F O = ∑ O ∈ (g.out u).powerset, H O := by
      intro F H h1 h2
      apply Finset.sum_congr rfl
      intro O hO
      by_cases h : O = ∅
      · rw [h, h1]
      · exact h2 O hO h
    have hone : g.keepProb u ∅ * f (.ok (some S)) = ∑ O ∈ (g.out u).powerset,
        if O = ∅ then g.keepProb u ∅ * f (.ok (some S)) else 0 := by
      rw [Finset.sum_ite_eq' _ ∅, if_pos (Finset.empty_mem_powerset _)]
    rw [hone, ← Finset.sum_add_distrib]
    refine hsplit _ _ ?_ ?_
    · simp only [Finset.sum_empty, mul_zero, add_zero, if_true]
      rw [show (g.outEdges u).filter (fun e => decide (e.1 ∈ (∅ : Finset ℕ))) = [] by simp]
      simp only [Rand.cont, if_true]
      rfl
    · intro O hO hne
      rw [if_neg hne, zero_add]
      by_cases hk : g.keepProb u O = 0
      · have hk' := hk
        rw [keepProb] at hk'
        rw [hk', hk]; ring
      · have hO := Finset.mem_powerset.mp hO
        obtain ⟨cand, hcand⟩ : ∃ cand, cand = (g.outEdges u).filter fun e => decide (e.1 ∈ O) := ⟨_, rfl⟩
        have hkeys : (cand.map Prod.fst).toFinset = O := by
          ext v
          rw [List.mem_toFinset, List.mem_map]
          constructor
          · rintro ⟨e, he, rfl⟩
            rw [hcand] at he
            simpa using (List.mem_filter.mp he).2
          · intro hv
            have := hO hv
            rw [← outEdges_toFinset hg, List.mem_toFinset, List.mem_map] at this
            obtain ⟨e, he, rfl⟩ := this
            exact ⟨e, by rw [hcand]; exact List.mem_filter.mpr ⟨he, by simpa using hv⟩, rfl⟩
        have hcne : cand ≠ [] := by
          rintro h0
          rw [h0] at hkeys
          exact hne hkeys.symm
        have hpick := expect_pick (g.pr u) (cand := cand)
          ((outEdges_keys hg u).sublist (by rw [hcand]; exact List.filter_sublist.map _))
          (by
            intro e he
            have hm : e ∈ g.outEdges u ∧ e.1 ∈ O := by
              rw [hcand] at he
              simpa using List.mem_filter.mp he
            have h1 := outEdges_pr hg hm.1
            exact ⟨h1.1, by rw [h1.1]; exact pr_pos_of_keep hg hk hm.2⟩) hcne G
          (Rand.cont f fun i => if formsClique g S (cand.getD i (0, 0)).1 then
            cliqueLoop g fuel (insert (cand.getD i (0, 0)).1 S) (cand.getD i (0, 0)).1 else pure (some S))
          (by
            intro i
            rw [hG]
            simp only [Rand.cont]
            split
            · rfl
            · rfl)
        rw [hkeys] at hpick
        rw [← hpick, ← hcand]
        simp only [Rand.cont, if_neg hcne]
        rw [← keepProb]
        congr 1
        rw [← Rand.expect_bind]
        rfl

/-- The loop once the nodes of `l` have been added in this order. -/
theorem cliqueLoop_law {g : DiG} (hg : g.Weighted) (T : Finset ℕ) : ∀ (fuel : ℕ) (l : List ℕ), l ≠ [] → l.Nodup →
    (∀ x ∈ l, x ∈ g.nodes) → l.Pairwise (fun a b => g.hasEdge a b = true) → g.nodes.toFinset.card < fuel + l.length →
    (cliqueLoop g fuel l.toFinset (l.getLastD 0)).expect (fun x => if x = .ok (some T) then (1 : ℚ) else 0) =
      if l.toFinset ⊆ T then ∑ m ∈ orders (T \ l.toFinset),
        if (l ++ m).Pairwise (fun a b => g.hasEdge a b = true) then
          (((l.getLastD 0 :: m).zip m).map fun e => g.stepProb e.1 e.2).prod *
            (1 - ∑ v ∈ g.next (l ++ m), g.stepProb ((l ++ m).getLastD 0) v)
        else 0
      else 0
  | 0, l, _, hnd, hnodes, _, hf => by
    exfalso
    have h1 : l.toFinset.card = l.length := List.toFinset_card_of_nodup hnd
    have h2 : l.toFinset ⊆ g.nodes.toFinset := fun x hx => List.mem_toFinset.mpr (hnodes x (List.mem_toFinset.mp hx))
    have := Finset.card_le_card h2
    omega
  | fuel + 1, l, hne, hnd, hnodes, hpw, hf => by
    obtain ⟨u, hu⟩ : ∃ u, u = l.getLastD 0 := ⟨_, rfl⟩
    have hul : u ∈ l := by
      rw [hu, List.getLastD_eq_getLast?, List.getLast?_eq_getLast_of_ne_nil hne]
      exact List.getLast_mem hne
    rw [← hu, expect_cliqueLoop hg]
    have hforms : ∀ v, formsClique g l.toFinset v = true ↔ ∀ s ∈ l, g.hasEdge s v = true := by
      intro v
      rw [formsClique, decide_eq_true_eq]
      simp only [List.mem_toFinset]
    have hnext : g.next l = (g.out u).filter fun v => ∀ s ∈ l, g.hasEdge s v = true := by rw [DiG.next, ← hu]
    -- the part of the loop that stops, collected
    obtain ⟨I, hI⟩ : ∃ I : ℚ, I = if (.ok (some l.toFinset) : Py (Option (Finset ℕ))) = .ok (some T) then 1 else 0 := ⟨_, rfl⟩
    have hIT : I = if l.toFinset = T then 1 else 0 := by rw [hI]; simp
    have hstep : (1 - ∑ v ∈ g.out u, g.stepProb u v) * I + ∑ v ∈ g.out u, g.stepProb u v *
          (if formsClique g l.toFinset v then (cliqueLoop g fuel (insert v l.toFinset) v).expect
            (fun x => if x = .ok (some T) then (1 : ℚ) else 0) else I) =
        (1 - ∑ v ∈ g.next l, g.stepProb u v) * I + ∑ v ∈ g.next l, g.stepProb u v *
          (cliqueLoop g fuel (insert v l.toFinset) v).expect (fun x => if x = .ok (some T) then (1 : ℚ) else 0) := by
      rw [hnext, Finset.sum_filter, Finset.sum_filter]
      have : ∀ v ∈ g.out u, g.stepProb u v *
          (if formsClique g l.toFinset v then (cliqueLoop g fuel (insert v l.toFinset) v).expect
            (fun x => if x = .ok (some T) then (1 : ℚ) else 0) else I) =
          (if ∀ s ∈ l, g.hasEdge s v = true then g.stepProb u v *
            (cliqueLoop g fuel (insert v l.toFinset) v).expect (fun x => if x = .ok (some T) then (1 : ℚ) else 0) else 0) +
          (g.stepProb u v - if ∀ s ∈ l, g.hasEdge s v = true then g.stepProb u v else 0) * I := by
        intro v _
        by_cases hv : ∀ s ∈ l, g.hasEdge s v = true
        · rw [if_pos ((hforms v).mpr hv), if_pos hv, if_pos hv]; ring
        · rw [if_neg (fun h => hv ((hforms v).mp h)), if_neg hv, if_neg hv]; ring
      rw [Finset.sum_congr rfl this, Finset.sum_add_distrib, ← Finset.sum_mul, Finset.sum_sub_distrib]
      ring
    rw [← hI, hstep]
    -- the recursive calls
    have hv : ∀ v ∈ g.next l, v ∉ l ∧ (∀ s ∈ l, g.hasEdge s v = true) ∧ v ∈ g.nodes := by
      intro v hv
      rw [hnext, Finset.mem_filter] at hv
      refine ⟨?_, hv.2, (hg.ends u v (hv.2 u hul)).2⟩
      intro hvl
      have := hv.2 v hvl
      rw [hg.noLoop] at this
      exact absurd this (by decide)
    have hrec : ∀ v ∈ g.next l, (cliqueLoop g fuel (insert v l.toFinset) v).expect
          (fun x => if x = .ok (some T) then (1 : ℚ) else 0) =
        if insert v l.toFinset ⊆ T then ∑ m ∈ orders (T \ insert v l.toFinset),
          if (l ++ v :: m).Pairwise (fun a b => g.hasEdge a b = true) then
            (((v :: m).zip m).map fun e => g.stepProb e.1 e.2).prod *
              (1 - ∑ w ∈ g.next (l ++ v :: m), g.stepProb ((l ++ v :: m).getLastD 0) w)
          else 0
        else 0 := by
      intro v hvn
      obtain ⟨h1, h2, h3⟩ := hv v hvn
      have ih := cliqueLoop_law hg T fuel (l ++ [v]) (by simp)
        (by rw [List.nodup_append]; exact ⟨hnd, by simp, by intro a ha b hb; rw [List.mem_singleton] at hb; rw [hb]; rintro rfl; exact h1 ha⟩)
        (by
          intro x hx
          rcases List.mem_append.mp hx with h | h
          · exact hnodes x h
          · rw [List.mem_singleton] at h; rw [h]; exact h3)
        (by
          rw [List.pairwise_append]
          refine ⟨hpw, by simp, ?_⟩
          intro a ha b hb
          rw [List.mem_singleton] at hb
          rw [hb]; exact h2 a ha)
        (by rw [List.length_append]; simp only [List.length_cons, List.length_nil]; omega)
      have e1 : (l ++ [v]).toFinset = insert v l.toFinset := by
        ext x; simp [or_comm]
      have e2 : (l ++ [v]).getLastD 0 = v := by simp
      rw [e1, e2] at ih
      rw [ih]
      simp only [List.append_assoc, List.singleton_append]
    have hsum : ∑ v ∈ g.next l, g.stepProb u v * (cliqueLoop g fuel (insert v l.toFinset) v).expect
          (fun x => if x = .ok (some T) then (1 : ℚ) else 0) = ∑ v ∈ g.next l, g.stepProb u v *
            (if insert v l.toFinset ⊆ T then ∑ m ∈ orders (T \ insert v l.toFinset),
              if (l ++ v :: m).Pairwise (fun a b => g.hasEdge a b = true) then
                (((v :: m).zip m).map fun e => g.stepProb e.1 e.2).prod *
                  (1 - ∑ w ∈ g.next (l ++ v :: m), g.stepProb ((l ++ v :: m).getLastD 0) w)
              else 0
            else 0) := Finset.sum_congr rfl fun v hvn => by rw [hrec v hvn]
    rw [hsum]
    by_cases hsub : l.toFinset ⊆ T
    · rw [if_pos hsub]
      by_cases heq : l.toFinset = T
      · have hd : T \ l.toFinset = ∅ := by rw [heq, Finset.sdiff_self]
        rw [hIT, if_pos heq, hd, sum_orders_empty, List.append_nil, if_pos hpw]
        have hz : ∀ v ∈ g.next l, ¬ insert v l.toFinset ⊆ T := by
          intro v hvn h
          have : v ∈ l.toFinset := heq ▸ (h (Finset.mem_insert_self _ _))
          exact (hv v hvn).1 (List.mem_toFinset.mp this)
        have hz2 : ∀ F : ℕ → ℚ, ∑ v ∈ g.next l, g.stepProb u v * (if insert v l.toFinset ⊆ T then F v else 0) = 0 :=
          fun F => Finset.sum_eq_zero fun v hvn => by rw [if_neg (hz v hvn), mul_zero]
        rw [hz2, hu]
        simp
      · rw [hIT, if_neg heq, mul_zero, zero_add]
        have hA : T \ l.toFinset ≠ ∅ := by
          intro h0
          rw [Finset.sdiff_eq_empty_iff_subset] at h0
          exact heq (Finset.Subset.antisymm hsub h0)
        rw [sum_orders hA]
        have hl : ∑ v ∈ g.next l, g.stepProb u v *
            (if insert v l.toFinset ⊆ T then ∑ m ∈ orders (T \ insert v l.toFinset),
              if (l ++ v :: m).Pairwise (fun a b => g.hasEdge a b = true) then
                (((v :: m).zip m).map fun e => g.stepProb e.1 e.2).prod *
                  (1 - ∑ w ∈ g.next (l ++ v :: m), g.stepProb ((l ++ v :: m).getLastD 0) w)
              else 0
            else 0) = ∑ v ∈ (g.next l).filter (· ∈ T), ∑ m ∈ orders ((T \ l.toFinset).erase v),
              if (l ++ v :: m).Pairwise (fun a b => g.hasEdge a b = true) then
                (((u :: v :: m).zip (v :: m)).map fun e => g.stepProb e.1 e.2).prod *
                  (1 - ∑ w ∈ g.next (l ++ v :: m), g.stepProb ((l ++ v :: m).getLastD 0) w)
              else 0 := by
          rw [Finset.sum_filter]
          apply Finset.sum_congr rfl
          intro v hvn
          by_cases hvT : v ∈ T
          · rw [if_pos hvT, if_pos (Finset.insert_subset hvT hsub), Finset.mul_sum]
            have e3 : T \ insert v l.toFinset = (T \ l.toFinset).erase v := by
              rw [Finset.sdiff_insert]
            rw [e3]
            apply Finset.sum_congr rfl
            intro m _
            split
            · rw [List.zip_cons_cons, List.map_cons, List.prod_cons]; ring
            · rw [mul_zero]
          · rw [if_neg hvT, if_neg (fun h => hvT (h (Finset.mem_insert_self _ _))), mul_zero]
        rw [hl]
        apply Finset.sum_subset
        · intro v hvm
          rw [Finset.mem_filter] at hvm
          rw [Finset.mem_sdiff, List.mem_toFinset]
          exact ⟨hvm.2, (hv v hvm.1).1⟩
        · intro v hvA hvn
          apply Finset.sum_eq_zero
          intro m _
          rw [if_neg]
          intro hp
          apply hvn
          rw [Finset.mem_sdiff] at hvA
          rw [List.pairwise_append] at hp
          have hjoin : ∀ s ∈ l, g.hasEdge s v = true := fun s hs => hp.2.2 s hs v List.mem_cons_self
          have hout : v ∈ g.out u := by
            rw [DiG.out, Finset.mem_filter, List.mem_toFinset]
            exact ⟨(hg.ends u v (hjoin u hul)).2, hjoin u hul⟩
          rw [Finset.mem_filter, hnext, Finset.mem_filter]
          exact ⟨⟨hout, hjoin⟩, hvA.1⟩
    · rw [if_neg hsub, hIT, if_neg (fun h => hsub (le_of_eq h)), mul_zero, zero_add]
      apply Finset.sum_eq_zero
      intro v _
      rw [if_neg (fun h => hsub ((Finset.subset_insert _ _).trans h)), mul_zero]

/-- **C104.** The law of `sample_clique` from a given start node: the probability of a set is the sum over the
orders in which its nodes can be added, starting at this node and each joined by an edge from all before it, of
the product of the step probabilities and the probability that no further node is added. -/
theorem C104_law {g : DiG} (hg : g.Weighted) {u : ℕ} (hu : u ∈ g.nodes) {fuel : ℕ} (hf : g.nodes.length ≤ fuel)
    (T : Finset ℕ) :
    (sampleClique g (some u) fuel).prob (.ok (some (T.sort (· ≤ ·)))) =
      ∑ l ∈ orders T with l.head? = some u ∧ l.Pairwise (fun a b => g.hasEdge a b = true), g.orderProb l := by
  have hcard : g.nodes.toFinset.card < fuel + [u].length := by
    have := List.toFinset_card_le g.nodes
    simp only [List.length_cons, List.length_nil]
    omega
  have hlaw := cliqueLoop_law hg T fuel [u] (by simp) (by simp) (by simpa using hu) (by simp) hcard
  have e1 : (sampleClique g (some u) fuel).prob (.ok (some (T.sort (· ≤ ·)))) =
      (cliqueLoop g fuel {u} u).expect (fun x => if x = .ok (some T) then (1 : ℚ) else 0) := by
    rw [Rand.prob]
    show ((cliqueLoop g fuel {u} u).bind _).expect _ = _
    rw [Rand.expect_bind]
    congr 1
    funext x
    cases x with
    | error e => simp [Rand.cont]
    | ok r =>
      cases r with
      | none =>
        show (if (.ok none : Py (Option (List ℕ))) = .ok (some (T.sort (· ≤ ·))) then (1 : ℚ) else 0) = _
        simp
      | some S =>
        show (if (.ok (some (S.sort (· ≤ ·))) : Py (Option (List ℕ))) = .ok (some (T.sort (· ≤ ·))) then (1 : ℚ) else 0) = _
        by_cases h : S = T
        · rw [h, if_pos rfl, if_pos rfl]
        · rw [if_neg, if_neg]
          · simpa using h
          · intro h2
            have h3 : S.sort (· ≤ ·) = T.sort (· ≤ ·) := by simpa using h2
            exact h (by rw [← Finset.sort_toFinset (r := (· ≤ ·)) S, h3, Finset.sort_toFinset])
  have e2 : ([u] : List ℕ).toFinset = {u} := rfl
  rw [e2] at hlaw
  rw [e1]
  refine hlaw.trans ?_
  by_cases huT : u ∈ T
  · rw [if_pos (by simpa using huT), Finset.sum_filter]
    have hne : T ≠ ∅ := by rintro rfl; simp at huT
    rw [sum_orders hne, Finset.sum_eq_single u]
    · rw [Finset.sdiff_singleton_eq_erase]
      apply Finset.sum_congr rfl
      intro m _
      simp only [List.singleton_append, List.head?_cons, true_and]
      rfl
    · intro v _ hvu
      apply Finset.sum_eq_zero
      intro m _
      rw [if_neg]
      rintro ⟨h, -⟩
      exact hvu (by simpa using h)
    · intro h; exact absurd huT h
  · rw [if_neg (by simpa using huT)]
    symm
    apply Finset.sum_eq_zero
    intro l hl
    rw [Finset.mem_filter, mem_orders] at hl
    exact absurd (hl.1.2 ▸ List.mem_toFinset.mpr (List.mem_of_mem_head? hl.2.1)) huT

/-- **C104.** Without a start node every node is equally likely to be the first. -/
theorem C104_random_start (g : DiG) (fuel : ℕ) (hne : g.nodes ≠ []) (r : Py (Option (List ℕ))) :
    (sampleClique g none fuel).prob r = (g.nodes.map fun u => (sampleClique g (some u) fuel).prob r).sum / g.nodes.length := by
  have hlen : g.nodes.length ≠ 0 := by simpa using hne
  rw [Rand.prob]
  show ((uniformIdx g.nodes.length).bind _).expect _ = _
  rw [Rand.expect_bind, expect_uniformIdx hlen]
  congr 1
  rw [Finset.sum_range, ← List.sum_ofFn]
  congr 1
  apply List.ext_getElem
  · simp
  · intro i h1 h2
    have hi : i < g.nodes.length := by simpa using h1
    rw [List.getElem_ofFn, List.getElem_map]
    simp only [Rand.cont]
    rw [getD_lt hi]
    rfl

/-- **C104.** Only the start node is returned with exactly the probability that no edge from it is kept. -/
theorem C104_alone {g : DiG} (hg : g.Weighted) {u : ℕ} (hu : u ∈ g.nodes) {fuel : ℕ} (hf : g.nodes.length ≤ fuel) :
    (sampleClique g (some u) fuel).prob (.ok (some [u])) = ∏ v ∈ g.out u, (1 - g.pr u v) := by
  have h := C104_law hg hu hf {u}
  rw [Finset.sort_singleton] at h
  rw [h]
  have : (orders {u}).filter (fun l => l.head? = some u ∧ l.Pairwise (fun a b => g.hasEdge a b = true)) = {[u]} := by
    ext l
    rw [Finset.mem_filter, mem_orders, Finset.mem_singleton]
    constructor
    · rintro ⟨⟨h1, h2⟩, h3, -⟩
      cases l with
      | nil => cases h3
      | cons a m =>
        have ha : a = u := by simpa using h3
        subst ha
        cases m with
        | nil => rfl
        | cons b m =>
          exfalso
          have : b ∈ ({a} : Finset ℕ) := h2 ▸ (by simp)
          rw [Finset.mem_singleton] at this
          subst this
          simp at h1
    · rintro rfl
      simp
  rw [this, Finset.sum_singleton, DiG.orderProb]
  have hn : g.next [u] = g.out u := by
    rw [DiG.next]
    ext v
    rw [Finset.mem_filter]
    constructor
    · exact fun h => h.1
    · intro h
      refine ⟨h, ?_⟩
      intro s hs
      rw [List.mem_singleton] at hs
      rw [hs]
      exact (Finset.mem_filter.mp h).2
  rw [hn]
  have := DiG.keepProb_empty hg u
  rw [DiG.keepProb, Finset.prod_empty, one_mul, Finset.sdiff_empty] at this
  simp only [List.tail_cons, List.zip_nil_right, List.map_nil, List.prod_nil, one_mul]
  exact this.symm

/-- **C104.** Every confidence graph meets the hypotheses. -/
theorem C104_confidence_graph (Y : Cmp) (h : Y.Binary) (g : DiG) (hg : confidenceGraph Y = .ok g) : g.Weighted := by
  obtain ⟨hn, hs⟩ := confidence_simple h hg
  refine ⟨?_, hs.ends, hs.noLoop, fun u v p hp => ?_⟩
  · rw [confidenceGraph_ok h] at hg
    cases Except.ok.inj hg
    rw [List.map_map]
    have : (Prod.fst ∘ fun e : ℕ × ℕ => (e, conf Y e)) = id := rfl
    rw [this, List.map_id]
    apply List.Nodup.filter
    apply List.Nodup.filter
    rw [List.nodup_flatMap]
    refine ⟨fun u _ => List.nodup_range.map (fun a b hab => (Prod.mk.inj hab).2), ?_⟩
    refine List.nodup_range.imp ?_
    intro a b hab x hx hy
    obtain ⟨c, -, rfl⟩ := List.mem_map.mp hx
    obtain ⟨d, -, h2⟩ := List.mem_map.mp hy
    exact hab (Prod.mk.inj h2).1.symm
  · have := (C47_range_and_symmetry Y h g hg u v).1 p hp
    exact ⟨this.1.le, this.2⟩

/-- The hypotheses of C104 hold for the example labels. -/
example : ∃ g, confidenceGraph exampleLabels = .ok g ∧ g.Weighted ∧ 0 ∈ g.nodes := by
  obtain ⟨g, hg, hn, -⟩ := C47_confidence_graph exampleLabels exampleLabels_binary
  exact ⟨g, hg, C104_confidence_graph _ exampleLabels_binary g hg, by rw [hn]; decide⟩

end Verif
