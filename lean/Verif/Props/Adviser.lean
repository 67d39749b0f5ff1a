/-
C90: the order in which the viewer shows the blocks.
-/
import Verif.Props.Biclus

namespace Verif

namespace Biclus

/-! ### Importance and similarity -/

theorem flatMap_zipIdx_pick {α β : Type} (g : α × ℕ → List β) : ∀ (l : List α) (k i : ℕ) (hi : i < l.length),
    (∀ a b, b ≠ i + k → g (a, b) = []) → (l.zipIdx k).flatMap g = g (l[i], i + k)
  | [], _, _, hi, _ => absurd hi (by simp)
  | a :: l, k, i, hi, h => by
    rw [List.zipIdx_cons, List.flatMap_cons]
    cases i with
    | zero =>
      have : (l.zipIdx (k + 1)).flatMap g = [] := by
        rw [List.flatMap_eq_nil_iff]
        rintro ⟨x, b⟩ hx
        apply h
        have := List.le_snd_of_mem_zipIdx hx
        simp only at this
        omega
      rw [this]
      simp
    | succ i =>
      rw [h a k (by omega), List.nil_append,
        flatMap_zipIdx_pick g l (k + 1) i (by simpa using hi) (fun a b hb => h a b (by omega))]
      congr 2
      omega

theorem filter_item {clusters blocks : List (List ℕ)} {i : ℕ} (hi : i < blocks.length) :
    (assocs clusters blocks).filter (fun a => decide (a.item = i)) =
      ((List.range clusters.length).filter fun r => decide (standsFor blocks i ∈ clusters.getD r [])).map
        fun r => { item := i, block := blocks.getD i [], role := r } := by
  rw [assocs, ← List.flatMap_def, List.filter_flatMap]
  rw [flatMap_zipIdx_pick _ blocks 0 i hi]
  · rw [standsFor, getD_lt hi, List.filter_eq_self.mpr]
    · rfl
    · intro a ha
      obtain ⟨r, -, rfl⟩ := List.mem_map.mp ha
      simp
  · intro a b hb
    rw [List.filter_eq_nil_iff]
    intro x hx
    obtain ⟨r, -, rfl⟩ := List.mem_map.mp hx
    simpa using hb

theorem rolesOf_eq {clusters blocks : List (List ℕ)} {i : ℕ} (hi : i < blocks.length) :
    rolesOf (assocs clusters blocks) i =
      (List.range clusters.length).filter fun r => decide (standsFor blocks i ∈ clusters.getD r []) := by
  rw [rolesOf, filter_item hi, List.map_map]
  exact List.map_id _

theorem sum_filter_range (n : ℕ) (P : ℕ → Prop) [DecidablePred P] (f : ℕ → ℕ) :
    (((List.range n).filter fun r => decide (P r)).map f).sum = ∑ j ∈ (Finset.range n).filter P, f j := by
  rw [← List.sum_toFinset f (List.nodup_range.filter _)]
  congr 1
  ext r
  simp

theorem importanceScore_eq {m : BlockMatrix} {i : ℕ} (hi : i < m.leftBlocks.length) :
    importanceScore m (assocs m.leftClusters m.leftBlocks) i =
      importance m.leftClusters m.rightClusters (standsFor m.leftBlocks i) := by
  rw [importanceScore, filter_item hi, List.map_map, importance, ← sum_filter_range]
  rfl

theorem importanceScore_right {m : BlockMatrix} (hs : m.leftClusters.length = m.rightClusters.length) {i : ℕ}
    (hi : i < m.rightBlocks.length) :
    importanceScore m (assocs m.rightClusters m.rightBlocks) i =
      importance m.rightClusters m.leftClusters (standsFor m.rightBlocks i) := by
  rw [importanceScore, filter_item hi, List.map_map, importance, ← sum_filter_range]
  congr 1
  apply List.map_congr_left
  intro r _
  exact Nat.mul_comm _ _

theorem mem_rolesUnion (ri rj : List ℕ) (r : ℕ) : r ∈ rolesUnion ri rj ↔ r ∈ ri ∨ r ∈ rj := by
  rw [rolesUnion]
  induction rj generalizing ri with
  | nil => simp
  | cons x l ih =>
    rw [List.foldl_cons, ih, List.mem_cons]
    by_cases h : x ∈ ri
    · rw [if_pos h]
      constructor
      · rintro (h' | h')
        · exact Or.inl h'
        · exact Or.inr (Or.inr h')
      · rintro (h' | rfl | h')
        · exact Or.inl h'
        · exact Or.inl h
        · exact Or.inr h'
    · rw [if_neg h, List.mem_append, List.mem_singleton, or_assoc]

/-- A cluster without repetition is as long as its blocks together. -/
theorem cluster_length {clusters : List (List ℕ)} {c : List ℕ} (hc : c ∈ clusters) (hn : c.Nodup) :
    (((createBlocks clusters).filter fun B => decide (B.headD 0 ∈ c)).map List.length).sum = c.length := by
  rw [← List.length_flatten]
  apply List.Perm.length_eq
  rw [List.perm_ext_iff_of_nodup _ hn]
  · intro x
    rw [List.mem_flatten]
    have hd : ∀ B ∈ createBlocks clusters, B.headD 0 ∈ B := by
      intro B hB
      have := block_ne_nil hB
      cases B with
      | nil => exact absurd rfl this
      | cons y B => simp
    constructor
    · rintro ⟨B, hB, hx⟩
      obtain ⟨h1, h2⟩ := List.mem_filter.mp hB
      rw [decide_eq_true_eq] at h2
      rcases C85_clusters_are_unions clusters c B hc h1 with h | h
      · exact h x hx
      · exact absurd h2 (h _ (hd B h1))
    · intro hx
      obtain ⟨B, hB, hxB⟩ := ((C85_blocks_partition clusters).2.2 x).mpr ⟨c, hc, hx⟩
      refine ⟨B, List.mem_filter.mpr ⟨hB, ?_⟩, hxB⟩
      rw [decide_eq_true_eq]
      rcases C85_clusters_are_unions clusters c B hc hB with h | h
      · exact h _ (hd B hB)
      · exact absurd hx (h x hxB)
  · exact (List.Sublist.flatten List.filter_sublist).nodup (blocks_nodup clusters)

/-- The sums over `IAbar`. -/
theorem sum_blocks (clusters : List (List ℕ)) (hn : ∀ c ∈ clusters, c.Nodup) (P : ℕ → Prop) [DecidablePred P] :
    (((assocs clusters (createBlocks clusters)).filter fun a => decide (P a.role)).map
      fun a => a.block.length).sum =
      ∑ j ∈ (Finset.range clusters.length).filter P, (clusters.getD j []).length := by
  have step : ∀ (bs : List (List ℕ)) (k : ℕ),
      ((((bs.zipIdx k).map fun bi =>
        ((List.range clusters.length).filter fun r => decide (bi.1.headD 0 ∈ clusters.getD r [])).map
          fun r => ({ item := bi.2, block := bi.1, role := r } : Assoc)).flatten.filter
            fun a => decide (P a.role)).map fun a => a.block.length).sum =
      ∑ j ∈ (Finset.range clusters.length).filter P,
        ((bs.filter fun B => decide (B.headD 0 ∈ clusters.getD j [])).map List.length).sum := by
    intro bs
    induction bs with
    | nil => intro k; simp
    | cons B bs ih =>
      intro k
      rw [List.zipIdx_cons, List.map_cons, List.flatten_cons, List.filter_append, List.map_append,
        List.sum_append, ih (k + 1)]
      have h1 : (((((List.range clusters.length).filter fun r => decide (B.headD 0 ∈ clusters.getD r [])).map
          fun r => ({ item := k, block := B, role := r } : Assoc)).filter
            fun a => decide (P a.role)).map fun a => a.block.length).sum =
          ∑ j ∈ (Finset.range clusters.length).filter P,
            if B.headD 0 ∈ clusters.getD j [] then B.length else 0 := by
        rw [List.filter_map, List.map_map, List.filter_filter]
        have : (fun a => ((fun a : Assoc => decide (P a.role)) ∘ fun r => ({ item := k, block := B, role := r } : Assoc)) a
            && decide (B.headD 0 ∈ clusters.getD a [])) =
            fun a => decide (P a ∧ B.headD 0 ∈ clusters.getD a []) := by
          funext a
          simp
        rw [this]
        change ((List.filter _ _).map fun _ => B.length).sum = _
        rw [sum_filter_range, ← Finset.sum_filter, Finset.filter_filter]
      rw [h1, ← Finset.sum_add_distrib]
      apply Finset.sum_congr rfl
      intro j _
      rw [List.filter_cons]
      by_cases h : B.headD 0 ∈ clusters.getD j []
      · simp only [h, decide_true, if_true, List.map_cons, List.sum_cons]
      · simp only [h, decide_false, Bool.false_eq_true, if_false, Nat.zero_add]
  rw [assocs, step]
  apply Finset.sum_congr rfl
  intro j hj
  have hj' := Finset.mem_range.mp (Finset.mem_filter.mp hj).1
  have hmem : clusters.getD j [] ∈ clusters := by rw [getD_lt hj']; exact List.getElem_mem _
  exact cluster_length hmem (hn _ hmem)

theorem jacc_eq {own other : List (List ℕ)} (hs : own.length = other.length) (hn : ∀ c ∈ other, c.Nodup)
    {blocks : List (List ℕ)} {i j : ℕ} (hi : i < blocks.length) (hj : j < blocks.length) :
    jacc (assocs own blocks) (assocs other (createBlocks other)) i j =
      similarity own other (standsFor blocks i) (standsFor blocks j) := by
  have hU := sum_blocks other hn fun r => r ∈ rolesUnion (rolesOf (assocs own blocks) i) (rolesOf (assocs own blocks) j)
  have hN := sum_blocks other hn fun r => r ∈ (rolesOf (assocs own blocks) i).filter
    fun r => decide (r ∈ rolesOf (assocs own blocks) j)
  have e1 : (Finset.range other.length).filter (fun r =>
      r ∈ rolesUnion (rolesOf (assocs own blocks) i) (rolesOf (assocs own blocks) j)) =
      (Finset.range own.length).filter fun r =>
        standsFor blocks i ∈ own.getD r [] ∨ standsFor blocks j ∈ own.getD r [] := by
    ext r
    simp only [Finset.mem_filter, Finset.mem_range, ← hs, rolesOf_eq hi, rolesOf_eq hj, mem_rolesUnion,
      List.mem_filter, List.mem_range, decide_eq_true_eq]
    tauto
  have e2 : (Finset.range other.length).filter (fun r => r ∈ (rolesOf (assocs own blocks) i).filter
      fun r => decide (r ∈ rolesOf (assocs own blocks) j)) =
      (Finset.range own.length).filter fun r =>
        standsFor blocks i ∈ own.getD r [] ∧ standsFor blocks j ∈ own.getD r [] := by
    ext r
    simp only [Finset.mem_filter, Finset.mem_range, ← hs, rolesOf_eq hi, rolesOf_eq hj,
      List.mem_filter, List.mem_range, decide_eq_true_eq]
    tauto
  rw [e1] at hU
  rw [e2] at hN
  rw [jacc, similarity]
  rw [hU, hN]
  split
  · rename_i h
    rw [h]
    simp
  · rfl

/-! ### Choosing a place -/

/-- What the loop over the gaps has established after the gaps below `i`. -/
theorem gapLoop_spec (sim : ℕ → ℕ → ℚ) (sigma : List ℕ) (x : ℕ) (h2 : 2 ≤ sigma.length) :
    ∀ n, n + 2 ≤ sigma.length →
    ∀ pj, pj = (((List.range n).map fun i => i + 2).foldl (gapStep sim sigma x)
      (if sim x (sigma.getD 0 0) > sim x (sigma.getLastD 0) then (0, sim x (sigma.getD 0 0))
        else (sigma.length, sim x (sigma.getLastD 0)))) →
    Considered sim sigma x pj.1 ∧ (pj.1 < sigma.length → pj.1 < n + 2) ∧ pj.2 = gain sim sigma x pj.1 ∧
    (∀ p', Considered sim sigma x p' → (p' < n + 2 ∨ p' = sigma.length) →
      gain sim sigma x p' ≤ pj.2) ∧
    (pj.1 ≠ sigma.length → gain sim sigma x sigma.length < pj.2) ∧
    (pj.1 ≠ 0 → pj.1 ≠ sigma.length → gain sim sigma x 0 < pj.2) ∧
    ∀ p', p' < pj.1 → pj.1 < sigma.length → Considered sim sigma x p' → gain sim sigma x p' < pj.2 := by
  have hlast : sigma.getLastD 0 = sigma.getD (sigma.length - 1) 0 := by
    rw [List.getLastD_eq_getLast?, List.getLast?_eq_getElem?, List.getD_eq_getElem?_getD]
  have g0 : gain sim sigma x 0 = sim x (sigma.getD 0 0) := by rw [gain, if_pos rfl]
  have gl : gain sim sigma x sigma.length = sim x (sigma.getLastD 0) := by
    rw [gain, if_neg (by omega), if_pos rfl, hlast]
  have gm : ∀ p, 2 ≤ p → p < sigma.length → gain sim sigma x p =
      max (sim x (sigma.getD (p - 1) 0)) (sim x (sigma.getD p 0)) := by
    intro p hp hp'
    rw [gain, if_neg (by omega), if_neg (by omega)]
  intro n
  induction n with
  | zero =>
    intro _ pj hpj
    rw [List.range_zero, List.map_nil, List.foldl_nil] at hpj
    have hcase : ∀ p', Considered sim sigma x p' → (p' < 0 + 2 ∨ p' = sigma.length) →
        p' = 0 ∨ p' = sigma.length := by
      rintro p' (h | h | ⟨h, h', -⟩) hp
      · exact Or.inl h
      · exact Or.inr h
      · omega
    by_cases h : sim x (sigma.getD 0 0) > sim x (sigma.getLastD 0)
    · rw [if_pos h] at hpj
      subst hpj
      refine ⟨Or.inl rfl, fun _ => by simp, g0.symm, ?_, ?_, fun h' => absurd rfl h', fun p' hp' => absurd hp' (by simp)⟩
      · intro p' hc hp'
        rcases hcase p' hc hp' with rfl | rfl
        · rw [g0]
        · rw [gl]; exact le_of_lt h
      · intro _
        rw [gl]
        exact h
    · rw [if_neg h] at hpj
      subst hpj
      refine ⟨Or.inr (Or.inl rfl), fun h' => absurd h' (by simp), gl.symm, ?_, fun h' => absurd rfl h',
        fun _ h' => absurd rfl h', fun p' _ h' => absurd h' (by simp)⟩
      intro p' hc hp'
      rcases hcase p' hc hp' with rfl | rfl
      · rw [g0]; exact not_lt.mp h
      · rw [gl]
  | succ n ih =>
    intro hn pj hpj
    rw [List.range_succ, List.map_append, List.foldl_append] at hpj
    generalize hq : ((List.range n).map fun i => i + 2).foldl (gapStep sim sigma x)
      (if sim x (sigma.getD 0 0) > sim x (sigma.getLastD 0) then (0, sim x (sigma.getD 0 0))
        else (sigma.length, sim x (sigma.getLastD 0))) = q at hpj
    obtain ⟨i1, i2, i3, i4, i5, i6, i7⟩ := ih (by omega) q hq.symm
    rw [List.map_singleton, List.foldl_cons, List.foldl_nil, gapStep] at hpj
    have hgm := gm (n + 2) (by omega) (by omega)
    split at hpj
    · rename_i h
      subst hpj
      have hgt : q.2 < gain sim sigma x (n + 2) := by rw [hgm]; exact h.1
      refine ⟨Or.inr (Or.inr ⟨by simp, show n + 2 < sigma.length by omega, h.2⟩), fun _ => by simp, hgm.symm, ?_, ?_, ?_, ?_⟩
      · intro p' hc hp'
        rw [← hgm]
        by_cases hpn : p' = n + 2
        · rw [hpn]
        · exact (i4 p' hc (by omega)).trans hgt.le
      · intro _
        rw [← hgm]
        exact lt_of_le_of_lt (i4 _ (Or.inr (Or.inl rfl)) (Or.inr rfl)) hgt
      · intro _ _
        rw [← hgm]
        exact lt_of_le_of_lt (i4 0 (Or.inl rfl) (Or.inl (by omega))) hgt
      · intro p' hp' _ hc
        rw [← hgm]
        exact lt_of_le_of_lt (i4 p' hc (Or.inl hp')) hgt
    · rename_i h
      subst hpj
      refine ⟨i1, fun hh => (i2 hh).trans (by omega), i3, ?_, i5, i6, i7⟩
      intro p' hc hp'
      by_cases hpn : p' = n + 2
      · subst hpn
        rw [hgm]
        by_contra hgt
        apply h
        refine ⟨not_le.mp hgt, ?_⟩
        rcases hc with hc | hc | hc
        · omega
        · omega
        · exact hc.2.2
      · exact i4 p' hc (by omega)

theorem insertPosition_best (sim : ℕ → ℕ → ℚ) (sigma : List ℕ) (x : ℕ) (h2 : 2 ≤ sigma.length) :
    BestPlace sim sigma x (insertPosition sim sigma x) := by
  obtain ⟨h1, -, h3, h4, h5, h6, h7⟩ := gapLoop_spec sim sigma x h2 (sigma.length - 2) (by omega) _ rfl
  rw [h3] at h4 h5 h6 h7
  refine ⟨h1, ?_, h5, h6, h7⟩
  intro p' hc
  refine h4 p' hc ?_
  rcases hc with h | h | h <;> omega

theorem considered_le {sim : ℕ → ℕ → ℚ} {sigma : List ℕ} {x p : ℕ} (h : Considered sim sigma x p) :
    p ≤ sigma.length := by
  rcases h with h | h | h <;> omega

theorem insertIdx_eq_take_drop {x : ℕ} : ∀ (l : List ℕ) (p : ℕ), p ≤ l.length →
    l.insertIdx p x = l.take p ++ x :: l.drop p
  | l, 0, _ => by simp
  | [], p + 1, h => absurd h (by simp)
  | a :: l, p + 1, h => by
    rw [List.insertIdx_succ_cons, insertIdx_eq_take_drop l p (by simpa using h)]
    simp

theorem insertion_advised (sim : ℕ → ℕ → ℚ) : ∀ (items : List ℕ),
    Advised sim items (items.foldl (fun sigma I => if sigma.length < 2 then sigma ++ [I]
      else sigma.insertIdx (insertPosition sim sigma I) I) []) := by
  intro items
  induction items using List.reverseRecOn with
  | nil => exact .nil
  | append_singleton items x ih =>
    rw [List.foldl_append, List.foldl_cons, List.foldl_nil]
    split
    · rename_i h
      exact .early ih h
    · rename_i h
      have hb := insertPosition_best sim _ x (not_lt.mp h)
      rw [insertIdx_eq_take_drop _ _ (considered_le hb.1)]
      exact .insert ih (not_lt.mp h) hb

theorem Advised.perm {sim : ℕ → ℕ → ℚ} {items sigma : List ℕ} (h : Advised sim items sigma) :
    sigma.Perm items := by
  induction h with
  | nil => exact .nil
  | early _ _ ih => exact ih.append_right _
  | @insert items sigma x p _ _ _ ih =>
    have e : (sigma.take p ++ x :: sigma.drop p).Perm (x :: (sigma.take p ++ sigma.drop p)) :=
      List.perm_middle
    rw [List.take_append_drop] at e
    exact e.trans ((List.Perm.cons x ih).trans (List.perm_append_singleton x items).symm)

theorem getD_mem {l : List ℕ} {i : ℕ} (h : i < l.length) : l.getD i 0 ∈ l := by
  rw [getD_lt h]; exact List.getElem_mem _

theorem gain_congr {s s' : ℕ → ℕ → ℚ} {sigma : List ℕ} {x : ℕ} (hpos : 0 < sigma.length)
    (h : ∀ y ∈ sigma, s x y = s' x y) {p : ℕ} (hp : p ≤ sigma.length) :
    gain s sigma x p = gain s' sigma x p := by
  rw [gain, gain]
  split
  · exact h _ (getD_mem hpos)
  · split
    · exact h _ (getD_mem (by omega))
    · rw [h _ (getD_mem (show p - 1 < sigma.length by omega)), h _ (getD_mem (show p < sigma.length by omega))]

theorem considered_congr {s s' : ℕ → ℕ → ℚ} {sigma : List ℕ} {x : ℕ}
    (h : ∀ y ∈ sigma, s x y = s' x y) (h' : ∀ y ∈ sigma, ∀ z ∈ sigma, s y z = s' y z) (p : ℕ) :
    Considered s sigma x p ↔ Considered s' sigma x p := by
  rw [Considered, Considered]
  refine or_congr Iff.rfl (or_congr Iff.rfl ?_)
  constructor
  · rintro ⟨h1, h2, h3⟩
    refine ⟨h1, h2, ?_⟩
    have m1 := getD_mem (l := sigma) (i := p - 1) (by omega)
    have m2 := getD_mem h2
    rwa [← h _ m1, ← h _ m2, ← h' _ m1 _ m2]
  · rintro ⟨h1, h2, h3⟩
    refine ⟨h1, h2, ?_⟩
    have m1 := getD_mem (l := sigma) (i := p - 1) (by omega)
    have m2 := getD_mem h2
    rwa [h _ m1, h _ m2, h' _ m1 _ m2]

theorem bestPlace_congr {s s' : ℕ → ℕ → ℚ} {sigma : List ℕ} {x p : ℕ} (hpos : 0 < sigma.length)
    (h : ∀ y ∈ sigma, s x y = s' x y) (h' : ∀ y ∈ sigma, ∀ z ∈ sigma, s y z = s' y z)
    (hb : BestPlace s sigma x p) : BestPlace s' sigma x p := by
  obtain ⟨h1, h2, h3, h4, h5⟩ := hb
  have hp := considered_le h1
  have gp := gain_congr hpos h hp
  have hc := considered_congr h h'
  refine ⟨(hc p).mp h1, ?_, ?_, ?_, ?_⟩
  · intro p' hp'
    have := (hc p').mpr hp'
    rw [← gain_congr hpos h (considered_le this), ← gp]
    exact h2 p' this
  · intro hne
    rw [← gain_congr hpos h (le_refl _), ← gp]
    exact h3 hne
  · intro h0 hne
    rw [← gain_congr hpos h (Nat.zero_le _), ← gp]
    exact h4 h0 hne
  · intro p' hlt hl hp'
    have := (hc p').mpr hp'
    rw [← gain_congr hpos h (considered_le this), ← gp]
    exact h5 p' hlt hl this

theorem Advised.congr {s s' : ℕ → ℕ → ℚ} {items sigma : List ℕ} (hA : Advised s items sigma)
    (h : ∀ x ∈ items, ∀ y ∈ items, s x y = s' x y) : Advised s' items sigma := by
  induction hA with
  | nil => exact .nil
  | early _ hlt ih => exact .early (ih fun x hx y hy => h x (by simp [hx]) y (by simp [hy])) hlt
  | @insert items sigma x p hA hge hb ih =>
    have hm : ∀ y ∈ sigma, y ∈ items ++ [x] := fun y hy => by simp [hA.perm.mem_iff.mp hy]
    refine .insert (ih fun x hx y hy => h x (by simp [hx]) y (by simp [hy])) hge
      (bestPlace_congr (by omega) (fun y hy => h _ (by simp) _ (hm y hy))
        (fun y hy z hz => h _ (hm y hy) _ (hm z hz)) hb)

/-! ### C90 -/

/-- `items` lists the numbers below `n` by decreasing score, equal scores by increasing number. -/
def ByScore (n : ℕ) (score : ℕ → ℕ) (items : List ℕ) : Prop :=
  Lists n items ∧ items.Pairwise fun a b => score b < score a ∨ (score a = score b ∧ a < b)

theorem byScore_mergeSort (n : ℕ) (score f : ℕ → ℕ) (hf : ∀ i < n, f i = score i) :
    ByScore n score ((List.range n).mergeSort fun a b => decide (-(f a : ℤ) ≤ -(f b : ℤ))) := by
  set le : ℕ → ℕ → Bool := fun a b => decide (-(f a : ℤ) ≤ -(f b : ℤ)) with hle
  have hperm := List.mergeSort_perm (List.range n) le
  have htrans : ∀ a b c : ℕ, le a b → le b c → le a c := by
    intro a b c h1 h2
    simp only [hle, decide_eq_true_eq] at *
    omega
  have htotal : ∀ a b : ℕ, le a b || le b a := by
    intro a b
    simp only [hle, Bool.or_eq_true, decide_eq_true_eq]
    omega
  refine ⟨lists_iff_perm.mpr hperm, ?_⟩
  have hs := List.pairwise_mergeSort htrans htotal (List.range n)
  have hnd : ((List.range n).mergeSort le).Nodup := hperm.nodup_iff.mpr List.nodup_range
  rw [List.pairwise_iff_getElem] at hs ⊢
  intro i j hi hj hij
  have hsij := hs i j hi hj hij
  have mi : ((List.range n).mergeSort le)[i] < n := List.mem_range.mp (hperm.mem_iff.mp (List.getElem_mem hi))
  have mj : ((List.range n).mergeSort le)[j] < n := List.mem_range.mp (hperm.mem_iff.mp (List.getElem_mem hj))
  rw [← hf _ mi, ← hf _ mj]
  have hsij' : f ((List.range n).mergeSort le)[j] ≤ f ((List.range n).mergeSort le)[i] := by
    have h0 : decide (-(f ((List.range n).mergeSort le)[i] : ℤ) ≤ -(f ((List.range n).mergeSort le)[j] : ℤ)) = true :=
      hsij
    rw [decide_eq_true_eq] at h0
    omega
  rcases Nat.lt_or_ge (f ((List.range n).mergeSort le)[j]) (f ((List.range n).mergeSort le)[i]) with h | h
  · exact Or.inl h
  · refine Or.inr ⟨le_antisymm h hsij', ?_⟩
    by_contra hlt
    have hne : ((List.range n).mergeSort le)[i] ≠ ((List.range n).mergeSort le)[j] := by
      intro he
      exact absurd ((hnd.getElem_inj_iff).mp he) (by omega)
    have hgt : ((List.range n).mergeSort le)[j] < ((List.range n).mergeSort le)[i] := by omega
    have hsub : [((List.range n).mergeSort le)[j], ((List.range n).mergeSort le)[i]].Sublist (List.range n) := by
      apply List.sublist_of_subperm_of_sortedLE
      · apply List.subperm_of_subset
        · simp [Ne.symm hne]
        · intro y hy
          rcases List.mem_cons.mp hy with rfl | hy
          · exact List.mem_range.mpr mj
          · rw [List.mem_singleton.mp hy]
            exact List.mem_range.mpr mi
      · exact List.Pairwise.sortedLE (by simp [hgt.le])
      · exact (List.pairwise_le_range).sortedLE
    have hst := List.pair_sublist_mergeSort htrans htotal (show le _ _ = true from by
      change decide (-(f ((List.range n).mergeSort le)[j] : ℤ) ≤ -(f ((List.range n).mergeSort le)[i] : ℤ)) = true
      rw [decide_eq_true_eq]
      omega) hsub
    have hR : ((List.range n).mergeSort le).Pairwise fun a b =>
        ((List.range n).mergeSort le).idxOf a < ((List.range n).mergeSort le).idxOf b := by
      rw [List.pairwise_iff_getElem]
      intro a b ha hb hab
      rw [hnd.idxOf_getElem, hnd.idxOf_getElem]
      exact hab
    have := List.pairwise_pair.mp (hR.sublist hst)
    rw [hnd.idxOf_getElem, hnd.idxOf_getElem] at this
    omega

theorem sortSet_advised (m : BlockMatrix) (own other : List (List ℕ)) (hs : own.length = other.length)
    (hn : ∀ c ∈ other, c.Nodup) (blocks : List (List ℕ))
    (himp : ∀ i < blocks.length,
      importanceScore m (assocs own blocks) i = importance own other (standsFor blocks i)) :
    ∃ items, ByScore blocks.length (fun b => importance own other (standsFor blocks b)) items ∧
      Advised (fun a b => similarity own other (standsFor blocks a) (standsFor blocks b)) items
        (sortSet m (assocs own blocks) (assocs other (createBlocks other)) (List.range blocks.length)) := by
  refine ⟨_, byScore_mergeSort blocks.length _ (importanceScore m (assocs own blocks)) himp, ?_⟩
  rw [sortSet]
  refine (insertion_advised _ _).congr ?_
  intro x hx y hy
  have hx' := List.mem_range.mp ((List.mergeSort_perm _ _).mem_iff.mp hx)
  have hy' := List.mem_range.mp ((List.mergeSort_perm _ _).mem_iff.mp hy)
  exact jacc_eq hs hn hx' hy'

/-- C90. What `order()` does to a viewer on clusters without repetition: clusters, blocks and matrix stay; the
blocks are placed one after the other by decreasing importance (ties by block number), each at the place of
highest similarity among those considered; rows and columns alike. -/
theorem C90_order (left right : List (List ℕ)) (A : Dense ℚ) (m : BlockMatrix)
    (h : Constructed left right A m) (hl : ∀ c ∈ m.leftClusters, c.Nodup) (hr : ∀ c ∈ m.rightClusters, c.Nodup) :
    ∃ m', order m = .ok m' ∧ m'.original = A ∧ m'.leftClusters = m.leftClusters ∧
      m'.rightClusters = m.rightClusters ∧ m'.leftBlocks = m.leftBlocks ∧ m'.rightBlocks = m.rightBlocks ∧
      (∃ items, ByScore m.leftBlocks.length
          (fun b => importance m.leftClusters m.rightClusters (standsFor m.leftBlocks b)) items ∧
        Advised (fun a b => similarity m.leftClusters m.rightClusters (standsFor m.leftBlocks a)
          (standsFor m.leftBlocks b)) items m'.leftPerm) ∧
      ∃ items, ByScore m.rightBlocks.length
          (fun b => importance m.rightClusters m.leftClusters (standsFor m.rightBlocks b)) items ∧
        Advised (fun a b => similarity m.rightClusters m.leftClusters (standsFor m.rightBlocks a)
          (standsFor m.rightBlocks b)) items m'.rightPerm := by
  have hw := constructed_wf h
  refine ⟨_, order_ok hw, hw.original, rfl, rfl, rfl, rfl, ?_, ?_⟩
  · have := sortSet_advised m m.leftClusters m.rightClusters hw.same hr m.leftBlocks
      fun i hi => importanceScore_eq hi
    rw [← hw.right] at this
    exact this
  · have := sortSet_advised m m.rightClusters m.leftClusters hw.same.symm hl m.rightBlocks
      fun i hi => importanceScore_right hw.same hi
    rw [← hw.left] at this
    exact this

/-- C90. Similarity is symmetric and between zero and one. -/
theorem C90_similarity (own other : List (List ℕ)) (x y : ℕ) :
    similarity own other x y = similarity own other y x ∧ 0 ≤ similarity own other x y ∧
      similarity own other x y ≤ 1 := by
  refine ⟨?_, ?_, ?_⟩
  · rw [similarity, similarity]
    simp only [and_comm, or_comm]
  · rw [similarity]
    positivity
  · rw [similarity]
    apply div_le_one_of_le₀
    · rw [Nat.cast_le]
      apply Finset.sum_le_sum_of_subset
      intro j hj
      obtain ⟨h1, h2⟩ := Finset.mem_filter.mp hj
      exact Finset.mem_filter.mpr ⟨h1, Or.inl h2.1⟩
    · positivity

/-- Placing a third item never separates the first two. -/
theorem advised_three {sim : ℕ → ℕ → ℚ} {a b c : ℕ} {sigma : List ℕ} (h : Advised sim [a, b, c] sigma) :
    sigma = [c, a, b] ∨ sigma = [a, b, c] := by
  have two : ∀ {x y : ℕ} {s : List ℕ}, Advised sim [x, y] s → s = [x, y] := by
    intro x y s hs
    generalize hl : [x, y] = l at hs
    have one : ∀ {z : ℕ} {s : List ℕ}, Advised sim [z] s → s = [z] := by
      intro z s hs
      exact List.perm_singleton.mp hs.perm
    cases hs with
    | nil => simp at hl
    | @early items sigma z hA hlt =>
      have hl' : [x] ++ [y] = items ++ [z] := hl
      obtain ⟨h1, h2⟩ := List.append_inj' hl' rfl
      rw [← h1] at hA
      rw [one hA, ← h2, ← h1]
    | @insert items sigma z p hA hge hb =>
      have hl' : [x] ++ [y] = items ++ [z] := hl
      obtain ⟨h1, h2⟩ := List.append_inj' hl' rfl
      rw [← h1] at hA
      rw [one hA] at hge
      simp at hge
  generalize hl : [a, b, c] = l at h
  cases h with
  | nil => simp at hl
  | @early items sigma z hA hlt =>
    have hl' : [a, b] ++ [c] = items ++ [z] := hl
    obtain ⟨h1, h2⟩ := List.append_inj' hl' rfl
    rw [← h1] at hA
    rw [two hA] at hlt
    simp at hlt
  | @insert items sigma z p hA hge hb =>
    have hl' : [a, b] ++ [c] = items ++ [z] := hl
    obtain ⟨h1, h2⟩ := List.append_inj' hl' rfl
    rw [← h1] at hA
    have hs := two hA
    subst hs
    have hz : c = z := by simpa using h2
    subst hz
    rcases hb.1 with rfl | rfl | ⟨h3, h4, -⟩
    · exact Or.inl rfl
    · exact Or.inr (by rw [← h1]; rfl)
    · simp at h4
      omega

/-- C90. The gap between the first two blocks is never considered: with three row blocks, the one strictly less
important than the other two never gets between them, however similar it is to both. -/
theorem C90_first_gap_ignored (left right : List (List ℕ)) (A : Dense ℚ) (m m' : BlockMatrix)
    (h : Constructed left right A m) (hl : ∀ c ∈ m.leftClusters, c.Nodup) (hr : ∀ c ∈ m.rightClusters, c.Nodup)
    (h3 : m.leftBlocks.length = 3) (z : ℕ) (hz : z < 3)
    (hmin : ∀ b < 3, b ≠ z → importance m.leftClusters m.rightClusters (standsFor m.leftBlocks z) <
      importance m.leftClusters m.rightClusters (standsFor m.leftBlocks b))
    (ho : order m = .ok m') : m'.leftPerm.getD 1 0 ≠ z := by
  obtain ⟨m1, h1, -, -, -, -, -, ⟨items, hb, ha⟩, -⟩ := C90_order left right A m h hl hr
  rw [ho] at h1
  cases h1
  rw [h3] at hb
  have hlen := hb.1.length
  match items, hlen, hb, ha with
  | [a, b, c], _, hb, ha =>
    have hbc := hb.2
    simp only [List.pairwise_cons, List.mem_cons, List.not_mem_nil, or_false, forall_eq_or_imp, forall_eq] at hbc
    have hza : z ≠ a := by
      rintro rfl
      have hbb := hmin b ((hb.1.2 b).mp (by simp)) (fun e => by
        have := hb.1.1
        simp [e] at this)
      omega
    have hzb : z ≠ b := by
      rintro rfl
      have hbb := hmin c ((hb.1.2 c).mp (by simp)) (fun e => by
        have := hb.1.1
        simp [e] at this)
      omega
    rcases advised_three ha with e | e
    · rw [e]
      exact fun e' => hza e'.symm
    · rw [e]
      exact fun e' => hzb e'.symm

/-! ### Example -/

/-- Two overlapping biclusters: three row blocks, the shared row is the most important one; the hypotheses of
the theorems above are met. -/
theorem exOrder : ∃ m, Constructed [[0, 1, 2], [1, 3]] [[0, 2], [2]] exMatrix m ∧
    (∀ c ∈ m.leftClusters, c.Nodup) ∧ (∀ c ∈ m.rightClusters, c.Nodup) ∧ m.leftBlocks.length = 3 ∧
    ∀ b < 3, b ≠ 2 → importance m.leftClusters m.rightClusters (standsFor m.leftBlocks 2) <
      importance m.leftClusters m.rightClusters (standsFor m.leftBlocks b) := by
  refine ⟨_, ⟨[0, 1, 2], [1, 0], rfl, lists_iff_perm.mpr (by decide), lists_iff_perm.mpr (by decide)⟩, ?_, ?_, rfl,
    ?_⟩
  · decide
  · decide
  · decide

end Biclus

end Verif
