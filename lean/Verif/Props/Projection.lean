/-
C143: the clustering step with all its arguments, and the viewer script end to end.
-/
import Verif.Spec.Projection
import Verif.Props.Plot
import Verif.Props.Votes

namespace Verif

namespace Biclus

/-! ### The clustering step -/

theorem bmv_nil (B : Dense ℚ) (threshold : ℝ) (useHeuristic : Bool) :
    binaryMajorityVote B [] threshold 0 useHeuristic = .ok [] := rfl

/-- C143. With the projection and the clustering the code has, `PCV` is the vote on the rows grouped by their
k-means label. -/
theorem C143_pcv_call (B : Dense ℚ) (k : ℤ) (threshold : ℝ) (tau : Option ℤ) (useHeuristic : Bool)
    (labels : List ℕ) (h1 : 1 ≤ k) (h2 : k < B.rows) (h3 : k < B.cols)
    (h4 : ∀ t, tau = some t → 1 ≤ t ∧ t ≤ B.rows) :
    pcvCall B k threshold tau "simple" "kmeans" useHeuristic (.ok ()) labels =
      pcv B labels threshold useHeuristic := by
  have ht : 1 ≤ tau.getD k ∧ tau.getD k ≤ B.rows := by
    cases tau with
    | none => exact ⟨h1, le_of_lt h2⟩
    | some t => exact h4 t rfl
  rw [pcvCall, projCluster, simpleProj, kmeans]
  simp only [if_true]
  rw [if_pos (by omega), if_pos ⟨ht.1, ht.2, by omega⟩]
  rfl

/-- C143. A number of singular vectors below one, or not below both sides of the matrix, is a `ValueError`,
whatever the clustering. -/
theorem C143_rank_out_of_range (B : Dense ℚ) (k : ℤ) (threshold : ℝ) (tau : Option ℤ) (clustering : String)
    (useHeuristic : Bool) (svd : Py Unit) (labels : List ℕ)
    (h : k < 1 ∨ (B.rows : ℤ) ≤ k ∨ (B.cols : ℤ) ≤ k) :
    pcvCall B k threshold tau "simple" clustering useHeuristic svd labels = .error .valueError := by
  rw [pcvCall, projCluster, simpleProj]
  simp only [if_true]
  rw [if_neg (by omega)]
  rfl

/-- C143. A decomposition that fails makes `PCV` fail in the same way. -/
theorem C143_no_convergence (B : Dense ℚ) (k : ℤ) (threshold : ℝ) (tau : Option ℤ) (clustering : String)
    (useHeuristic : Bool) (e : PyErr) (labels : List ℕ) (h1 : 1 ≤ k) (h2 : k < B.rows) (h3 : k < B.cols) :
    pcvCall B k threshold tau "simple" clustering useHeuristic (.error e) labels = .error e := by
  rw [pcvCall, projCluster, simpleProj]
  simp only [if_true]
  rw [if_pos (by omega)]
  rfl

/-- C143. A number of clusters below one or above the number of rows is a `ValueError`. -/
theorem C143_clusters_out_of_range (B : Dense ℚ) (k : ℤ) (threshold : ℝ) (tau : ℤ)
    (useHeuristic : Bool) (labels : List ℕ) (h1 : 1 ≤ k) (h2 : k < B.rows) (h3 : k < B.cols)
    (h : tau < 1 ∨ (B.rows : ℤ) < tau) :
    pcvCall B k threshold (some tau) "simple" "kmeans" useHeuristic (.ok ()) labels = .error .valueError := by
  rw [pcvCall, projCluster, simpleProj, kmeans]
  simp only [if_true, Option.getD_some]
  rw [if_pos (by omega), if_neg (by omega)]
  rfl

/-- C143. An unknown projection is a `TypeError` on every matrix with a cell. -/
theorem C143_unknown_projection (B : Dense ℚ) (k : ℤ) (threshold : ℝ) (tau : Option ℤ)
    (projection clustering : String) (useHeuristic : Bool) (svd : Py Unit) (labels : List ℕ)
    (hp : projection ≠ "simple") (h1 : 0 < B.rows) (h2 : 0 < B.cols) :
    pcvCall B k threshold tau projection clustering useHeuristic svd labels = .error .typeError := by
  rw [pcvCall, projCluster, if_neg hp, if_neg (by omega)]
  rfl

/-- C143. An unknown clustering is not an error: there are no clusters. -/
theorem C143_unknown_clustering (B : Dense ℚ) (k : ℤ) (threshold : ℝ) (tau : Option ℤ) (clustering : String)
    (useHeuristic : Bool) (labels : List ℕ) (hc : clustering ≠ "kmeans")
    (h1 : 1 ≤ k) (h2 : k < B.rows) (h3 : k < B.cols) :
    pcvCall B k threshold tau "simple" clustering useHeuristic (.ok ()) labels = .ok ([], []) := by
  rw [pcvCall, projCluster, simpleProj]
  simp only [if_true]
  rw [if_pos (by omega), if_neg hc]
  rfl

/-! ### The script -/

/-- Row clusters are disjoint, also by position. -/
theorem class_index {labels : List ℕ} {i k x : ℕ} (hi : i < (groupByLabel labels).length)
    (hk : k < (groupByLabel labels).length) (h1 : x ∈ (groupByLabel labels)[i]) (h2 : x ∈ (groupByLabel labels)[k]) :
    i = k := by
  obtain ⟨hp, -, -⟩ := C89_row_clusters labels
  have hnd : (groupByLabel labels).flatten.Nodup := hp.nodup_iff.mpr List.nodup_range
  have hpw := List.pairwise_iff_getElem.mp (List.nodup_flatten.mp hnd).2
  by_contra hne
  rcases Nat.lt_or_gt_of_ne hne with h | h
  · exact hpw i k hi hk h h1 h2
  · exact hpw k i hk hi h h2 h1

theorem class_mem {labels : List ℕ} {c : List ℕ} {x : ℕ} (hc : c ∈ groupByLabel labels) (hx : x ∈ c) (r : ℕ) :
    r ∈ c ↔ r < labels.length ∧ labels.getD r 0 = labels.getD x 0 := by
  obtain ⟨h1, -, h3⟩ := C89_row_clusters labels
  have hlt : ∀ r ∈ c, r < labels.length := fun r hr =>
    List.mem_range.mp (h1.mem_iff.mp (List.mem_flatten.mpr ⟨c, hc, hr⟩))
  constructor
  · intro hr
    exact ⟨hlt r hr, (h3 r (hlt r hr) x (hlt x hx)).mp ⟨c, hc, hr, hx⟩⟩
  · rintro ⟨hr, he⟩
    obtain ⟨d, hd, hrd, hxd⟩ := (h3 r hr x (hlt x hx)).mpr he
    obtain ⟨i, hi, rfl⟩ := List.mem_iff_getElem.mp hc
    obtain ⟨k, hk, rfl⟩ := List.mem_iff_getElem.mp hd
    obtain rfl := class_index hi hk hx hxd
    exact hrd

theorem class_nodup {labels : List ℕ} {c : List ℕ} (hc : c ∈ groupByLabel labels) : c.Nodup := by
  obtain ⟨h1, -, -⟩ := C89_row_clusters labels
  have hnd : (groupByLabel labels).flatten.Nodup := h1.nodup_iff.mpr List.nodup_range
  exact (List.nodup_flatten.mp hnd).1 c hc

theorem class_exists {labels : List ℕ} {x : ℕ} (hx : x < labels.length) : ∃ c ∈ groupByLabel labels, x ∈ c := by
  obtain ⟨h1, -, -⟩ := C89_row_clusters labels
  exact List.mem_flatten.mp (h1.mem_iff.mpr (List.mem_range.mpr hx))

/-- The vote on a class, in terms of rows with the same label. -/
theorem vote_supported {A : Dense ℚ} {labels : List ℕ} (hl : labels.length = A.rows) {c : List ℕ} {x : ℕ}
    (hc : c ∈ groupByLabel labels) (hx : x ∈ c) (t : ℝ) (y : ℕ) (hy : y < A.cols) :
    y ∈ voted (rowsOf A c) t ↔ Supported A labels t x y := by
  have himg : c.toFinset = rowsLike A labels x := by
    ext r
    rw [List.mem_toFinset, class_mem hc hx, rowsLike, Finset.mem_filter, Finset.mem_range, hl]
  have hnd := class_nodup hc
  have hcard : ∀ (P : ℕ → Prop) [DecidablePred P],
      ((Finset.range c.length).filter fun a => P (c.getD a 0)).card = (c.toFinset.filter P).card := by
    intro P _
    refine Finset.card_bij (fun a _ => c.getD a 0) ?_ ?_ ?_
    · intro a ha
      rw [Finset.mem_filter, Finset.mem_range] at ha
      rw [Finset.mem_filter, List.mem_toFinset]
      refine ⟨?_, ha.2⟩
      rw [getD_lt ha.1]
      exact List.getElem_mem _
    · intro a ha b hb he
      rw [Finset.mem_filter, Finset.mem_range] at ha hb
      rw [getD_lt ha.1, getD_lt hb.1] at he
      exact (hnd.getElem_inj_iff).mp he
    · intro r hr
      rw [Finset.mem_filter, List.mem_toFinset] at hr
      obtain ⟨a, ha, rfl⟩ := List.mem_iff_getElem.mp hr.1
      exact ⟨a, Finset.mem_filter.mpr ⟨Finset.mem_range.mpr ha, by rw [getD_lt ha]; exact hr.2⟩, getD_lt ha _⟩
  have hlen : (c.length : ℝ) = ((rowsLike A labels x).card : ℝ) := by
    rw [← himg, List.toFinset_card_of_nodup hnd]
  have hcnt := hcard fun r => A.at_ r y ≠ 0
  rw [himg] at hcnt
  rw [voted, Finset.mem_filter, Finset.mem_range, Supported, ← hlen]
  constructor
  · rintro ⟨-, h⟩
    rw [← hcnt]
    exact h
  · intro h
    refine ⟨hy, ?_⟩
    rw [← hcnt] at h
    exact h

theorem covers_mem {pairs : List (List ℕ × List ℕ)} {j x y : ℕ} (h : Covers pairs j x y) :
    pairs.getD j ([], []) ∈ pairs := by
  rw [getD_lt h.1]; exact List.getElem_mem _

theorem shown_mem {left right : List (List ℕ)} {p : List ℕ × List ℕ} (h : p ∈ shownPairs left right) :
    ∃ i, ∃ h1 : i < left.length, ∃ h2 : i < right.length, p = (left[i], right[i]) := by
  obtain ⟨i, hi, he⟩ := List.mem_iff_getElem.mp (List.mem_filter.mp h).1
  rw [List.getElem_zip] at he
  rw [List.length_zip] at hi
  exact ⟨i, by omega, by omega, he.symm⟩

theorem zip_fst_sublist : ∀ (l r : List (List ℕ)), ((l.zip r).map Prod.fst).Sublist l
  | [], _ => by simp
  | a :: l, [] => by simp
  | a :: l, b :: r => by
    rw [List.zip_cons_cons, List.map_cons]
    exact (zip_fst_sublist l r).cons_cons a

/-- Of the pairs shown only one contains a given row. -/
theorem shown_index {labels : List ℕ} {right : List (List ℕ)} {j k x : ℕ}
    (hj : j < (shownPairs (groupByLabel labels) right).length)
    (hk : k < (shownPairs (groupByLabel labels) right).length)
    (h1 : x ∈ ((shownPairs (groupByLabel labels) right)[j]).1)
    (h2 : x ∈ ((shownPairs (groupByLabel labels) right)[k]).1) : j = k := by
  obtain ⟨hp, -, -⟩ := C89_row_clusters labels
  have hnd : (groupByLabel labels).flatten.Nodup := hp.nodup_iff.mpr List.nodup_range
  have hpw := (List.nodup_flatten.mp hnd).2
  have hsub : ((shownPairs (groupByLabel labels) right).map Prod.fst).Sublist (groupByLabel labels) := by
    refine (List.filter_sublist.map _).trans ?_
    exact zip_fst_sublist _ _
  have hpw' := List.pairwise_iff_getElem.mp (hpw.sublist hsub)
  simp only [List.length_map, List.getElem_map] at hpw'
  by_contra hne
  rcases Nat.lt_or_gt_of_ne hne with h | h
  · exact hpw' j k hj hk h h1 h2
  · exact hpw' k j hk hj h h2 h1

/-- C143. The script on a matrix with more than five rows and columns: the file holds the matrix, the rearranged
matrix and the coloured one. A cell of the last is coloured iff its column is not zero for more than a share of
the rows with the k-means label of its row; the share depends on the label only and is between 1/50 and 9/10.
Coloured cells have the same colour iff their rows have the same label. -/
theorem C143_script (A : Dense ℚ) (labels lp rp : List ℕ) (s : Screen) (h1 : 5 < A.rows) (h2 : 5 < A.cols)
    (hl : labels.length = A.rows) :
    ∃ rows cols M C, Lists A.rows rows ∧ Lists A.cols cols ∧ Rearranged A rows cols M ∧
      C.rows = A.rows ∧ C.cols = A.cols ∧
      (∃ t : ℕ → ℝ, (∀ l, 1 / 50 < t l ∧ t l < 9 / 10) ∧ ∀ a < A.rows, ∀ b < A.cols,
        (C.at_ a b ≠ 0 ↔ Supported A labels (t (labels.getD (rows.getD a 0) 0)) (rows.getD a 0) (cols.getD b 0))) ∧
      (∀ a < A.rows, ∀ b < A.cols, ∀ a' < A.rows, ∀ b' < A.cols, C.at_ a b ≠ 0 → C.at_ a' b' ≠ 0 →
        (C.at_ a b = C.at_ a' b' ↔ labels.getD (rows.getD a 0) 0 = labels.getD (rows.getD a' 0) 0)) ∧
      viewerScript A (.ok ()) labels lp rp s =
        (.ok [[.values A], [.values M], [.values M, .colours C]],
          { files := fun f => if f = "plots/dialect.pdf" then
              some [[.values A], [.values M], [.values M, .colours C]] else s.files f,
            opened := [], shown := s.shown }) := by
  obtain ⟨right, hpcv, hvote⟩ := C89_pcv A labels hl (1 / 2) true
  have hlen := hvote.length_eq
  have hv : ∀ i (hi : i < (groupByLabel labels).length) (hr : i < right.length),
      VoteOn A (1 / 2) true (groupByLabel labels)[i] right[i] := fun i hi hr => hvote.get hi hr
  have hpaired : Paired (groupByLabel labels) right := fun i hi _ => hlen ▸ hi
  have hgrid : ∀ i (hi : i < (groupByLabel labels).length) (hr : i < right.length),
      ∃ t : ℝ, 1 / 50 < t ∧ t < 9 / 10 ∧ right[i].toFinset = voted (rowsOf A (groupByLabel labels)[i]) t := by
    intro i hi hr
    have := (hv i hi hr).2
    rw [if_pos rfl] at this
    obtain ⟨p, hp, q, hq, t, g1, g2, g3⟩ := this
    refine ⟨t, ?_, ?_, g3⟩
    · obtain ⟨n, hn, rfl⟩ := List.mem_map.mp hq
      have : (0 : ℝ) ≤ (n : ℝ) / 50 := by positivity
      linarith
    · obtain ⟨n, hn, rfl⟩ := List.mem_map.mp hp
      have hn' : n ≤ 6 := by have := List.mem_range.mp hn; omega
      have : (n : ℝ) ≤ 6 := by exact_mod_cast hn'
      linarith
  have hcolt : ∀ i (hi : i < (groupByLabel labels).length) (hr : i < right.length), ∀ y ∈ right[i], y < A.cols := by
    intro i hi hr y hy
    obtain ⟨t, -, -, ht⟩ := hgrid i hi hr
    have : y ∈ voted (rowsOf A (groupByLabel labels)[i]) t := ht ▸ List.mem_toFinset.mpr hy
    exact Finset.mem_range.mp (Finset.mem_filter.mp this).1
  have hfits : Fits A (groupByLabel labels) right := by
    intro p hp
    obtain ⟨i, hi, hr, rfl⟩ := shown_mem hp
    refine ⟨fun x hx => ?_, hcolt i hi hr⟩
    rw [← hl]
    exact ((class_mem (List.getElem_mem hi) hx x).mp hx).1
  obtain ⟨rows, cols, M, C, l1, l2, hM, ⟨k1, k2, k3⟩, hplot⟩ := C142_figure A _ right hpaired hfits
  have hrow : ∀ a < A.rows, rows.getD a 0 < A.rows := by
    intro a ha
    refine (l1.2 _).mp ?_
    rw [getD_lt (l1.length ▸ ha)]
    exact List.getElem_mem _
  have hcol : ∀ b < A.cols, cols.getD b 0 < A.cols := by
    intro b hb
    refine (l2.2 _).mp ?_
    rw [getD_lt (l2.length ▸ hb)]
    exact List.getElem_mem _
  have hne : ∀ a < A.rows, ∀ b < A.cols, C.at_ a b ≠ 0 →
      ∃ j, Covers (shownPairs (groupByLabel labels) right) j (rows.getD a 0) (cols.getD b 0) ∧ C.at_ a b = j + 1 := by
    intro a ha b hb hne
    rcases k3 a ha b hb with ⟨-, h⟩ | ⟨j, h, h', -⟩
    · exact absurd h hne
    · exact ⟨j, h, h'⟩
  refine ⟨rows, cols, M, C, l1, l2, hM, k1, k2, ?_, ?_, ?_⟩
  · have key : ∀ l : ℕ, ∃ t : ℝ, 1 / 50 < t ∧ t < 9 / 10 ∧ ∀ x < A.rows, labels.getD x 0 = l → ∀ y < A.cols,
        ((∃ j, Covers (shownPairs (groupByLabel labels) right) j x y) ↔ Supported A labels t x y) := by
      intro l
      by_cases hex : ∃ x < A.rows, labels.getD x 0 = l
      · obtain ⟨x0, hx0, rfl⟩ := hex
        obtain ⟨c, hc, hxc⟩ := class_exists (hl ▸ hx0)
        obtain ⟨i, hi, rfl⟩ := List.mem_iff_getElem.mp hc
        have hr : i < right.length := hlen ▸ hi
        obtain ⟨t, g1, g2, g3⟩ := hgrid i hi hr
        refine ⟨t, g1, g2, ?_⟩
        intro x hx he y hy
        have hxc' := (class_mem hc hxc x).mpr ⟨hl ▸ hx, he⟩
        rw [← vote_supported hl hc hxc' t y hy, ← g3, List.mem_toFinset]
        constructor
        · rintro ⟨j, hj⟩
          obtain ⟨i', hi', hr', he'⟩ := shown_mem (covers_mem hj)
          have h3 := hj.2.1
          have h4 := hj.2.2
          rw [he'] at h3 h4
          obtain rfl := class_index hi hi' hxc' h3
          exact h4
        · intro hy'
          have hmem : ((groupByLabel labels)[i], right[i]) ∈ shownPairs (groupByLabel labels) right := by
            refine List.mem_filter.mpr ⟨List.mem_iff_getElem.mpr ⟨i, by rw [List.length_zip]; omega, by
              rw [List.getElem_zip]⟩, ?_⟩
            simp only [decide_eq_true_eq]
            exact ⟨List.ne_nil_of_mem hxc', List.ne_nil_of_mem hy'⟩
          obtain ⟨j, hj, he⟩ := List.mem_iff_getElem.mp hmem
          refine ⟨j, hj, ?_, ?_⟩
          · rw [getD_lt hj, he]; exact hxc'
          · rw [getD_lt hj, he]; exact hy'
      · exact ⟨1 / 2, by norm_num, by norm_num, fun x hx he => absurd ⟨x, hx, he⟩ hex⟩
    choose t ht1 ht2 ht3 using key
    refine ⟨t, fun l => ⟨ht1 l, ht2 l⟩, ?_⟩
    intro a ha b hb
    rw [← ht3 _ _ (hrow a ha) rfl _ (hcol b hb)]
    rcases k3 a ha b hb with ⟨hno, h0⟩ | ⟨j, hj, h', -⟩
    · exact ⟨fun h => absurd h0 h, fun ⟨j, hj⟩ => absurd hj (hno j)⟩
    · exact ⟨fun _ => ⟨j, hj⟩, fun _ => by omega⟩
  · intro a ha b hb a' ha' b' hb' hn hn'
    obtain ⟨j, hj, e⟩ := hne a ha b hb hn
    obtain ⟨j', hj', e'⟩ := hne a' ha' b' hb' hn'
    obtain ⟨i, hi, hr, hei⟩ := shown_mem (covers_mem hj)
    have hx := hj.2.1
    rw [e, e']
    constructor
    · intro heq
      obtain rfl : j = j' := by omega
      have hx' := hj'.2.1
      rw [hei] at hx hx'
      exact ((class_mem (List.getElem_mem hi) hx' _).mp hx).2
    · intro heq
      rw [hei] at hx
      have hx' := (class_mem (List.getElem_mem hi) hx (rows.getD a' 0)).mpr ⟨hl ▸ hrow a' ha', heq.symm⟩
      have h3 : rows.getD a' 0 ∈ ((shownPairs (groupByLabel labels) right).getD j ([], [])).1 := by
        rw [hei]; exact hx'
      have h4 := hj'.2.1
      rw [getD_lt hj.1] at h3
      rw [getD_lt hj'.1] at h4
      rw [shown_index hj.1 hj'.1 h3 h4]
  · rw [viewerScript, C143_pcv_call A 5 _ none true labels (by norm_num) (by exact_mod_cast h1)
      (by exact_mod_cast h2) (by simp), hpcv]
    change plotClusteredMatrix _ A _ right lp rp s = _
    rw [hplot _ lp rp s rfl (Or.inl rfl)]
    simp only [panels, finished, if_true, Option.some.injEq, eq_comm, List.append_assoc]
    rfl

/-- C143. On a matrix with five or fewer rows or columns the script raises `ValueError` before it draws. -/
theorem C143_script_small (A : Dense ℚ) (svd : Py Unit) (labels lp rp : List ℕ) (s : Screen)
    (h : A.rows ≤ 5 ∨ A.cols ≤ 5) : viewerScript A svd labels lp rp s = (.error .valueError, s) := by
  rw [viewerScript, C143_rank_out_of_range A 5 _ none "kmeans" true svd labels (by
    right; rcases h with h | h
    · left; exact_mod_cast h
    · right; exact_mod_cast h)]

/-- A matrix of six rows and columns meets the hypotheses of the script. -/
example : ∃ (A : Dense ℚ) (labels : List ℕ), 5 < A.rows ∧ 5 < A.cols ∧ labels.length = A.rows ∧
    A.at_ 0 0 ≠ A.at_ 0 1 :=
  ⟨{ rows := 6, cols := 6, at_ := fun a b => if a = b then 1 else 0 }, [0, 0, 1, 1, 2, 2], by simp, by simp, rfl, by simp⟩

end Biclus

end Verif
