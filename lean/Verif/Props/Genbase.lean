/-
C102: reading the `genbase` files.
-/
import Verif.Props.DenseArff
import Verif.Model.ArffFiles
import Verif.Spec.ArffFiles

namespace Verif

namespace Arff

variable {parse : Text → Py ℚ}

theorem mapM_genbase : ∀ {ts : List Text} {vs : List ℚ}, List.Forall₂ (GenbaseValue parse) ts vs →
    ts.mapM (genbaseCell parse) = .ok vs
  | _, _, .nil => rfl
  | _, _, .cons h hs => by
    rw [List.mapM_cons, mapM_genbase hs, genbaseCell]
    rcases h with ⟨h1, h2⟩ | ⟨h1, h2⟩ | ⟨h1, h2, h3⟩
    · rw [if_pos h1, h2]; rfl
    · rw [if_neg (by rw [h1]; decide), if_pos h1, h2]; rfl
    · rw [if_neg h1, if_neg h2]
      rcases h3 with ⟨h3, h4⟩ | ⟨h3, h4⟩
      · rw [if_pos h3, h4]; rfl
      · rw [if_neg h3, h4]; rfl

theorem genbaseRow_ok {line : Text} {row : List ℚ} (h : NamedRow parse line row) :
    genbaseRow parse row.length line = .ok row := by
  obtain ⟨name, ts, h, hv⟩ := h
  rw [genbaseRow, inner_cells h, List.drop_succ_cons, List.drop_zero, mapM_genbase hv]
  show (if row.length = row.length then _ else _) = _
  rw [if_pos rfl]

theorem readGenbase_body {lines : List Text} {attrs : List (Text × Bool)} {body : List Text}
    (h : HasGenbaseShape lines attrs body) {V : List (List ℚ)} (hV : List.Forall₂ (NamedRow parse) body V)
    (hlen : ∀ row ∈ V, row.length = attrs.length) {nl : ℕ} (h1 : 1 ≤ nl) (hnl : nl ≤ attrs.length) (s : ℚ) :
    readGenbase parse lines nl s = (do
      let numeric := ((List.range attrs.length).filter fun i => (attrs.getD i ([], false)).2).map (· + 1)
      let D ← binariseAll Quantile.binariseBelow s (attrs.length + 1 - nl) numeric
        (V.map fun r => r.take (attrs.length + 1 - nl))
      return (dummies numeric (attrs.length + 1 - nl) D,
        (V.map fun r => r.drop (attrs.length + 1 - nl)).map (·.map truncate))) := by
  obtain ⟨a1, a2, nd, decls, sep, data, rfl, hd, hs⟩ := h
  have hlen' := hd.length_eq
  have hmap : body.mapM (genbaseRow parse attrs.length) = .ok V := by
    clear hd hlen'
    induction hV with
    | nil => rfl
    | cons h _ ih =>
      have h' := genbaseRow_ok h
      rw [hlen _ List.mem_cons_self] at h'
      rw [List.mapM_cons, h', ih fun row hrow => hlen row (List.mem_cons_of_mem _ hrow)]; rfl
  have hsplit : ((attrs.length : ℤ) + 1 - (nl : ℤ)) = ((attrs.length + 1 - nl : ℕ) : ℤ) := by omega
  have hto : ∀ {α : Type} (r : List α), sliceTo r ((attrs.length : ℤ) + 1 - (nl : ℤ)) =
      r.take (attrs.length + 1 - nl) := by
    intro α r
    rw [sliceTo, if_pos (by omega), hsplit, Int.toNat_natCast]
  have hfrom : ∀ {α : Type} (r : List α), sliceFrom r ((attrs.length : ℤ) + 1 - (nl : ℤ)) =
      r.drop (attrs.length + 1 - nl) := by
    intro α r
    rw [sliceFrom, if_pos (by omega), hsplit, Int.toNat_natCast]
  rw [readGenbase]
  show (do let attrs ← denseAttributes (decls ++ sep :: data :: body); _) = _
  rw [denseAttributes_ok hs _ hd]
  have hl : ¬ (a1 :: a2 :: nd :: (decls ++ sep :: data :: body)).length < attrs.length + 5 := by
    simp; omega
  have hdrop : (a1 :: a2 :: nd :: (decls ++ sep :: data :: body)).drop (attrs.length + 5) = body := by
    rw [← hlen', show decls.length + 5 = (decls.length + 2) + 1 + 1 + 1 by omega, List.drop_succ_cons,
      List.drop_succ_cons, List.drop_succ_cons, List.drop_append, List.drop_eq_nil_of_le (by omega), List.nil_append,
      show decls.length + 2 - decls.length = 2 by omega]
    rfl
  have hwl : (List.take (attrs.length + 1 - nl) (List.range attrs.length)).length = attrs.length + 1 - nl := by
    rw [List.length_take, List.length_range]; omega
  simp only [bind, Except.bind, if_neg hl, hdrop, hmap, hto, hfrom, hwl]

/-- Column `c` is treated as numeric by the reader: the attribute before it is declared `numeric`. -/
abbrev afterNumeric (attrs : List (Text × Bool)) (c : ℕ) : Prop := 0 < c ∧ isNumeric attrs (c - 1)

/-- **C102.** Reading a `genbase` file with the values `V` and `nl` labels: only the last `nl - 1` columns are
returned as labels, so that the first label is a feature. The column after an attribute declared `numeric` is
0 below its quantile and 1 from it on. The other columns are treated as in a dense file. -/
theorem C102_genbase {lines : List Text} {attrs : List (Text × Bool)} {body : List Text}
    (h : HasGenbaseShape lines attrs body) {V : List (List ℚ)} (hne : V ≠ [])
    (hV : List.Forall₂ (NamedRow parse) body V) (hlen : ∀ row ∈ V, row.length = attrs.length) {nl : ℕ} (h1 : 1 ≤ nl)
    (hnl : nl ≤ attrs.length) {s : ℚ} (hs0 : 0 ≤ s) (hs1 : s ≤ 1)
    (hfeat : ∀ c, isNumeric attrs c → c < attrs.length - nl) :
    ∃ D L, ∃ q : ℕ → ℚ, readGenbase parse lines nl s = .ok (D, L) ∧
      (∀ c, afterNumeric attrs c → Quantile.IsQuantile (column V c) s (q c)) ∧
      D.length = V.length ∧ L.length = V.length ∧
      ∀ r < V.length, (L.getD r []).length = nl - 1 ∧
        L.getD r [] = ((V.getD r []).drop (attrs.length - (nl - 1))).map truncate ∧
        D.getD r [] =
          (((List.range (attrs.length - (nl - 1))).filter fun c =>
              afterNumeric attrs c ∨ (valuesOf (column V c)).length ≤ 2).map fun c =>
            if afterNumeric attrs c then (if (V.getD r []).getD c 0 < q c then 0 else 1)
            else truncate ((V.getD r []).getD c 0)) ++
          ((List.range (attrs.length - (nl - 1))).filter fun c =>
              ¬ (afterNumeric attrs c ∨ (valuesOf (column V c)).length ≤ 2)).flatMap fun c =>
            (valuesOf (column V c)).map fun v => if (V.getD r []).getD c 0 = v then 1 else 0 := by
  obtain ⟨w, hw⟩ : ∃ w, w = attrs.length + 1 - nl := ⟨_, rfl⟩
  have hw' : attrs.length - (nl - 1) = w := by omega
  obtain ⟨num, hnum⟩ : ∃ num, num = ((List.range attrs.length).filter fun i =>
    (attrs.getD i ([], false)).2).map (· + 1) := ⟨_, rfl⟩
  have hmem : ∀ c, c ∈ num ↔ afterNumeric attrs c := by
    intro c
    rw [hnum, List.mem_map]
    constructor
    · rintro ⟨i, hi, rfl⟩
      exact ⟨Nat.succ_pos _, (List.mem_filter.mp hi).2⟩
    · rintro ⟨hc, hn⟩
      refine ⟨c - 1, List.mem_filter.mpr ⟨List.mem_range.mpr ?_, hn⟩, by omega⟩
      have := hfeat _ hn
      omega
  obtain ⟨D, q, e, hq, hl, hD⟩ := features_ok hne hlen (show w ≤ attrs.length by omega) (thresholds_binariseBelow s)
    hs0 hs1 (num := num)
    (by rw [hnum]; exact (List.Nodup.filter _ List.nodup_range).map (fun a b h => Nat.succ.inj h))
    (fun i hi => by
      have := (hmem i).mp hi
      have := hfeat _ this.2
      omega)
  refine ⟨D, (V.map fun r => r.drop w).map (·.map truncate), q, ?_, fun c hc => hq c ((hmem c).mpr hc), hl, by simp, ?_⟩
  · rw [readGenbase_body h hV hlen h1 hnl s, ← hnum, ← hw]
    cases hE : binariseAll Quantile.binariseBelow s w num (V.map fun r => r.take w) with
    | error x => rw [hE] at e; cases e
    | ok D' =>
      rw [hE] at e
      cases e
      simp only [hE, bind, Except.bind, pure, Except.pure]
  · intro r hr
    have hL : ((V.map fun r => r.drop w).map (·.map truncate)).getD r [] = ((V.getD r []).drop w).map truncate := by
      rw [getD_lt (by simpa using hr), getD_lt hr]
      simp
    rw [hw', hL]
    refine ⟨?_, rfl, ?_⟩
    · have := hlen (V.getD r []) (by rw [getD_lt hr]; exact List.getElem_mem _)
      rw [List.length_map, List.length_drop, this]
      omega
    · rw [hD r hr]
      simp only [hmem]

/-- **C102.** If every value is 0 or 1 and no attribute is numeric, the features are all columns up to and
including the first label. -/
theorem C102_first_label_is_a_feature {lines : List Text} {attrs : List (Text × Bool)} {body : List Text}
    (h : HasGenbaseShape lines attrs body) {V : List (List ℚ)} (hne : V ≠ [])
    (hV : List.Forall₂ (NamedRow parse) body V) (hlen : ∀ row ∈ V, row.length = attrs.length) {nl : ℕ} (h1 : 1 ≤ nl)
    (hnl : nl ≤ attrs.length) {s : ℚ} (hs0 : 0 ≤ s) (hs1 : s ≤ 1) (hnum : ∀ c, ¬ isNumeric attrs c)
    {B : List (List ℤ)} (hB : ∀ row ∈ B, ∀ v ∈ row, v = 0 ∨ v = 1) (hVB : V = B.map (·.map fun v : ℤ => (v : ℚ))) :
    ∃ D L, readGenbase parse lines nl s = .ok (D, L) ∧ D.length = B.length ∧ L.length = B.length ∧
      ∀ r < B.length, (L.getD r []).length = nl - 1 ∧ L.getD r [] = (B.getD r []).drop (attrs.length - nl + 1) ∧
        (D.getD r []).length = attrs.length - nl + 1 ∧
        D.getD r [] = (B.getD r []).take (attrs.length - nl) ++ [(B.getD r []).getD (attrs.length - nl) 0] := by
  obtain ⟨D, L, q, e, -, hD, hL, hr⟩ := C102_genbase h hne hV hlen h1 hnl hs0 hs1 (fun c hc => absurd hc (hnum c))
  have hlen2 : V.length = B.length := by rw [hVB, List.length_map]
  have hw : attrs.length - (nl - 1) = attrs.length - nl + 1 := by omega
  have hrow : ∀ r < B.length, V.getD r [] = (B.getD r []).map fun v : ℤ => (v : ℚ) := by
    intro r hr'
    rw [hVB, getD_lt (by simpa using hr'), getD_lt hr', List.getElem_map]
  have hBlen : ∀ r < B.length, (B.getD r []).length = attrs.length := by
    intro r hr'
    have := hlen (V.getD r []) (by rw [getD_lt (by omega)]; exact List.getElem_mem _)
    rw [hrow r hr', List.length_map] at this
    exact this
  have htr : ∀ z : ℤ, truncate (z : ℚ) = z := by
    intro z
    rw [truncate]
    split
    · exact Int.floor_intCast z
    · rw [show (-(z : ℚ)) = ((-z : ℤ) : ℚ) by push_cast; rfl, Int.floor_intCast, neg_neg]
  have hvals : ∀ c, (valuesOf (column V c)).length ≤ 2 := by
    intro c
    have : valuesOf (column V c) ⊆ [0, 1] := by
      intro v hv
      rw [valuesOf, Finset.mem_sort, List.mem_toFinset, column, List.mem_map] at hv
      obtain ⟨row, hrow', rfl⟩ := hv
      rw [hVB, List.mem_map] at hrow'
      obtain ⟨b, hb, rfl⟩ := hrow'
      by_cases hc : c < b.length
      · rw [getD_lt (by simpa using hc), List.getElem_map]
        rcases hB b hb _ (List.getElem_mem hc) with h | h
        · rw [h]; simp
        · rw [h]; simp
      · rw [List.getD_eq_default _ _ (by simpa using not_lt.mp hc)]; simp
    exact (List.Nodup.subperm (Finset.sort_nodup _ _) this).length_le
  refine ⟨D, L, e, hD.trans hlen2, hL.trans hlen2, ?_⟩
  intro r hr'
  obtain ⟨g1, g2, g3⟩ := hr r (by omega)
  refine ⟨g1, ?_, ?_⟩
  · rw [g2, hw, hrow r hr', ← List.map_drop, List.map_map]
    conv_rhs => rw [← List.map_id ((B.getD r []).drop (attrs.length - nl + 1))]
    exact List.map_congr_left (fun z _ => htr z)
  · have hfull : D.getD r [] = (B.getD r []).take (attrs.length - nl + 1) := by
      rw [g3, hw]
      have f1 : ((List.range (attrs.length - nl + 1)).filter fun c =>
          decide (afterNumeric attrs c ∨ (valuesOf (column V c)).length ≤ 2)) = List.range (attrs.length - nl + 1) := by
        rw [List.filter_eq_self]
        intro c _
        exact decide_eq_true (Or.inr (hvals c))
      have f2 : ((List.range (attrs.length - nl + 1)).filter fun c =>
          decide (¬ (afterNumeric attrs c ∨ (valuesOf (column V c)).length ≤ 2))) = [] := by
        rw [List.filter_eq_nil_iff]
        intro c _ hc
        exact (of_decide_eq_true hc) (Or.inr (hvals c))
      rw [f1, f2, List.flatMap_nil, List.append_nil]
      apply List.ext_getElem
      · rw [List.length_map, List.length_range, List.length_take, hBlen r hr']; omega
      · intro c c1 c2
        rw [List.length_map, List.length_range] at c1
        have hc : c < (B.getD r []).length := by rw [hBlen r hr']; omega
        rw [List.getElem_map, List.getElem_range, if_neg (fun hc => hnum _ hc.2), hrow r hr',
          getD_lt (by simpa using hc), List.getElem_map, htr, List.getElem_take]
    have hlt : attrs.length - nl < (B.getD r []).length := by rw [hBlen r hr']; omega
    refine ⟨by rw [hfull, List.length_take, hBlen r hr']; omega, ?_⟩
    rw [hfull, List.take_succ_eq_append_getElem hlt, getD_lt hlt]

/-- **C102.** If a label is declared `numeric`, the file cannot be read: `IndexError`. -/
theorem C102_numeric_label {lines : List Text} {attrs : List (Text × Bool)} {body : List Text}
    (h : HasGenbaseShape lines attrs body) {V : List (List ℚ)} (hne : V ≠ [])
    (hV : List.Forall₂ (NamedRow parse) body V) (hlen : ∀ row ∈ V, row.length = attrs.length) {nl : ℕ} (h1 : 1 ≤ nl)
    (hnl : nl ≤ attrs.length) {s : ℚ} (hs0 : 0 ≤ s) (hs1 : s ≤ 1) {c : ℕ} (hc : isNumeric attrs c)
    (hlab : attrs.length - nl ≤ c) : readGenbase parse lines nl s = .error .indexError := by
  have hlt : c < attrs.length := by
    by_contra hge
    unfold isNumeric at hc
    rw [List.getD_eq_default _ _ (not_lt.mp hge)] at hc
    exact absurd hc (by decide)
  rw [readGenbase_body h hV hlen h1 hnl s]
  simp only [bind, Except.bind]
  rw [binariseAll_index (thresholds_binariseBelow s) hs0 hs1 _ ⟨c + 1, List.mem_map.mpr ⟨c, List.mem_filter.mpr
    ⟨List.mem_range.mpr hlt, hc⟩, rfl⟩, by omega⟩ _ (by simpa using hne)]

/-- A file with the name of a protein, a feature and two labels. -/
def genbaseFile : List Text :=
  ["@relation r\n".toList, "\n".toList, "@attribute protein string\n".toList, "@attribute a {YES,NO}\n".toList,
   "@attribute y {YES,NO}\n".toList, "@attribute z {YES,NO}\n".toList, "\n".toList, "@data\n".toList,
   "P1,YES,NO,YES\n".toList, "P2,NO,YES,YES\n".toList]

/-- The hypotheses of C102 hold for this file. -/
example : HasGenbaseShape genbaseFile [("a".toList, false), ("y".toList, false), ("z".toList, false)]
      ["P1,YES,NO,YES\n".toList, "P2,NO,YES,YES\n".toList] ∧
    List.Forall₂ (NamedRow parse) ["P1,YES,NO,YES\n".toList, "P2,NO,YES,YES\n".toList] [[1, 0, 1], [0, 1, 1]] ∧
    ∀ c, ¬ isNumeric [("a".toList, false), ("y".toList, false), ("z".toList, false)] c := by
  refine ⟨⟨_, _, _, _, _, _, rfl, .cons ⟨by decide, "{YES,NO}\n".toList, by decide, by decide, Or.inl (by decide)⟩
    (.cons ⟨by decide, "{YES,NO}\n".toList, by decide, by decide, Or.inl (by decide)⟩
    (.cons ⟨by decide, "{YES,NO}\n".toList, by decide, by decide, Or.inl (by decide)⟩ .nil)), by decide, ?_⟩, ?_, ?_⟩
  · rintro ⟨rest, h⟩
    exact absurd (congrArg (fun l => l.head?) h) (by simp)
  · refine .cons ⟨"P1".toList, ["YES".toList, "NO".toList, "YES".toList], ⟨by decide, by decide, by decide⟩, ?_⟩
      (.cons ⟨"P2".toList, ["NO".toList, "YES".toList, "YES".toList], ⟨by decide, by decide, by decide⟩, ?_⟩ .nil)
    · exact .cons (Or.inl ⟨rfl, rfl⟩) (.cons (Or.inr (Or.inl ⟨rfl, rfl⟩)) (.cons (Or.inl ⟨rfl, rfl⟩) .nil))
    · exact .cons (Or.inr (Or.inl ⟨rfl, rfl⟩)) (.cons (Or.inl ⟨rfl, rfl⟩) (.cons (Or.inl ⟨rfl, rfl⟩) .nil))
  · intro c hc
    match c, hc with
    | 0, hc => exact absurd hc (by decide)
    | 1, hc => exact absurd hc (by decide)
    | 2, hc => exact absurd hc (by decide)
    | n + 3, hc => exact absurd hc (by simp [isNumeric])

end Arff

end Verif
