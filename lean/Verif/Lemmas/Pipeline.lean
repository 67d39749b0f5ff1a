/-
Lemmas on tables, their sparse form, and the scores of rules.
-/
import Verif.Spec.Pipeline
import Verif.Props.Load
import Verif.Props.Learner
import Verif.Props.Predict
import Verif.Props.Coverage
import Verif.Props.Evaluation

namespace Verif

namespace Pipeline

open Load (Mat Obj World)
open Cmp

theorem mem_lineOf {L : ℕ} {r : List ℤ} {e : ℕ × ℤ} :
    e ∈ lineOf L r ↔ e.1 < L ∧ e.2 = r.getD e.1 0 ∧ e.2 ≠ 0 := by
  obtain ⟨j, v⟩ := e
  simp only [lineOf, List.mem_filter, List.mem_map, List.mem_range, Prod.mk.injEq, ne_eq, decide_not,
    Bool.not_eq_true', decide_eq_false_iff_not]
  constructor
  · rintro ⟨⟨a, h1, rfl, rfl⟩, h2⟩
    exact ⟨h1, rfl, h2⟩
  · rintro ⟨h1, rfl, h2⟩
    exact ⟨⟨j, h1, rfl, rfl⟩, h2⟩

@[simp] theorem toCsr_nMajor (m : Mat) : (toCsr m).nMajor = m.rows.length := by simp [toCsr, ofLines]

@[simp] theorem toCsr_nMinor (m : Mat) : (toCsr m).nMinor = m.ncols := rfl

theorem toCsr_wf (m : Mat) : (toCsr m).WF :=
  wf_ofLines _ _ (by
    intro l hl e he
    obtain ⟨r, -, rfl⟩ := List.mem_map.1 hl
    exact (mem_lineOf.1 he).1)

theorem toCsr_binary {m : Mat} (h : ZeroOne m) : (toCsr m).Binary where
  toWF := toCsr_wf m
  data_one := by
    intro d hd
    simp only [toCsr, ofLines, List.mem_map, List.mem_flatten] at hd
    obtain ⟨e, ⟨l, ⟨r, hr, rfl⟩, he⟩, rfl⟩ := hd
    obtain ⟨h1, h2, h3⟩ := mem_lineOf.1 he
    obtain ⟨hl, hv⟩ := h r hr
    have hlt : e.1 < r.length := hl ▸ h1
    rw [List.getD_eq_getElem _ _ hlt] at h2
    rcases hv _ (List.getElem_mem hlt) with h0 | h0
    · exact absurd (h2.trans h0) h3
    · exact h2.trans h0
  nodup := by
    intro i hi
    have hi' : i < (m.rows.map (lineOf m.ncols)).length := by simpa using hi
    rw [toCsr, segIdx_ofLines _ _ _ hi']
    simp only [List.getElem_map]
    have : ((lineOf m.ncols (m.rows[i]'(by simpa using hi'))).map Prod.fst).Sublist (List.range m.ncols) := by
      unfold lineOf
      refine (List.filter_sublist.map Prod.fst).trans ?_
      rw [List.map_map]
      exact (List.map_id'' (fun _ => rfl) _ : List.map (Prod.fst ∘ fun j => (j, _)) _ = _) ▸ List.Sublist.refl _
    exact this.nodup List.nodup_range

theorem stored_toCsr {m : Mat} (h : ZeroOne m) (i j : ℕ) : (toCsr m).Stored i j ↔ HasOne m i j := by
  by_cases hi : i < m.rows.length
  · have hi' : i < (m.rows.map (lineOf m.ncols)).length := by simpa using hi
    rw [toCsr, stored_ofLines _ _ _ _ hi']
    obtain ⟨hl, hv⟩ := h _ (List.getElem_mem hi)
    simp only [List.getElem_map, List.mem_map, HasOne, List.getElem?_eq_getElem hi, Option.some.injEq,
      exists_eq_left']
    constructor
    · rintro ⟨e, he, rfl⟩
      obtain ⟨h1, h2, h3⟩ := mem_lineOf.1 he
      have hlt : e.1 < m.rows[i].length := hl ▸ h1
      rw [List.getD_eq_getElem _ _ hlt] at h2
      rw [List.getElem?_eq_getElem hlt]
      rcases hv _ (List.getElem_mem hlt) with h0 | h0
      · exact absurd (h2.trans h0) h3
      · rw [h0]
    · intro hj
      obtain ⟨hlt, hone⟩ := List.getElem?_eq_some_iff.1 hj
      exact ⟨(j, 1), mem_lineOf.2 ⟨hl ▸ hlt, by rw [List.getD_eq_getElem _ _ hlt, hone], by simp⟩, rfl⟩
  · constructor
    · intro hs
      have := hs.major_lt (toCsr_wf m)
      simp only [toCsr_nMajor] at this
      exact absurd this hi
    · rintro ⟨r, hr, -⟩
      exact absurd (List.getElem?_eq_some_iff.1 hr).1 hi

theorem HasOne.lt {m : Mat} {i j : ℕ} (h : HasOne m i j) : i < m.rows.length := by
  obtain ⟨r, hr, -⟩ := h
  exact (List.getElem?_eq_some_iff.1 hr).1

theorem HasOne.col_lt {m : Mat} (hz : ZeroOne m) {i j : ℕ} (h : HasOne m i j) : j < m.ncols := by
  obtain ⟨r, hr, hj⟩ := h
  obtain ⟨hi, rfl⟩ := List.getElem?_eq_some_iff.1 hr
  exact (hz _ (List.getElem_mem hi)).1 ▸ (List.getElem?_eq_some_iff.1 hj).1

theorem hasAll_iff {m : Mat} (h : ZeroOne m) (items : List ℤ) (i : ℕ) :
    HasAll m items i ↔ ∀ f ∈ items, 0 ≤ f ∧ (toCsr m).Stored i f.toNat := by
  unfold HasAll
  refine forall₂_congr fun f _ => ?_
  rw [stored_toCsr h]
  constructor
  · rintro ⟨j, rfl, hj⟩
    exact ⟨by omega, by simpa using hj⟩
  · rintro ⟨h0, hj⟩
    exact ⟨f.toNat, by omega, hj⟩

theorem fires_iff {m : Mat} (h : ZeroOne m) (r : Rule) (i : ℕ) : Fires (toCsr m) r i ↔ HasAll m r.head i :=
  (hasAll_iff h _ _).symm

theorem ones_toCsr {m : Mat} (h : ZeroOne m) : ones (toCsr m) = cells m.rows.length m.ncols (HasOne m) := by
  ext e
  simp only [ones, cells, toCsr_nMajor, toCsr_nMinor, Finset.mem_filter, stored_toCsr h]

theorem mem_cells {n L : ℕ} {p : ℕ → ℕ → Prop} {e : ℕ × ℕ} :
    e ∈ cells n L p ↔ e.1 < n ∧ e.2 < L ∧ p e.1 e.2 := by
  simp [cells, and_assoc]

/-- What `predict` returns for rules with valid labels, seen as a set of positions. -/
theorem predict_spec {X Y : Mat} (hX : ZeroOne X) (rules : List Rule) (L : ℕ) (hn : X.rows.length = Y.rows.length)
    (hL : Y.ncols = L) (hr : ∀ r ∈ rules, ∀ l ∈ r.tail, 0 ≤ l ∧ l < L) :
    ∃ P, predict rules (some L) (toCsr X) = .ok P ∧ P.nMajor = Y.rows.length ∧ P.nMinor = Y.ncols ∧ P.Binary ∧
      ones P = cells Y.rows.length Y.ncols (Predicts rules X) := by
  classical
  obtain ⟨P, h1, h2, h3, h4, h5⟩ := C14_predict_exact rules L (toCsr X) fun i _ r h _ => hr r h
  refine ⟨P, h1, by simpa [hn] using h2, by rw [h3, hL], h4, ?_⟩
  have h2' : P.nMajor = Y.rows.length := by simpa [hn] using h2
  ext e
  rw [mem_ones h4.toWF, mem_cells, hL]
  constructor
  · intro hs
    have a1 := hs.major_lt h4.toWF
    have a2 := hs.minor_lt h4.toWF
    rw [h3] at a2
    refine ⟨by omega, a2, ?_⟩
    have hv := h4.val_eq e.1 e.2 a1
    rw [if_pos hs] at hv
    obtain ⟨r, hr, hf, hl⟩ := (h5 e.1 (by rw [← h2]; exact a1) e.2 a2).1.1 hv
    exact ⟨r, hr, (fires_iff hX r _).1 hf, hl⟩
  · rintro ⟨a1, a2, r, hr, hf, hl⟩
    have hv := (h5 e.1 (by rw [← h2, h2']; exact a1) e.2 a2).1.2 ⟨r, hr, (fires_iff hX r _).2 hf, hl⟩
    rw [h4.val_eq e.1 e.2 (by omega)] at hv
    by_contra hc
    rw [if_neg hc] at hv
    cases hv

theorem score_eq {P T : Cmp} (hP : P.Binary) (hT : T.Binary) (hs : SameShape P T) :
    hammingAccuracy P T = score T.nMajor T.nMinor (ones P) (ones T) "hamming_accuracy" ∧
    subsetAccuracy P T = score T.nMajor T.nMinor (ones P) (ones T) "subset_accuracy" ∧
    microPrecision P T = score T.nMajor T.nMinor (ones P) (ones T) "micro_precision" ∧
    microRecall P T = score T.nMajor T.nMinor (ones P) (ones T) "micro_recall" ∧
    microF1 P T = score T.nMajor T.nMinor (ones P) (ones T) "micro_f1" ∧
    macroPrecision P T = score T.nMajor T.nMinor (ones P) (ones T) "macro_precision" ∧
    macroRecall P T = score T.nMajor T.nMinor (ones P) (ones T) "macro_recall" ∧
    macroF1 P T = score T.nMajor T.nMinor (ones P) (ones T) "macro_f1" := by
  classical
  obtain ⟨a1, a2⟩ := C67_accuracies P T hP hT hs
  obtain ⟨b1, b2, b3⟩ := C67_micro P T hP hT hs
  obtain ⟨c1, c2, c3⟩ := C67_macro P T hP hT hs
  refine ⟨?_, ?_, b1, b2, b3, c1, c2, c3⟩
  · rw [a1]; rfl
  · rw [a2]
    unfold score
    congr 3
    ext i
    simp only [Finset.mem_filter, Finset.mem_range, and_congr_right_iff]
    intro hi
    unfold SameRow
    constructor
    · intro h l hl
      rw [mem_ones hP.toWF, mem_ones hT.toWF]
      exact h l
    · intro h l
      by_cases hl : l < T.nMinor
      · have := h l hl
        rwa [mem_ones hP.toWF, mem_ones hT.toWF] at this
      · constructor
        · intro hx
          have := hx.minor_lt hP.toWF
          rw [hs.2.1] at this
          exact absurd this hl
        · intro hx
          exact absurd (hx.minor_lt hT.toWF) hl

theorem scoresOf_all {X Y : Mat} (hX : ZeroOne X) (hY : ZeroOne Y) (hn : X.rows.length = Y.rows.length)
    (hpos : 0 < Y.rows.length) (hL : 0 < Y.ncols) (o : LearnObj)
    (hr : ∀ b ∈ o.selected, ∀ l ∈ b.tail, 0 ≤ l ∧ l < Y.ncols) (L : ℕ) (hLe : Y.ncols = L) :
    ∃ P : Cmp, predict (o.selected.map BRule.toRule) (some L) (toCsr X) = .ok P ∧ P.nMajor = Y.rows.length ∧
      P.nMinor = Y.ncols ∧ ∀ (m : String) (f : Cmp → Cmp → ℚ), (m, f) ∈ name2func →
        f P (toCsr Y) = rulesScore (o.selected.map BRule.toRule) X Y m := by
  obtain ⟨P, h1, h2, h3, h4, h5⟩ := predict_spec (X := X) (Y := Y) hX (o.selected.map BRule.toRule) L hn hLe (by
    intro r hr' l hl
    obtain ⟨b, hb, rfl⟩ := List.mem_map.1 hr'
    rw [← hLe]
    exact hr b hb l hl)
  refine ⟨P, h1, h2, h3, ?_⟩
  have hs : SameShape P (toCsr Y) := ⟨by simpa using h2, by simpa using h3, by simpa using hpos, by simpa using hL⟩
  obtain ⟨a1, a2, a3, a4, a5, a6, a7, a8⟩ := score_eq h4 (toCsr_binary hY) hs
  rw [h5, ones_toCsr hY, toCsr_nMajor, toCsr_nMinor] at a1 a2 a3 a4 a5 a6 a7 a8
  intro m f hf
  simp only [name2func, List.mem_cons, Prod.mk.injEq, List.not_mem_nil, or_false] at hf
  rcases hf with ⟨rfl, rfl⟩ | ⟨rfl, rfl⟩ | ⟨rfl, rfl⟩ | ⟨rfl, rfl⟩ | ⟨rfl, rfl⟩ | ⟨rfl, rfl⟩ | ⟨rfl, rfl⟩ | ⟨rfl, rfl⟩
  · exact a1
  · exact a2
  · exact a3
  · exact a4
  · exact a5
  · exact a6
  · exact a7
  · exact a8

theorem card_cells_labels {Y : Mat} (hY : ZeroOne Y) :
    (labelCells (toCsr Y)).card = (cells Y.rows.length Y.ncols (HasOne Y)).card := by
  symm
  apply Finset.card_bij (fun e _ => (e.1, (e.2 : ℤ)))
  · intro e he
    rw [mem_labelCells (toCsr_wf Y)]
    rw [mem_cells] at he
    exact ⟨by simp, by simpa [stored_toCsr hY] using he.2.2⟩
  · rintro ⟨a, b⟩ - ⟨c, d⟩ - h
    simpa using h
  · rintro ⟨i, l⟩ h
    rw [mem_labelCells (toCsr_wf Y)] at h
    obtain ⟨h0, hs⟩ := h
    simp only [stored_toCsr hY] at hs
    exact ⟨(i, l.toNat), mem_cells.2 ⟨hs.lt, hs.col_lt hY, hs⟩, by simp; omega⟩

theorem covers_iff {X Y : Mat} (hX : ZeroOne X) (hY : ZeroOne Y) (hn : X.rows.length = Y.rows.length)
    {rs : List BRule} (hb : ∀ b ∈ rs, BoundTo (toCsr X) (toCsr Y) b) (i l : ℕ) :
    (∃ r ∈ rs, (i, (l : ℤ)) ∈ area r) ↔ Covers (rs.map BRule.toRule) X Y i l := by
  unfold Covers
  simp only [List.mem_map, exists_exists_and_eq_and]
  refine exists_congr fun b => and_congr_right fun hbm => ?_
  obtain ⟨-, -, -, -, h5, -⟩ := (hb b hbm).spec (toCsr_wf X) (toCsr_wf Y) (by simpa using hn)
  rw [area, Finset.mem_product, List.mem_toFinset, h5, fires_iff hX, hasAll_iff hY, and_assoc]

theorem coverageOf_eq {X Y : Mat} (hX : ZeroOne X) (hY : ZeroOne Y) (hn : X.rows.length = Y.rows.length)
    {rs : List BRule} (hb : ∀ b ∈ rs, BoundTo (toCsr X) (toCsr Y) b) :
    coverageOf (toCsr Y) rs = .ok (coverageSpec (rs.map BRule.toRule) X Y) := by
  have hc := card_cells_labels hY
  unfold coverageSpec
  by_cases h0 : (cells Y.rows.length Y.ncols (HasOne Y)).card = 0
  · rw [if_pos h0]
    have hemp : labelCells (toCsr Y) = ∅ := Finset.card_eq_zero.1 (hc.trans h0)
    have hcells : rs.flatMap cellsOf = [] := by
      rw [List.flatMap_eq_nil_iff]
      intro b hbm
      obtain ⟨-, h2, -, -, h5, -⟩ := (hb b hbm).spec (toCsr_wf X) (toCsr_wf Y) (by simpa using hn)
      have hs : b.support = ∅ := by
        rw [Finset.eq_empty_iff_forall_notMem]
        intro i hi
        obtain ⟨l, hl⟩ := List.exists_mem_of_ne_nil _ h2
        have : (i, l) ∈ labelCells (toCsr Y) := (mem_labelCells (toCsr_wf Y) _).2 (((h5 i).1 hi).2 l hl)
        rw [hemp] at this
        simp at this
      unfold cellsOf
      rw [hs]
      simp [List.product]
    have hnnz : (toCsr Y).nnz = 0 := by rw [← card_labelCells (toCsr_binary hY), hemp]; rfl
    unfold coverageOf coverageRatio
    rw [hcells, hnnz]
    simp [pyDiv, bind, Except.bind, pure, Except.pure]
  · rw [if_neg h0]
    have hne : (labelCells (toCsr Y)).Nonempty := by
      rw [← Finset.card_pos, hc]
      omega
    obtain ⟨q, hq, hqe, -⟩ := C17_coverage_ratio (toCsr X) (toCsr Y) (toCsr_wf X) (toCsr_binary hY)
      (by simpa using hn) hne rs hb
    unfold coverageOf
    rw [hq]
    simp only [Except.ok.injEq, Option.some.injEq]
    rw [hqe, hc]
    congr 2
    symm
    apply Finset.card_bij (fun e _ => (e.1, (e.2 : ℤ)))
    · intro e he
      rw [mem_cells] at he
      rw [Finset.mem_filter, mem_labelCells (toCsr_wf Y)]
      refine ⟨⟨by simp, ?_⟩, (covers_iff hX hY hn hb _ _).2 he.2.2⟩
      obtain ⟨r, -, -, ht, hl⟩ := he.2.2
      obtain ⟨j, hj, ho⟩ := ht _ hl
      rw [stored_toCsr hY]
      simpa [show e.2 = j by omega] using ho
    · rintro ⟨a, b⟩ - ⟨c, d⟩ - h
      simpa using h
    · rintro ⟨i, l⟩ h
      rw [Finset.mem_filter, mem_labelCells (toCsr_wf Y)] at h
      obtain ⟨⟨h0, hs⟩, hcov⟩ := h
      simp only [stored_toCsr hY] at hs
      refine ⟨(i, l.toNat), mem_cells.2 ⟨hs.lt, hs.col_lt hY, ?_⟩, by simp; omega⟩
      have : l = ((l.toNat : ℕ) : ℤ) := by simp at h0; omega
      rw [this] at hcov
      exact (covers_iff hX hY hn hb _ _).1 hcov

end Pipeline

end Verif
