/-
Properties of the tail statistics (C68).
-/
import Verif.Props.Evaluation
import Verif.Props.Sparse

namespace Verif

open Classical in
theorem supportSize_ok {m : Cmp} (h : m.Binary) {order : Finset ℕ → List ℕ} (ho : Traverses order)
    {S : Finset ℕ} (hS : ∀ c ∈ S, c < m.nMajor) :
    supportSize m (tailList order S) = .ok (rowsWithAll m S).card := by
  have hc : ∀ c ∈ order S, c < m.nMajor := fun c hc => hS c (((ho S).2 c).mp hc)
  have hcol : conjunctiveCollapse m (tailList order S) =
      .ok ((List.range m.nMinor).map fun i => decide (∀ c ∈ S, m.Stored c i)) := by
    by_cases hne : order S = []
    · have : S = ∅ := by
        ext x
        rw [← (ho S).2, hne]
        simp
      subst this
      unfold tailList
      rw [hne]
      simp [conjunctiveCollapse, pure, Except.pure, bind, Except.bind]
    · unfold tailList
      rw [C02_implementations_agree m h (order S) hne hc, conjunctiveCollapseV2_ok h.toWF hne hc]
      simp only [Cmp.mem_segIdx, (ho S).2]
  unfold supportSize
  rw [hcol]
  simp only [bind, Except.bind, pure, Except.pure, Except.ok.injEq]
  rw [List.countP_map]
  have h1 := countP_range m.nMinor fun i => ∀ c ∈ S, m.Stored c i
  have h2 : rowsWithAll m S = (Finset.range m.nMinor).filter fun i => ∀ c ∈ S, m.Stored c i := by
    ext i
    simp only [rowsWithAll, Finset.mem_filter]
  rw [h2, ← h1]
  apply List.countP_congr
  intro i _
  simp

theorem supportSize_error {m : Cmp} {order : Finset ℕ → List ℕ} (ho : Traverses order)
    {S : Finset ℕ} (hS : ∃ c ∈ S, m.nMajor ≤ c) : supportSize m (tailList order S) = .error .indexError := by
  obtain ⟨c, hc, hge⟩ := hS
  have hbad : selectCol m (c : ℤ) = .error .indexError := by
    simp [selectCol, pyIndex, Nat.not_lt.mpr hge]
  have : (tailList order S).mapM (selectCol m) = .error .indexError := by
    apply mapM_error_of
    · intro x _
      unfold selectCol
      split
      · exact Or.inl ⟨_, rfl⟩
      · exact Or.inr rfl
    · exact ⟨c, List.mem_map.mpr ⟨c, ((ho S).2 c).mpr hc, rfl⟩, hbad⟩
  unfold supportSize conjunctiveCollapse
  rw [this]
  rfl

/-- **C68** The support of each tail is the number of rows that carry all its labels; a label that is not
a column raises `IndexError`. -/
theorem C68_support (order : Finset ℕ → List ℕ) (ho : Traverses order) (ev : TailEval) (h : ev.Yc.Binary)
    (Ss : List (Finset ℕ)) :
    ((∀ S ∈ Ss, ∀ c ∈ S, c < ev.Yc.nMajor) →
      tailSupport order ev Ss = .ok (Ss.map fun S => (rowsWithAll ev.Yc S).card)) ∧
    ((∃ S ∈ Ss, ∃ c ∈ S, ev.Yc.nMajor ≤ c) → tailSupport order ev Ss = .error .indexError) := by
  constructor
  · intro hS
    exact mapM_ok_of_forall fun S hm => supportSize_ok h ho (hS S hm)
  · rintro ⟨S, hS, hc⟩
    apply mapM_error_of
    · intro T _
      by_cases hT : ∀ c ∈ T, c < ev.Yc.nMajor
      · exact Or.inl ⟨_, supportSize_ok h ho hT⟩
      · push Not at hT
        exact Or.inr (supportSize_error ho hT)
    · exact ⟨S, hS, supportSize_error ho hc⟩

theorem zipWith_map_self {α : Type} (f g : α → ℕ) (l : List α) :
    List.zipWith (· * ·) (l.map f) (l.map g) = l.map fun x => f x * g x := by
  induction l with
  | nil => rfl
  | cons a l ih => simp [ih]

/-- **C68** The area of a tail is its support times its number of labels; its frequency is its support
over the number of training rows, and NaN when there are none. -/
theorem C68_area_frequency (order : Finset ℕ → List ℕ) (ho : Traverses order) (ev : TailEval)
    (h : ev.Yc.Binary) (Ss : List (Finset ℕ)) (hS : ∀ S ∈ Ss, ∀ c ∈ S, c < ev.Yc.nMajor) :
    tailLength Ss = Ss.map Finset.card ∧
    tailArea order ev Ss = .ok (Ss.map fun S => (rowsWithAll ev.Yc S).card * S.card) ∧
    (0 < ev.ntrn → tailFrequency order ev Ss =
      .ok (Ss.map fun S => some (((rowsWithAll ev.Yc S).card : ℚ) / ev.ntrn))) ∧
    (ev.ntrn = 0 → tailFrequency order ev Ss = .ok (Ss.map fun _ => none)) := by
  have hsup := (C68_support order ho ev h Ss).1 hS
  refine ⟨rfl, ?_, ?_, ?_⟩
  · unfold tailArea
    rw [hsup]
    simp only [bind, Except.bind, pure, Except.pure, tailLength, zipWith_map_self]
  · intro hn
    unfold tailFrequency
    rw [hsup]
    simp only [bind, Except.bind, pure, Except.pure, List.map_map, Function.comp_def, if_neg hn.ne']
  · intro hn
    unfold tailFrequency
    rw [hsup]
    simp only [bind, Except.bind, pure, Except.pure, List.map_map, Function.comp_def, if_pos hn]

/-- **C68** With the number of rows of the matrix itself, frequencies lie between 0 and 1, decrease as
labels are added, and the empty tail has frequency 1. -/
theorem C68_frequency_range (Yc : Cmp) (S T : Finset ℕ) (hST : S ⊆ T) :
    (rowsWithAll Yc T).card ≤ (rowsWithAll Yc S).card ∧ (rowsWithAll Yc S).card ≤ Yc.nMinor ∧
    (rowsWithAll Yc ∅).card = Yc.nMinor := by
  classical
  refine ⟨Finset.card_le_card ?_, ?_, ?_⟩
  · intro i hi
    simp only [rowsWithAll, Finset.mem_filter] at hi ⊢
    exact ⟨hi.1, fun c hc => hi.2 c (hST hc)⟩
  · have : rowsWithAll Yc S ⊆ Finset.range Yc.nMinor := by
      intro i hi
      simp only [rowsWithAll, Finset.mem_filter] at hi
      exact hi.1
    simpa using Finset.card_le_card this
  · simp [rowsWithAll]

/-! ### Edge density and edge ratio -/

theorem tailWeightSum_ok {order : Finset ℕ → List ℕ} (ho : Traverses order) {ev : TailEval} {g : DiG}
    (hg : ev.g = some g) {S : Finset ℕ} (hS : AllJoined g S) :
    tailWeightSum order ev S = .ok (pairWeight g S) := by
  have hm : (orderedPairs (order S)).mapM (tailPairProba ev) =
      .ok ((orderedPairs (order S)).map fun e => (g.weight e.1 e.2).getD 0) := by
    apply mapM_ok_of_forall
    rintro ⟨u, v⟩ he
    obtain ⟨h1, h2, h3⟩ := (mem_orderedPairs (ho S).1).mp he
    obtain ⟨p, hp⟩ := hS u (((ho S).2 u).mp h1) v (((ho S).2 v).mp h2) h3
    simp [tailPairProba, hg, pairProba, hp]
  unfold tailWeightSum
  rw [hm]
  simp only [bind, Except.bind, pure, Except.pure, orderedPairs_sum (ho S).1]
  have : (order S).toFinset = S := by
    ext x
    rw [List.mem_toFinset, (ho S).2]
  rw [this, pairWeight]

theorem tailWeightSum_error {order : Finset ℕ → List ℕ} (ho : Traverses order) {ev : TailEval} {g : DiG}
    (hg : ev.g = some g) {S : Finset ℕ} (hS : ¬ AllJoined g S) :
    tailWeightSum order ev S = .error .keyError := by
  unfold AllJoined at hS
  push Not at hS
  obtain ⟨u, hu, v, hv, hne, hno⟩ := hS
  have hw : g.weight u v = none := by
    rcases hw : g.weight u v with _ | p
    · rfl
    · exact absurd hw (hno p)
  have : (orderedPairs (order S)).mapM (tailPairProba ev) = .error .keyError := by
    apply mapM_error_of
    · intro e _
      simp only [tailPairProba, hg, pairProba]
      split
      · exact Or.inl ⟨_, rfl⟩
      · exact Or.inr rfl
    · refine ⟨(u, v), (mem_orderedPairs (ho S).1).mpr ⟨((ho S).2 u).mpr hu, ((ho S).2 v).mpr hv, hne⟩, ?_⟩
      simp [tailPairProba, hg, pairProba, hw]
  unfold tailWeightSum
  rw [this]
  rfl

theorem tailWeightSum_none {order : Finset ℕ → List ℕ} (ho : Traverses order) {ev : TailEval}
    (hg : ev.g = none) (S : Finset ℕ) :
    tailWeightSum order ev S = if S.card ≤ 1 then .ok 0 else .error .attributeError := by
  split
  · rename_i hc
    have : orderedPairs (order S) = [] := by
      rw [List.eq_nil_iff_forall_not_mem]
      rintro ⟨u, v⟩ he
      obtain ⟨h1, h2, h3⟩ := (mem_orderedPairs (ho S).1).mp he
      exact h3 (Finset.card_le_one.mp hc u (((ho S).2 u).mp h1) v (((ho S).2 v).mp h2))
    unfold tailWeightSum
    rw [this]
    simp [bind, Except.bind, pure, Except.pure]
  · rename_i hc
    obtain ⟨u, hu, v, hv, hne⟩ := Finset.one_lt_card.mp (not_le.mp hc)
    have : (orderedPairs (order S)).mapM (tailPairProba ev) = .error .attributeError := by
      apply mapM_error_of
      · intro e _
        simp [tailPairProba, hg]
      · refine ⟨(u, v), (mem_orderedPairs (ho S).1).mpr ⟨((ho S).2 u).mpr hu, ((ho S).2 v).mpr hv, hne⟩, ?_⟩
        simp [tailPairProba, hg]
    unfold tailWeightSum
    rw [this]
    rfl

/-- **C68** With a graph in which the labels of every tail are joined, the edge density of a tail is the
sum of the weights of its ordered pairs over its size (NaN for the empty tail), and the edge ratio is that
over the size minus one (NaN for fewer than two labels). -/
theorem C68_density_ratio (order : Finset ℕ → List ℕ) (ho : Traverses order) (ev : TailEval) (g : DiG)
    (hg : ev.g = some g) (Ss : List (Finset ℕ)) (hS : ∀ S ∈ Ss, AllJoined g S) :
    tailDensity order ev Ss =
      .ok (Ss.map fun S => if S = ∅ then none else some (pairWeight g S / S.card)) ∧
    tailRatio order ev Ss =
      .ok (Ss.map fun S => if S.card < 2 then none else some (pairWeight g S / (S.card * (S.card - 1)))) := by
  constructor
  · apply mapM_ok_of_forall
    intro S hm
    unfold densityOf
    rw [tailWeightSum_ok ho hg (hS S hm)]
    by_cases hc : S = ∅
    · simp [hc]
    · simp [hc, bind, Except.bind, pure, Except.pure]
  · apply mapM_ok_of_forall
    intro S hm
    unfold ratioOf
    rw [tailWeightSum_ok ho hg (hS S hm)]
    by_cases hc : S.card ≤ 1
    · rw [if_pos hc, if_pos (by omega)]
    · rw [if_neg hc, if_neg (by omega)]
      simp only [bind, Except.bind, pure, Except.pure, div_div]

/-- **C68** `edge_density = edge_ratio * (|S| - 1)` for every tail with at least two labels. -/
theorem C68_density_is_scaled_ratio (order : Finset ℕ → List ℕ) (ev : TailEval) (S : Finset ℕ) (d r : ℚ)
    (hd : densityOf order ev S = .ok (some d)) (hr : ratioOf order ev S = .ok (some r)) :
    d = r * (S.card - 1) := by
  unfold ratioOf at hr
  split at hr
  · cases hr
  · rename_i hc
    unfold densityOf at hd
    rw [if_neg (by omega)] at hd
    rcases ht : tailWeightSum order ev S with e | t
    · rw [ht] at hd
      cases hd
    · rw [ht] at hd hr
      cases hd
      cases hr
      have h1 : (S.card : ℚ) - 1 ≠ 0 := by
        have : (1 : ℚ) < S.card := by exact_mod_cast (by omega : 1 < S.card)
        linarith
      field_simp

/-- **C68** A pair of labels that is not joined raises `KeyError`, in both statistics. -/
theorem C68_missing_edge (order : Finset ℕ → List ℕ) (ho : Traverses order) (ev : TailEval) (g : DiG)
    (hg : ev.g = some g) (Ss : List (Finset ℕ)) (hS : ∃ S ∈ Ss, ¬ AllJoined g S) :
    tailDensity order ev Ss = .error .keyError ∧ tailRatio order ev Ss = .error .keyError := by
  obtain ⟨S, hm, hno⟩ := hS
  have hc : 2 ≤ S.card := by
    unfold AllJoined at hno
    push Not at hno
    obtain ⟨u, hu, v, hv, hne, -⟩ := hno
    exact Finset.one_lt_card.mpr ⟨u, hu, v, hv, hne⟩
  constructor
  · apply mapM_error_of
    · intro T _
      unfold densityOf
      split
      · exact Or.inl ⟨_, rfl⟩
      · by_cases hT : AllJoined g T
        · rw [tailWeightSum_ok ho hg hT]
          exact Or.inl ⟨_, rfl⟩
        · rw [tailWeightSum_error ho hg hT]
          exact Or.inr rfl
    · refine ⟨S, hm, ?_⟩
      unfold densityOf
      rw [if_neg (by omega), tailWeightSum_error ho hg hno]
      rfl
  · apply mapM_error_of
    · intro T _
      unfold ratioOf
      split
      · exact Or.inl ⟨_, rfl⟩
      · by_cases hT : AllJoined g T
        · rw [tailWeightSum_ok ho hg hT]
          exact Or.inl ⟨_, rfl⟩
        · rw [tailWeightSum_error ho hg hT]
          exact Or.inr rfl
    · refine ⟨S, hm, ?_⟩
      unfold ratioOf
      rw [if_neg (by omega), tailWeightSum_error ho hg hno]
      rfl

/-- **C68** On a data set without graph the statistics fail with `AttributeError` as soon as a tail has
two labels, and are 0 and NaN on single labels. -/
theorem C68_no_graph (order : Finset ℕ → List ℕ) (ho : Traverses order) (ev : TailEval)
    (hg : ev.g = none) (Ss : List (Finset ℕ)) :
    ((∃ S ∈ Ss, 2 ≤ S.card) →
      tailDensity order ev Ss = .error .attributeError ∧ tailRatio order ev Ss = .error .attributeError) ∧
    ((∀ S ∈ Ss, S.card < 2) →
      tailDensity order ev Ss = .ok (Ss.map fun S => if S = ∅ then none else some 0) ∧
      tailRatio order ev Ss = .ok (Ss.map fun _ => none)) := by
  constructor
  · rintro ⟨S, hm, hc⟩
    constructor
    · apply mapM_error_of
      · intro T _
        unfold densityOf
        rw [tailWeightSum_none ho hg]
        split
        · exact Or.inl ⟨_, rfl⟩
        · split
          · exact Or.inl ⟨_, rfl⟩
          · exact Or.inr rfl
      · refine ⟨S, hm, ?_⟩
        unfold densityOf
        rw [tailWeightSum_none ho hg, if_neg (by omega), if_neg (by omega)]
        rfl
    · apply mapM_error_of
      · intro T _
        unfold ratioOf
        rw [tailWeightSum_none ho hg]
        split
        · exact Or.inl ⟨_, rfl⟩
        · exact Or.inr rfl
      · refine ⟨S, hm, ?_⟩
        unfold ratioOf
        rw [tailWeightSum_none ho hg, if_neg (by omega), if_neg (by omega)]
        rfl
  · intro hc
    constructor
    · apply mapM_ok_of_forall
      intro S hm
      unfold densityOf
      rw [tailWeightSum_none ho hg]
      have hc1 : S.card ≤ 1 := by have := hc S hm; omega
      rw [if_pos hc1]
      by_cases h0 : S = ∅
      · simp [h0]
      · simp [h0, bind, Except.bind, pure, Except.pure]
    · apply mapM_ok_of_forall
      intro S hm
      unfold ratioOf
      rw [if_pos (by have := hc S hm; omega)]

/-- **C68** With the confidence graph of the data set, the edge ratio of a tail lies in `(0, 1]`: it is
the mean confidence over its ordered pairs. The labels of a tail are joined exactly when every two of
them occur together in some row. -/
theorem C68_ratio_range (Yc : Cmp) (h : Yc.Binary) (g : DiG) (hg : confidenceGraph Yc = .ok g) (S : Finset ℕ)
    (hS : ∀ c ∈ S, c < Yc.nMajor) :
    (AllJoined g S ↔ ∀ u ∈ S, ∀ v ∈ S, u ≠ v → (commonRows Yc u v).Nonempty) ∧
    (AllJoined g S → 2 ≤ S.card →
      0 < pairWeight g S / (S.card * (S.card - 1)) ∧ pairWeight g S / (S.card * (S.card - 1)) ≤ 1) := by
  constructor
  · constructor
    · intro hj u hu v hv hne
      obtain ⟨p, hp⟩ := hj u hu v hv hne
      exact ((confidence_weight h hg u v p).mp hp).2.2.2.1
    · intro hc u hu v hv hne
      exact ⟨_, (confidence_weight h hg u v _).mpr ⟨hS u hu, hS v hv, hne, hc u hu v hv hne, rfl⟩⟩
  · intro hj hc
    have hw : ∀ e ∈ S.offDiag, 0 < (g.weight e.1 e.2).getD 0 ∧ (g.weight e.1 e.2).getD 0 ≤ 1 := by
      rintro ⟨u, v⟩ he
      rw [Finset.mem_offDiag] at he
      obtain ⟨p, hp⟩ := hj u he.1 v he.2.1 he.2.2
      rw [hp]
      exact (C47_range_and_symmetry Yc h g hg u v).1 p hp
    have hcard : ((S.offDiag.card : ℕ) : ℚ) = S.card * (S.card - 1) := by
      rw [Finset.offDiag_card]
      have : S.card ≤ S.card * S.card := Nat.le_mul_self _
      push_cast [this]
      ring
    have h1 : (1 : ℚ) < S.card := by exact_mod_cast (by omega : 1 < S.card)
    have hpos : (0 : ℚ) < S.card * (S.card - 1) := by
      apply mul_pos <;> linarith
    have hne : S.offDiag.Nonempty := by
      obtain ⟨u, hu, v, hv, huv⟩ := Finset.one_lt_card.mp (by omega : 1 < S.card)
      exact ⟨(u, v), Finset.mem_offDiag.mpr ⟨hu, hv, huv⟩⟩
    refine ⟨div_pos (Finset.sum_pos (fun e he => (hw e he).1) hne) hpos, ?_⟩
    rw [div_le_one hpos, ← hcard]
    calc pairWeight g S ≤ ∑ e ∈ S.offDiag, (1 : ℚ) := Finset.sum_le_sum fun e he => (hw e he).2
      _ = S.offDiag.card := by simp

/-- **C68** The report has the six named columns, each with one score per tail; with `concat_cols` the
columns follow one another, so that there are six times as many scores as tails. -/
theorem C68_report (order : Finset ℕ → List ℕ) (ho : Traverses order) (ev : TailEval) (h : ev.Yc.Binary)
    (g : DiG) (hg : ev.g = some g) (hn : 0 < ev.ntrn) (Ss : List (Finset ℕ))
    (hS : ∀ S ∈ Ss, ∀ c ∈ S, c < ev.Yc.nMajor) (hJ : ∀ S ∈ Ss, AllJoined g S) :
    ∃ cols, tailReport order ev Ss = .ok cols ∧
      cols = [("support_size", Ss.map fun S => some ((rowsWithAll ev.Yc S).card : ℚ)),
        ("frequency", Ss.map fun S => some (((rowsWithAll ev.Yc S).card : ℚ) / ev.ntrn)),
        ("edge_density", Ss.map fun S => if S = ∅ then none else some (pairWeight g S / S.card)),
        ("edge_ratio", Ss.map fun S =>
          if S.card < 2 then none else some (pairWeight g S / (S.card * (S.card - 1)))),
        ("length", Ss.map fun S => some (S.card : ℚ)),
        ("area", Ss.map fun S => some ((rowsWithAll ev.Yc S).card * S.card : ℚ))] ∧
      ∃ l, tailReportConcat order ev Ss = .ok l ∧ l.length = 6 * Ss.length ∧
        ∀ x name, (x, name) ∈ l ↔ ∃ col, (name, col) ∈ cols ∧ x ∈ col := by
  obtain ⟨-, harea, hfreq, -⟩ := C68_area_frequency order ho ev h Ss hS
  obtain ⟨hd, hr⟩ := C68_density_ratio order ho ev g hg Ss hJ
  refine ⟨_, ?_, rfl, ?_⟩
  · unfold tailReport
    rw [(C68_support order ho ev h Ss).1 hS, hfreq hn, hd, hr, harea]
    simp only [bind, Except.bind, pure, Except.pure, List.map_map, Function.comp_def, tailLength,
      Nat.cast_mul]
  · unfold tailReportConcat tailReport
    rw [(C68_support order ho ev h Ss).1 hS, hfreq hn, hd, hr, harea]
    refine ⟨_, rfl, ?_, ?_⟩
    · simp [tailLength]
      omega
    · intro x name
      simp only [List.map_map, Function.comp_def, tailLength, Nat.cast_mul, List.mem_flatMap]
      constructor
      · rintro ⟨⟨n, c⟩, hc, hx⟩
        rw [List.mem_map] at hx
        obtain ⟨y, hy, he⟩ := hx
        cases he
        exact ⟨c, hc, hy⟩
      · rintro ⟨c, hc, hx⟩
        exact ⟨(name, c), hc, List.mem_map.mpr ⟨x, hx, rfl⟩⟩

/-! ### The hypotheses are met -/

/-- Three rows; labels 0 and 1 occur together in the first two, label 2 joins them in the second. -/
def tailLabels : Cmp :=
  { nMajor := 3, nMinor := 3, indptr := [0, 2, 4, 6], indices := [0, 1, 0, 1, 1, 2], data := [1, 1, 1, 1, 1, 1] }

theorem tailLabels_binary : tailLabels.Binary :=
  { len_indptr := by decide, ptr_zero := by decide, ptr_mono := by decide, ptr_last := by decide,
    len_data := by decide, idx_lt := by decide, data_one := by decide, nodup := by decide }

example : supportSize tailLabels [0, 1] = .ok 2 := by rfl
example : ∃ g, confidenceGraph tailLabels = .ok g ∧ AllJoined g {0, 1, 2} := by
  obtain ⟨g, hg, -⟩ := C47_confidence_graph tailLabels tailLabels_binary
  refine ⟨g, hg, ((C68_ratio_range tailLabels tailLabels_binary g hg {0, 1, 2} (by decide)).1).mpr ?_⟩
  classical
  have h1 : ∀ u, u < 3 → tailLabels.Stored u 1 := by
    intro u hu
    rw [← Cmp.mem_segIdx]
    interval_cases u <;> decide
  intro u hu v hv _
  refine ⟨1, ?_⟩
  simp only [commonRows, Finset.mem_filter, Finset.mem_range]
  refine ⟨by decide, h1 u ?_, h1 v ?_⟩
  · simp at hu; omega
  · simp at hv; omega

end Verif
