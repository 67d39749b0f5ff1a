/-
Properties of `read_data` (C149).
-/
import Verif.Model.ReadData
import Verif.Props.Preprocess
import Verif.Lemmas.Pipeline

namespace Verif

namespace Preprocess

open Pipeline (toCsr toCsr_binary stored_toCsr)

variable {V : Type} [LinearOrder V]

/-- `C` is a matrix of zeros and ones in CSR form, with one row for each row of the table and one column for each pair
in `header`, in which exactly the true statements "the cell in column `i` is `v`" are stored. -/
structure SparseCode (df : Frame V) (header : List (ℕ × V)) (C : Cmp) : Prop where
  binary : C.Binary
  rows : C.nMajor = df.rows.length
  cols : C.nMinor = header.length
  stored : ∀ (r k : ℕ), r < df.rows.length → (hk : k < header.length) →
    (C.Stored r k ↔ cell df r header[k].1 = some header[k].2)

/-- Success of `preprocessing` needs a row: without rows no column has three values. -/
theorem rows_pos {df : Frame V} {D L : List (List ℕ)} (h : preprocessing df = .ok (D, L)) : 0 < df.rows.length := by
  obtain ⟨⟨i, -, k, ⟨s, hs, hc⟩, h3, -⟩, -⟩ := (C105_succeeds df).mp ⟨_, h⟩
  obtain ⟨v, hv⟩ := Finset.card_pos.mp (by omega : 0 < s.card)
  obtain ⟨r, hr, -⟩ := (hs v).mp hv
  omega

theorem csrOf_code {df : Frame V} {P : ℕ → Prop} {H : List (ℕ × V)} {M : List (List ℕ)} (h : Encodes df P H M)
    (hrows : 0 < df.rows.length) : SparseCode df H (csrOf M) := by
  obtain ⟨-, -, hlen, hrow⟩ := h
  have hcols : (Load.ofRows (M.map fun r => r.map fun v : ℕ => (v : ℤ))).ncols = H.length := by
    have h0 : 0 < M.length := by omega
    obtain ⟨m, M', rfl⟩ := List.exists_cons_of_length_pos h0
    have h1 : m.length = H.length := (hrow 0 (by simp)).1
    simpa [Load.ofRows] using h1
  have hval : ∀ (r : ℕ) (hr : r < M.length) (k : ℕ) (hk : k < M[r].length), M[r][k] = 0 ∨ M[r][k] = 1 := by
    intro r hr k hk
    have hk' : k < H.length := by rw [← (hrow r hr).1]; exact hk
    by_cases he : cell df r H[k].1 = some H[k].2
    · exact Or.inr (((hrow r hr).2 k hk hk').1 he)
    · exact Or.inl (((hrow r hr).2 k hk hk').2 he)
  have hz : Pipeline.ZeroOne (Load.ofRows (M.map fun r => r.map fun v : ℕ => (v : ℤ))) := by
    intro row hm
    obtain ⟨m, hm', rfl⟩ := List.mem_map.mp hm
    obtain ⟨r, hr, rfl⟩ := List.getElem_of_mem hm'
    refine ⟨by rw [List.length_map, (hrow r hr).1, hcols], ?_⟩
    intro v hv
    obtain ⟨n, hn, rfl⟩ := List.mem_map.mp hv
    obtain ⟨k, hk, rfl⟩ := List.getElem_of_mem hn
    rcases hval r hr k hk with e | e <;> simp [e]
  refine ⟨toCsr_binary hz, ?_, hcols, ?_⟩
  · simp [csrOf, Load.ofRows, hlen]
  · intro r k hr hk
    have hr' : r < M.length := by omega
    have hk' : k < M[r].length := by rw [(hrow r hr').1]; exact hk
    unfold csrOf
    rw [stored_toCsr hz]
    unfold Pipeline.HasOne
    simp only [Load.ofRows, List.getElem?_map, List.getElem?_eq_getElem hr', Option.map_some, Option.some.injEq,
      exists_eq_left', List.getElem?_eq_getElem hk']
    constructor
    · intro he
      by_contra hne
      rw [((hrow r hr').2 k hk' hk).2 hne] at he
      simp at he
    · intro he
      rw [((hrow r hr').2 k hk' hk).1 he]
      rfl

/-- **C149** With `sparsify=True`, `read_data` returns two binary CSR matrices without stored zeros: the one-hot codes of
the columns with 3 to 14 values and of those with at most 2, columns ordered by table column and value. -/
theorem C149_sparse (df : Frame V) (C C' : Cmp) (h : readData df true = .ok (.sparse C C')) :
    ∃ HD HL : List (ℕ × V),
      (HD.Pairwise fun a b => a.1 < b.1 ∨ a.1 = b.1 ∧ a.2 < b.2) ∧
      (HL.Pairwise fun a b => a.1 < b.1 ∨ a.1 = b.1 ∧ a.2 < b.2) ∧
      (∀ i v, (i, v) ∈ HD ↔ FeatureColumn df i ∧ Occurs df i v) ∧
      (∀ i v, (i, v) ∈ HL ↔ LabelColumn df i ∧ Occurs df i v) ∧
      SparseCode df HD C ∧ SparseCode df HL C' := by
  unfold readData at h
  rcases hp : preprocessing df with e | ⟨D, L⟩
  · rw [hp] at h
    cases h
  · rw [hp] at h
    cases h
    obtain ⟨HD, HL, h1, h2⟩ := C105_encoding df D L hp
    exact ⟨HD, HL, h1.1, h2.1, h1.2.1, h2.2.1, csrOf_code h1 (rows_pos hp), csrOf_code h2 (rows_pos hp)⟩

/-- **C149** The flag changes only the form: both calls fail with `ValueError`, exactly when the table has no column of
one of the kinds, or both succeed, the one with arrays, the other with CSR matrices of the same shapes that store
exactly the ones. -/
theorem C149_same (df : Frame V) :
    (readData df false = .error .valueError ∧ readData df true = .error .valueError ∧
      ¬ ((∃ i, FeatureColumn df i) ∧ ∃ i, LabelColumn df i)) ∨
    (∃ D L C C', readData df false = .ok (.dense D L) ∧ readData df true = .ok (.sparse C C') ∧
      ((∃ i, FeatureColumn df i) ∧ ∃ i, LabelColumn df i) ∧
      ∀ M N, (M, N) ∈ [(D, C), (L, C')] → N.Binary ∧ N.nMajor = M.length ∧
        ∀ (r : ℕ) (hr : r < M.length), M[r].length = N.nMinor ∧
          ∀ (k : ℕ) (hk : k < M[r].length), (N.Stored r k ↔ M[r][k] = 1) ∧ (¬ N.Stored r k ↔ M[r][k] = 0)) := by
  rcases hp : preprocessing df with e | ⟨D, L⟩
  · left
    have he := C105_error df e hp
    subst he
    unfold readData
    rw [hp]
    refine ⟨rfl, rfl, fun hc => ?_⟩
    obtain ⟨r, hr⟩ := (C105_succeeds df).mpr hc
    rw [hp] at hr
    cases hr
  · right
    obtain ⟨HD, HL, h1, h2⟩ := C105_encoding df D L hp
    refine ⟨D, L, csrOf D, csrOf L, by unfold readData; rw [hp]; rfl, by unfold readData; rw [hp]; rfl,
      (C105_succeeds df).mp ⟨_, hp⟩, ?_⟩
    have key : ∀ (P : ℕ → Prop) (H : List (ℕ × V)) (M : List (List ℕ)), Encodes df P H M →
        (csrOf M).Binary ∧ (csrOf M).nMajor = M.length ∧ ∀ (r : ℕ) (hr : r < M.length), M[r].length = (csrOf M).nMinor ∧
          ∀ (k : ℕ) (hk : k < M[r].length),
            ((csrOf M).Stored r k ↔ M[r][k] = 1) ∧ (¬ (csrOf M).Stored r k ↔ M[r][k] = 0) := by
      intro P H M he
      have c := csrOf_code he (rows_pos hp)
      obtain ⟨-, -, hlen, hrow⟩ := he
      refine ⟨c.binary, c.rows.trans hlen.symm, fun r hr => ⟨(hrow r hr).1.trans c.cols.symm, fun k hk => ?_⟩⟩
      have hk' : k < H.length := by rw [← (hrow r hr).1]; exact hk
      rw [c.stored r k (by omega) hk']
      obtain ⟨e1, e2⟩ := (hrow r hr).2 k hk hk'
      constructor
      · exact ⟨e1, fun h => by by_contra hne; rw [e2 hne] at h; cases h⟩
      · exact ⟨e2, fun h hc => by rw [e1 hc] at h; cases h⟩
    intro M N hm
    rcases List.mem_cons.mp hm with he | he
    · cases he
      exact key _ _ _ h1
    · cases List.mem_singleton.mp he
      exact key _ _ _ h2

/-- **C149** Each row stores one entry for each coded table column that is present there, in the order of the table's
columns, and nothing else. -/
theorem C149_rows (df : Frame V) (P : ℕ → Prop) (H : List (ℕ × V)) (C : Cmp) (h : SparseCode df H C)
    (hsort : H.Pairwise fun a b => a.1 < b.1 ∨ a.1 = b.1 ∧ a.2 < b.2)
    (hmem : ∀ i v, (i, v) ∈ H ↔ P i ∧ Occurs df i v) (r : ℕ) (hr : r < df.rows.length) (i : ℕ) :
    (P i ∧ cell df r i ≠ none ↔ ∃ k, C.Stored r k ∧ (H[k]?).map Prod.fst = some i) ∧
    ∀ k k', C.Stored r k → C.Stored r k' → k < k' → ∃ a b, H[k]? = some a ∧ H[k']? = some b ∧ a.1 < b.1 := by
  have hlt : ∀ k, C.Stored r k → k < H.length := by
    intro k hk
    rw [← h.cols]
    rw [← Cmp.mem_segIdx] at hk
    exact h.binary.idx_lt k (List.mem_of_mem_drop (List.mem_of_mem_take hk))
  constructor
  · constructor
    · rintro ⟨hP, hc⟩
      obtain ⟨v, hv⟩ := Option.ne_none_iff_exists'.mp hc
      obtain ⟨k, hk, he⟩ := List.getElem_of_mem ((hmem i v).mpr ⟨hP, r, hr, hv⟩)
      refine ⟨k, (h.stored r k hr hk).mpr (by rw [he]; exact hv), ?_⟩
      rw [List.getElem?_eq_getElem hk, he]
      rfl
    · rintro ⟨k, hk, he⟩
      have hkl := hlt k hk
      rw [List.getElem?_eq_getElem hkl, Option.map_some, Option.some.injEq] at he
      have hc := (h.stored r k hr hkl).mp hk
      rw [he] at hc
      refine ⟨?_, by rw [hc]; exact Option.some_ne_none _⟩
      have := (hmem H[k].1 H[k].2).mp (List.getElem_mem hkl)
      rw [he] at this
      exact this.1
  · intro k k' hk hk' hlt'
    have h1 := hlt k hk
    have h2 := hlt k' hk'
    refine ⟨H[k], H[k'], List.getElem?_eq_getElem h1, List.getElem?_eq_getElem h2, ?_⟩
    rcases List.pairwise_iff_getElem.mp hsort k k' h1 h2 hlt' with h3 | ⟨h3, h4⟩
    · exact h3
    · have e1 := (h.stored r k hr h1).mp hk
      have e2 := (h.stored r k' hr h2).mp hk'
      rw [h3, e2] at e1
      exact absurd (Option.some.inj e1) h4.ne'

example : readData exampleFrame false =
    .ok (.dense [[0, 0, 1], [1, 0, 0], [0, 0, 0], [0, 1, 0]] [[1, 0, 1], [0, 1, 1], [0, 1, 1], [1, 0, 0]]) := by
  decide +kernel

example : readData exampleFrame true =
    .ok (.sparse ⟨4, 3, [0, 1, 2, 2, 3], [2, 0, 1], [1, 1, 1]⟩
      ⟨4, 3, [0, 2, 4, 6, 7], [0, 2, 1, 2, 1, 2, 0], [1, 1, 1, 1, 1, 1, 1]⟩) := by
  decide +kernel

end Preprocess

end Verif
