/-
Property C119: saving and loading files, crashes during a save, temporary directories.
-/
import Verif.Props.Files

namespace Verif.Files

/-! ### Opening -/

theorem openWrite_ok {fs fs1 : Fs} {p : Path} (h : openWrite fs p = .ok fs1) :
    fs1 = fs.put (fs.loc p) (.file []) ∧ ¬ p.Empty := by
  unfold openWrite at h
  split at h
  · cases h
  · rename_i hE
    split at h
    · cases h
    · cases h
      exact ⟨rfl, hE⟩
    · split at h
      · cases h
      · split at h
        · cases h
          exact ⟨rfl, hE⟩
        · cases h

theorem put_put (fs : Fs) (l : Loc) (a b : Node) : (fs.put l a).put l b = fs.put l b := by
  simp [Fs.put]

theorem put_same (fs : Fs) (l : Loc) (n : Node) : SameExcept fs (fs.put l n) l :=
  ⟨rfl, fun _ hq => put_node_ne fs n hq⟩

/-- Where a file can be written: the path is not empty, it is not a directory, and its parent is one. -/
def Writable (fs : Fs) (p : Path) : Prop :=
  p.comps ≠ [] ∧ fs.node (fs.loc p) ≠ some .dir ∧ fs.node (fs.loc p).dropLast = some .dir

theorem loc_ne_nil {fs : Fs} {p : Path} (h : p.comps ≠ []) : fs.loc p ≠ [] := by
  unfold Fs.loc
  split
  · exact h
  · simp [h]

theorem openWrite_writable {fs : Fs} (hs : Sound fs) {p : Path} (h : Writable fs p) :
    openWrite fs p = .ok (fs.put (fs.loc p) (.file [])) := by
  obtain ⟨h1, h2, h3⟩ := h
  unfold openWrite
  rw [if_neg (fun hE => h1 hE.2)]
  cases hn : fs.node (fs.loc p) with
  | some n =>
    cases n with
    | dir => exact absurd hn h2
    | file c => rfl
  | none =>
    simp only
    rw [if_neg, if_pos h3]
    rw [blocked_iff]
    rintro ⟨q, hq, c, hc⟩
    by_cases e : q = (fs.loc p).dropLast
    · rw [← e, hc] at h3
      cases h3
    · rw [hs.dir_of_prefix (by rw [h3]; simp) hq e] at hc
      cases hc

/-- **C119** `save_file` where a file can be written: it returns, the file has exactly the given text, whatever
it had before, and nothing else has changed. Reading gives the text back. -/
theorem C119_save_file (fs : Fs) (hs : Sound fs) (p : Path) (hw : Writable fs p) (text : List Char) :
    (saveFile fs p text).2 = .ok () ∧ (saveFile fs p text).1.node (fs.loc p) = some (.file text) ∧
    SameExcept fs (saveFile fs p text).1 (fs.loc p) ∧ readAll (saveFile fs p text).1 p = .ok text := by
  have h : saveFile fs p text = (fs.put (fs.loc p) (.file text), .ok ()) := by
    unfold saveFile
    rw [openWrite_writable hs hw]
    simp only [put_put]
  rw [h]
  refine ⟨rfl, put_node_self _ _ _, put_same _ _ _, ?_⟩
  unfold readAll
  rw [if_neg (fun hE => hw.1 hE.2)]
  have : (fs.put (fs.loc p) (.file text)).loc p = fs.loc p := loc_cwd rfl p
  simp only [this, put_node_self]

/-- **C119** Where it cannot, `save_file` raises and nothing changes: `IsADirectoryError` on a directory,
`FileNotFoundError` on the empty path or when the parent does not exist, `NotADirectoryError` below a file. -/
theorem C119_save_errors (fs : Fs) (hs : Sound fs) (p : Path) (text : List Char) :
    (p.Empty → saveFile fs p text = (fs, .error .fileNotFound)) ∧
    (¬ p.Empty → fs.node (fs.loc p) = some .dir → saveFile fs p text = (fs, .error .isADirectory)) ∧
    (p.comps ≠ [] → (∃ q c, q <+: (fs.loc p).dropLast ∧ fs.node q = some (.file c)) →
      saveFile fs p text = (fs, .error .notADirectory)) ∧
    (p.comps ≠ [] → Clear fs (fs.loc p).dropLast → fs.node (fs.loc p).dropLast = none →
      saveFile fs p text = (fs, .error .fileNotFound)) := by
  unfold saveFile openWrite
  have hnone : ∀ {q : Loc}, q <+: (fs.loc p).dropLast → p.comps ≠ [] → fs.node q ≠ some .dir →
      fs.node (fs.loc p) = none := by
    intro q hq hne hd
    refine hs.none_below hd (hq.trans (List.dropLast_prefix _)) ?_
    rintro rfl
    have h1 := hq.length_le
    have h2 := List.length_pos_of_ne_nil (loc_ne_nil (fs := fs) hne)
    rw [List.length_dropLast] at h1
    omega
  refine ⟨fun h => by rw [if_pos h], fun h1 h2 => by rw [if_neg h1, h2], ?_, ?_⟩
  · rintro hne ⟨q, c, hq, hc⟩
    rw [if_neg (fun hE => hne hE.2), hnone hq hne (by rw [hc]; simp)]
    simp only
    rw [if_pos (blocked_iff.mpr ⟨q, hq, c, hc⟩)]
  · intro hne hclear hp
    rw [if_neg (fun hE => hne hE.2), hnone (List.prefix_refl _) hne (by rw [hp]; simp)]
    simp only
    rw [if_neg, if_neg (by rw [hp]; simp)]
    rw [blocked_iff]
    rintro ⟨q, hq, c, hc⟩
    exact hclear q hq c hc

/-! ### Crashes -/

/-- **C119** A crash during a save of the given pieces: whenever it happens, the rest of the disk is as before,
and the file is as before or has a beginning of the new text, possibly none of it. -/
theorem C119_crash (fs : Fs) (p : Path) (pieces : List (List Char)) (fs' : Fs) (h : fs' ∈ saveStates fs p pieces) :
    SameExcept fs fs' (fs.loc p) ∧
    (fs' = fs ∨ ∃ c, c <+: pieces.flatten ∧ fs'.node (fs.loc p) = some (.file c)) := by
  unfold saveStates at h
  split at h
  · rw [List.mem_singleton.mp h]
    exact ⟨⟨rfl, fun _ _ => rfl⟩, Or.inl rfl⟩
  · rename_i fs1 ho
    obtain ⟨rfl, -⟩ := openWrite_ok ho
    rcases List.mem_cons.mp h with rfl | h
    · exact ⟨⟨rfl, fun _ _ => rfl⟩, Or.inl rfl⟩
    · obtain ⟨ds, hd, rfl⟩ := List.mem_map.mp h
      rw [put_put]
      refine ⟨put_same _ _ _, Or.inr ⟨ds.flatten, ?_, put_node_self _ _ _⟩⟩
      obtain ⟨r, hr⟩ := (List.mem_inits _ _).mp hd
      exact ⟨r.flatten, by rw [← hr, List.flatten_append]⟩

/-- **C119** The last state is the completed save. -/
theorem C119_completed (fs : Fs) (p : Path) (pieces : List (List Char)) (h : (saveFile fs p pieces.flatten).2 = .ok ()) :
    (saveFile fs p pieces.flatten).1 ∈ saveStates fs p pieces := by
  unfold saveFile at h ⊢
  unfold saveStates
  cases ho : openWrite fs p with
  | error e => rw [ho] at h; cases h
  | ok fs1 =>
    simp only
    exact List.mem_cons_of_mem _ (List.mem_map.mpr ⟨pieces, (List.mem_inits _ _).mpr (List.prefix_refl _), rfl⟩)

/-- **C119** A save is not atomic: over an existing file there is a crash that leaves it empty, so that neither
the old nor the new text survives. -/
theorem C119_not_atomic (fs : Fs) (p : Path) (hne : ¬ p.Empty) (old : List Char)
    (h : fs.node (fs.loc p) = some (.file old)) (pieces : List (List Char)) :
    ∃ fs' ∈ saveStates fs p pieces, fs'.node (fs.loc p) = some (.file []) := by
  have ho : openWrite fs p = .ok (fs.put (fs.loc p) (.file [])) := by
    unfold openWrite
    rw [if_neg hne, h]
  unfold saveStates
  rw [ho]
  refine ⟨_, List.mem_cons_of_mem _ (List.mem_map.mpr ⟨[], (List.mem_inits _ _).mpr (List.nil_prefix), rfl⟩), ?_⟩
  rw [put_put, put_node_self]
  rfl

/-! ### Pickle and JSON -/

/-- A codec as `pickle`'s: decoding inverts encoding, and a proper beginning of an encoded object is not a
pickle. -/
structure SelfDelimiting {α : Type} (code : α → List Char) (decode : List Char → Option α) : Prop where
  inverse : ∀ a, decode (code a) = some a
  truncated : ∀ a c, c <+: code a → c ≠ code a → decode c = none

/-- **C119** `load_pickle` after `save_pickle` gives the object back, whatever was there before. -/
theorem C119_pickle_round_trip {α : Type} (code : α → List Char) (decode : List Char → Option α)
    (hc : SelfDelimiting code decode) (fs : Fs) (hs : Sound fs) (p : Path) (hw : Writable fs p) (obj : α) :
    (savePickle code fs obj p).2 = .ok () ∧ loadPickle decode (savePickle code fs obj p).1 p = .ok obj := by
  obtain ⟨h1, -, -, h4⟩ := C119_save_file fs hs p hw (code obj)
  refine ⟨h1, ?_⟩
  unfold loadPickle savePickle
  rw [h4]
  simp only [hc.inverse]

/-- **C119** A crash during `save_pickle`: a later `load_pickle` gives what it would have given before, or the
new object, or it raises. It never gives another object. -/
theorem C119_pickle_crash {α : Type} (code : α → List Char) (decode : List Char → Option α)
    (hc : SelfDelimiting code decode) (fs : Fs) (p : Path) (hne : ¬ p.Empty) (obj : α) (pieces : List (List Char))
    (hp : pieces.flatten = code obj) (fs' : Fs) (h : fs' ∈ saveStates fs p pieces) :
    loadPickle decode fs' p = loadPickle decode fs p ∨ loadPickle decode fs' p = .ok obj ∨
      loadPickle decode fs' p = .error .unpickling := by
  obtain ⟨hsame, rfl | ⟨c, hpre, hn⟩⟩ := C119_crash fs p pieces fs' h
  · exact Or.inl rfl
  · right
    rw [hp] at hpre
    have hr : readAll fs' p = .ok c := by
      unfold readAll
      rw [if_neg hne, loc_cwd hsame.1, hn]
    unfold loadPickle
    rw [hr]
    by_cases e : c = code obj
    · left
      simp only [e, hc.inverse]
    · right
      simp only [hc.truncated obj c hpre e]

/-- **C119** `save_json` with a value that cannot be encoded raises `TypeError`, and the file then has the chunks
before that value: what it had is lost. -/
theorem C119_json_bad (fs : Fs) (hs : Sound fs) (p : Path) (hw : Writable fs p) (chunks : List (List Char)) :
    (saveJson fs p chunks true).2 = .error .typeError ∧
    (saveJson fs p chunks true).1.node (fs.loc p) = some (.file chunks.flatten) ∧
    (saveJson fs p chunks true).1 = (saveFile fs p chunks.flatten).1 ∧
    (saveJson fs p chunks false).2 = .ok () ∧
    (saveJson fs p chunks false).1 = (saveFile fs p chunks.flatten).1 := by
  unfold saveJson saveFile
  rw [openWrite_writable hs hw]
  exact ⟨rfl, put_node_self _ _ _, rfl, rfl, rfl⟩

/-- **C119** `save_json` and `save_pickle` raise where `save_file` raises, with the same exception, whatever they are
asked to save, and change nothing. -/
theorem C119_save_errors_alike {α : Type} (code : α → List Char) (obj : α) (fs : Fs) (p : Path) (text : List Char)
    (chunks : List (List Char)) (bad : Bool) (e : FileErr) (h : saveFile fs p text = (fs, .error e)) :
    saveJson fs p chunks bad = (fs, .error e) ∧ savePickle code fs obj p = (fs, .error e) := by
  unfold savePickle saveJson
  unfold saveFile at h ⊢
  cases hw : openWrite fs p with
  | error e' =>
    rw [hw] at h
    simp only [Prod.mk.injEq, Except.error.injEq, true_and] at h
    subst h
    exact ⟨rfl, rfl⟩
  | ok a =>
    rw [hw] at h
    simp at h

/-- **C119** `load_pickle` raises where there is no file: `FileNotFoundError` for the empty path or a missing file,
`IsADirectoryError` on a directory, `NotADirectoryError` below a file, and an error of `pickle` on a file that is
no pickle. -/
theorem C119_load_errors {α : Type} (decode : List Char → Option α) (fs : Fs) (hs : Sound fs) (p : Path) :
    (p.Empty → loadPickle decode fs p = .error .fileNotFound) ∧
    (¬ p.Empty → fs.node (fs.loc p) = none → Clear fs (fs.loc p) → loadPickle decode fs p = .error .fileNotFound) ∧
    (¬ p.Empty → fs.node (fs.loc p) = some .dir → loadPickle decode fs p = .error .isADirectory) ∧
    (p.comps ≠ [] → (∃ q c, q <+: (fs.loc p).dropLast ∧ fs.node q = some (.file c)) →
      loadPickle decode fs p = .error .notADirectory) ∧
    (¬ p.Empty → ∀ c, fs.node (fs.loc p) = some (.file c) → decode c = none →
      loadPickle decode fs p = .error .unpickling) := by
  unfold loadPickle readAll
  refine ⟨fun h => by rw [if_pos h], fun h h1 h2 => ?_, fun h h1 => by rw [if_neg h, h1], ?_,
    fun h c h1 h2 => by rw [if_neg h, h1]; simp only [h2]⟩
  · rw [if_neg h, h1]
    simp only
    rw [if_neg]
    rw [blocked_iff]
    rintro ⟨q, hq, c, hc⟩
    exact h2 q (hq.trans (List.dropLast_prefix _)) c hc
  · rintro hne ⟨q, c, hq, hc⟩
    have hnone : fs.node (fs.loc p) = none := by
      refine hs.none_below (by rw [hc]; simp) (hq.trans (List.dropLast_prefix _)) ?_
      rintro rfl
      have h1 := hq.length_le
      have h2 := List.length_pos_of_ne_nil (loc_ne_nil (fs := fs) hne)
      rw [List.length_dropLast] at h1
      omega
    rw [if_neg (fun hE => hne hE.2), hnone]
    simp only
    rw [if_pos (blocked_iff.mpr ⟨q, hq, c, hc⟩)]

/-! ### Saving results, temporary directories -/

theorem dirname_loc (fs : Fs) {p : Path} (h : p.comps ≠ []) : (fs.loc p).dropLast = fs.loc p.dirname := by
  unfold Fs.loc Path.dirname
  simp only
  split
  · rfl
  · rw [List.dropLast_append_of_ne_nil h]

/-- **C119** Saving results below directories that may not exist yet: with a directory part, no file in the way
and no directory of that name, the results are in the file afterwards and all files other than it are as
before. -/
theorem C119_save_results (fs : Fs) (hs : Sound fs) (p : Path) (hne : p.comps ≠ []) (hdir : ¬ p.dirname.Empty)
    (hc : Clear fs (fs.loc p.dirname)) (hnd : fs.node (fs.loc p) ≠ some .dir) (chunks : List (List Char)) :
    (saveResults fs p chunks false).2 = .ok () ∧
    readAll (saveResults fs p chunks false).1 p = .ok chunks.flatten ∧
    ∀ l c, l ≠ fs.loc p → ((saveResults fs p chunks false).1.node l = some (.file c) ↔ fs.node l = some (.file c)) := by
  obtain ⟨h1, h2, h3, h4⟩ := C118_alone fs hs p true hdir hc
  have hw' : wanted p true = p.dirname := rfl
  rw [hw'] at h2 h4
  have hloc : (makedir fs p true).1.loc p = fs.loc p := loc_cwd h4.1 p
  have hw : Writable (makedir fs p true).1 p := by
    refine ⟨hne, ?_, ?_⟩
    · rw [hloc]
      intro h
      rcases h4.2.2 _ _ h with h | ⟨-, h⟩
      · exact hnd h
      · have := h.length_le
        rw [← dirname_loc fs hne, List.length_dropLast] at this
        have h0 := List.length_pos_of_ne_nil (loc_ne_nil (fs := fs) hne)
        omega
    · rw [hloc, dirname_loc fs hne]
      exact h2 _ (List.prefix_refl _)
  have e : saveResults fs p chunks false = saveJson (makedir fs p true).1 p chunks false := by
    unfold saveResults
    rw [← Prod.eta (makedir fs p true), h1]
  obtain ⟨-, -, -, h5, h6⟩ := C119_json_bad _ h3 p hw chunks
  obtain ⟨-, -, h7, h8⟩ := C119_save_file _ h3 p hw chunks.flatten
  rw [e]
  refine ⟨h5, by rw [h6]; exact h8, ?_⟩
  intro l c hl
  rw [h6, h7.2 l (by rw [hloc]; exact hl)]
  constructor
  · intro h
    rcases h4.2.2 _ _ h with h | ⟨h, -⟩
    · exact h
    · cases h
  · exact fun h => h4.2.1 _ _ h

/-- **C119** With a bare file name nothing is saved: the call raises `FileNotFoundError`. -/
theorem C119_save_results_bare (fs : Fs) (name : String) (chunks : List (List Char)) (bad : Bool) :
    saveResults fs { abs := false, comps := [name] } chunks bad = (fs, .error .fileNotFound) := by
  unfold saveResults
  rw [C118_bare_name]

theorem mkdtemp_ok {fs fs' : Fs} (hs : Sound fs) {dir r : Path} (hd : ¬ dir.Empty) {names : List String}
    (h : mkdtemp fs dir names = (fs', .ok r)) :
    ∃ n ∈ names, r = { dir with comps := dir.comps ++ [n] } ∧ fs.node (fs.loc r) = none ∧
      fs' = fs.put (fs.loc r) .dir ∧ Sound fs' ∧ OnlyAdds fs fs' (· = fs.loc r) := by
  induction names with
  | nil => cases h
  | cons n names ih =>
    unfold mkdtemp at h
    split at h
    · rename_i fs1 hm
      cases h
      have hloc : fs.loc { dir with comps := dir.comps ++ [n] } = fs.loc dir ++ [n] := by
        unfold Fs.loc
        simp only
        split <;> simp
      unfold Fs.mkdir at hm
      rw [if_neg (fun hE => by simpa using hE.2)] at hm
      split at hm
      · cases hm
      · rename_i hn
        split at hm
        · cases hm
        · split at hm
          · rename_i hp
            cases hm
            have h0 : fs.node (fs.loc { dir with comps := dir.comps ++ [n] }) = none := by simpa using hn
            obtain ⟨h1, h2⟩ := put_dir hs h0 (by rw [hloc]; simp) hp
            exact ⟨n, List.mem_cons_self, rfl, h0, rfl, h1, h2⟩
          · cases hm
    · obtain ⟨m, hm, h'⟩ := ih h
      exact ⟨m, List.mem_cons_of_mem _ hm, h'⟩
    · cases h

/-- **C119** `get_tempdir` returns a new, empty directory directly in the wanted one; it did not exist before, and
nothing that existed is changed. -/
theorem C119_tempdir (fs : Fs) (hs : Sound fs) (tmp d : Path) (dir : Option Path) (hd : dir.getD tmp = d)
    (hne : ¬ d.Empty) (hc : dir ≠ none → Clear fs (fs.loc d)) (names : List String) (fs' : Fs) (r : Path)
    (h : getTempdir fs tmp dir names = (fs', .ok r)) :
    (∃ n ∈ names, r = { d with comps := d.comps ++ [n] }) ∧ fs.node (fs.loc r) = none ∧
    fs'.node (fs.loc r) = some .dir ∧ (∀ l, fs.loc r <+: l → l ≠ fs.loc r → fs'.node l = none) ∧
    Sound fs' ∧ ∀ l n, fs.node l = some n → fs'.node l = some n := by
  have key : ∀ fs1, Sound fs1 → fs1.cwd = fs.cwd → (∀ l n, fs.node l = some n → fs1.node l = some n) →
      mkdtemp fs1 d names = (fs', .ok r) →
      (∃ n ∈ names, r = { d with comps := d.comps ++ [n] }) ∧ fs.node (fs.loc r) = none ∧
      fs'.node (fs.loc r) = some .dir ∧ (∀ l, fs.loc r <+: l → l ≠ fs.loc r → fs'.node l = none) ∧
      Sound fs' ∧ ∀ l n, fs.node l = some n → fs'.node l = some n := by
    intro fs1 hs1 hcwd hkeep hm
    obtain ⟨n, hn, hr, h0, rfl, h1, h2⟩ := mkdtemp_ok hs1 hne hm
    rw [loc_cwd hcwd] at h0 h1 h2 ⊢
    refine ⟨⟨n, hn, hr⟩, ?_, put_node_self _ _ _, ?_, h1, fun l m hl => h2.2.1 _ _ (hkeep l m hl)⟩
    · cases hx : fs.node (fs.loc r) with
      | none => rfl
      | some m =>
        rw [hkeep _ _ hx] at h0
        cases h0
    · intro l hl hne'
      rw [put_node_ne _ _ hne']
      exact hs1.none_below (by rw [h0]; simp) hl (Ne.symm hne')
  unfold getTempdir at h
  cases dir with
  | none =>
    cases hd
    exact key fs hs rfl (fun _ _ hl => hl) h
  | some d0 =>
    cases hd
    obtain ⟨h1, -, h3, h4⟩ := C118_alone fs hs d0 false hne (hc (by simp))
    simp only at h
    rw [← Prod.eta (makedir fs d0 false), h1] at h
    exact key _ h3 h4.1 h4.2.1 h

/-- **C119** In an existing directory, the first candidate name that is not taken is used; only when all are taken
the call raises (`FileExistsError`). -/
theorem C119_tempdir_returns (fs : Fs) (hs : Sound fs) (tmp : Path)
    (hd : fs.node (fs.loc tmp) = some .dir) (names : List String) :
    (getTempdir fs tmp none names).2 =
      match names.find? fun n => (fs.node (fs.loc tmp ++ [n])).isNone with
      | some n => .ok { tmp with comps := tmp.comps ++ [n] }
      | none => .error .fileExists := by
  unfold getTempdir
  simp only
  have hloc : ∀ n, fs.loc { tmp with comps := tmp.comps ++ [n] } = fs.loc tmp ++ [n] := by
    intro n
    unfold Fs.loc
    simp only
    split <;> simp
  have hb : ∀ n, fs.blocked (fs.loc tmp ++ [n]) = false := by
    intro n
    rw [Bool.eq_false_iff]
    intro h
    obtain ⟨q, hq, c, hc⟩ := blocked_iff.mp h
    rw [List.dropLast_concat] at hq
    by_cases e : q = fs.loc tmp
    · rw [e, hd] at hc
      cases hc
    · rw [hs.dir_of_prefix (by rw [hd]; simp) hq e] at hc
      cases hc
  induction names with
  | nil => rfl
  | cons n names ih =>
    unfold mkdtemp Fs.mkdir
    rw [if_neg (fun hE => by simpa using hE.2), hloc]
    cases hx : fs.node (fs.loc tmp ++ [n]) with
    | none =>
      rw [if_neg (by simp), if_neg (by rw [hb]; simp), List.dropLast_concat, if_pos hd]
      simp [List.find?, hx]
    | some m =>
      rw [if_pos (by simp)]
      simp only [List.find?, hx, Option.isNone_some]
      exact ih

/-- **C119** Two calls give two directories. -/
theorem C119_tempdir_distinct (fs : Fs) (hs : Sound fs) (tmp : Path) (hne : ¬ tmp.Empty) (names names' : List String)
    (fs1 fs2 : Fs) (r1 r2 : Path) (h1 : getTempdir fs tmp none names = (fs1, .ok r1))
    (h2 : getTempdir fs1 tmp none names' = (fs2, .ok r2)) : r1 ≠ r2 := by
  obtain ⟨-, -, h3, -, h4, -⟩ := C119_tempdir fs hs tmp tmp none rfl hne (by simp) names fs1 r1 h1
  obtain ⟨-, h5, -⟩ := C119_tempdir fs1 h4 tmp tmp none rfl hne (by simp) names' fs2 r2 h2
  rintro rfl
  have hcwd : fs1.cwd = fs.cwd := by
    unfold getTempdir at h1
    obtain ⟨_, _, _, _, _, _, h⟩ := mkdtemp_ok hs hne h1
    exact h.1
  rw [loc_cwd hcwd, h3] at h5
  cases h5

/-! ### Examples -/

/-- Results of a run, saved below directories that do not exist yet. -/
example : (saveResults demoFs { abs := false, comps := ["outputs", "yeast", "test_scores.json"] } [['{'], ['}']] false).2 =
    .ok () :=
  (C119_save_results demoFs demoFs_sound _ (by decide) (by decide) (demoFs_clear _) (by
    simp [demoFs, Fs.loc]) _).1

/-- A place where a file can be written. -/
example : Writable demoFs { abs := false, comps := ["results.md"] } := by
  refine ⟨by decide, ?_, ?_⟩ <;> simp [demoFs, Fs.loc]

/-- A temporary directory whose first candidate name is taken. -/
example : (getTempdir (getTempdir demoFs { abs := true, comps := ["w"] } none ["a"]).1 { abs := true, comps := ["w"] } none
    ["a", "b"]).2 = .ok { abs := true, comps := ["w", "b"] } := by rfl

/-- A codec of the assumed kind: unary numbers with an end mark. -/
example : SelfDelimiting (fun n : ℕ => List.replicate n '1' ++ ['.'])
    (fun c => if c.getLast? = some '.' then some (c.length - 1) else none) where
  inverse a := by simp
  truncated a c h hne := by
    rw [if_neg]
    rcases List.prefix_concat_iff.mp h with e | h
    · exact absurd e hne
    · intro hl
      have : '.' ∈ List.replicate a '1' := h.subset (List.mem_of_getLast? hl)
      simp at this

end Verif.Files
