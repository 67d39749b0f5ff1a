/-
Lemmas on the file helpers.
-/
import Verif.Spec.Files
import Mathlib.Data.List.Infix

namespace Verif.Files

theorem Sound.dir_of_prefix {fs : Fs} (h : Sound fs) {l : Loc} (hl : fs.node l ≠ none) :
    ∀ {q : Loc}, q <+: l → q ≠ l → fs.node q = some .dir := by
  induction l using List.reverseRecOn with
  | nil =>
    intro q hq hne
    exact absurd (List.prefix_nil.mp hq) hne
  | append_singleton l n ih =>
    intro q hq hne
    have hd := h.parent l n hl
    rcases List.prefix_concat_iff.mp hq with e | hq'
    · exact absurd e hne
    · by_cases e : q = l
      · rw [e]; exact hd
      · exact ih (by rw [hd]; simp) hq' e

theorem Sound.none_below {fs : Fs} (h : Sound fs) {q l : Loc} (hq : fs.node q ≠ some .dir) (hp : q <+: l)
    (hne : q ≠ l) : fs.node l = none := by
  by_contra hl
  exact hq (h.dir_of_prefix hl hp hne)

theorem blocked_iff {fs : Fs} {l : Loc} :
    fs.blocked l = true ↔ ∃ q, q <+: l.dropLast ∧ ∃ c, fs.node q = some (.file c) := by
  unfold Fs.blocked
  rw [List.any_eq_true]
  constructor
  · rintro ⟨q, hq, h⟩
    refine ⟨q, (List.mem_inits _ _).mp hq, ?_⟩
    split at h
    · rename_i c hc
      exact ⟨c, hc⟩
    · cases h
  · rintro ⟨q, hq, c, hc⟩
    exact ⟨q, (List.mem_inits _ _).mpr hq, by rw [hc]⟩

theorem Clear.not_blocked {fs : Fs} {l : Loc} (h : Clear fs l) : fs.blocked l = false := by
  rw [Bool.eq_false_iff]
  intro hb
  obtain ⟨q, hq, c, hc⟩ := blocked_iff.mp hb
  exact h q (hq.trans (List.dropLast_prefix l)) c hc

theorem Clear.mono {fs : Fs} {l q : Loc} (h : Clear fs l) (hq : q <+: l) : Clear fs q :=
  fun r hr => h r (hr.trans hq)

theorem first_length (p : Path) : p.first p.comps.length = p := by
  cases p
  simp [Path.first]

theorem first_not_empty {p : Path} {k : ℕ} (h1 : 1 ≤ k) (hk : k ≤ p.comps.length) : ¬ (p.first k).Empty := by
  rintro ⟨-, h⟩
  have := congrArg List.length h
  simp only [Path.first, List.length_take, List.length_nil] at this
  omega

theorem loc_first_succ (fs : Fs) (p : Path) {k : ℕ} (hk : k < p.comps.length) :
    fs.loc (p.first (k + 1)) = fs.loc (p.first k) ++ [p.comps[k]] := by
  have h : p.comps.take (k + 1) = p.comps.take k ++ [p.comps[k]] := by
    rw [List.take_concat_get']
  unfold Fs.loc Path.first
  simp only [h]
  split
  · rfl
  · rw [List.append_assoc]

theorem loc_first_prefix (fs : Fs) (p : Path) (k : ℕ) : fs.loc (p.first k) <+: fs.loc p := by
  unfold Fs.loc Path.first
  simp only
  split
  · exact List.take_prefix _ _
  · exact (List.prefix_append_right_inj _).mpr (List.take_prefix _ _)

theorem loc_first_mono (fs : Fs) (p : Path) {j k : ℕ} (h : j ≤ k) : fs.loc (p.first j) <+: fs.loc (p.first k) := by
  have := loc_first_prefix fs (p.first k) j
  have e : (p.first k).first j = p.first j := by
    simp only [Path.first, List.take_take, Nat.min_eq_left h]
  rwa [e] at this

theorem loc_cwd {fs fs' : Fs} (h : fs'.cwd = fs.cwd) (p : Path) : fs'.loc p = fs.loc p := by
  unfold Fs.loc
  rw [h]

theorem pathExists_iff {fs : Fs} {p : Path} : fs.pathExists p = true ↔ ¬ p.Empty ∧ fs.node (fs.loc p) ≠ none := by
  unfold Fs.pathExists
  rw [Bool.and_eq_true, Option.isSome_iff_ne_none]
  simp

theorem put_node_self (fs : Fs) (l : Loc) (n : Node) : (fs.put l n).node l = some n := by simp [Fs.put]

theorem put_node_ne (fs : Fs) {l q : Loc} (n : Node) (h : q ≠ l) : (fs.put l n).node q = fs.node q := by
  simp [Fs.put, h]

theorem OnlyAdds.refl (fs : Fs) (P : Loc → Prop) : OnlyAdds fs fs P := ⟨rfl, fun _ _ h => h, fun _ _ h => Or.inl h⟩

theorem OnlyAdds.trans {a b c : Fs} {P : Loc → Prop} (h1 : OnlyAdds a b P) (h2 : OnlyAdds b c P) : OnlyAdds a c P := by
  refine ⟨h2.1.trans h1.1, fun l n h => h2.2.1 l n (h1.2.1 l n h), fun l n h => ?_⟩
  rcases h2.2.2 l n h with h | h
  · exact h1.2.2 l n h
  · exact Or.inr h

theorem OnlyAdds.mono {a b : Fs} {P Q : Loc → Prop} (h : OnlyAdds a b P) (hPQ : ∀ l, P l → Q l) : OnlyAdds a b Q :=
  ⟨h.1, h.2.1, fun l n hl => (h.2.2 l n hl).imp id fun x => ⟨x.1, hPQ l x.2⟩⟩

theorem OnlyAdds.clear {a b : Fs} {P : Loc → Prop} (h : OnlyAdds a b P) {l : Loc} (hc : Clear a l) : Clear b l := by
  intro q hq c hf
  rcases h.2.2 q _ hf with h1 | ⟨h1, -⟩
  · exact hc q hq c h1
  · cases h1

/-- A new directory in an existing one. -/
theorem put_dir {fs : Fs} (hs : Sound fs) {l : Loc} (h0 : fs.node l = none) (hne : l ≠ [])
    (hp : fs.node l.dropLast = some .dir) : Sound (fs.put l .dir) ∧ OnlyAdds fs (fs.put l .dir) (· = l) := by
  have hadd : OnlyAdds fs (fs.put l .dir) (· = l) := by
    refine ⟨rfl, fun q n hq => ?_, fun q n hq => ?_⟩
    · rw [put_node_ne]
      · exact hq
      · rintro rfl
        rw [h0] at hq
        cases hq
    · by_cases e : q = l
      · subst e
        rw [put_node_self] at hq
        cases hq
        exact Or.inr ⟨rfl, rfl⟩
      · rw [put_node_ne _ _ e] at hq
        exact Or.inl hq
  refine ⟨⟨hadd.2.1 _ _ hs.root, ?_, hadd.2.1 _ _ hs.cwd⟩, hadd⟩
  intro q n hq
  by_cases e : q ++ [n] = l
  · apply hadd.2.1
    rw [← e, List.dropLast_concat] at hp
    exact hp
  · rw [put_node_ne _ _ e] at hq
    exact hadd.2.1 _ _ (hs.parent q n hq)

/-- `mkdir` in an existing directory with no file in the way. -/
theorem mkdir_first {fs : Fs} (hs : Sound fs) {p : Path} {k : ℕ} (hk : k < p.comps.length)
    (hc : Clear fs (fs.loc p)) (hp : fs.node (fs.loc (p.first k)) = some .dir) :
    (fs.node (fs.loc (p.first (k + 1))) ≠ none ∧ fs.mkdir (p.first (k + 1)) = .error .fileExists) ∨
    (fs.node (fs.loc (p.first (k + 1))) = none ∧
      fs.mkdir (p.first (k + 1)) = .ok (fs.put (fs.loc (p.first (k + 1))) .dir) ∧
      Sound (fs.put (fs.loc (p.first (k + 1))) .dir) ∧
      OnlyAdds fs (fs.put (fs.loc (p.first (k + 1))) .dir) (· = fs.loc (p.first (k + 1)))) := by
  have hdl : (fs.loc (p.first (k + 1))).dropLast = fs.loc (p.first k) := by
    rw [loc_first_succ fs p hk, List.dropLast_concat]
  unfold Fs.mkdir
  rw [if_neg (first_not_empty (by omega) (by omega))]
  by_cases h : fs.node (fs.loc (p.first (k + 1))) = none
  · right
    refine ⟨h, ?_, ?_⟩
    · rw [if_neg (by simp [h]), if_neg (by simp [(hc.mono (loc_first_prefix fs p (k + 1))).not_blocked]), hdl, if_pos hp]
    · refine put_dir hs h ?_ (by rw [hdl]; exact hp)
      rw [loc_first_succ fs p hk]
      simp
  · left
    refine ⟨h, ?_⟩
    rw [if_pos (by rwa [Option.isSome_iff_ne_none])]

/-! ### Several processes -/

/-- What holds of a process at any time. -/
structure ProcOk (fs : Fs) (p : Proc) : Prop where
  target : ¬ p.target.Empty
  clear : Clear fs (fs.loc p.target)
  pc : match p.pc with
    | .check => True
    | .descend k => 1 ≤ k ∧ k ≤ p.target.comps.length
    | .create k => ∃ j, k = j + 1 ∧ j < p.target.comps.length ∧ fs.node (fs.loc (p.target.first j)) = some .dir
    | .done (.ok ()) => fs.node (fs.loc p.target) = some .dir
    | .done (.error e) => e = .fileExists ∧ fs.node (fs.loc p.target) = some .dir

theorem ProcOk.stable {a b : Fs} {P : Loc → Prop} (h : OnlyAdds a b P) {p : Proc} (hp : ProcOk a p) : ProcOk b p := by
  refine ⟨hp.target, ?_, ?_⟩
  · rw [loc_cwd h.1]
    exact h.clear hp.clear
  · have h0 := hp.pc
    rcases hpc : p.pc with _ | k | k | r
    · trivial
    · rw [hpc] at h0
      exact h0
    · rw [hpc] at h0
      obtain ⟨j, e, hj, hn⟩ := h0
      exact ⟨j, e, hj, by rw [loc_cwd h.1]; exact h.2.1 _ _ hn⟩
    · rcases r with e | ⟨⟩
      · rw [hpc] at h0
        exact ⟨h0.1, by rw [loc_cwd h.1]; exact h.2.1 _ _ h0.2⟩
      · rw [hpc] at h0
        change b.node (b.loc p.target) = some .dir
        rw [loc_cwd h.1]
        exact h.2.1 _ _ h0

/-- Steps left. -/
def left (p : Proc) : ℕ :=
  match p.pc with
  | .check => 2 * p.target.comps.length + 3
  | .descend k => p.target.comps.length + k + 2
  | .create k => p.target.comps.length + 1 - k + 1
  | .done _ => 0

theorem clear_dir {fs : Fs} {l : Loc} (hc : Clear fs l) (h : fs.node l ≠ none) : fs.node l = some .dir := by
  rcases hn : fs.node l with _ | _ | c
  · exact absurd hn h
  · rfl
  · exact absurd hn (hc l (List.prefix_refl l) c)

theorem target_pos {fs : Fs} (hs : Sound fs) {p : Path} (h : ¬ p.Empty) (he : fs.pathExists p = false) :
    1 ≤ p.comps.length := by
  by_contra hl
  have hc : p.comps = [] := List.length_eq_zero_iff.mp (by omega)
  have habs : p.abs = true := by
    by_contra ha
    exact h ⟨by simpa using ha, hc⟩
  have : fs.pathExists p = true := pathExists_iff.mpr ⟨h, by simp [Fs.loc, habs, hc, hs.root]⟩
  rw [this] at he
  cases he

theorem step_ok {fs : Fs} (hs : Sound fs) {p : Proc} (hp : ProcOk fs p) :
    Sound (step fs p).1 ∧ ProcOk (step fs p).1 (step fs p).2 ∧
      OnlyAdds fs (step fs p).1 (· <+: fs.loc p.target) ∧ (step fs p).2.target = p.target ∧
      (left p = 0 ∨ left (step fs p).2 < left p) := by
  obtain ⟨ht, hc, hpc⟩ := hp
  obtain ⟨t, pc⟩ := p
  rcases pc with _ | k | k | r
  · simp only at ht hc
    simp only [step]
    split
    · rename_i h
      rw [pathExists_iff] at h
      exact ⟨hs, ⟨ht, hc, clear_dir hc h.2⟩, OnlyAdds.refl _ _, rfl, Or.inr (by simp [left])⟩
    · rename_i h
      refine ⟨hs, ⟨ht, hc, target_pos hs ht (by simpa using h), le_refl _⟩, OnlyAdds.refl _ _, rfl, Or.inr ?_⟩
      simp [left]
      omega
  · simp only at ht hc hpc
    simp only [step]
    split
    · rename_i h
      have h1 : k = 1 ∧ t.abs = false := by rcases h with h | h; omega; exact h
      refine ⟨hs, ⟨ht, hc, 0, by omega, by simp only; omega, ?_⟩, OnlyAdds.refl _ _, rfl, Or.inr ?_⟩
      · simp [Path.first, Fs.loc, h1.2, hs.cwd]
      · simp [left]
        omega
    · split
      · rename_i h1 h2
        rw [pathExists_iff] at h2
        refine ⟨hs, ⟨ht, hc, k - 1, by omega, by simp only; omega, ?_⟩, OnlyAdds.refl _ _, rfl, Or.inr ?_⟩
        · exact clear_dir (hc.mono (loc_first_prefix _ _ _)) h2.2
        · simp [left]
          omega
      · rename_i h1 h2
        refine ⟨hs, ⟨ht, hc, ?_⟩, OnlyAdds.refl _ _, rfl, Or.inr ?_⟩
        · have : k ≠ 1 := by
            rintro rfl
            have ha : t.abs = true := by
              by_contra ha
              exact h1 (Or.inr ⟨rfl, by simpa using ha⟩)
            apply h2
            rw [pathExists_iff]
            refine ⟨?_, ?_⟩
            · rintro ⟨h, -⟩
              simp [Path.first, ha] at h
            · simp [Path.first, Fs.loc, ha, hs.root]
          simp only
          omega
        · simp [left]
          omega
  · simp only at ht hc hpc
    obtain ⟨j, rfl, hj, hd⟩ := hpc
    simp only [step]
    rcases mkdir_first hs hj hc hd with ⟨hn, he⟩ | ⟨hn, he, hs', hadd⟩
    · rw [he]
      simp only
      have hdir := clear_dir (hc.mono (loc_first_prefix _ _ _)) hn
      split
      · rename_i hl
        have e : j + 1 = t.comps.length := by omega
        rw [e, first_length] at hdir
        exact ⟨hs, ⟨ht, hc, rfl, hdir⟩, OnlyAdds.refl _ _, rfl, Or.inr (by simp [left])⟩
      · rename_i hl
        refine ⟨hs, ⟨ht, hc, j + 1, rfl, by simp only; omega, hdir⟩, OnlyAdds.refl _ _, rfl, Or.inr ?_⟩
        simp [left]
        omega
    · rw [he]
      simp only
      have hadd' : OnlyAdds fs (fs.put (fs.loc (t.first (j + 1))) .dir) (· <+: fs.loc t) :=
        hadd.mono fun l hl => hl ▸ loc_first_prefix _ _ _
      have hloc : ∀ q, (fs.put (fs.loc (t.first (j + 1))) .dir).loc q = fs.loc q := fun q => loc_cwd hadd.1 q
      split
      · rename_i hl
        have e : j + 1 = t.comps.length := by omega
        refine ⟨hs', ⟨ht, ?_, ?_⟩, hadd', rfl, Or.inr (by simp [left])⟩
        · rw [hloc]
          exact hadd.clear hc
        · simp only
          rw [hloc, e, first_length, put_node_self]
      · rename_i hl
        refine ⟨hs', ⟨ht, ?_, j + 1, rfl, by simp only; omega, ?_⟩, hadd', rfl, Or.inr ?_⟩
        · rw [hloc]
          exact hadd.clear hc
        · rw [hloc, put_node_self]
        · simp [left]
          omega
  · exact ⟨hs, ⟨ht, hc, hpc⟩, OnlyAdds.refl _ _, rfl, Or.inl rfl⟩

end Verif.Files
