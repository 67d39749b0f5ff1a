/-
Property C118: creating directories, alone and with other processes.
-/
import Verif.Lemmas.Files

namespace Verif.Files

/-! ### Schedules -/

/-- What holds of the system in every schedule. -/
structure SystemOk (s s' : System) : Prop where
  sound : Sound s'.fs
  adds : OnlyAdds s.fs s'.fs fun l => ∃ p ∈ s.procs, l <+: s.fs.loc p.target
  procs : ∀ p ∈ s'.procs, ProcOk s'.fs p
  targets : s'.procs.map Proc.target = s.procs.map Proc.target

theorem mem_target {s s' : System} (h : s'.procs.map Proc.target = s.procs.map Proc.target) {p : Proc}
    (hp : p ∈ s'.procs) : ∃ q ∈ s.procs, q.target = p.target := by
  have : p.target ∈ s.procs.map Proc.target := by
    rw [← h]
    exact List.mem_map_of_mem hp
  simpa using this

theorem stepAt_ok {s s' : System} (h : SystemOk s s') (i : ℕ) : SystemOk s (s'.stepAt i) := by
  unfold System.stepAt
  cases hp : s'.procs[i]? with
  | none => exact h
  | some p =>
    have hi : i < s'.procs.length := (List.getElem?_eq_some_iff.mp hp).1
    have hpm : p ∈ s'.procs := List.mem_of_getElem? hp
    obtain ⟨h1, h2, h3, h4, -⟩ := step_ok h.sound (h.procs p hpm)
    refine ⟨h1, h.adds.trans (h3.mono fun l hl => ?_), ?_, ?_⟩
    · obtain ⟨q, hq, e⟩ := mem_target h.targets hpm
      refine ⟨q, hq, ?_⟩
      rw [e, ← loc_cwd h.adds.1]
      exact hl
    · intro q hq
      rcases List.mem_or_eq_of_mem_set hq with hq | rfl
      · exact (h.procs q hq).stable h3
      · exact h2
    · rw [List.map_set, h4, ← h.targets]
      have e : (List.map Proc.target s'.procs)[i]'(by simpa using hi) = p.target := by
        rw [List.getElem_map]
        rw [(List.getElem?_eq_some_iff.mp hp).2]
      rw [← e, List.set_getElem_self]

theorem run_ok {s : System} (hs : Sound s.fs) (hp : ∀ p ∈ s.procs, ProcOk s.fs p) (schedule : List ℕ) :
    SystemOk s (s.run schedule) := by
  induction schedule using List.reverseRecOn with
  | nil => exact ⟨hs, OnlyAdds.refl _ _, hp, rfl⟩
  | append_singleton l i ih =>
    unfold System.run
    rw [List.foldl_append]
    exact stepAt_ok ih i

/-- The steps left for a process, zero if there is no such process. -/
def leftAt (s : System) (i : ℕ) : ℕ :=
  match s.procs[i]? with
  | some p => left p
  | none => 0

theorem leftAt_run {s : System} (hs : Sound s.fs) (hp : ∀ p ∈ s.procs, ProcOk s.fs p) (i : ℕ) (schedule : List ℕ) :
    leftAt (s.run schedule) i ≤ leftAt s i - schedule.count i := by
  induction schedule using List.reverseRecOn with
  | nil => simp [System.run]
  | append_singleton l j ih =>
    have hok := run_ok hs hp l
    have e : s.run (l ++ [j]) = (s.run l).stepAt j := by
      unfold System.run
      rw [List.foldl_append]
      rfl
    rw [e]
    have key : leftAt ((s.run l).stepAt j) i ≤ leftAt (s.run l) i - [j].count i := by
      unfold System.stepAt leftAt
      cases hq : (s.run l).procs[j]? with
      | none =>
        simp only
        by_cases hij : j = i
        · subst hij
          rw [hq]
          simp
        · simp [hij]
      | some p =>
        simp only
        by_cases hij : j = i
        · subst hij
          have hi := (List.getElem?_eq_some_iff.mp hq).1
          rw [hq, List.getElem?_set_self hi]
          obtain ⟨-, -, -, -, h⟩ := step_ok hok.sound (hok.procs p (List.mem_of_getElem? hq))
          simp only [List.count_singleton_self]
          rcases h with h | h
          · have : left (step (s.run l).fs p).2 = 0 := by
              have hd : ∃ r, p.pc = .done r := by
                unfold left at h
                split at h
                · omega
                · omega
                · omega
                · rename_i r hr; exact ⟨r, hr⟩
              obtain ⟨r, hr⟩ := hd
              simp [step, hr, left]
            omega
          · omega
        · rw [List.getElem?_set_ne hij]
          simp [hij]
    rw [List.count_append]
    omega

theorem left_zero {p : Proc} (h : left p = 0) : ∃ r, p.pc = .done r := by
  unfold left at h
  split at h
  · omega
  · omega
  · omega
  · rename_i r hr; exact ⟨r, hr⟩

/-- **C118** Any number of processes that call `makedir` at the same time, under every schedule: nothing that
exists is changed or removed; only directories on the way to the wanted ones appear; a call that has returned
or raised leaves its directory in place; it never raises anything but `FileExistsError`; and a call that has
been given `2 n + 3` steps, `n` the number of names of its directory, has ended. -/
theorem C118_schedule (s : System) (hs : Sound s.fs)
    (hp : ∀ p ∈ s.procs, p.pc = .check ∧ ¬ p.target.Empty ∧ Clear s.fs (s.fs.loc p.target)) (schedule : List ℕ) :
    Sound (s.run schedule).fs ∧
    OnlyAdds s.fs (s.run schedule).fs (fun l => ∃ p ∈ s.procs, l <+: s.fs.loc p.target) ∧
    ∀ i p, s.procs[i]? = some p → ∃ p', (s.run schedule).procs[i]? = some p' ∧ p'.target = p.target ∧
      (∀ r, p'.pc = .done r → (s.run schedule).fs.node (s.fs.loc p.target) = some .dir ∧
        (r = .ok () ∨ r = .error .fileExists)) ∧
      (2 * p.target.comps.length + 3 ≤ schedule.count i → ∃ r, p'.pc = .done r) := by
  have hp' : ∀ p ∈ s.procs, ProcOk s.fs p := fun p h =>
    ⟨(hp p h).2.1, (hp p h).2.2, by rw [(hp p h).1]; trivial⟩
  have hok := run_ok hs hp' schedule
  refine ⟨hok.sound, hok.adds, fun i p hi => ?_⟩
  have ht : ((s.run schedule).procs.map Proc.target)[i]? = some p.target := by
    rw [hok.targets, List.getElem?_map, hi]
    rfl
  rw [List.getElem?_map] at ht
  obtain ⟨p', hp1, hp2⟩ := Option.map_eq_some_iff.mp ht
  refine ⟨p', hp1, hp2, ?_, ?_⟩
  · intro r hr
    have h := (hok.procs p' (List.mem_of_getElem? hp1)).pc
    rw [hr] at h
    rw [← hp2, ← loc_cwd hok.adds.1]
    rcases r with e | ⟨⟩
    · exact ⟨h.2, Or.inr (by rw [h.1])⟩
    · exact ⟨h, Or.inl rfl⟩
  · intro hc
    have hl := leftAt_run hs hp' i schedule
    have h0 : leftAt s i = 2 * p.target.comps.length + 3 := by
      unfold leftAt
      rw [hi]
      simp [left, (hp p (List.mem_of_getElem? hi)).1]
    have h1 : leftAt (s.run schedule) i = left p' := by
      unfold leftAt
      rw [hp1]
    exact left_zero (by omega)

/-! ### Who can fail -/

/-- The state of a process whose directory no other process creates. -/
def Owner (fs : Fs) (p : Proc) : Prop :=
  (fs.node (fs.loc p.target) ≠ none ∧ (p.pc = .check ∨ p.pc = .done (.ok ()))) ∨
  (fs.node (fs.loc p.target) = none ∧ ∀ r, p.pc ≠ .done r)

theorem owner_step {fs : Fs} (hs : Sound fs) {p : Proc} (hp : ProcOk fs p) (ho : Owner fs p) :
    Owner (step fs p).1 (step fs p).2 := by
  obtain ⟨ht, hc, hpc⟩ := hp
  obtain ⟨t, pc⟩ := p
  rcases ho with ⟨h1, rfl | rfl⟩ | ⟨h1, h2⟩
  · simp only at ht hc h1
    simp only [step, if_pos (pathExists_iff.mpr ⟨ht, h1⟩)]
    exact Or.inl ⟨h1, Or.inr rfl⟩
  · exact Or.inl ⟨h1, Or.inr rfl⟩
  · rcases pc with _ | k | k | r
    · simp only at ht hc h1
      simp only [step]
      rw [if_neg (by rw [pathExists_iff]; exact fun h => h.2 h1)]
      exact Or.inr ⟨h1, fun r hr => by cases hr⟩
    · simp only [step]
      split
      · exact Or.inr ⟨h1, fun r hr => by cases hr⟩
      · split
        · exact Or.inr ⟨h1, fun r hr => by cases hr⟩
        · exact Or.inr ⟨h1, fun r hr => by cases hr⟩
    · simp only at ht hc hpc h1
      obtain ⟨j, rfl, hj, hd⟩ := hpc
      simp only [step]
      rcases mkdir_first hs hj hc hd with ⟨hn, he⟩ | ⟨hn, he, hs', hadd⟩
      · rw [he]
        simp only
        split
        · rename_i hl
          have e : j + 1 = t.comps.length := by omega
          rw [e, first_length] at hn
          exact absurd h1 hn
        · exact Or.inr ⟨h1, fun r hr => by cases hr⟩
      · rw [he]
        simp only
        split
        · rename_i hl
          have e : j + 1 = t.comps.length := by omega
          left
          refine ⟨?_, Or.inr rfl⟩
          simp only
          rw [loc_cwd hadd.1, e, first_length, put_node_self]
          simp
        · rename_i hl
          right
          refine ⟨?_, fun r hr => by cases hr⟩
          simp only
          rw [loc_cwd hadd.1, put_node_ne _ _ ?_]
          · exact h1
          · intro e
            have := congrArg List.length e
            unfold Fs.loc Path.first at this
            simp only at this
            split at this
            · simp only [List.length_take] at this
              omega
            · simp only [List.length_append, List.length_take] at this
              omega
    · exact absurd rfl (h2 r)

/-- **C118** A call of `makedir` fails only against a competitor: if it raises, some other process was creating
the same directory or one below it. -/
theorem C118_unshared (s : System) (hs : Sound s.fs)
    (hp : ∀ p ∈ s.procs, p.pc = .check ∧ ¬ p.target.Empty ∧ Clear s.fs (s.fs.loc p.target)) (schedule : List ℕ)
    (i : ℕ) (p p' : Proc) (hi : s.procs[i]? = some p) (hi' : (s.run schedule).procs[i]? = some p') (e : FileErr)
    (he : p'.pc = .done (.error e)) :
    ∃ j q, j ≠ i ∧ s.procs[j]? = some q ∧ s.fs.loc p.target <+: s.fs.loc q.target := by
  by_contra hno
  push Not at hno
  have hp' : ∀ p ∈ s.procs, ProcOk s.fs p := fun p h =>
    ⟨(hp p h).2.1, (hp p h).2.2, by rw [(hp p h).1]; trivial⟩
  have key : ∀ p', (s.run schedule).procs[i]? = some p' → Owner (s.run schedule).fs p' := by
    clear hi' he
    induction schedule using List.reverseRecOn with
    | nil =>
      intro p' h
      change s.procs[i]? = some p' at h
      rw [hi] at h
      cases h
      have hc := (hp p (List.mem_of_getElem? hi)).1
      by_cases hn : s.fs.node (s.fs.loc p.target) = none
      · exact Or.inr ⟨hn, fun r hr => by rw [hc] at hr; cases hr⟩
      · exact Or.inl ⟨hn, Or.inl hc⟩
    | append_singleton l j ih =>
      intro p' h
      have hok := run_ok hs hp' l
      have e : s.run (l ++ [j]) = (s.run l).stepAt j := by
        unfold System.run
        rw [List.foldl_append]
        rfl
      rw [e] at h ⊢
      unfold System.stepAt at h ⊢
      cases hq : (s.run l).procs[j]? with
      | none =>
        rw [hq] at h
        exact ih p' h
      | some q =>
        rw [hq] at h
        simp only at h ⊢
        by_cases hij : j = i
        · subst hij
          rw [List.getElem?_set_self (List.getElem?_eq_some_iff.mp hq).1] at h
          cases h
          exact owner_step hok.sound (hok.procs q (List.mem_of_getElem? hq)) (ih q hq)
        · rw [List.getElem?_set_ne hij] at h
          have ho := ih p' h
          obtain ⟨-, -, hadd, -, -⟩ := step_ok hok.sound (hok.procs q (List.mem_of_getElem? hq))
          have htq : (s.procs.map Proc.target)[j]? = some q.target := by
            rw [← hok.targets, List.getElem?_map, hq]; rfl
          have htp : (s.procs.map Proc.target)[i]? = some p'.target := by
            rw [← hok.targets, List.getElem?_map, h]; rfl
          rw [List.getElem?_map, hi] at htp
          rw [List.getElem?_map] at htq
          obtain ⟨q0, hq0, eq0⟩ := Option.map_eq_some_iff.mp htq
          have hpt : p.target = p'.target := Option.some.inj htp
          have hnp : ¬ (s.run l).fs.loc p'.target <+: (s.run l).fs.loc q.target := by
            rw [loc_cwd hok.adds.1, loc_cwd hok.adds.1, ← hpt, ← eq0]
            exact hno j q0 hij hq0
          have hnode : (step (s.run l).fs q).1.node ((s.run l).fs.loc p'.target) =
              (s.run l).fs.node ((s.run l).fs.loc p'.target) := by
            cases hn : (s.run l).fs.node ((s.run l).fs.loc p'.target) with
            | some n => exact hadd.2.1 _ _ hn
            | none =>
              cases hn' : (step (s.run l).fs q).1.node ((s.run l).fs.loc p'.target) with
              | none => rfl
              | some n =>
                rcases hadd.2.2 _ _ hn' with h1 | h1
                · rw [hn] at h1; cases h1
                · exact absurd h1.2 hnp
          unfold Owner at ho ⊢
          rw [loc_cwd hadd.1, hnode]
          exact ho
  rcases key p' hi' with ⟨-, h | h⟩ | ⟨-, h⟩
  · rw [he] at h; cases h
  · rw [he] at h; cases h
  · exact h _ he

/-! ### Alone -/

theorem alone_run (n : ℕ) (fs : Fs) (p : Proc) :
    ({ fs := fs, procs := [p] } : System).run (List.replicate n 0) =
      { fs := (alone n fs p).1, procs := [(alone n fs p).2] } := by
  induction n generalizing fs p with
  | zero => rfl
  | succ n ih =>
    rw [List.replicate_succ]
    change (System.stepAt { fs := fs, procs := [p] } 0).run (List.replicate n 0) = _
    exact ih (step fs p).1 (step fs p).2

/-- The directory that `makedir(d, usedir)` is to create. -/
def wanted (d : Path) (usedir : Bool) : Path := if usedir then d.dirname else d

/-- **C118** `makedir` alone succeeds: if the path of the directory is not empty and no file is in the way, the
call returns, the directory and all its ancestors exist, and nothing else has changed. -/
theorem C118_alone (fs : Fs) (hs : Sound fs) (d : Path) (usedir : Bool) (hne : ¬ (wanted d usedir).Empty)
    (hc : Clear fs (fs.loc (wanted d usedir))) :
    (makedir fs d usedir).2 = some (.ok ()) ∧
    (∀ q, q <+: fs.loc (wanted d usedir) → (makedir fs d usedir).1.node q = some .dir) ∧
    Sound (makedir fs d usedir).1 ∧
    OnlyAdds fs (makedir fs d usedir).1 (· <+: fs.loc (wanted d usedir)) := by
  set s : System := { fs := fs, procs := [begin d usedir] } with hsdef
  set n := 2 * (wanted d usedir).comps.length + 3 with hn
  have hb : (begin d usedir).target = wanted d usedir := rfl
  have hp : ∀ p ∈ s.procs, p.pc = .check ∧ ¬ p.target.Empty ∧ Clear s.fs (s.fs.loc p.target) := by
    intro p h
    rw [hsdef] at h
    rw [List.mem_singleton.mp h]
    exact ⟨rfl, hne, hc⟩
  obtain ⟨h1, h2, h3⟩ := C118_schedule s hs hp (List.replicate n 0)
  obtain ⟨p', hp1, hp2, hp3, hp4⟩ := h3 0 (begin d usedir) rfl
  obtain ⟨r, hr⟩ := hp4 (by rw [List.count_replicate_self, hb])
  have hun := C118_unshared s hs hp (List.replicate n 0) 0 (begin d usedir) p' rfl hp1
  have hrun := alone_run n fs (begin d usedir)
  rw [← hsdef] at hrun
  rw [hrun] at h1 h2 hp1 hp3
  simp only [List.getElem?_cons_zero, Option.some.injEq] at hp1
  have hm1 : (makedir fs d usedir).1 = (alone n fs (begin d usedir)).1 := rfl
  have hm2 : (makedir fs d usedir).2 = some r := by
    unfold makedir
    simp only [hb, ← hn, hp1, hr]
  have hrok : r = .ok () := by
    rcases (hp3 r hr).2 with h | h
    · exact h
    · obtain ⟨j, q, hj, hq, -⟩ := hun _ (by rw [hr, h])
      rw [hsdef] at hq
      have := (List.getElem?_eq_some_iff.mp hq).1
      simp at this
      omega
  rw [hm1]
  refine ⟨by rw [hm2, hrok], fun q hq => ?_, h1, h2.mono fun l hl => ?_⟩
  · have hd : (alone n fs (begin d usedir)).1.node (fs.loc (wanted d usedir)) = some .dir := (hp3 r hr).1
    by_cases e : q = fs.loc (wanted d usedir)
    · rw [e]
      exact hd
    · exact h1.dir_of_prefix (by simp only; rw [hd]; simp) hq e
  · obtain ⟨p, hpm, hl⟩ := hl
    rw [hsdef] at hpm
    rw [List.mem_singleton.mp hpm] at hl
    exact hl

theorem alone_done (n : ℕ) (fs : Fs) (p : Proc) (r : Except FileErr Unit) (h : p.pc = .done r) :
    alone n fs p = (fs, p) := by
  induction n with
  | zero => rfl
  | succ n ih =>
    have : step fs p = (fs, p) := by simp [step, h]
    rw [alone, this]
    exact ih

theorem alone_of_step {n : ℕ} {fs fs1 fs2 : Fs} {p p1 p2 : Proc} (h : step fs p = (fs1, p1))
    (h2 : alone n fs1 p1 = (fs2, p2)) : alone (n + 1) fs p = (fs2, p2) := by
  rw [alone, h]
  exact h2

/-- **C118** If the path exists already, as a directory or as a file, the call returns and nothing changes. -/
theorem C118_exists (fs : Fs) (d : Path) (usedir : Bool) (hne : ¬ (wanted d usedir).Empty)
    (he : fs.node (fs.loc (wanted d usedir)) ≠ none) : makedir fs d usedir = (fs, some (.ok ())) := by
  have hstep : step fs (begin d usedir) = (fs, { target := wanted d usedir, pc := .done (.ok ()) }) := by
    unfold step begin
    simp only
    rw [if_pos]
    · rfl
    · exact pathExists_iff.mpr ⟨hne, he⟩
  have h := alone_of_step hstep (alone_done (2 * (wanted d usedir).comps.length + 2) _ _ _ rfl)
  unfold makedir
  have hb : (begin d usedir).target = wanted d usedir := rfl
  simp only [hb]
  rw [h]

/-- **C118** Calling it again changes nothing. -/
theorem C118_idempotent (fs : Fs) (hs : Sound fs) (d : Path) (usedir : Bool) (hne : ¬ (wanted d usedir).Empty)
    (hc : Clear fs (fs.loc (wanted d usedir))) :
    makedir (makedir fs d usedir).1 d usedir = ((makedir fs d usedir).1, some (.ok ())) := by
  obtain ⟨-, h1, -, h2⟩ := C118_alone fs hs d usedir hne hc
  refine C118_exists _ d usedir hne ?_
  rw [loc_cwd h2.1, h1 _ (List.prefix_refl _)]
  simp

/-- **C118** A file name without a directory: `makedir('results.json')` raises `FileNotFoundError`, because the
directory part is the empty string, and nothing changes. -/
theorem C118_bare_name (fs : Fs) (name : String) :
    makedir fs { abs := false, comps := [name] } true = (fs, some (.error .fileNotFound)) := by
  have hE : ({ abs := false, comps := [] } : Path).Empty := ⟨rfl, rfl⟩
  have h1 : step fs (begin { abs := false, comps := [name] } true) =
      (fs, { target := { abs := false, comps := [] }, pc := .descend 0 }) := by
    simp [step, begin, Path.dirname, Fs.pathExists, hE]
  have h2 : step fs { target := { abs := false, comps := [] }, pc := .descend 0 } =
      (fs, { target := { abs := false, comps := [] }, pc := .create 0 }) := by simp [step]
  have h3 : step fs { target := { abs := false, comps := [] }, pc := .create 0 } =
      (fs, { target := { abs := false, comps := [] }, pc := .done (.error .fileNotFound) }) := by
    simp [step, Fs.mkdir, Path.first, hE]
  have h := alone_of_step h1 (alone_of_step h2 (alone_of_step h3 (alone_done 0 _ _ _ rfl)))
  unfold makedir
  have hb : (begin { abs := false, comps := [name] } true).target = ({ abs := false, comps := [] } : Path) := rfl
  simp only [hb, List.length_nil]
  rw [h]

/-- The descent below a file. -/
theorem alone_blocked {fs : Fs} (hs : Sound fs) (t : Path) (m : ℕ) (hm : m < t.comps.length) (c : List Char)
    (hf : fs.node (fs.loc (t.first m)) = some (.file c)) (n : ℕ) :
    ∀ k, m < k → k ≤ t.comps.length → k - m + 1 ≤ n →
      alone n fs { target := t, pc := .descend k } =
        (fs, { target := t, pc := .done (.error .notADirectory) }) := by
  have hm0 : m ≠ 0 := by
    rintro rfl
    unfold Fs.loc Path.first at hf
    simp only [List.take_zero] at hf
    split at hf
    · rw [hs.root] at hf; cases hf
    · rw [List.append_nil, hs.cwd] at hf; cases hf
  have hlen : ∀ j k, j < k → k ≤ t.comps.length → fs.loc (t.first j) ≠ fs.loc (t.first k) := by
    intro j k hjk hk e
    have := congrArg List.length e
    unfold Fs.loc Path.first at this
    simp only at this
    split at this
    · simp only [List.length_take] at this
      omega
    · simp only [List.length_append, List.length_take] at this
      omega
  have hbelow : ∀ k, m < k → k ≤ t.comps.length → fs.node (fs.loc (t.first k)) = none := by
    intro k hk hkl
    exact hs.none_below (by rw [hf]; simp) (loc_first_mono fs t hk.le) (hlen m k hk hkl)
  induction n with
  | zero => intro k _ _ h; omega
  | succ n ih =>
    intro k hk hkl hn
    by_cases e : k = m + 1
    · have h1 : step fs { target := t, pc := .descend k } = (fs, { target := t, pc := .create k }) := by
        simp only [step]
        rw [if_neg (by omega), if_pos]
        rw [pathExists_iff]
        refine ⟨first_not_empty (by omega) (by omega), ?_⟩
        rw [e, Nat.add_sub_cancel, hf]
        simp
      have h2 : step fs { target := t, pc := .create k } =
          (fs, { target := t, pc := .done (.error .notADirectory) }) := by
        have hmk : fs.mkdir (t.first k) = .error .notADirectory := by
          unfold Fs.mkdir
          rw [if_neg (first_not_empty (by omega) hkl), if_neg (by rw [hbelow k hk hkl]; simp), if_pos]
          rw [blocked_iff]
          refine ⟨fs.loc (t.first m), ?_, c, hf⟩
          rw [e, loc_first_succ fs t hm, List.dropLast_concat]
        simp only [step, hmk]
      obtain ⟨n', rfl⟩ : ∃ n', n = n' + 1 := ⟨n - 1, by omega⟩
      exact alone_of_step h1 (alone_of_step h2 (alone_done n' _ _ _ rfl))
    · have h1 : step fs { target := t, pc := .descend k } = (fs, { target := t, pc := .descend (k - 1) }) := by
        simp only [step]
        rw [if_neg (by omega), if_neg]
        rw [pathExists_iff]
        rintro ⟨-, h⟩
        exact h (hbelow (k - 1) (by omega) (by omega))
      exact alone_of_step h1 (ih (k - 1) (by omega) (by omega) (by omega))

/-- **C118** A file in the way: if a proper part of the path names a file, the call raises `NotADirectoryError`
and nothing changes. -/
theorem C118_blocked (fs : Fs) (hs : Sound fs) (d : Path) (usedir : Bool) (m : ℕ)
    (hm : m < (wanted d usedir).comps.length) (c : List Char)
    (hf : fs.node (fs.loc ((wanted d usedir).first m)) = some (.file c)) :
    makedir fs d usedir = (fs, some (.error .notADirectory)) := by
  have hnone : fs.node (fs.loc (wanted d usedir)) = none := by
    refine hs.none_below (by rw [hf]; simp) (loc_first_prefix _ _ _) ?_
    intro e
    have := congrArg List.length e
    unfold Fs.loc Path.first at this
    simp only at this
    split at this
    · simp only [List.length_take] at this
      omega
    · simp only [List.length_append, List.length_take] at this
      omega
  have hb : (begin d usedir).target = wanted d usedir := rfl
  have h1 : step fs (begin d usedir) =
      (fs, { target := wanted d usedir, pc := .descend (wanted d usedir).comps.length }) := by
    unfold step begin
    simp only
    rw [if_neg]
    · rfl
    · rw [pathExists_iff]
      rintro ⟨-, h⟩
      exact h hnone
  have h := alone_of_step h1 (alone_blocked hs (wanted d usedir) m hm c hf (2 * (wanted d usedir).comps.length + 2)
    _ hm (le_refl _) (by omega))
  unfold makedir
  simp only [hb]
  rw [h]

/-! ### Examples -/

/-- An empty disk with the working directory `/w`. -/
def demoFs : Fs where
  node := fun l => if l = [] ∨ l = ["w"] then some .dir else none
  cwd := ["w"]

theorem demoFs_sound : Sound demoFs where
  root := by simp [demoFs]
  parent := by
    intro l n h
    unfold demoFs at h ⊢
    simp only at h ⊢
    split at h
    · rename_i h'
      rcases h' with h' | h'
      · simp at h'
      · have : l = [] := by
          have := congrArg List.length h'
          simp at this
          exact this
        simp [this]
    · exact absurd rfl h
  cwd := by simp [demoFs]

theorem demoFs_clear (l : Loc) : Clear demoFs l := by
  intro q _ c h
  unfold demoFs at h
  simp only at h
  split at h <;> cases h

/-- `makedir('outputs/effect_of_rules/yeast.csv')` creates two directories. -/
example : (makedir demoFs { abs := false, comps := ["outputs", "effect_of_rules", "yeast.csv"] } true).2 = some (.ok ()) ∧
    (makedir demoFs { abs := false, comps := ["outputs", "effect_of_rules", "yeast.csv"] } true).1.node
      ["w", "outputs", "effect_of_rules"] = some .dir := by
  obtain ⟨h1, h2, -⟩ := C118_alone demoFs demoFs_sound { abs := false, comps := ["outputs", "effect_of_rules", "yeast.csv"] }
    true (by decide) (demoFs_clear _)
  exact ⟨h1, h2 _ (List.prefix_refl _)⟩

/-- The race: two runs of a script for two data sets want `outputs`. Both look before either creates it; the
second creation raises `FileExistsError`. -/
example : ∃ p q, (({ fs := demoFs, procs := [begin { abs := false, comps := ["outputs", "a.csv"] } true,
      begin { abs := false, comps := ["outputs", "b.csv"] } true] } : System).run [0, 1, 0, 0, 1, 1]).procs = [p, q] ∧
    p.pc = .done (.ok ()) ∧ q.pc = .done (.error .fileExists) := by
  refine ⟨_, _, rfl, ?_, ?_⟩
  · rfl
  · rfl

end Verif.Files
