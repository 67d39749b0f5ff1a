/-
The experiment helpers: looking up an experiment that does not exist yet fails, and creates it.
-/
import Verif.Spec.Mlflow

namespace Verif

namespace Mlflow

theorem getByName_eq_some {s : Store} (hs : Distinct s) {e : Experiment} (he : e ∈ s) :
    getByName s e.name = some e := by
  unfold getByName
  cases h : s.find? fun x => x.name = e.name with
  | none => exact absurd (List.find?_eq_none.1 h e he) (by simp)
  | some x =>
    have h1 := List.find?_some h
    have h2 := List.mem_of_find?_eq_some h
    rw [hs x h2 e he (by simpa using h1)]

theorem getByName_eq_none {s : Store} {name : String} : getByName s name = none ↔ ¬ Has s name := by
  simp [getByName, Has, List.find?_eq_none]

theorem any_iff (s : Store) (name : String) : (s.any fun e => e.name = name) = true ↔ Has s name := by
  simp [Has]

theorem createExperiment_new {s : Store} {name : String} (h : ¬ Has s name) (i : String) :
    createExperiment s i name = (.ok i, s ++ [⟨i, name⟩]) := by
  unfold createExperiment
  rw [if_neg (by rw [any_iff]; exact h)]

theorem createExperiment_old {s : Store} {name : String} (h : Has s name) (i : String) :
    createExperiment s i name = (.error .exception, s) := by
  unfold createExperiment
  rw [if_pos (by rw [any_iff]; exact h)]

theorem distinct_append {s : Store} (hs : Distinct s) {name : String} (h : ¬ Has s name) (i : String) :
    Distinct (s ++ [⟨i, name⟩]) := by
  intro e he e' he' h'
  simp only [List.mem_append, List.mem_singleton] at he he'
  rcases he with he | rfl <;> rcases he' with he' | rfl
  · exact hs e he e' he' h'
  · exact absurd ⟨e, he, h'⟩ h
  · exact absurd ⟨e', he', h'.symm⟩ h
  · rfl

theorem has_append (s : Store) (name i n : String) : Has (s ++ [⟨i, name⟩]) n ↔ Has s n ∨ n = name := by
  constructor
  · rintro ⟨e, he, rfl⟩
    simp only [List.mem_append, List.mem_singleton] at he
    rcases he with he | rfl
    · exact Or.inl ⟨e, he, rfl⟩
    · exact Or.inr rfl
  · rintro (⟨e, he, rfl⟩ | rfl)
    · exact ⟨e, by simp [he], rfl⟩
    · exact ⟨⟨i, n⟩, by simp, rfl⟩

/-- **C108.** The id of an experiment that exists is returned, and nothing is changed. -/
theorem C108_known (s : Store) (hs : Distinct s) (e : Experiment) (he : e ∈ s) (i : String) :
    getExperimentIdByName i s e.name = (.ok e.id, s) := by
  unfold getExperimentIdByName createIfNeeded
  rw [getByName_eq_some hs he]
  rfl

/-- **C108.** The first request for an experiment fails with an `AttributeError`, but creates the experiment. -/
theorem C108_first_call (s : Store) (name i : String) (hn : ¬ Has s name) (hi : ¬ Has s i) (hne : i ≠ name) :
    getExperimentIdByName i s name = (.error .attributeError, s ++ [⟨i, name⟩]) := by
  unfold getExperimentIdByName createIfNeeded
  rw [getByName_eq_none.2 hn]
  simp only [createExperiment_new hn]
  rw [getByName_eq_none.2 (by rw [has_append]; simp [hi, hne])]
  rfl

/-- **C108.** The second request succeeds, whatever came of the first. -/
theorem C108_second_call (s : Store) (hs : Distinct s) (name i i' : String) (hn : ¬ Has s name) :
    getExperimentIdByName i' (getExperimentIdByName i s name).2 name = (.ok i, s ++ [⟨i, name⟩]) := by
  have h : (getExperimentIdByName i s name).2 = s ++ [⟨i, name⟩] := by
    unfold getExperimentIdByName createIfNeeded
    rw [getByName_eq_none.2 hn]
    simp only [createExperiment_new hn]
  rw [h]
  exact C108_known _ (distinct_append hs hn i) ⟨i, name⟩ (by simp) i'

/-- **C108.** If the id of the new experiment happens to be the name of an older experiment, the first request returns
the id of that older experiment. -/
theorem C108_wrong_experiment (s : Store) (hs : Distinct s) (name : String) (e : Experiment) (he : e ∈ s)
    (hn : ¬ Has s name) :
    getExperimentIdByName e.name s name = (.ok e.id, s ++ [⟨e.name, name⟩]) := by
  unfold getExperimentIdByName createIfNeeded
  rw [getByName_eq_none.2 hn]
  simp only [createExperiment_new hn]
  rw [getByName_eq_some (distinct_append hs hn _) (by simp [he])]
  rfl

/-- **C108.** `create_experiment_if_needed` never raises, and afterwards there is exactly one experiment of that name. -/
theorem C108_create (s : Store) (hs : Distinct s) (name i : String) :
    ∃ x s', createIfNeeded i s name = (.ok x, s') ∧ Has s' name ∧ Distinct s' ∧
      (s' = s ∨ s' = s ++ [⟨i, name⟩]) := by
  unfold createIfNeeded
  cases h : getByName s name with
  | some e =>
    refine ⟨some e, s, rfl, ?_, hs, Or.inl rfl⟩
    by_contra hc
    rw [getByName_eq_none.2 hc] at h
    cases h
  | none =>
    have hn := getByName_eq_none.1 h
    refine ⟨getByName (s ++ [⟨i, name⟩]) i, s ++ [⟨i, name⟩], ?_, by simp [has_append], distinct_append hs hn i, Or.inr rfl⟩
    simp only [createExperiment_new hn]

/-! ### Several processes -/

theorem run_append (name : String) (w : World) (a b : List (ℕ × String)) :
    w.run name (a ++ b) = (w.run name a).run name b := by
  induction a generalizing w with
  | nil => rfl
  | cons t a ih => obtain ⟨k, i⟩ := t; exact ih _

/-- A process on its own does what the function does. -/
theorem C108_alone (s : Store) (name i i₀ i₁ : String) :
    (World.init 1 s).run name [(0, i₀), (0, i), (0, i₁)] =
      ⟨[.done (getExperimentIdByName i s name).1], (getExperimentIdByName i s name).2⟩ := by
  simp only [World.run, World.init, World.turn, List.replicate, List.getElem?_cons_zero, List.set_cons_zero]
  unfold getExperimentIdByName createIfNeeded
  cases h : getByName s name with
  | some e => simp only [step, h]
  | none =>
    have hn := getByName_eq_none.1 h
    simp only [step, h, createExperiment_new hn]

theorem turn_procs (name : String) (w : World) (k : ℕ) (i : String) (j : ℕ) :
    (w.turn name k i).procs[j]? =
      if j = k then (w.procs[j]?).map fun p => (step name i w.store p).1 else w.procs[j]? := by
  unfold World.turn
  split
  · rename_i h
    split
    · rename_i e; subst e; simp [h]
    · rfl
  · rename_i p h
    simp only
    by_cases e : j = k
    · subst e
      rw [if_pos rfl, h, List.getElem?_set_self (by rw [List.getElem?_eq_some_iff] at h; exact h.1)]
      rfl
    · rw [if_neg e, List.getElem?_set_ne (Ne.symm e)]

theorem turn_length (name : String) (w : World) (k : ℕ) (i : String) :
    (w.turn name k i).procs.length = w.procs.length := by
  unfold World.turn
  split <;> simp

/-- How many steps a process has still to make, at most. -/
def left : Proc → ℕ
  | .start => 3
  | .missing => 2
  | .created _ => 1
  | .done _ => 0

theorem left_step (name i : String) (s : Store) (p : Proc) : left (step name i s p).1 ≤ left p - 1 := by
  cases p with
  | start => simp only [step]; split <;> simp [left]
  | missing =>
    simp only [step]
    split <;> simp [left]
  | created j => simp [step, left]
  | done r => simp [step, left]

theorem left_run (name : String) (schedule : List (ℕ × String)) (w : World) (k : ℕ) (p : Proc)
    (h : w.procs[k]? = some p) :
    ∃ q, (w.run name schedule).procs[k]? = some q ∧ left q ≤ left p - turns schedule k := by
  induction schedule generalizing w p with
  | nil => exact ⟨p, h, by simp [turns]⟩
  | cons t rest ih =>
    obtain ⟨k', i⟩ := t
    have hk := turn_procs name w k' i k
    by_cases e : k = k'
    · subst e
      rw [if_pos rfl, h, Option.map_some] at hk
      obtain ⟨q, hq, hl⟩ := ih _ _ hk
      refine ⟨q, hq, ?_⟩
      have := left_step name i w.store p
      have ht : turns ((k, i) :: rest) k = turns rest k + 1 := by simp [turns]
      omega
    · rw [if_neg e, h] at hk
      obtain ⟨q, hq, hl⟩ := ih _ _ hk
      refine ⟨q, hq, ?_⟩
      have ht : turns ((k', i) :: rest) k = turns rest k := by simp [turns, Ne.symm e]
      omega

/-- **C108.** No process waits for another: three turns are enough for it to end. -/
theorem C108_terminates (name : String) (n : ℕ) (s : Store) (schedule : List (ℕ × String)) (k : ℕ) (hk : k < n)
    (ht : 3 ≤ turns schedule k) :
    ∃ p, ((World.init n s).run name schedule).procs[k]? = some p ∧ Finished p := by
  obtain ⟨q, hq, hl⟩ := left_run name schedule (World.init n s) k .start (by simp [World.init, hk])
  refine ⟨q, hq, ?_⟩
  have h3 : left .start = 3 := rfl
  have : left q = 0 := by omega
  cases q <;> simp_all [left, Finished]

/-- **C108.** If the experiment was created before, every process gets its id, whatever the schedule. -/
theorem C108_prepared (s : Store) (hs : Distinct s) (name i : String) (n : ℕ) :
    ∃ (w : World) (e : Experiment), prepared i n s name = .ok w ∧ e ∈ w.store ∧ e.name = name ∧ w.procs.length = n ∧
      ∀ (schedule : List (ℕ × String)), (w.run name schedule).store = w.store ∧
        ∀ p ∈ (w.run name schedule).procs, p = .start ∨ p = .done (.ok e.id) := by
  obtain ⟨x, s', h, ⟨e, he, hen⟩, hd, -⟩ := C108_create s hs name i
  refine ⟨World.init n s', e, by simp [prepared, h], he, hen, by simp [World.init], fun schedule => ?_⟩
  have key : ∀ w : World, w.store = s' → (∀ p ∈ w.procs, p = .start ∨ p = .done (.ok e.id)) →
      (w.run name schedule).store = s' ∧
        ∀ p ∈ (w.run name schedule).procs, p = .start ∨ p = .done (.ok e.id) := by
    induction schedule with
    | nil => exact fun w h1 h2 => ⟨h1, h2⟩
    | cons t rest ih =>
      obtain ⟨k, i'⟩ := t
      intro w h1 h2
      have hstep : ∀ p, p = .start ∨ p = .done (.ok e.id) → step name i' w.store p = (.done (.ok e.id), w.store) := by
        have hg : getByName w.store name = some e := by rw [h1, ← hen]; exact getByName_eq_some hd he
        rintro p (rfl | rfl)
        · simp [step, hg, idOf]
        · rfl
      refine ih (w.turn name k i') ?_ ?_
      · unfold World.turn
        split
        · exact h1
        · rename_i p hp
          rw [hstep p (h2 p (List.mem_of_getElem? hp))]
          exact h1
      · unfold World.turn
        split
        · exact h2
        · rename_i p hp
          rw [hstep p (h2 p (List.mem_of_getElem? hp))]
          intro q hq
          rcases List.mem_or_eq_of_mem_set hq with hq | hq
          · exact h2 q hq
          · exact Or.inr hq
  exact key _ rfl fun p hp => Or.inl (List.eq_of_mem_replicate hp)

/-- The states that processes can be in while nothing was created. -/
def Before (s : Store) (w : World) : Prop := w.store = s ∧ ∀ p ∈ w.procs, p = .start ∨ p = .missing

/-- The states after process `k` created the experiment with id `j`. -/
def After (s : Store) (name j : String) (k : ℕ) (w : World) : Prop :=
  w.store = s ++ [⟨j, name⟩] ∧ j ≠ name ∧ ¬ Has s j ∧
    (w.procs[k]? = some (.created j) ∨ w.procs[k]? = some (.done (.error .attributeError))) ∧
    ∀ k' ≠ k, ∀ p, w.procs[k']? = some p →
      p = .start ∨ p = .missing ∨ p = .done (.ok j) ∨ p = .done (.error .exception)

theorem before_turn {s : Store} {name : String} (hn : ¬ Has s name) {w : World} (hw : Before s w) (k : ℕ) (i : String)
    (hi : i ≠ name ∧ ¬ Has s i) :
    Before s (w.turn name k i) ∨ After s name i k (w.turn name k i) := by
  cases hk : w.procs[k]? with
  | none => left; unfold World.turn; rw [hk]; exact hw
  | some p =>
    rcases hw.2 p (List.mem_of_getElem? hk) with rfl | rfl
    · left
      have h1 : step name i w.store .start = (.missing, w.store) := by
        simp only [step]
        rw [getByName_eq_none.2 (by rw [hw.1]; exact hn)]
      unfold World.turn
      rw [hk]
      simp only [h1]
      refine ⟨hw.1, fun q hq => ?_⟩
      rcases List.mem_or_eq_of_mem_set hq with hq | hq
      · exact hw.2 q hq
      · exact Or.inr hq
    · right
      have h1 : step name i w.store .missing = (.created i, s ++ [⟨i, name⟩]) := by
        simp only [step]
        rw [hw.1, createExperiment_new hn]
      refine ⟨?_, hi.1, hi.2, Or.inl ?_, ?_⟩
      · unfold World.turn; rw [hk]; simp only [h1]
      · rw [turn_procs, if_pos rfl, hk]; simp [h1]
      · intro k' hk' p hp
        rw [turn_procs, if_neg hk'] at hp
        rcases hw.2 p (List.mem_of_getElem? hp) with h | h
        · exact Or.inl h
        · exact Or.inr (Or.inl h)

theorem after_turn {s : Store} (hs : Distinct s) {name j : String} (hn : ¬ Has s name) {k : ℕ} {w : World}
    (hw : After s name j k w) (k' : ℕ) (i : String) : After s name j k (w.turn name k' i) := by
  obtain ⟨h1, h2, h3, h4, h5⟩ := hw
  have hg : getByName w.store name = some ⟨j, name⟩ := by
    rw [h1]
    exact getByName_eq_some (e := ⟨j, name⟩) (distinct_append hs hn j) (by simp)
  have hg' : getByName w.store j = none := by
    rw [h1]
    exact getByName_eq_none.2 (by rw [has_append]; simp [h3, h2])
  have hc : createExperiment w.store i name = (.error .exception, w.store) :=
    createExperiment_old (by rw [h1, has_append]; simp) i
  have hst : ∀ p, w.procs[k']? = some p → (step name i w.store p).2 = w.store := by
    intro p _
    cases p with
    | start => simp only [step, hg]
    | missing => simp only [step, hc]
    | created _ => rfl
    | done _ => rfl
  refine ⟨?_, h2, h3, ?_, ?_⟩
  · unfold World.turn
    split
    · exact h1
    · rename_i p hp; rw [hst p hp]; exact h1
  · rw [turn_procs]
    split
    · rename_i e
      right
      rcases h4 with h4 | h4 <;> simp [h4, step, hg', idOf]
    · exact h4
  · intro k'' hk'' p hp
    rw [turn_procs] at hp
    split at hp
    · rename_i e
      cases hq : w.procs[k'']? with
      | none => rw [hq] at hp; cases hp
      | some q =>
        rw [hq] at hp
        simp only [Option.map_some, Option.some.injEq] at hp
        rcases h5 k'' hk'' q hq with rfl | rfl | rfl | rfl
        · simp only [step, hg, idOf] at hp; subst hp; simp
        · simp only [step, hc] at hp; subst hp; simp
        · simp only [step] at hp; subst hp; simp
        · simp only [step] at hp; subst hp; simp
    · exact h5 k'' hk'' p hp

theorem run_states {s : Store} (hs : Distinct s) {name : String} (hn : ¬ Has s name) (schedule : List (ℕ × String))
    (hi : IdsAreNotNames s name schedule) (w : World) :
    (Before s w → Before s (w.run name schedule) ∨
      ∃ t ∈ schedule, After s name t.2 t.1 (w.run name schedule)) ∧
    ∀ j k, After s name j k w → After s name j k (w.run name schedule) := by
  induction schedule generalizing w with
  | nil => exact ⟨Or.inl, fun _ _ h => h⟩
  | cons t rest ih =>
    obtain ⟨k, i⟩ := t
    have ih := ih (fun t ht => hi t (by simp [ht])) (w.turn name k i)
    refine ⟨fun h => ?_, fun j k' h => ih.2 j k' (after_turn hs hn h k i)⟩
    rcases before_turn hn h k i (hi (k, i) (by simp)) with h | h
    · rcases ih.1 h with h | ⟨t, ht, h⟩
      · exact Or.inl h
      · exact Or.inr ⟨t, by simp [ht], h⟩
    · exact Or.inr ⟨(k, i), by simp, ih.2 _ _ h⟩

/-- **C108.** If nobody created the experiment before, then under every schedule that lets all processes end exactly one
of them fails with an `AttributeError`; it created the only experiment of that name. Every other process gets the id of
this experiment or fails because the name is in use. -/
theorem C108_race (s : Store) (hs : Distinct s) (name : String) (hn : ¬ Has s name) (n : ℕ) (hpos : 0 < n)
    (schedule : List (ℕ × String)) (hi : IdsAreNotNames s name schedule)
    (hend : ∀ p ∈ ((World.init n s).run name schedule).procs, Finished p) :
    ∃ t ∈ schedule, t.1 < n ∧ ((World.init n s).run name schedule).store = s ++ [⟨t.2, name⟩] ∧
      ((World.init n s).run name schedule).procs[t.1]? = some (.done (.error .attributeError)) ∧
      ∀ k < n, k ≠ t.1 →
        ((World.init n s).run name schedule).procs[k]? = some (.done (.ok t.2)) ∨
        ((World.init n s).run name schedule).procs[k]? = some (.done (.error .exception)) := by
  have hlen : ∀ (sch : List (ℕ × String)) (w : World), (w.run name sch).procs.length = w.procs.length := by
    intro sch
    induction sch with
    | nil => exact fun _ => rfl
    | cons t rest ih => obtain ⟨k, i⟩ := t; intro w; exact (ih _).trans (turn_length _ _ _ _)
  have hl : ((World.init n s).run name schedule).procs.length = n := by rw [hlen]; simp [World.init]
  have hb : Before s (World.init n s) := ⟨rfl, fun p hp => Or.inl (List.eq_of_mem_replicate hp)⟩
  rcases (run_states hs hn schedule hi _).1 hb with h | ⟨t, ht, h1, -, -, h4, h5⟩
  · exfalso
    have h0 : 0 < ((World.init n s).run name schedule).procs.length := by rw [hl]; exact hpos
    have hm := List.getElem_mem h0
    have h' := hend _ hm
    rcases h.2 _ hm with e | e <;> rw [e] at h' <;> exact h'
  · have hk : ((World.init n s).run name schedule).procs[t.1]? = some (.done (.error .attributeError)) := by
      rcases h4 with h4 | h4
      · exact absurd (hend _ (List.mem_of_getElem? h4)) (by simp [Finished])
      · exact h4
    refine ⟨t, ht, ?_, h1, hk, fun k hkn hne => ?_⟩
    · rw [← hl]; exact (List.getElem?_eq_some_iff.1 hk).1
    · rw [← hl] at hkn
      have hp := List.getElem?_eq_getElem hkn
      have hf := hend _ (List.getElem_mem hkn)
      rcases h5 k hne _ hp with e | e | e | e
      · rw [e] at hf; exact hf.elim
      · rw [e] at hf; exact hf.elim
      · exact Or.inl (hp.trans (congrArg some e))
      · exact Or.inr (hp.trans (congrArg some e))

/-! ### Non-triviality -/

/-- A store with two experiments. -/
def exampleStore : Store := [⟨"0", "Default"⟩, ⟨"1", "greedy"⟩]

example : Distinct exampleStore := by unfold Distinct exampleStore; decide
example : ¬ Has exampleStore "tune" := by unfold Has exampleStore; decide
example : getExperimentIdByName "2" exampleStore "tune" =
    (.error .attributeError, exampleStore ++ [⟨"2", "tune"⟩]) := by
  refine C108_first_call _ _ _ ?_ ?_ (by decide) <;> unfold Has exampleStore <;> decide
example : getExperimentIdByName "2" exampleStore "greedy" = (.ok "1", exampleStore) :=
  C108_known _ (by unfold Distinct exampleStore; decide) ⟨"1", "greedy"⟩ (by simp [exampleStore]) _

/-- Three processes: the second creates the experiment, the first finds the name in use, the third gets the id. -/
def exampleSchedule : List (ℕ × String) :=
  [(0, "2"), (1, "2"), (1, "2"), (0, "3"), (2, "3"), (1, "3"), (0, "3")]

example : IdsAreNotNames exampleStore "tune" exampleSchedule := by
  unfold IdsAreNotNames exampleSchedule Has exampleStore; decide
example : ((World.init 3 exampleStore).run "tune" exampleSchedule).procs =
    [.done (.error .exception), .done (.error .attributeError), .done (.ok "2")] := by rfl

end Mlflow

end Verif
