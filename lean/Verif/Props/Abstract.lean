/-
Property C147: the base classes used as they are, and the disabled operations.
-/
import Verif.Model.Abstract
import Verif.Props.Predict
import Verif.Props.Coverage

namespace Verif

/-- In the history `l` the last call of `fit` was `fit(X, Y)`. -/
def LastFit (l : List BaseCall) (X Y : Cmp) : Prop :=
  ∃ l₁ l₂, l = l₁ ++ .fit X Y :: l₂ ∧ ∀ X' Y', BaseCall.fit X' Y' ∉ l₂

/-- In the history `l` there was no call of `fit`. -/
def NoFit (l : List BaseCall) : Prop := ∀ X Y, BaseCall.fit X Y ∉ l

theorem BaseClf.calls_noFit : ∀ {l : List BaseCall} (c : BaseClf), NoFit l → c.calls l = c
  | [], _, _ => rfl
  | k :: l, c, h => by
    have ih := fun c => BaseClf.calls_noFit (l := l) c fun X Y hm => h X Y (by simp [hm])
    cases k with
    | fit X Y => exact absurd (by simp) (h X Y)
    | predict X => exact ih c
    | coverage => exact ih c
    | select cs => exact ih c

theorem BaseClf.calls_selected : ∀ (l : List BaseCall) (c : BaseClf), (c.calls l).selected = c.selected
  | [], _ => rfl
  | k :: l, c => by
    have ih := BaseClf.calls_selected l (c.call k).2
    rw [show c.calls (k :: l) = ((c.call k).2).calls l from rfl, ih]
    cases k <;> rfl

theorem BaseClf.calls_lastFit {l : List BaseCall} {X Y : Cmp} (h : LastFit l X Y) (c : BaseClf) :
    c.calls l = { data := some (X, Y), selected := c.selected, numLabels := some Y.nMinor,
                  numFeatures := some X.nMinor } := by
  obtain ⟨l₁, l₂, rfl, h2⟩ := h
  have e : c.calls (l₁ ++ .fit X Y :: l₂) = (((c.calls l₁).call (.fit X Y)).2).calls l₂ := by
    simp [BaseClf.calls, List.foldl_append]
  rw [e, BaseClf.calls_noFit _ h2]
  simp only [BaseClf.call, BaseClf.fit, BaseClf.calls_selected]

/-- **C147.** A classifier of the base class learns nothing: after any calls, the last fit being `fit(X, Y)`, it
predicts no label for any row of any matrix, in the shape given by that fit, and covers nothing of `Y`. -/
theorem C147_learns_nothing (l : List BaseCall) (X Y : Cmp) (hl : LastFit l X Y) :
    (∀ X' : Cmp, ∃ P, ((BaseClf.new.calls l).call (.predict X')).1 = .ok (.labels P) ∧ P.nMajor = X'.nMajor ∧
      P.nMinor = Y.nMinor ∧ ∀ i < X'.nMajor, ∀ j < Y.nMinor, P.val i j = 0) ∧
    (Y.Binary → (labelCells Y).Nonempty → ((BaseClf.new.calls l).call .coverage).1 = .ok (.ratio 0)) := by
  rw [BaseClf.calls_lastFit hl]
  constructor
  · intro X'
    obtain ⟨P, hP, h1, h2, -, h4⟩ := C14_predict_exact [] Y.nMinor X' (by simp)
    refine ⟨P, ?_, h1, h2, fun i hi j hj => (h4 i hi j hj).2.mpr (by simp)⟩
    simp only [BaseClf.call, BaseClf.new, List.map_nil, hP]
    rfl
  · intro hY h0
    have hc := card_labelCells hY
    have hpos : 0 < Y.nnz := hc ▸ Finset.card_pos.mpr h0
    have := coverageRatio_eq hY hpos (rs := []) (by simp [covered])
    simp only [BaseClf.call, BaseClf.new, this]
    simp [covered, Except.map]

/-- **C147.** Before `fit`, prediction raises `TypeError` and the coverage `AttributeError`, whatever else was called. -/
theorem C147_unfitted (l : List BaseCall) (hl : NoFit l) (X : Cmp) :
    ((BaseClf.new.calls l).call (.predict X)).1 = .error .typeError ∧
      ((BaseClf.new.calls l).call .coverage).1 = .error .attributeError := by
  rw [BaseClf.calls_noFit _ hl]
  exact ⟨rfl, rfl⟩

theorem lastFit_of_fit : ∀ (l : List BaseCall), ¬ NoFit l → ∃ X Y, LastFit l X Y
  | [], h => absurd (fun _ _ hm => by cases hm) h
  | k :: l, h => by
    by_cases hl : NoFit l
    · cases k with
      | fit X Y => exact ⟨X, Y, [], l, rfl, hl⟩
      | predict X => exact absurd (fun X' Y' hm => hl X' Y' (by simpa using hm)) h
      | coverage => exact absurd (fun X' Y' hm => hl X' Y' (by simpa using hm)) h
      | select cs => exact absurd (fun X' Y' hm => hl X' Y' (by simpa using hm)) h
    · obtain ⟨X, Y, l₁, l₂, rfl, h2⟩ := lastFit_of_fit l hl
      exact ⟨X, Y, k :: l₁, l₂, rfl, h2⟩

/-- **C147.** Which calls raise, after any history: `fit` never, whatever the matrices; `predict` exactly before the
first `fit`; selecting a rule always. -/
theorem C147_which_raise (l : List BaseCall) :
    (∀ X Y, ((BaseClf.new.calls l).call (.fit X Y)).1 = .ok .done) ∧
      (∀ X, (∃ e, ((BaseClf.new.calls l).call (.predict X)).1 = .error e) ↔ NoFit l) ∧
      (∀ cs, ∃ e, ((BaseClf.new.calls l).call (.select cs)).1 = .error e) := by
  refine ⟨fun _ _ => rfl, fun X => ⟨?_, fun h => ⟨_, (C147_unfitted l h X).1⟩⟩, fun cs => ?_⟩
  · rintro ⟨e, he⟩
    by_contra hn
    obtain ⟨X', Y', hl⟩ := lastFit_of_fit l hn
    obtain ⟨P, hP, -⟩ := (C147_learns_nothing l X' Y' hl).1 X
    rw [hP] at he
    cases he
  · cases cs with
    | nil => exact ⟨_, rfl⟩
    | cons r rs => exact ⟨_, rfl⟩

/-- **C147.** The base class never selects a rule: without candidates it raises `ValueError`, otherwise
`NotImplementedError`, and it stays as it was. -/
theorem C147_selects_nothing (c : BaseClf) (candidates : List BRule) :
    ((c.call (.select candidates)).1 = .error .valueError ↔ candidates = []) ∧
      ((c.call (.select candidates)).1 = .error .notImplementedError ↔ candidates ≠ []) ∧
      (c.call (.select candidates)).2 = c := by
  rcases candidates with - | ⟨r, rs⟩
  · refine ⟨?_, ?_, rfl⟩ <;> simp [BaseClf.call, baseSelect, Except.map]
  · refine ⟨?_, ?_, rfl⟩ <;> simp [BaseClf.call, baseSelect, baseObjective, Except.map, bind, Except.bind]

/-- **C147.** The abstract sampler draws nothing: a batch that is not empty raises `NotImplementedError`, and any batch
`AttributeError` if there is no attribute `random_state`. -/
theorem C147_sampler (seed : Option ℕ) (draws : ℕ → ℕ) (size : ℕ) :
    abstractFit = .error .notImplementedError ∧ abstractSample none draws size = .error .attributeError ∧
      abstractSample (some seed) draws 0 = .ok [] ∧
      (0 < size → abstractSample (some seed) draws size = .error .notImplementedError) := by
  refine ⟨rfl, rfl, rfl, fun h => ?_⟩
  obtain ⟨n, rfl⟩ := Nat.exists_eq_succ_of_ne_zero h.ne'
  unfold abstractSample
  simp only [List.range_succ_eq_map]
  rw [List.mapM_cons]
  rfl

/-- **C147.** Fitting the abstract reduced-space sampler raises `NotImplementedError` and changes nothing. If a subclass
supplies some steps only, the steps before the first missing one are carried out and none after it. -/
theorem C147_reduced_sampler {σ : Type} (S : ReducedSteps σ) (n : σ → Py Unit × σ) (Y : Cmp) (s : σ) :
    (abstractSteps σ n).fit Y s = (.error .notImplementedError, s) ∧
      ((S.buildSampleSpace s).1 = .ok () →
        ReducedSteps.fit { abstractSteps σ n with buildSampleSpace := S.buildSampleSpace } Y s =
          (.error .notImplementedError, (S.buildSampleSpace s).2)) ∧
      ((S.buildSampleSpace s).1 = .ok () → (S.generateNewRows Y (S.buildSampleSpace s).2).1 = .ok () →
        ReducedSteps.fit { abstractSteps σ n with buildSampleSpace := S.buildSampleSpace,
                                                  generateNewRows := S.generateNewRows } Y s =
          (.error .notImplementedError, (S.generateNewRows Y (S.buildSampleSpace s).2).2)) := by
  refine ⟨rfl, ?_, ?_⟩
  · intro h
    rcases hb : S.buildSampleSpace s with ⟨a, s'⟩
    rw [hb] at h
    cases h
    simp only [ReducedSteps.fit, hb, abstractSteps]
  · intro h h'
    rcases hb : S.buildSampleSpace s with ⟨a, s'⟩
    rw [hb] at h h'
    cases h
    rcases hg : S.generateNewRows Y s' with ⟨a', s''⟩
    simp only [hg] at h'
    cases h'
    simp only [ReducedSteps.fit, hb, hg, abstractSteps]

/-- **C147.** `fit` of a reduced-space sampler returns exactly when its four steps, carried out in order, do. -/
theorem C147_steps {σ : Type} (S : ReducedSteps σ) (Y : Cmp) (s s' : σ) :
    S.fit Y s = (.ok (), s') ↔ ∃ s₁ s₂ s₃, S.buildSampleSpace s = (.ok (), s₁) ∧ S.generateNewRows Y s₁ = (.ok (), s₂) ∧
      S.assignRowWeights s₂ = (.ok (), s₃) ∧ S.normalise s₃ = (.ok (), s') := by
  constructor
  · intro h
    unfold ReducedSteps.fit at h
    split at h
    · simp at h
    · rename_i s₁ h1
      split at h
      · simp at h
      · rename_i s₂ h2
        split at h
        · simp at h
        · rename_i s₃ h3
          exact ⟨s₁, s₂, s₃, h1, h2, h3, h⟩
  · rintro ⟨s₁, s₂, s₃, h1, h2, h3, h4⟩
    simp only [ReducedSteps.fit, h1, h2, h3, h4]

/-- **C147.** The rounds that the second variant of the learner disables raise `RuntimeError` and change nothing. -/
theorem C147_disabled {σ : Type} (c : σ) :
    v2FirstRound c = (.error .runtimeError, c) ∧ v2SecondRound c = (.error .runtimeError, c) := ⟨rfl, rfl⟩

/-! ### Concrete cases -/

/-- A classifier fitted twice, with a prediction in between. -/
example : LastFit [.fit exampleX exampleX, .predict exampleX, .fit exampleX exampleY, .coverage] exampleX exampleY :=
  ⟨[.fit exampleX exampleX, .predict exampleX], [.coverage], rfl, by simp⟩

example : NoFit [.predict exampleX, .coverage, .select []] := by simp [NoFit]

end Verif
