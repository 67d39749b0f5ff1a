/-
What the object looks like at each point of a call of `CFTPDiscriminativitySampler.fit`.
-/
import Verif.Model.InterruptHead
import Mathlib.Tactic

namespace Verif

theorem py_bind_ok {α β : Type} {x : Py α} {f : α → Py β} {b : β} :
    (x >>= f) = .ok b ↔ ∃ a, x = .ok a ∧ f a = .ok b := by
  cases x with
  | error e =>
    constructor
    · intro h
      cases h
    · rintro ⟨a, h, _⟩
      cases h
  | ok a => exact ⟨fun h => ⟨a, rfl, h⟩, fun ⟨a', h, h'⟩ => by cases h; exact h'⟩

theorem py_bind_error {α β : Type} {x : Py α} {f : α → Py β} {e : PyErr} :
    (x >>= f) = .error e ↔ x = .error e ∨ ∃ a, x = .ok a ∧ f a = .error e := by
  cases x with
  | error e' =>
    constructor
    · intro h
      cases h
      exact .inl rfl
    · rintro (h | ⟨a, h, _⟩)
      · cases h
        rfl
      · cases h
  | ok a =>
    refine ⟨fun h => .inr ⟨a, rfl, h⟩, ?_⟩
    rintro (h | ⟨a', h, h'⟩)
    · cases h
    · cases h
      exact h'

theorem mapM_range_succ {β : Type} (f : ℕ → Py β) (k : ℕ) :
    (List.range (k + 1)).mapM f = (do
      let ws ← (List.range k).mapM f
      let w ← f k
      return ws ++ [w]) := by
  rw [List.range_succ, List.mapM_append]
  simp

theorem mapM_range_length {β : Type} {f : ℕ → Py β} {k : ℕ} {ws : List β}
    (h : (List.range k).mapM f = .ok ws) : ws.length = k := by
  induction k generalizing ws with
  | zero =>
    rw [List.range_zero, List.mapM_nil] at h
    cases h
    rfl
  | succ k ih =>
    rw [mapM_range_succ] at h
    obtain ⟨ws', h1, h⟩ := py_bind_ok.1 h
    obtain ⟨w, h2, h⟩ := py_bind_ok.1 h
    cases h
    simp [ih h1]

theorem mapM_range_prefix {β : Type} {f : ℕ → Py β} {k n : ℕ} (hk : k ≤ n) {ws : List β}
    (h : (List.range n).mapM f = .ok ws) : ∃ ws', (List.range k).mapM f = .ok ws' := by
  induction n generalizing ws with
  | zero =>
    obtain rfl : k = 0 := by omega
    exact ⟨ws, h⟩
  | succ n ih =>
    rcases Nat.lt_or_ge n k with hlt | hle
    · obtain rfl : k = n + 1 := by omega
      exact ⟨ws, h⟩
    · rw [mapM_range_succ] at h
      obtain ⟨ws', h1, -⟩ := py_bind_ok.1 h
      exact ih hle h1

/-- An error of the whole is the error of one entry after entries that succeed. -/
theorem mapM_range_error {β : Type} {f : ℕ → Py β} {n : ℕ} {e : PyErr} :
    (List.range n).mapM f = .error e ↔
      ∃ k < n, (∃ ws, (List.range k).mapM f = .ok ws) ∧ f k = .error e := by
  induction n with
  | zero =>
    rw [List.range_zero, List.mapM_nil]
    constructor
    · intro h
      cases h
    · rintro ⟨k, hk, -⟩
      omega
  | succ n ih =>
    rw [mapM_range_succ, py_bind_error, ih]
    constructor
    · rintro (⟨k, hk, h⟩ | ⟨ws, h1, h⟩)
      · exact ⟨k, by omega, h⟩
      · rcases py_bind_error.1 h with h | ⟨w, -, h⟩
        · exact ⟨n, by omega, ⟨ws, h1⟩, h⟩
        · cases h
    · rintro ⟨k, hk, ⟨ws, h1⟩, h⟩
      rcases Nat.lt_or_ge k n with hlt | hge
      · exact .inl ⟨k, hlt, ⟨ws, h1⟩, h⟩
      · obtain rfl : k = n := by omega
        refine .inr ⟨ws, h1, ?_⟩
        rw [h]
        rfl

/-- The object with its sample space and rows. -/
def HeadObj.withRows (o : HeadObj) (N : ℕ) (sr : List (Finset ℤ) × List (List ℕ)) : HeadObj :=
  { o with n := N, core := { o.core with space := some sr.1, newRows := some sr.2 } }

/-- What is known at each point. -/
def HeadFitInv (env : HeadEnv) (X : Cmp) (y : List ℤ) (o : HeadObj) : HeadFitPc → HeadObj → Prop
  | .entry, o' => o' = o
  | .sized, o' => o' = { o with n := X.nMajor }
  | .graph g, o' => checkLabels y = .ok () ∧ o.core.space = none ∧ buildGraph X.flip = .ok g ∧
      o' = { o with n := X.nMajor }
  | .space, o' => checkLabels y = .ok () ∧ o.core.space = none ∧ ∃ g cliques, buildGraph X.flip = .ok g ∧
      buildSampleSpace ratOps g o.core.minProba o.core.doPrune .dfsV2 env.order env.depth = .ok cliques ∧
      o' = { o with n := X.nMajor, core := { o.core with space := some (cliques.map intSet) } }
  | .assigned, o' => checkLabels y = .ok () ∧ ∃ sr, spaceAndRows env o.core X = .ok sr ∧ o' = o.withRows X.nMajor sr
  | .positives, o' => checkLabels y = .ok () ∧ ∃ sr, spaceAndRows env o.core X = .ok sr ∧
      o' = { o.withRows X.nMajor sr with pos := some (posIndices y) }
  | .negatives, o' => checkLabels y = .ok () ∧ ∃ sr, spaceAndRows env o.core X = .ok sr ∧
      o' = { o.withRows X.nMajor sr with pos := some (posIndices y), neg := some (negIndices y) }
  | .weights k, o' => checkLabels y = .ok () ∧ ∃ sr, spaceAndRows env o.core X = .ok sr ∧ k ≤ X.nMajor ∧
      ∃ ws, (List.range k).mapM (headWeight o.core.tight sr.1.length sr.2 (posIndices y)) = .ok ws ∧
      o' = { o.withRows X.nMajor sr with
        pos := some (posIndices y), neg := some (negIndices y), weights := some ws }
  | .returned, o' => headFit env o.core X y = .ok o'.core ∧ o'.n = X.nMajor ∧ o'.pos = some (posIndices y) ∧
      o'.neg = some (negIndices y)

theorem headFit_eq_ok {env : HeadEnv} {s s' : HeadSampler} {X : Cmp} {y : List ℤ} :
    headFit env s X y = .ok s' ↔ checkLabels y = .ok () ∧ ∃ sr, spaceAndRows env s X = .ok sr ∧
      ∃ w, (List.range X.nMajor).mapM (headWeight s.tight sr.1.length sr.2 (posIndices y)) = .ok w ∧
      checkKeys X.nMajor (posIndices y ++ negIndices y) = .ok () ∧ s' = { s with
        space := some sr.1
        newRows := some sr.2
        cftp := some { posList := posIndices y, negList := negIndices y, wPos := fun i => w.getD i 0,
                       wNeg := fun i => w.getD i 0, W := discrimWeight sr.2, maxIters := 1024 }
        lists := Cftp.reset } := by
  unfold headFit
  constructor
  · intro h
    obtain ⟨_, h1, h⟩ := py_bind_ok.1 h
    obtain ⟨sr, h2, h⟩ := py_bind_ok.1 h
    obtain ⟨w, h3, h⟩ := py_bind_ok.1 h
    obtain ⟨_, h4, h⟩ := py_bind_ok.1 h
    cases h
    exact ⟨h1, sr, h2, w, h3, h4, rfl⟩
  · rintro ⟨h1, sr, h2, w, h3, h4, rfl⟩
    rw [h1, py_bind_ok]
    refine ⟨(), rfl, ?_⟩
    rw [h2, py_bind_ok]
    refine ⟨sr, rfl, ?_⟩
    rw [h3, py_bind_ok]
    refine ⟨w, rfl, ?_⟩
    rw [h4, py_bind_ok]
    exact ⟨(), rfl, rfl⟩

theorem headFit_eq_error {env : HeadEnv} {s : HeadSampler} {X : Cmp} {y : List ℤ} {e : PyErr} :
    headFit env s X y = .error e ↔ checkLabels y = .error e ∨ (checkLabels y = .ok () ∧
      (spaceAndRows env s X = .error e ∨ ∃ sr, spaceAndRows env s X = .ok sr ∧
        ((List.range X.nMajor).mapM (headWeight s.tight sr.1.length sr.2 (posIndices y)) = .error e ∨
          ∃ w, (List.range X.nMajor).mapM (headWeight s.tight sr.1.length sr.2 (posIndices y)) = .ok w ∧
            checkKeys X.nMajor (posIndices y ++ negIndices y) = .error e))) := by
  unfold headFit
  rw [py_bind_error]
  refine or_congr Iff.rfl ?_
  constructor
  · rintro ⟨_, h1, h⟩
    refine ⟨h1, ?_⟩
    rcases py_bind_error.1 h with h | ⟨sr, h2, h⟩
    · exact .inl h
    · refine .inr ⟨sr, h2, ?_⟩
      rcases py_bind_error.1 h with h | ⟨w, h3, h⟩
      · exact .inl h
      · refine .inr ⟨w, h3, ?_⟩
        rcases py_bind_error.1 h with h | ⟨_, -, h⟩
        · exact h
        · cases h
  · rintro ⟨h1, h⟩
    refine ⟨(), h1, ?_⟩
    rw [py_bind_error]
    refine h.imp_right ?_
    rintro ⟨sr, h2, h⟩
    refine ⟨sr, h2, ?_⟩
    rw [py_bind_error]
    refine h.imp_right ?_
    rintro ⟨w, h3, h⟩
    refine ⟨w, h3, ?_⟩
    rw [h]
    rfl

theorem headFitInv {env : HeadEnv} {X : Cmp} {y : List ℤ} {o : HeadObj} {pc : HeadFitPc} {o' : HeadObj}
    (h : HeadFitPoint env X y o pc o') : HeadFitInv env X y o pc o' := by
  induction h with
  | start => rfl
  | sized h ih =>
    simp only [HeadFitInv] at ih ⊢
    rw [ih]
  | keep h hy hs hr ih =>
    simp only [HeadFitInv] at ih ⊢
    subst ih
    obtain ⟨sp, hsp⟩ := Option.ne_none_iff_exists'.1 hs
    obtain ⟨rows, hrows⟩ := Option.ne_none_iff_exists'.1 hr
    refine ⟨hy, (sp, rows), ?_, ?_⟩
    · simp only at hsp hrows
      simp [spaceAndRows, hsp, hrows]
    · simp only at hsp hrows
      simp [HeadObj.withRows, ← hsp, ← hrows]
  | graph h hy hs hg ih =>
    simp only [HeadFitInv] at ih ⊢
    subst ih
    exact ⟨hy, hs, hg, rfl⟩
  | space h hc ih =>
    simp only [HeadFitInv] at ih ⊢
    obtain ⟨hy, hs, hg, rfl⟩ := ih
    exact ⟨hy, hs, _, _, hg, hc, rfl⟩
  | rows h hs hr ih =>
    simp only [HeadFitInv] at ih ⊢
    obtain ⟨hy, hs0, g, cliques, hg, hc, rfl⟩ := ih
    cases hs
    refine ⟨hy, (_, _), ?_, rfl⟩
    simp only [spaceAndRows, hs0, buildSpaceAndRows]
    rw [hg, py_bind_ok]
    refine ⟨g, rfl, ?_⟩
    rw [hc, py_bind_ok]
    refine ⟨cliques, rfl, ?_⟩
    rw [hr, py_bind_ok]
    exact ⟨_, rfl, rfl⟩
  | positives h ih =>
    simp only [HeadFitInv] at ih ⊢
    obtain ⟨hy, sr, hsr, rfl⟩ := ih
    exact ⟨hy, sr, hsr, rfl⟩
  | negatives h ih =>
    simp only [HeadFitInv] at ih ⊢
    obtain ⟨hy, sr, hsr, rfl⟩ := ih
    exact ⟨hy, sr, hsr, rfl⟩
  | emptied h ih =>
    simp only [HeadFitInv] at ih ⊢
    obtain ⟨hy, sr, hsr, rfl⟩ := ih
    exact ⟨hy, sr, hsr, Nat.zero_le _, [], rfl, rfl⟩
  | weight h hk hs hr hws hw ih =>
    simp only [HeadFitInv] at ih ⊢
    obtain ⟨hy, sr, hsr, hle, ws, hm, rfl⟩ := ih
    cases hs
    cases hr
    cases hws
    refine ⟨hy, sr, hsr, hk, _, ?_, rfl⟩
    rw [mapM_range_succ, hm, py_bind_ok]
    refine ⟨_, rfl, ?_⟩
    rw [py_bind_ok]
    exact ⟨_, hw, rfl⟩
  | built h hr hws hk ih =>
    simp only [HeadFitInv] at ih ⊢
    obtain ⟨hy, sr, hsr, hle, ws, hm, rfl⟩ := ih
    cases hr
    cases hws
    refine ⟨?_, rfl, rfl, rfl⟩
    have hn : (HeadObj.withRows o X.nMajor sr).n = X.nMajor := rfl
    simp only [hn] at hm
    rw [mapM_range_length hm] at hk
    exact headFit_eq_ok.2 ⟨hy, sr, hsr, _, hm, hk, rfl⟩

theorem spaceAndRows_ok_iff {env : HeadEnv} {s : HeadSampler} {X : Cmp} {sr : List (Finset ℤ) × List (List ℕ)}
    (hs : s.space = none) : spaceAndRows env s X = .ok sr ↔ ∃ g cliques, buildGraph X.flip = .ok g ∧
      buildSampleSpace ratOps g s.minProba s.doPrune .dfsV2 env.order env.depth = .ok cliques ∧
      prettiNewRows X (cliques.map intSet) (env.ordering (cliques.map intSet)) = .ok sr.2 ∧
      sr.1 = cliques.map intSet := by
  simp only [spaceAndRows, hs, buildSpaceAndRows]
  constructor
  · intro h
    obtain ⟨g, h1, h⟩ := py_bind_ok.1 h
    obtain ⟨cliques, h2, h⟩ := py_bind_ok.1 h
    obtain ⟨rows, h3, h⟩ := py_bind_ok.1 h
    cases h
    exact ⟨g, cliques, h1, h2, h3, rfl⟩
  · rintro ⟨g, cliques, h1, h2, h3, h4⟩
    rw [h1, py_bind_ok]
    refine ⟨g, rfl, ?_⟩
    rw [h2, py_bind_ok]
    refine ⟨cliques, rfl, ?_⟩
    rw [h3, py_bind_ok]
    refine ⟨sr.2, rfl, ?_⟩
    rw [← h4]
    rfl

theorem spaceAndRows_error_iff {env : HeadEnv} {s : HeadSampler} {X : Cmp} {e : PyErr}
    (hs : s.space = none) : spaceAndRows env s X = .error e ↔ buildGraph X.flip = .error e ∨
      ∃ g, buildGraph X.flip = .ok g ∧
        (buildSampleSpace ratOps g s.minProba s.doPrune .dfsV2 env.order env.depth = .error e ∨
          ∃ cliques, buildSampleSpace ratOps g s.minProba s.doPrune .dfsV2 env.order env.depth = .ok cliques ∧
            prettiNewRows X (cliques.map intSet) (env.ordering (cliques.map intSet)) = .error e) := by
  simp only [spaceAndRows, hs, buildSpaceAndRows]
  rw [py_bind_error]
  refine or_congr Iff.rfl ?_
  refine exists_congr fun g => and_congr Iff.rfl ?_
  rw [py_bind_error]
  refine or_congr Iff.rfl ?_
  refine exists_congr fun cliques => and_congr Iff.rfl ?_
  rw [py_bind_error]
  constructor
  · rintro (h | ⟨_, -, h⟩)
    · exact h
    · cases h
  · exact .inl

theorem point_sized (env : HeadEnv) (X : Cmp) (y : List ℤ) (o : HeadObj) :
    HeadFitPoint env X y o .sized { o with n := X.nMajor } := .sized .start

theorem point_assigned {env : HeadEnv} {X : Cmp} {y : List ℤ} {o : HeadObj} (hy : checkLabels y = .ok ())
    {sr : List (Finset ℤ) × List (List ℕ)} (hsr : spaceAndRows env o.core X = .ok sr) :
    HeadFitPoint env X y o .assigned (o.withRows X.nMajor sr) := by
  rcases hs : o.core.space with _ | sp
  · obtain ⟨g, cliques, h1, h2, h3, h4⟩ := (spaceAndRows_ok_iff hs).1 hsr
    have := HeadFitPoint.rows (.space (.graph (point_sized env X y o) hy hs h1) h2) rfl h3
    simpa [HeadObj.withRows, h4] using this
  · rcases hr : o.core.newRows with _ | rows
    · simp [spaceAndRows, hs, hr] at hsr
    · simp only [spaceAndRows, hs, hr, Except.ok.injEq] at hsr
      subst hsr
      have := HeadFitPoint.keep (point_sized env X y o) hy (by simp [hs]) (by simp [hr])
      simpa [HeadObj.withRows, ← hs, ← hr] using this

theorem point_weights {env : HeadEnv} {X : Cmp} {y : List ℤ} {o : HeadObj} (hy : checkLabels y = .ok ())
    {sr : List (Finset ℤ) × List (List ℕ)} (hsr : spaceAndRows env o.core X = .ok sr) {k : ℕ} (hk : k ≤ X.nMajor)
    {ws : List ℝ}
    (hw : (List.range k).mapM (headWeight o.core.tight sr.1.length sr.2 (posIndices y)) = .ok ws) :
    HeadFitPoint env X y o (.weights k) { o.withRows X.nMajor sr with
      pos := some (posIndices y), neg := some (negIndices y), weights := some ws } := by
  induction k generalizing ws with
  | zero =>
    rw [List.range_zero, List.mapM_nil] at hw
    cases hw
    exact .emptied (.negatives (.positives (point_assigned hy hsr)))
  | succ k ih =>
    rw [mapM_range_succ] at hw
    obtain ⟨ws', h1, hw⟩ := py_bind_ok.1 hw
    obtain ⟨w, h2, hw⟩ := py_bind_ok.1 hw
    cases hw
    exact HeadFitPoint.weight (ih (by omega) h1) (by simp [HeadObj.withRows]; omega) rfl rfl rfl h2

end Verif
