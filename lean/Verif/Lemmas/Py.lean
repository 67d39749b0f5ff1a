import Verif.Py

namespace Verif

theorem pyGet_nat {α : Type} (xs : List α) (i : ℕ) (h : i < xs.length) :
    pyGet xs (i : ℤ) = .ok xs[i] := by
  simp [pyGet, pyIndex, h]

theorem pyGet_nat_ge {α : Type} (xs : List α) (i : ℕ) (h : xs.length ≤ i) :
    pyGet xs (i : ℤ) = .error .indexError := by
  simp [pyGet, pyIndex, Nat.not_lt.mpr h]

theorem mapM_ok_of_forall {α β : Type} {f : α → Py β} {g : α → β} :
    ∀ {l : List α}, (∀ x ∈ l, f x = .ok (g x)) → l.mapM f = .ok (l.map g)
  | [], _ => rfl
  | x :: l, h => by
    rw [List.mapM_cons, h x (by simp), mapM_ok_of_forall (fun y hy => h y (by simp [hy]))]
    rfl

theorem mapM_eq_ok_iff {α β : Type} {f : α → Py β} :
    ∀ {l : List α} {ys : List β},
      l.mapM f = .ok ys ↔ List.Forall₂ (fun x y => f x = .ok y) l ys
  | [], ys => by
    cases ys <;> simp [pure, Except.pure]
  | x :: l, ys => by
    rw [List.mapM_cons]
    cases hx : f x with
    | error e =>
      simp only [bind, Except.bind, List.forall₂_cons_left_iff, reduceCtorEq, false_iff]
      rintro ⟨b, u, h, _⟩; rw [hx] at h; cases h
    | ok b =>
      cases hl : l.mapM f with
      | error e =>
        simp only [bind, Except.bind, List.forall₂_cons_left_iff, reduceCtorEq, false_iff]
        rintro ⟨b, u, _, h, _⟩
        rw [← mapM_eq_ok_iff, hl] at h; cases h
      | ok bs =>
        simp only [bind, Except.bind, pure, Except.pure, Except.ok.injEq]
        constructor
        · rintro rfl
          exact List.Forall₂.cons hx (mapM_eq_ok_iff.mp hl)
        · intro h
          cases h with
          | cons h1 h2 =>
            rw [hx] at h1; cases h1
            rw [← mapM_eq_ok_iff, hl] at h2; cases h2; rfl

/-- If every call either succeeds or raises `e`, and one raises, then `mapM` raises `e`. -/
theorem mapM_error_of {α β : Type} {f : α → Py β} {e : PyErr} :
    ∀ {l : List α}, (∀ x ∈ l, (∃ y, f x = .ok y) ∨ f x = .error e) →
      (∃ x ∈ l, f x = .error e) → l.mapM f = .error e
  | [], _, h => by simp at h
  | x :: l, h, hx => by
    rw [List.mapM_cons]
    rcases h x (by simp) with ⟨y, hy⟩ | he
    · rw [hy]
      have : ∃ x ∈ l, f x = .error e := by
        obtain ⟨z, hz, hze⟩ := hx
        rcases List.mem_cons.mp hz with rfl | hz
        · rw [hy] at hze; cases hze
        · exact ⟨z, hz, hze⟩
      rw [mapM_error_of (fun z hz => h z (by simp [hz])) this]; rfl
    · rw [he]; rfl

theorem mem_pySlice {α : Type} {xs : List α} {a b : ℕ} {x : α} :
    x ∈ pySlice xs a b ↔ ∃ k, a ≤ k ∧ k < b ∧ xs[k]? = some x := by
  unfold pySlice
  rw [List.mem_iff_getElem?]
  constructor
  · rintro ⟨n, hn⟩
    rw [List.getElem?_take] at hn
    split at hn
    · rw [List.getElem?_drop] at hn
      exact ⟨a + n, by omega, by omega, hn⟩
    · cases hn
  · rintro ⟨k, h1, h2, h3⟩
    refine ⟨k - a, ?_⟩
    rw [List.getElem?_take, if_pos (by omega), List.getElem?_drop]
    rwa [Nat.add_sub_cancel' h1]

theorem pyMaxLoop_spec {α κ : Type} [LinearOrder κ] {key : α → Py κ} :
    ∀ {xs : List α} {b : α} {k : κ} {r : α}, key b = .ok k → pyMaxLoop key xs b k = .ok r →
      (r = b ∨ r ∈ xs) ∧ ∃ kr, key r = .ok kr ∧ k ≤ kr ∧ ∀ x ∈ xs, ∃ kx, key x = .ok kx ∧ kx ≤ kr
  | [], b, k, r, hb, h => by
    simp only [pyMaxLoop, Except.ok.injEq] at h
    subst h
    exact ⟨Or.inl rfl, k, hb, le_rfl, by simp⟩
  | x :: xs, b, k, r, hb, h => by
    rw [pyMaxLoop] at h
    cases hx : key x with
    | error e => rw [hx] at h; simp [bind, Except.bind] at h
    | ok kx =>
      rw [hx] at h
      simp only [bind, Except.bind] at h
      split at h
      · rename_i hlt
        obtain ⟨h1, kr, h2, h3, h4⟩ := pyMaxLoop_spec hx h
        refine ⟨?_, kr, h2, hlt.le.trans h3, ?_⟩
        · rcases h1 with rfl | h1 <;> simp [*]
        · intro y hy
          rcases List.mem_cons.mp hy with rfl | hy
          · exact ⟨kx, hx, h3⟩
          · exact h4 y hy
      · rename_i hlt
        obtain ⟨h1, kr, h2, h3, h4⟩ := pyMaxLoop_spec hb h
        refine ⟨?_, kr, h2, h3, ?_⟩
        · rcases h1 with rfl | h1 <;> simp [*]
        · intro y hy
          rcases List.mem_cons.mp hy with rfl | hy
          · exact ⟨kx, hx, (not_lt.mp hlt).trans h3⟩
          · exact h4 y hy

theorem pyMax_spec {α κ : Type} [LinearOrder κ] {key : α → Py κ} {xs : List α} {r : α}
    (h : pyMax key xs = .ok r) :
    r ∈ xs ∧ ∃ kr, key r = .ok kr ∧ ∀ x ∈ xs, ∃ kx, key x = .ok kx ∧ kx ≤ kr := by
  cases xs with
  | nil => simp [pyMax] at h
  | cons x xs =>
    rw [pyMax] at h
    cases hx : key x with
    | error e => rw [hx] at h; simp [bind, Except.bind] at h
    | ok kx =>
      rw [hx] at h
      simp only [bind, Except.bind] at h
      obtain ⟨h1, kr, h2, h3, h4⟩ := pyMaxLoop_spec hx h
      refine ⟨by rcases h1 with rfl | h1 <;> simp [*], kr, h2, ?_⟩
      intro y hy
      rcases List.mem_cons.mp hy with rfl | hy
      · exact ⟨kx, hx, h3⟩
      · exact h4 y hy

theorem pyMaxLoop_ok {α κ : Type} [LinearOrder κ] {key : α → Py κ} :
    ∀ {xs : List α} {b : α} {k : κ}, (∀ x ∈ xs, ∃ kx, key x = .ok kx) →
      ∃ r, pyMaxLoop key xs b k = .ok r
  | [], b, k, _ => ⟨b, rfl⟩
  | x :: xs, b, k, h => by
    obtain ⟨kx, hx⟩ := h x (by simp)
    rw [pyMaxLoop, hx]
    simp only [bind, Except.bind]
    split <;> exact pyMaxLoop_ok (fun y hy => h y (by simp [hy]))

theorem pyMax_ok {α κ : Type} [LinearOrder κ] {key : α → Py κ} {xs : List α} (hne : xs ≠ [])
    (h : ∀ x ∈ xs, ∃ kx, key x = .ok kx) : ∃ r, pyMax key xs = .ok r := by
  cases xs with
  | nil => exact absurd rfl hne
  | cons x xs =>
    obtain ⟨kx, hx⟩ := h x (by simp)
    rw [pyMax, hx]
    exact pyMaxLoop_ok (fun y hy => h y (by simp [hy]))

end Verif
