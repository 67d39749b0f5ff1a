/-
The greedy choice in general: it follows a greedy sequence and cuts it at the first highest score.
-/
import Verif.Spec.GreedyHead
import Verif.Lemmas.Assign

namespace Verif

namespace GreedyHead

theorem scanBest_some {gain : ℕ → Py ℚ} {g : ℕ → ℚ} {l : List ℕ} (hg : ∀ a ∈ l, gain a = .ok (g a)) (b : ℕ) :
    ∃ a, scanBest gain l (some (b, g b)) = .ok (some (a, g a)) ∧ (a = b ∨ a ∈ l) ∧ g b ≤ g a ∧ ∀ c ∈ l, g c ≤ g a := by
  induction l generalizing b with
  | nil => exact ⟨b, rfl, Or.inl rfl, le_refl _, by simp⟩
  | cons x l ih =>
    have ih := ih fun a ha => hg a (by simp [ha])
    have hx := hg x (by simp)
    by_cases h : g b < g x
    · obtain ⟨a, e, hm, hb, hl⟩ := ih x
      refine ⟨a, ?_, ?_, h.le.trans hb, ?_⟩
      · simp only [scanBest, hx, bind, Except.bind]; rw [if_pos h]; exact e
      · rcases hm with rfl | hm
        · exact Or.inr (by simp)
        · exact Or.inr (by simp [hm])
      · intro c hc
        rcases List.mem_cons.1 hc with rfl | hc
        · exact hb
        · exact hl c hc
    · obtain ⟨a, e, hm, hb, hl⟩ := ih b
      refine ⟨a, ?_, ?_, hb, ?_⟩
      · simp only [scanBest, hx, bind, Except.bind]; rw [if_neg h]; exact e
      · rcases hm with rfl | hm
        · exact Or.inl rfl
        · exact Or.inr (by simp [hm])
      · intro c hc
        rcases List.mem_cons.1 hc with rfl | hc
        · exact (not_lt.1 h).trans hb
        · exact hl c hc

theorem scanBest_none {gain : ℕ → Py ℚ} {g : ℕ → ℚ} {l : List ℕ} (hg : ∀ a ∈ l, gain a = .ok (g a)) (hl : l ≠ []) :
    ∃ a ∈ l, scanBest gain l none = .ok (some (a, g a)) ∧ ∀ c ∈ l, g c ≤ g a := by
  cases l with
  | nil => exact absurd rfl hl
  | cons x l =>
    have hx := hg x (by simp)
    obtain ⟨a, e, hm, hb, hl⟩ := scanBest_some (fun a ha => hg a (List.mem_cons_of_mem _ ha)) x
    refine ⟨a, ?_, ?_, ?_⟩
    · rcases hm with rfl | hm <;> simp [*]
    · simp only [scanBest, hx, bind, Except.bind]; exact e
    · intro c hc
      rcases List.mem_cons.1 hc with rfl | hc
      · exact hb
      · exact hl c hc

theorem argmaxFirst_spec (v : List ℚ) (hv : v ≠ []) :
    ∃ h : argmaxFirst v < v.length, (∀ x ∈ v, x ≤ v[argmaxFirst v]) ∧
      ∀ (j : ℕ) (hj : j < argmaxFirst v), v[j]'(hj.trans h) < v[argmaxFirst v] := by
  have hex : ∃ x ∈ v, (v.all fun y => y ≤ x) = true := by
    obtain ⟨m, hm⟩ : ∃ m, v.max? = some m := by
      cases h : v.max? with
      | none => exact absurd (List.max?_eq_none_iff.1 h) hv
      | some m => exact ⟨m, rfl⟩
    obtain ⟨h1, h2⟩ := List.max?_eq_some_iff.1 hm
    exact ⟨m, h1, by simpa using h2⟩
  have hlt : argmaxFirst v < v.length := List.findIdx_lt_length_of_exists hex
  have hp := List.findIdx_getElem (p := fun x => v.all fun y => decide (y ≤ x)) (w := hlt)
  have hall : ∀ x ∈ v, x ≤ v[argmaxFirst v] := by
    simp only [List.all_eq_true, decide_eq_true_eq] at hp
    exact hp
  refine ⟨hlt, hall, fun j hj => ?_⟩
  have hn := List.not_of_lt_findIdx (p := fun x => v.all fun y => decide (y ≤ x)) (xs := v) (i := j) hj
  by_contra hc
  have hge := not_lt.1 hc
  apply Bool.noConfusion (hn.symm.trans (?_ : _ = true))
  simp only [List.all_eq_true, decide_eq_true_eq]
  exact fun x hx => (hall x hx).trans hge

/-- The sequence chosen so far. -/
structure Chosen (score : List ℕ → ℕ → ℚ) (Big : List ℕ → Prop) (U₀ : Finset ℕ) (ch : List (ℕ × ℚ)) : Prop where
  ne : ch ≠ []
  nodup : (ch.map Prod.fst).Nodup
  sub : ∀ a ∈ ch.map Prod.fst, a ∈ U₀
  val : ∀ (k : ℕ) (h : k < ch.length), ch[k].2 = score ((ch.map Prod.fst).take k) ch[k].1
  best : ∀ (k : ℕ) (h : k < ch.length), ∀ b ∈ U₀, b ∉ (ch.map Prod.fst).take k →
    score ((ch.map Prod.fst).take k) b ≤ score ((ch.map Prod.fst).take k) ch[k].1
  big : ∀ k < ch.length, 0 < k → Big ((ch.map Prod.fst).take (k + 1))

theorem Chosen.snoc {score : List ℕ → ℕ → ℚ} {Big : List ℕ → Prop} {U₀ : Finset ℕ} {ch : List (ℕ × ℚ)}
    (h : Chosen score Big U₀ ch) {a : ℕ} (ha : a ∈ U₀) (hn : a ∉ ch.map Prod.fst)
    (hb : ∀ b ∈ U₀, b ∉ ch.map Prod.fst → score (ch.map Prod.fst) b ≤ score (ch.map Prod.fst) a)
    (hbig : Big (ch.map Prod.fst ++ [a])) :
    Chosen score Big U₀ (ch ++ [(a, score (ch.map Prod.fst) a)]) := by
  have hml : (ch.map Prod.fst).length = ch.length := by simp
  have htake : ∀ k ≤ ch.length, ((ch ++ [(a, score (ch.map Prod.fst) a)]).map Prod.fst).take k =
      (ch.map Prod.fst).take k := by
    intro k hk
    rw [List.map_append, List.take_append_of_le_length (by simpa using hk)]
  refine ⟨by simp, ?_, ?_, ?_, ?_, ?_⟩
  · rw [List.map_append]
    exact List.Nodup.append h.nodup (by simp) (by simpa using hn)
  · intro x hx
    rw [List.map_append, List.mem_append] at hx
    rcases hx with hx | hx
    · exact h.sub x hx
    · simp only [List.map_cons, List.map_nil, List.mem_singleton] at hx; exact hx ▸ ha
  · intro k hk
    rw [List.length_append, List.length_singleton] at hk
    rw [htake k (by omega)]
    rcases Nat.lt_or_eq_of_le (show k ≤ ch.length by omega) with hk' | rfl
    · rw [List.getElem_append_left hk']; exact h.val k hk'
    · rw [List.getElem_concat_length rfl, ← hml, List.take_length]
  · intro k hk b hbU hbn
    rw [List.length_append, List.length_singleton] at hk
    rw [htake k (by omega)] at hbn ⊢
    rcases Nat.lt_or_eq_of_le (show k ≤ ch.length by omega) with hk' | rfl
    · rw [List.getElem_append_left hk']; exact h.best k hk' b hbU hbn
    · rw [List.getElem_concat_length rfl]
      rw [← hml, List.take_length] at hbn ⊢
      exact hb b hbU hbn
  · intro k hk hk0
    rw [List.length_append, List.length_singleton] at hk
    rcases Nat.lt_or_eq_of_le (show k ≤ ch.length by omega) with hk' | rfl
    · rw [htake (k + 1) (by omega)]; exact h.big k hk' hk0
    · rw [List.take_of_length_le (by simp), List.map_append]
      exact hbig

variable {order : ℕ → Finset ℕ → List ℕ} {inv : List (Finset ℕ)} {next : Finset ℕ → ℕ → Py ℚ} {limit : ℚ}
  {score : List ℕ → ℕ → ℚ} {Big : List ℕ → Prop} {U₀ : Finset ℕ} {cover : List ℕ → Finset ℕ}

/-- What the gains and the coverage have to do with the scores. -/
structure Fits (inv : List (Finset ℕ)) (next : Finset ℕ → ℕ → Py ℚ) (limit : ℚ) (score : List ℕ → ℕ → ℚ)
    (Big : List ℕ → Prop) (U₀ : Finset ℕ) (cover : List ℕ → Finset ℕ) : Prop where
  next : ∀ l a, l ≠ [] → (∀ x ∈ l, x ∈ U₀) → a ∈ U₀ → next (cover l) a = .ok (score l a)
  get : ∀ a ∈ U₀, ∃ s, pyGet inv a = .ok s ∧ cover [a] = s ∧ ∀ l, (∀ x ∈ l, x ∈ U₀) → l ≠ [] → cover (l ++ [a]) = cover l ∩ s
  big : ∀ l, Big l ↔ limit ≤ (cover l).card

theorem greedyLoop_spec (ho : Traverses order) (hf : Fits inv next limit score Big U₀ cover) (n r : ℕ)
    (U : Finset ℕ) (ch : List (ℕ × ℚ)) (hn : U.card ≤ n) (hU : ∀ a, a ∈ U ↔ a ∈ U₀ ∧ a ∉ ch.map Prod.fst)
    (hc : Chosen score Big U₀ ch) :
    ∃ ch', greedyLoop order inv next limit n r U (cover (ch.map Prod.fst)) ch = .ok ch' ∧
      Chosen score Big U₀ ch' ∧
      ((∀ a ∈ U₀, a ∈ ch'.map Prod.fst) ∨
        ∃ b ∈ U₀, b ∉ ch'.map Prod.fst ∧
          (∀ c ∈ U₀, c ∉ ch'.map Prod.fst → score (ch'.map Prod.fst) c ≤ score (ch'.map Prod.fst) b) ∧
          ¬ Big (ch'.map Prod.fst ++ [b])) := by
  induction n generalizing r U ch with
  | zero =>
    refine ⟨ch, rfl, hc, Or.inl fun a ha => ?_⟩
    by_contra h
    have := (hU a).2 ⟨ha, h⟩
    rw [Finset.card_eq_zero.1 (Nat.le_zero.1 hn)] at this
    simp at this
  | succ n ih =>
    by_cases hE : U = ∅
    · refine ⟨ch, by simp [greedyLoop, hE], hc, Or.inl fun a ha => ?_⟩
      by_contra h
      have := (hU a).2 ⟨ha, h⟩
      rw [hE] at this
      simp at this
    · have hne : ch.map Prod.fst ≠ [] := by simpa using hc.ne
      have hmem : ∀ a, a ∈ order r U ↔ a ∈ U := fun a => by rw [← List.mem_toFinset, (ho r U).2]
      obtain ⟨a, ha, hs, hb⟩ := scanBest_none (gain := next (cover (ch.map Prod.fst))) (g := score (ch.map Prod.fst))
        (l := order r U) (fun a ha => hf.next _ a hne hc.sub ((hU a).1 ((hmem a).1 ha)).1)
        (by
          intro h
          apply hE
          rw [← (ho r U).2, h]; rfl)
      have haU := (hmem a).1 ha
      obtain ⟨haU₀, han⟩ := (hU a).1 haU
      obtain ⟨s, hg, -, hcov⟩ := hf.get a haU₀
      have hbest : ∀ b ∈ U₀, b ∉ ch.map Prod.fst → score (ch.map Prod.fst) b ≤ score (ch.map Prod.fst) a :=
        fun b hb0 hbn => hb b ((hmem b).2 ((hU b).2 ⟨hb0, hbn⟩))
      have hcov := hcov _ hc.sub hne
      by_cases hl : ((cover (ch.map Prod.fst) ∩ s).card : ℚ) < limit
      · refine ⟨ch, ?_, hc, Or.inr ⟨a, haU₀, han, hbest, ?_⟩⟩
        · simp only [greedyLoop, if_neg hE, hs, bind, Except.bind, hg, if_pos hl]
        · rw [hf.big, hcov]; exact not_le.2 hl
      · have hbig : Big (ch.map Prod.fst ++ [a]) := by rw [hf.big, hcov]; exact not_lt.1 hl
        have hc' := hc.snoc haU₀ han hbest hbig
        obtain ⟨ch', e, h1, h2⟩ := ih (r + 1) (U.erase a) (ch ++ [(a, score (ch.map Prod.fst) a)])
          (by rw [Finset.card_erase_of_mem haU]; omega)
          (by
            intro x
            rw [Finset.mem_erase, hU, List.map_append]
            simp only [List.map_cons, List.map_nil, List.mem_append, List.mem_singleton]
            tauto)
          hc'
        refine ⟨ch', ?_, h1, h2⟩
        rw [← e]
        simp only [greedyLoop, if_neg hE, hs, bind, Except.bind, hg, if_neg hl]
        rw [List.map_append, List.map_cons, List.map_nil, hcov]

/-- More rounds than attributes change nothing. -/
theorem greedyLoop_fuel (ho : Traverses order) (n n' r : ℕ) (U cov : Finset ℕ) (ch : List (ℕ × ℚ))
    (hn : U.card ≤ n) (hn' : U.card ≤ n') (hnext : ∀ cov, ∀ a ∈ U, ∃ q, next cov a = .ok q) :
    greedyLoop order inv next limit n r U cov ch = greedyLoop order inv next limit n' r U cov ch := by
  induction n generalizing n' r U cov ch with
  | zero =>
    have : U = ∅ := Finset.card_eq_zero.1 (Nat.le_zero.1 hn)
    subst this
    cases n' <;> simp [greedyLoop]
  | succ n ih =>
    cases n' with
    | zero =>
      have : U = ∅ := Finset.card_eq_zero.1 (Nat.le_zero.1 hn')
      subst this
      simp [greedyLoop]
    | succ n' =>
      simp only [greedyLoop]
      by_cases hE : U = ∅
      · rw [if_pos hE, if_pos hE]
      · rw [if_neg hE, if_neg hE]
        have hmem : ∀ a, a ∈ order r U ↔ a ∈ U := fun a => by rw [← List.mem_toFinset, (ho r U).2]
        choose g hg using hnext
        obtain ⟨a, ha, hs, -⟩ := scanBest_none (gain := next cov)
          (g := fun a => if h : a ∈ U then g cov a h else 0) (l := order r U)
          (fun a ha => by rw [dif_pos ((hmem a).1 ha)]; exact hg cov a _)
          (by intro h; apply hE; rw [← (ho r U).2, h]; rfl)
        rw [hs]
        simp only [bind, Except.bind]
        have haU := (hmem a).1 ha
        cases pyGet inv (a : ℤ) with
        | error e => rfl
        | ok s =>
          simp only
          split
          · rfl
          · exact ih n' (r + 1) (U.erase a) _ _ (by rw [Finset.card_erase_of_mem haU]; omega)
              (by rw [Finset.card_erase_of_mem haU]; omega)
              fun cov x hx => ⟨_, hg cov x (Finset.mem_of_mem_erase hx)⟩

/-- The greedy choice returns the beginning of a greedy sequence, cut at its first highest score. -/
theorem greedyChoice_spec (ho : Traverses order) (hf : Fits inv next limit score Big U₀ cover)
    {first : ℕ → Py ℚ} (hfirst : ∀ a ∈ U₀, first a = .ok (score [] a)) (hU : U₀ ≠ ∅) :
    ∃ A, greedyChoice order inv first next limit U₀ = .ok A ∧ GreedyBest score Big U₀ A := by
  have hmem : ∀ a, a ∈ order 0 U₀ ↔ a ∈ U₀ := fun a => by rw [← List.mem_toFinset, (ho 0 U₀).2]
  obtain ⟨a, ha, hs, hb⟩ := scanBest_none (gain := first) (g := score []) (l := order 0 U₀)
    (fun a ha => hfirst a ((hmem a).1 ha)) (by intro h; apply hU; rw [← (ho 0 U₀).2, h]; rfl)
  have haU := (hmem a).1 ha
  obtain ⟨s, hg, hcov, -⟩ := hf.get a haU
  have hc : Chosen score Big U₀ [(a, score [] a)] := by
    refine ⟨by simp, by simp, by simpa using haU, ?_, ?_, ?_⟩
    · intro k hk
      obtain rfl : k = 0 := by simpa using hk
      rfl
    · intro k hk b hbU _
      obtain rfl : k = 0 := by simpa using hk
      exact hb b ((hmem b).2 hbU)
    · intro k hk h0
      simp only [List.length_singleton] at hk
      omega
  obtain ⟨ch, e, h1, h2⟩ := greedyLoop_spec ho hf (U₀.erase a).card 1 (U₀.erase a) _ (le_refl _)
    (by intro x; simp only [Finset.mem_erase, List.map_cons, List.map_nil, List.mem_singleton]; tauto) hc
  obtain ⟨hlt, hmax, hfst⟩ := argmaxFirst_spec (ch.map Prod.snd) (by simpa using h1.ne)
  have hlt' : argmaxFirst (ch.map Prod.snd) < ch.length := by simpa using hlt
  refine ⟨((ch.map Prod.fst).take (argmaxFirst (ch.map Prod.snd) + 1)).toFinset, ?_, ch.map Prod.fst,
    argmaxFirst (ch.map Prod.snd), by simpa using hlt, ?_, rfl, ?_, ?_⟩
  · simp only [List.map_cons, List.map_nil, hcov] at e
    simp only [greedyChoice, hs, bind, Except.bind, hg, e]
    rfl
  · refine ⟨by simpa using h1.ne, h1.nodup, h1.sub, ?_, ?_, h2⟩
    · intro k h b hbU hbn
      have h' : k < ch.length := by simpa using h
      rw [List.getElem_map]
      exact h1.best k h' b hbU hbn
    · intro k h h0
      exact h1.big k (by simpa using h) h0
  · intro k h
    have h' : k < ch.length := by simpa using h
    rw [List.getElem_map, List.getElem_map, ← h1.val k h', ← h1.val _ hlt']
    have := hmax ch[k].2 (List.mem_map_of_mem (List.getElem_mem h'))
    rwa [List.getElem_map] at this
  · intro k h
    rw [List.getElem_map, List.getElem_map, ← h1.val k (h.trans hlt'), ← h1.val _ hlt']
    have := hfst k h
    rwa [List.getElem_map, List.getElem_map] at this

end GreedyHead

end Verif
