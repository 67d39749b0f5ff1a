/-
Lemmas on the samplers of `Verif.Model.Local`.
-/
import Verif.Model.Local
import Verif.Spec.Trie
import Verif.Lemmas.Head

namespace Verif
namespace RandR

/-- The program ends without exception in an element of `U`, with the given probabilities. -/
def Law {α : Type} (m : RandR α) (U : Finset α) (w : α → ℝ) : Prop :=
  ∀ f : Py α → ℝ, m.expect f = ∑ x ∈ U, w x * f (.ok x)

theorem Law.bind {α β : Type} {m : RandR α} {U : Finset α} {w : α → ℝ} (h : m.Law U w)
    (k : α → RandR β) (f : Py β → ℝ) : (m.bind k).expect f = ∑ x ∈ U, w x * (k x).expect f := by
  rw [expect_bind, h]
  rfl

theorem expect_coin (f : Bool → ℝ) (k : ℝ → RandR α) (g : Py α → ℝ)
    (h : ∀ u, (k u).expect g = if u < (1 : ℝ) / 2 then f true else f false) :
    (RandR.unif k).expect g = (f true + f false) / 2 := by
  simp only [expect, h]
  rw [integral_threshold]
  have : max (0 : ℝ) (min 1 (1 / 2)) = 1 / 2 := by norm_num
  rw [this]
  ring

theorem law_npChoiceR {p : List ℝ} (h0 : p ≠ []) (h1 : ∀ q ∈ p, 0 ≤ q) (h2 : p.sum = 1) :
    (npChoiceR p).Law (Finset.range p.length) fun i => p.getD i 0 := by
  intro f
  unfold npChoiceR
  rw [if_pos ⟨h0, h1, h2⟩]
  simp only [expect]
  rw [Finset.sum_range]
  apply Finset.sum_congr rfl
  intro i _
  rw [getD_lt i.2]
  rfl

theorem law_pyChoiceIdx {n : ℕ} (hn : n ≠ 0) :
    (pyChoiceIdx n).Law (Finset.range n) fun _ => 1 / (n : ℝ) := by
  intro f
  unfold pyChoiceIdx
  rw [if_neg hn]
  simp only [expect]
  rw [Finset.sum_range]
  apply Fintype.sum_equiv (finCongr (by simp))
  intro i
  simp

/-- A loop repeated until its result is accepted. -/
theorem expect_retry {α : Type} {m : RandR α} {U : Finset α} {w : α → ℝ} (h : m.Law U w) (ok : α → Bool)
    (k : ℕ) (f : Py (Option α) → ℝ) :
    (retry m ok k).expect f =
      (∑ j ∈ Finset.range k, (∑ x ∈ U.filter (fun x => ok x = false), w x) ^ j) *
        (∑ x ∈ U.filter (fun x => ok x = true), w x * f (.ok (some x))) +
      (∑ x ∈ U.filter (fun x => ok x = false), w x) ^ k * f (.ok none) := by
  induction k with
  | zero => simp [retry, pure_eq, expect]
  | succ k ih =>
    rw [retry, bind_eq, h.bind]
    have e : ∀ x ∈ U, w x * (if ok x = true then (pure (some x) : RandR (Option α)) else retry m ok k).expect f =
        (if ok x = true then w x * f (.ok (some x)) else 0) +
        (if ok x = false then w x else 0) * (retry m ok k).expect f := by
      intro x _
      cases hx : ok x
      · simp
      · simp [pure_eq, expect]
    rw [Finset.sum_congr rfl e, Finset.sum_add_distrib, ← Finset.sum_mul, ← Finset.sum_filter,
      ← Finset.sum_filter, ih]
    set q := ∑ x ∈ U.filter (fun x => ok x = false), w x
    rw [Finset.sum_range_succ' (fun j => q ^ j)]
    have : ∑ j ∈ Finset.range k, q ^ (j + 1) = q * ∑ j ∈ Finset.range k, q ^ j := by
      rw [Finset.mul_sum]
      exact Finset.sum_congr rfl fun _ _ => by ring
    rw [this]
    ring

theorem outcome_retry {α : Type} {m : RandR α} {ok : α → Bool} {x : Py (Option α)} (k : ℕ)
    (h : (retry m ok k).Outcome x) :
    x = .ok none ∨ (∃ a, m.Outcome (.ok a) ∧ ok a = true ∧ x = .ok (some a)) ∨
      ∃ e, m.Outcome (.error e) ∧ x = .error e := by
  induction k with
  | zero => exact Or.inl h
  | succ k ih =>
    rw [retry, bind_eq, outcome_bind] at h
    rcases h with ⟨a, ha, h⟩ | ⟨e, he, hx⟩
    · cases hok : ok a
      · rw [hok] at h
        exact ih h
      · rw [hok] at h
        exact Or.inr (Or.inl ⟨a, ha, hok, h⟩)
    · exact Or.inr (Or.inr ⟨e, he, hx⟩)

end RandR

open RandR

/-! ### Coin flips -/

theorem law_coinSubset {l : List ℕ} (hl : l.Nodup) :
    (coinSubset l).Law l.toFinset.powerset fun _ => 1 / 2 ^ l.length := by
  induction l with
  | nil => intro f; simp [coinSubset, pure_eq, expect]
  | cons a l ih =>
    rw [List.nodup_cons] at hl
    have hi := ih hl.2
    intro f
    have ha : a ∉ l.toFinset := by simpa using hl.1
    rw [coinSubset]
    show (RandR.unif fun u => _).expect f = _
    rw [expect_coin (fun b => (coinSubset l).expect fun x => match x with
      | .ok r => f (.ok (if b then insert a r else r))
      | .error e => f (.error e))]
    · rw [hi, hi, List.toFinset_cons, Finset.sum_powerset_insert ha]
      simp only [List.length_cons, if_true, Bool.false_eq_true, if_false]
      rw [← Finset.mul_sum, ← Finset.mul_sum, ← Finset.mul_sum, ← Finset.mul_sum, pow_succ]
      field_simp
      ring
    · intro u
      have e : (coinSubset l >>= fun res =>
          (pure (if u < 1 / 2 then insert a res else res) : RandR (Finset ℕ))).expect f = 
          (coinSubset l).expect fun x => match x with
            | .ok r => f (.ok (if u < (1 : ℝ) / 2 then insert a r else r))
            | .error e => f (.error e) := by
        rw [bind_eq, RandR.expect_bind]
        congr 1
        funext x
        cases x <;> rfl
      refine e.trans ?_
      split <;> simp_all

theorem outcome_coinSubset {l : List ℕ} {x : Py (Finset ℕ)} (h : (coinSubset l).Outcome x) :
    ∃ F ⊆ l.toFinset, x = .ok F := by
  induction l generalizing x with
  | nil => exact ⟨∅, by simp, h⟩
  | cons a l ih =>
    rw [coinSubset, bind_eq, outcome_bind] at h
    rcases h with ⟨u, -, h⟩ | ⟨e, ⟨u, -, -, he⟩, -⟩
    · rw [bind_eq, outcome_bind] at h
      rcases h with ⟨r, hr, h⟩ | ⟨e, he, -⟩
      · obtain ⟨F, hF, e⟩ := ih hr
        cases e
        refine ⟨_, ?_, h⟩
        rw [List.toFinset_cons]
        split
        · exact Finset.insert_subset_insert _ hF
        · exact hF.trans (Finset.subset_insert _ _)
      · obtain ⟨F, hF, e'⟩ := ih he
        cases e'
    · cases he

theorem traverse_toFinset {order : Finset ℕ → List ℕ} (ho : Traverses order) (S : Finset ℕ) :
    (order S).Nodup ∧ (order S).toFinset = S ∧ (order S).length = S.card := by
  obtain ⟨hnd, hmem⟩ := ho S
  have htf : (order S).toFinset = S := by ext x; simp [hmem]
  exact ⟨hnd, htf, by rw [← htf, List.toFinset_card_of_nodup hnd, htf]⟩

/-- The law of one round of coin flips over a set. -/
theorem law_coin {order : Finset ℕ → List ℕ} (ho : Traverses order) (S : Finset ℕ) :
    (coinSubset (order S)).Law S.powerset fun _ => 1 / 2 ^ S.card := by
  obtain ⟨h1, h2, h3⟩ := traverse_toFinset ho S
  have := law_coinSubset h1
  rwa [h2, h3] at this

theorem geom (q : ℝ) (k : ℕ) (hq : q ≠ 1) : ∑ j ∈ Finset.range k, q ^ j = (1 - q ^ k) / (1 - q) := by
  rw [geom_sum_eq hq]
  rw [← neg_sub, ← neg_sub (1 : ℝ) q, neg_div_neg_eq]

theorem filter_empty (S : Finset ℕ) :
    (S.powerset.filter fun x => decide (0 < x.card) = false) = {∅} := by
  ext x
  simp only [Finset.mem_filter, Finset.mem_powerset, decide_eq_false_iff_not, not_lt, Nat.le_zero,
    Finset.card_eq_zero, Finset.mem_singleton]
  constructor
  · exact fun h => h.2
  · rintro rfl; exact ⟨Finset.empty_subset _, rfl⟩

/-- The random non-empty subset. -/
theorem expect_drawBernoulli {order : Finset ℕ → List ℕ} (ho : Traverses order) (S : Finset ℕ) (k : ℕ)
    (f : Py (Option (Finset ℕ)) → ℝ) :
    (drawBernoulli order S true k).expect f =
      (1 - (1 / 2 ^ S.card) ^ k) / (2 ^ S.card - 1) *
        (∑ F ∈ S.powerset.filter (fun F => F ≠ ∅), f (.ok (some F))) +
      (1 / 2 ^ S.card) ^ k * f (.ok none) := by
  unfold drawBernoulli
  rw [if_pos rfl, expect_retry (law_coin ho S), filter_empty]
  have h1 : (S.powerset.filter fun x => decide (0 < x.card) = true) = S.powerset.filter fun F => F ≠ ∅ := by
    apply Finset.filter_congr
    intro x _
    simp [Finset.card_pos, Finset.nonempty_iff_ne_empty]
  rw [h1, Finset.sum_singleton, ← Finset.mul_sum]
  by_cases hS : S = ∅
  · subst hS
    have h0 : ((∅ : Finset ℕ).powerset.filter fun F => F ≠ ∅) = ∅ := by
      ext F; simp
    rw [h0]
    simp
  · have hc : 0 < S.card := Finset.card_pos.mpr (Finset.nonempty_iff_ne_empty.mpr hS)
    have h2 : (1 : ℝ) < 2 ^ S.card := one_lt_pow₀ (by norm_num) hc.ne'
    have h3 : (1 : ℝ) / 2 ^ S.card ≠ 1 := by
      intro h
      rw [div_eq_one_iff_eq (by positivity)] at h
      linarith
    rw [geom _ _ h3]
    have h4 : (2 : ℝ) ^ S.card - 1 ≠ 0 := by linarith
    have h5 : (1 : ℝ) - 1 / 2 ^ S.card ≠ 0 := fun h => h3 (by linarith)
    have h6 : (1 : ℝ) - 1 / 2 ^ S.card = (2 ^ S.card - 1) / 2 ^ S.card := by field_simp
    rw [h6]
    field_simp

theorem expect_drawBernoulli_all {order : Finset ℕ → List ℕ} (ho : Traverses order) (S : Finset ℕ) (k : ℕ)
    (f : Py (Option (Finset ℕ)) → ℝ) :
    (drawBernoulli order S false k).expect f = (∑ F ∈ S.powerset, f (.ok (some F))) / 2 ^ S.card := by
  unfold drawBernoulli
  rw [if_neg (by simp), bind_eq, (law_coin ho S).bind, Finset.sum_div]
  apply Finset.sum_congr rfl
  intro F _
  simp only [pure_eq, expect]
  ring

/-! ### Random permutations -/

theorem double_count (S : Finset ℕ) (k : ℕ) (f : Finset ℕ → ℝ) :
    ∑ x ∈ S, ∑ G ∈ (S.erase x).powersetCard k, f (insert x G) =
      (k + 1) * ∑ F ∈ S.powersetCard (k + 1), f F := by
  have h1 : ∑ F ∈ S.powersetCard (k + 1), ∑ x ∈ F, f F = (k + 1) * ∑ F ∈ S.powersetCard (k + 1), f F := by
    rw [Finset.mul_sum]
    apply Finset.sum_congr rfl
    intro F hF
    rw [Finset.sum_const, (Finset.mem_powersetCard.mp hF).2, nsmul_eq_mul]
    push_cast
    ring
  rw [← h1, Finset.sum_sigma', Finset.sum_sigma']
  refine Finset.sum_bij' (fun a _ => ⟨insert a.1 a.2, a.1⟩) (fun b _ => ⟨b.2, b.1.erase b.2⟩) ?_ ?_ ?_ ?_ ?_
  · rintro ⟨x, G⟩ h
    simp only [Finset.mem_sigma, Finset.mem_powersetCard] at h ⊢
    obtain ⟨hx, hG, hc⟩ := h
    have hxG : x ∉ G := fun h => (Finset.mem_erase.mp (hG h)).1 rfl
    refine ⟨⟨Finset.insert_subset hx (hG.trans (Finset.erase_subset _ _)), ?_⟩, Finset.mem_insert_self _ _⟩
    rw [Finset.card_insert_of_notMem hxG, hc]
  · rintro ⟨F, x⟩ h
    simp only [Finset.mem_sigma, Finset.mem_powersetCard] at h ⊢
    obtain ⟨⟨hF, hc⟩, hx⟩ := h
    refine ⟨hF hx, Finset.erase_subset_erase _ hF, ?_⟩
    rw [Finset.card_erase_of_mem hx, hc]
    rfl
  · rintro ⟨x, G⟩ h
    simp only [Finset.mem_sigma, Finset.mem_powersetCard] at h
    have hxG : x ∉ G := fun h' => (Finset.mem_erase.mp (h.2.1 h')).1 rfl
    simp [Finset.erase_insert hxG]
  · rintro ⟨F, x⟩ h
    simp only [Finset.mem_sigma, Finset.mem_powersetCard] at h
    simp [Finset.insert_erase h.2]
  · intro a _
    rfl

theorem toFinset_eraseIdx {t : List ℕ} (ht : t.Nodup) {i : ℕ} (hi : i < t.length) :
    (t.eraseIdx i).toFinset = t.toFinset.erase t[i] := by
  rw [← List.Nodup.erase_getElem ht i hi, List.toFinset_eq_of_perm _ _ (List.Perm.refl _)]
  ext x
  simp [ht.mem_erase_iff]

theorem sum_getElem {t : List ℕ} (ht : t.Nodup) (g : ℕ → ℝ) :
    ∑ i ∈ Finset.range t.length, g (t.getD i 0) = ∑ x ∈ t.toFinset, g x := by
  rw [List.sum_toFinset _ ht]
  have : t.map g = (List.range t.length).map fun i => g (t.getD i 0) := by
    apply List.ext_getElem
    · simp
    · intro i h1 h2
      have hi : i < t.length := by simpa using h1
      simp [hi]
  rw [this, ← List.sum_toFinset _ List.nodup_range, List.toFinset_range]

/-- A quantity of the first `k` elements of a permutation. -/
noncomputable def ofFirst (k : ℕ) (g : Finset ℕ → ℝ) : Py (List ℕ) → ℝ
  | .ok p => g (p.take k).toFinset
  | .error _ => 0

theorem expect_permutation (n : ℕ) : ∀ (t : List ℕ), t.Nodup → t.length = n → ∀ k ≤ n, ∀ g : Finset ℕ → ℝ,
    (npPermutation n t).expect (ofFirst k g) = (∑ F ∈ t.toFinset.powersetCard k, g F) / (n.choose k : ℝ) := by
  induction n with
  | zero =>
    intro t ht hl k hk g
    obtain rfl : k = 0 := by omega
    simp [npPermutation, pure_eq, expect, ofFirst]
  | succ n ih =>
    intro t ht hl k hk g
    have hn : t.length ≠ 0 := by omega
    rw [npPermutation, bind_eq, (law_pyChoiceIdx hn).bind]
    have he : ∀ i ∈ Finset.range t.length, (t.eraseIdx i).Nodup ∧ (t.eraseIdx i).length = n := by
      intro i hi
      rw [Finset.mem_range] at hi
      refine ⟨ht.sublist (List.eraseIdx_sublist _ _), ?_⟩
      rw [List.length_eraseIdx_of_lt hi]
      omega
    cases k with
    | zero =>
      have e : ∀ i ∈ Finset.range t.length, (1 / (t.length : ℝ)) *
          (npPermutation n (t.eraseIdx i) >>= fun rest => (pure (t.getD i 0 :: rest) : RandR (List ℕ))).expect
            (ofFirst 0 g) = 1 / (t.length : ℝ) * g ∅ := by
        intro i hi
        congr 1
        rw [bind_eq, expect_bind]
        have : (after (ofFirst 0 g) fun rest => (pure (t.getD i 0 :: rest) : RandR (List ℕ))) = ofFirst 0 g := by
          funext x
          cases x <;> simp [after, ofFirst, pure_eq, expect]
        rw [this, ih _ (he i hi).1 (he i hi).2 0 (by omega)]
        simp
      rw [Finset.sum_congr rfl e]
      have : (t.length : ℝ) ≠ 0 := by exact_mod_cast hn
      simp
      field_simp
    | succ k =>
      have e : ∀ i ∈ Finset.range t.length, (1 / (t.length : ℝ)) *
          (npPermutation n (t.eraseIdx i) >>= fun rest => (pure (t.getD i 0 :: rest) : RandR (List ℕ))).expect
            (ofFirst (k + 1) g) =
          1 / (t.length : ℝ) * ((∑ G ∈ (t.toFinset.erase (t.getD i 0)).powersetCard k,
            g (insert (t.getD i 0) G)) / (n.choose k : ℝ)) := by
        intro i hi
        congr 1
        rw [bind_eq, expect_bind]
        have : (after (ofFirst (k + 1) g) fun rest => (pure (t.getD i 0 :: rest) : RandR (List ℕ))) =
            ofFirst k fun G => g (insert (t.getD i 0) G) := by
          funext x
          cases x <;> simp [after, ofFirst, pure_eq, expect]
        rw [this, ih _ (he i hi).1 (he i hi).2 k (by omega),
          toFinset_eraseIdx ht (Finset.mem_range.mp hi), getD_lt (Finset.mem_range.mp hi)]
      rw [Finset.sum_congr rfl e,
        sum_getElem ht (fun x => 1 / (t.length : ℝ) * ((∑ G ∈ (t.toFinset.erase x).powersetCard k,
            g (insert x G)) / (n.choose k : ℝ))), ← Finset.mul_sum, ← Finset.sum_div, double_count, hl]
      have h1 : ((n + 1 : ℕ) : ℝ) * (n.choose k : ℝ) = ((n + 1).choose (k + 1) : ℝ) * ((k + 1 : ℕ) : ℝ) := by
        exact_mod_cast Nat.add_one_mul_choose_eq n k
      have h2 : (n.choose k : ℝ) ≠ 0 := by
        exact_mod_cast (Nat.choose_pos (by omega)).ne'
      have h3 : ((n + 1).choose (k + 1) : ℝ) ≠ 0 := by
        exact_mod_cast (Nat.choose_pos hk).ne'
      push_cast at h1 ⊢
      rw [div_mul_div_comm, one_mul, h1]
      field_simp

theorem outcome_permutation (n : ℕ) : ∀ (t : List ℕ), t.length = n → ∀ x, (npPermutation n t).Outcome x →
    ∃ p, x = .ok p ∧ p.Perm t := by
  induction n with
  | zero =>
    intro t hl x h
    obtain rfl := List.length_eq_zero_iff.mp hl
    exact ⟨[], h, List.Perm.refl _⟩
  | succ n ih =>
    intro t hl x h
    have hn : t.length ≠ 0 := by omega
    rw [npPermutation, bind_eq, outcome_bind] at h
    unfold pyChoiceIdx at h
    rw [if_neg hn] at h
    rcases h with ⟨i, ⟨j, hj, -, e⟩, h⟩ | ⟨e, ⟨j, hj, -, e'⟩, -⟩
    · cases e
      have hi : i < t.length := by simpa using hj
      have hl' : (t.eraseIdx i).length = n := by rw [List.length_eraseIdx_of_lt hi]; omega
      rw [bind_eq, outcome_bind] at h
      rcases h with ⟨r, hr, h⟩ | ⟨e, he, -⟩
      · obtain ⟨p, e, hp⟩ := ih _ hl' _ hr
        cases e
        refine ⟨_, h, ?_⟩
        rw [getD_lt hi]
        exact (List.Perm.cons _ hp).trans (List.getElem_cons_eraseIdx_perm hi)
      · obtain ⟨p, e', -⟩ := ih _ hl' _ he
        cases e'
    · cases e'

end Verif
