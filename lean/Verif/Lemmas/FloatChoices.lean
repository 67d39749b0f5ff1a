/-
`random.choices` with weights in doubles.
-/
import Verif.Model.FloatGreedyArea
import Verif.Lemmas.Float
import Verif.Lemmas.FloatDouble

namespace Verif

/-- The running sum before index `i`. -/
noncomputable def cumF (ws : List ℝ) (i : ℕ) : ℝ := if i = 0 then 0 else (cumsumF ws).getD (i - 1) 0

theorem cumF_zero (ws : List ℝ) : cumF ws 0 = 0 := by simp [cumF]

theorem cumF_succ {ws : List ℝ} (hd : ∀ x ∈ ws, IsDouble x) {i : ℕ} (hi : i < ws.length) :
    cumF ws (i + 1) = fl (cumF ws i + ws.getD i 0) := by
  cases i with
  | zero =>
    cases ws with
    | nil => simp at hi
    | cons w ws =>
      simp only [cumF, Nat.zero_add, if_neg one_ne_zero, Nat.sub_self, if_true, cumsumF, List.getD_cons_zero, zero_add]
      exact (fl_of_double (hd w (by simp))).symm
  | succ i =>
    simp only [cumF, Nat.add_eq_zero_iff, one_ne_zero, and_false, if_false, Nat.add_sub_cancel]
    exact cumsumF_succ ws i hi

theorem cumF_double {ws : List ℝ} (hd : ∀ x ∈ ws, IsDouble x) (h0 : ∀ x ∈ ws, 0 ≤ x) {i : ℕ} (hi : i ≤ ws.length) :
    IsDouble (cumF ws i) ∧ 0 ≤ cumF ws i := by
  cases i with
  | zero => exact ⟨⟨0, 0, by norm_num, by simp [cumF]⟩, by simp [cumF]⟩
  | succ i =>
    have := cumsumF_double ws hd h0 i (by omega)
    simpa [cumF] using this

theorem cumF_le_succ {ws : List ℝ} (hd : ∀ x ∈ ws, IsDouble x) (h0 : ∀ x ∈ ws, 0 ≤ x) {i : ℕ} (hi : i < ws.length) :
    cumF ws i ≤ cumF ws (i + 1) := by
  rw [cumF_succ hd hi]
  obtain ⟨h1, h2⟩ := cumF_double hd h0 hi.le
  refine fl_add_ge h1 h2 ?_
  rw [getD_lt hi]
  exact h0 _ (List.getElem_mem hi)

theorem cumF_mono {ws : List ℝ} (hd : ∀ x ∈ ws, IsDouble x) (h0 : ∀ x ∈ ws, 0 ≤ x) {i j : ℕ} (hij : i ≤ j)
    (hj : j ≤ ws.length) : cumF ws i ≤ cumF ws j := by
  induction j, hij using Nat.le_induction with
  | base => exact le_rfl
  | succ j hij ih => exact (ih (by omega)).trans (cumF_le_succ hd h0 hj)

theorem cumF_close {ws : List ℝ} (hd : ∀ x ∈ ws, IsDouble x) (h0 : ∀ x ∈ ws, 0 ≤ x) {i : ℕ} (hi : i ≤ ws.length) :
    RelClose (2 * i) (cumF ws i) (ws.take i).sum := by
  induction i with
  | zero => simp [cumF, RelClose]
  | succ i ih =>
    have hlt : i < ws.length := hi
    have hw : 0 ≤ ws[i] := h0 _ (List.getElem_mem hlt)
    have hsum : (ws.take (i + 1)).sum = (ws.take i).sum + ws[i] := by
      rw [List.take_succ_eq_append_getElem hlt, List.sum_append, List.sum_singleton]
    rw [cumF_succ hd hlt, getD_lt hlt, hsum]
    have h1 := (ih hlt.le).add (RelClose.refl hw (2 * i))
    have h2 := RelClose.round (add_nonneg (cumF_double hd h0 hlt.le).2 hw)
    have := h2.trans h1
    rwa [show 2 + 2 * i = 2 * (i + 1) by ring] at this

namespace Dbl

theorem add_num {a x : ℝ} (h : fl (a + x) < 2 ^ 1024) : add (num a) (num x) = num (fl (a + x)) := round_num h

theorem accumulateFrom_num : ∀ (xs : List ℝ) (a : ℝ), (∀ c ∈ cumsumFrom a xs, c < 2 ^ 1024) →
    accumulateFrom (num a) (xs.map num) = (cumsumFrom a xs).map num
  | [], _, _ => rfl
  | x :: xs, a, h => by
    have h1 : fl (a + x) < 2 ^ 1024 := h _ (by simp [cumsumFrom])
    simp only [List.map_cons, accumulateFrom, cumsumFrom]
    rw [add_num h1, accumulateFrom_num xs _ fun c hc => h c (by simp [cumsumFrom, hc])]

theorem accumulate_num (ws : List ℝ) (h : ∀ c ∈ cumsumF ws, c < 2 ^ 1024) :
    accumulate (ws.map num) = (cumsumF ws).map num := by
  cases ws with
  | nil => rfl
  | cons w ws =>
    simp only [List.map_cons, accumulate, cumsumF]
    rw [accumulateFrom_num ws w fun c hc => h c (by simp [cumsumF, hc])]

theorem getD_map_num (a : List ℝ) {i : ℕ} (hi : i < a.length) : (a.map num).getD i nan = num (a.getD i 0) := by
  rw [getD_lt (by simpa using hi), getD_lt hi, List.getElem_map]

theorem bisect_num (a : List ℝ) (x : ℝ) (lo hi : ℕ) (hh : hi ≤ a.length) :
    bisect (a.map num) (num x) lo hi = searchRight a x lo hi := by
  induction hlen : hi - lo using Nat.strong_induction_on generalizing lo hi with
  | _ d ih =>
    rw [bisect, searchRight]
    by_cases hlt : lo < hi
    · rw [if_pos hlt, if_pos hlt, getD_map_num a (by omega)]
      by_cases hx : x < a.getD (lo + (hi - lo) / 2) 0
      · rw [if_pos (show Lt (num x) (num _) from hx), if_neg (not_le.2 hx)]
        exact ih _ (by omega) _ _ (by omega) rfl
      · rw [if_neg (show ¬ Lt (num x) (num _) from hx), if_pos (not_lt.1 hx)]
        exact ih _ (by omega) _ _ hh rfl
    · rw [if_neg hlt, if_neg hlt]

/-- The variate scaled by the total. -/
noncomputable def scaled (ws : List ℝ) (k : ℕ) : ℝ := fl ((k : ℝ) / 2 ^ 53 * cumF ws ws.length)

theorem unit_lt {k : ℕ} (hk : k < 2 ^ 53) : (k : ℝ) / 2 ^ 53 ≤ 1 - 1 / 2 ^ 53 := by
  rw [div_le_iff₀ (by positivity)]
  have : (k : ℝ) + 1 ≤ 2 ^ 53 := by exact_mod_cast hk
  have e : (1 - 1 / 2 ^ 53 : ℝ) * 2 ^ 53 = 2 ^ 53 - 1 := by norm_num
  rw [e]
  linarith

theorem scaled_bounds {ws : List ℝ} (hd : ∀ x ∈ ws, IsDouble x) (h0 : ∀ x ∈ ws, 0 ≤ x)
    (ht : 0 < cumF ws ws.length) {k : ℕ} (hk : k < 2 ^ 53) :
    0 ≤ scaled ws k ∧ scaled ws k < cumF ws ws.length := by
  have hu := unit_lt hk
  have hu0 : (0 : ℝ) ≤ (k : ℝ) / 2 ^ 53 := by positivity
  set t := cumF ws ws.length with htd
  have hy0 : 0 ≤ (k : ℝ) / 2 ^ 53 * t := mul_nonneg hu0 ht.le
  refine ⟨fl_nonneg hy0, ?_⟩
  have hle : fl ((k : ℝ) / 2 ^ 53 * t) ≤ t := by
    have := fl_mono hy0 (show (k : ℝ) / 2 ^ 53 * t ≤ t by nlinarith [show (0 : ℝ) < 1 / 2 ^ 53 by positivity])
    rwa [fl_of_double (cumF_double hd h0 le_rfl).1] at this
  refine lt_of_le_of_ne hle fun he => ?_
  have herr := fl_error ((k : ℝ) / 2 ^ 53 * t)
  rw [show fl ((k : ℝ) / 2 ^ 53 * t) = t from he, abs_of_nonneg hy0] at herr
  have h1 := (abs_le.1 herr).2
  have h2 : (k : ℝ) / 2 ^ 53 * t ≤ (1 - 1 / 2 ^ 53) * t := mul_le_mul_of_nonneg_right hu ht.le
  have h3 : (1 / 2 ^ 53 : ℝ) * ((k : ℝ) / 2 ^ 53 * t) ≤ 1 / 2 ^ 53 * ((1 - 1 / 2 ^ 53) * t) :=
    mul_le_mul_of_nonneg_left h2 (by positivity)
  have h4 : (0 : ℝ) < 1 / 2 ^ 53 * (1 / 2 ^ 53) * t := by positivity
  nlinarith

/-- What `random.choices` returns for finite sums: the index whose part of the running sums the scaled variate hits. -/
theorem choices_num (strict finite : Bool) {ws : List ℝ} (hd : ∀ x ∈ ws, IsDouble x) (h0 : ∀ x ∈ ws, 0 ≤ x)
    (ht : 0 < cumF ws ws.length) (hfin : cumF ws ws.length < 2 ^ 1024) {k : ℕ} (hk : k < 2 ^ 53) :
    ∃ i, choices strict finite (ws.map num) k = .ok i ∧ i < ws.length ∧ cumF ws i ≤ scaled ws k ∧
      scaled ws k < cumF ws (i + 1) := by
  have hne : ws ≠ [] := by
    rintro rfl
    simp [cumF] at ht
  have hlen : 0 < ws.length := List.length_pos_iff.2 hne
  have hcl : (cumsumF ws).length = ws.length := length_cumsumF ws
  have hget : ∀ i, (cumsumF ws).getD i 0 = cumF ws (i + 1) := fun i => by simp [cumF]
  have hsmall : ∀ c ∈ cumsumF ws, c < 2 ^ 1024 := by
    intro c hc
    obtain ⟨i, hi, rfl⟩ := List.getElem_of_mem hc
    rw [← getD_lt hi 0, hget]
    exact lt_of_le_of_lt (cumF_mono hd h0 (by omega) le_rfl) hfin
  have hlast : (accumulate (ws.map num)).getLast? = some (num (cumF ws ws.length)) := by
    rw [accumulate_num ws hsmall, List.getLast?_map, List.getLast?_eq_getElem?, hcl,
      List.getElem?_eq_getElem (by omega)]
    simp only [Option.map_some]
    rw [← getD_lt (by omega) 0, hget, Nat.sub_add_cancel hlen]
  obtain ⟨hs0, hs1⟩ := scaled_bounds hd h0 ht hk
  have hmul : mul (num ((k : ℝ) / 2 ^ 53)) (num (cumF ws ws.length)) = num (scaled ws k) :=
    round_num (lt_trans hs1 hfin)
  have hval : choices strict finite (ws.map num) k =
      .ok (searchRight (cumsumF ws) (scaled ws k) 0 (ws.length - 1)) := by
    unfold choices
    rw [hlast]
    simp only [LeZero, Finite, not_true, and_false, if_false, not_le.2 ht]
    rw [accumulate_num ws hsmall, hmul, List.length_map, bisect_num _ _ _ _ (by omega)]
  obtain ⟨h1, h2, h3⟩ := searchRight_spec (cumsumF ws) (scaled ws k) (ws.length - 1)
    (fun i j hij hj => by
      rw [hget, hget]
      exact cumF_mono hd h0 (by omega) (by omega))
    0 (ws.length - 1) (Nat.zero_le _) le_rfl (fun i hi => absurd hi (Nat.not_lt_zero i))
    (fun i hi hi' => absurd hi' (by omega))
  refine ⟨_, hval, by omega, ?_, ?_⟩
  · set i := searchRight (cumsumF ws) (scaled ws k) 0 (ws.length - 1)
    rcases Nat.eq_zero_or_pos i with e | e
    · rw [e, cumF_zero]
      exact hs0
    · have := h2 (i - 1) (by omega)
      rwa [hget, Nat.sub_add_cancel e] at this
  · set i := searchRight (cumsumF ws) (scaled ws k) 0 (ws.length - 1)
    rcases Nat.lt_or_ge i (ws.length - 1) with hlt | hge
    · rw [← hget]
      exact h3 i le_rfl hlt
    · rw [show i + 1 = ws.length by omega]
      exact hs1

theorem choices_iff (strict finite : Bool) {ws : List ℝ} (hd : ∀ x ∈ ws, IsDouble x) (h0 : ∀ x ∈ ws, 0 ≤ x)
    (ht : 0 < cumF ws ws.length) (hfin : cumF ws ws.length < 2 ^ 1024) {k : ℕ} (hk : k < 2 ^ 53) {i : ℕ}
    (hi : i < ws.length) : choices strict finite (ws.map num) k = .ok i ↔
      cumF ws i ≤ scaled ws k ∧ scaled ws k < cumF ws (i + 1) := by
  obtain ⟨j, h1, h2, h3, h4⟩ := choices_num strict finite hd h0 ht hfin hk
  rw [h1]
  constructor
  · intro h
    cases h
    exact ⟨h3, h4⟩
  · rintro ⟨h5, h6⟩
    rcases Nat.lt_trichotomy i j with h | h | h
    · exact absurd (lt_of_lt_of_le h6 (cumF_mono hd h0 h h2.le)) (not_lt.2 h3)
    · rw [h]
    · exact absurd (lt_of_lt_of_le h4 (cumF_mono hd h0 h hi.le)) (not_lt.2 h5)

/-- The share of the variates whose multiple stays below a running sum. -/
theorem share_below {t c : ℝ} (ht : 0 < t) (hc : IsDouble c) (hc0 : 0 ≤ c) (hct : c ≤ t) :
    |((((Finset.range (2 ^ 53)).filter fun k : ℕ => fl ((k : ℝ) / 2 ^ 53 * t) < c).card : ℝ) / 2 ^ 53) - c / t|
      ≤ 1 / 2 ^ 53 := by
  classical
  have hu : (0 : ℝ) < 1 + 1 / 2 ^ 53 := by positivity
  have lower : ∀ k : ℕ, (k : ℝ) / 2 ^ 53 < c / t * (1 - 1 / 2 ^ 53) → fl ((k : ℝ) / 2 ^ 53 * t) < c := by
    intro k hk
    have hy0 : (0 : ℝ) ≤ (k : ℝ) / 2 ^ 53 * t := by positivity
    have hy : (k : ℝ) / 2 ^ 53 * t < c * (1 - 1 / 2 ^ 53) := by
      have := mul_lt_mul_of_pos_right hk ht
      rwa [show c / t * (1 - 1 / 2 ^ 53) * t = c * (1 - 1 / 2 ^ 53) by field_simp] at this
    have herr := (abs_le.1 (fl_error ((k : ℝ) / 2 ^ 53 * t))).2
    rw [abs_of_nonneg hy0] at herr
    nlinarith [show (0 : ℝ) < 1 / 2 ^ 53 by positivity]
  have upper : ∀ k : ℕ, fl ((k : ℝ) / 2 ^ 53 * t) < c → (k : ℝ) / 2 ^ 53 < c / t := by
    intro k hk
    rw [lt_div_iff₀ ht]
    by_contra hge
    have := fl_mono hc0 (not_lt.1 hge)
    rw [fl_of_double hc] at this
    linarith
  have hq0 : 0 ≤ c / t := by positivity
  have hq1 : c / t ≤ 1 := (div_le_one ht).2 hct
  have count : ∀ q : ℝ, 0 ≤ q → q ≤ 1 →
      q ≤ (((Finset.range (2 ^ 53)).filter fun k : ℕ => (k : ℝ) / 2 ^ 53 < q).card : ℝ) / 2 ^ 53 ∧
      (((Finset.range (2 ^ 53)).filter fun k : ℕ => (k : ℝ) / 2 ^ 53 < q).card : ℝ) / 2 ^ 53 ≤ q + 1 / 2 ^ 53 := by
    intro q h0 h1
    have hset : ((Finset.range (2 ^ 53)).filter fun k : ℕ => (k : ℝ) / 2 ^ 53 < q) =
        Finset.range ⌈q * 2 ^ 53⌉₊ := by
      ext k
      simp only [Finset.mem_filter, Finset.mem_range, Nat.lt_ceil]
      rw [div_lt_iff₀ (by positivity)]
      constructor
      · exact fun h => h.2
      · intro h
        refine ⟨?_, h⟩
        have : (k : ℝ) < (2 ^ 53 : ℕ) := lt_of_lt_of_le h (by push_cast; nlinarith [show (0 : ℝ) < 2 ^ 53 by positivity])
        exact_mod_cast this
    rw [hset, Finset.card_range]
    have a1 := Nat.le_ceil (q * 2 ^ 53)
    have a2 := Nat.ceil_lt_add_one (a := q * 2 ^ 53) (by positivity)
    constructor
    · rw [le_div_iff₀ (by positivity)]
      exact a1
    · rw [div_le_iff₀ (by positivity)]
      have : (q + 1 / 2 ^ 53) * 2 ^ 53 = q * 2 ^ 53 + 1 := by field_simp
      rw [this]
      exact a2.le
  have hl : c / t * (1 - 1 / 2 ^ 53) ≤ 1 := by nlinarith [show (0 : ℝ) < 1 / 2 ^ 53 by positivity]
  have hl0 : 0 ≤ c / t * (1 - 1 / 2 ^ 53) := mul_nonneg hq0 (by norm_num)
  have c1 := (count _ hl0 hl).1
  have c2 := (count _ hq0 hq1).2
  have s1 : (((Finset.range (2 ^ 53)).filter fun k : ℕ => (k : ℝ) / 2 ^ 53 < c / t * (1 - 1 / 2 ^ 53)).card : ℝ) / 2 ^ 53
      ≤ (((Finset.range (2 ^ 53)).filter fun k : ℕ => fl ((k : ℝ) / 2 ^ 53 * t) < c).card : ℝ) / 2 ^ 53 := by
    refine div_le_div_of_nonneg_right ?_ (by positivity)
    exact_mod_cast Finset.card_le_card (Finset.monotone_filter_right _ fun k _ h => lower k (by exact_mod_cast h))
  have s2 : (((Finset.range (2 ^ 53)).filter fun k : ℕ => fl ((k : ℝ) / 2 ^ 53 * t) < c).card : ℝ) / 2 ^ 53 ≤
      (((Finset.range (2 ^ 53)).filter fun k : ℕ => (k : ℝ) / 2 ^ 53 < c / t).card : ℝ) / 2 ^ 53 := by
    refine div_le_div_of_nonneg_right ?_ (by positivity)
    exact_mod_cast Finset.card_le_card (Finset.monotone_filter_right _ fun k _ h => upper k (by exact_mod_cast h))
  rw [abs_le]
  constructor
  · nlinarith [show (0 : ℝ) < 1 / 2 ^ 53 by positivity]
  · linarith

open Classical in
/-- The probability of an index: the share of the 2⁵³ variates that select it. -/
noncomputable def chance (strict finite : Bool) (ws : List Dbl) (i : ℕ) : ℝ :=
  (((Finset.range (2 ^ 53)).filter fun k => choices strict finite ws k = .ok i).card : ℝ) / 2 ^ 53

theorem chance_error (strict finite : Bool) {ws : List ℝ} (hd : ∀ x ∈ ws, IsDouble x) (h0 : ∀ x ∈ ws, 0 ≤ x)
    (hs : 0 < ws.sum) (hfin : cumF ws ws.length < 2 ^ 1024) (hn : ws.length ≤ 2 ^ 50) {i : ℕ} (hi : i < ws.length) :
    |chance strict finite (ws.map num) i - ws.getD i 0 / ws.sum| ≤ (16 * (ws.length : ℝ) + 2) / 2 ^ 53 := by
  classical
  have hcl := cumF_close hd h0 (le_refl ws.length)
  rw [List.take_length] at hcl
  have ht : 0 < cumF ws ws.length := hcl.pos_iff.2 hs
  set t := cumF ws ws.length with htd
  have hdist : ∀ j, j ≤ ws.length → |cumF ws j / t - (ws.take j).sum / ws.sum| ≤ 8 * ws.length / 2 ^ 53 := by
    intro j hj
    have hsum0 : 0 ≤ (ws.take j).sum := List.sum_nonneg fun x hx => h0 x (List.mem_of_mem_take hx)
    have hle : (ws.take j).sum ≤ ws.sum := by
      conv_rhs => rw [← List.take_append_drop j ws, List.sum_append]
      have := List.sum_nonneg (l := ws.drop j) fun x hx => h0 x (List.mem_of_mem_drop hx)
      linarith
    have hj0 := (cumF_double hd h0 hj).2
    have hrel := (cumF_close hd h0 hj).div hcl hj0 hsum0 ht hs
    have hrel' : RelClose (4 * ws.length) (cumF ws j / t) ((ws.take j).sum / ws.sum) :=
      hrel.mono (by positivity) (by positivity) (by omega)
    refine (rel_abs (by omega) (by positivity) (by positivity) hrel').trans ?_
    have hq1 : (ws.take j).sum / ws.sum ≤ 1 := (div_le_one hs).2 hle
    refine (mul_le_of_le_one_left (by positivity) hq1).trans (le_of_eq ?_)
    push_cast
    ring
  have hF : ∀ j, j ≤ ws.length →
      |((((Finset.range (2 ^ 53)).filter fun k : ℕ => scaled ws k < cumF ws j).card : ℝ) / 2 ^ 53) -
        (ws.take j).sum / ws.sum| ≤ (8 * (ws.length : ℝ) + 1) / 2 ^ 53 := by
    intro j hj
    obtain ⟨h1, h2⟩ := cumF_double hd h0 hj
    have a := share_below ht h1 h2 (cumF_mono hd h0 hj le_rfl)
    have b := hdist j hj
    have := abs_sub_le ((((Finset.range (2 ^ 53)).filter fun k : ℕ => scaled ws k < cumF ws j).card : ℝ) / 2 ^ 53)
      (cumF ws j / t) ((ws.take j).sum / ws.sum)
    refine this.trans ((add_le_add a b).trans (le_of_eq ?_))
    ring
  have hsplit : chance strict finite (ws.map num) i =
      (((Finset.range (2 ^ 53)).filter fun k : ℕ => scaled ws k < cumF ws (i + 1)).card : ℝ) / 2 ^ 53 -
      (((Finset.range (2 ^ 53)).filter fun k : ℕ => scaled ws k < cumF ws i).card : ℝ) / 2 ^ 53 := by
    unfold chance
    rw [← sub_div]
    congr 1
    have hsub : ((Finset.range (2 ^ 53)).filter fun k : ℕ => scaled ws k < cumF ws i) ⊆
        ((Finset.range (2 ^ 53)).filter fun k : ℕ => scaled ws k < cumF ws (i + 1)) :=
      Finset.monotone_filter_right _ fun k _ h => lt_of_lt_of_le h (cumF_le_succ hd h0 hi)
    have hset : ((Finset.range (2 ^ 53)).filter fun k => choices strict finite (ws.map num) k = .ok i) =
        ((Finset.range (2 ^ 53)).filter fun k : ℕ => scaled ws k < cumF ws (i + 1)) \
          ((Finset.range (2 ^ 53)).filter fun k : ℕ => scaled ws k < cumF ws i) := by
      ext k
      simp only [Finset.mem_filter, Finset.mem_sdiff, Finset.mem_range, not_and, not_lt]
      constructor
      · rintro ⟨hk, h⟩
        have := (choices_iff strict finite hd h0 ht hfin hk hi).1 h
        exact ⟨⟨hk, this.2⟩, fun _ => this.1⟩
      · rintro ⟨⟨hk, h⟩, h'⟩
        exact ⟨hk, (choices_iff strict finite hd h0 ht hfin hk hi).2 ⟨h' hk, h⟩⟩
    rw [hset, Finset.card_sdiff_of_subset hsub, Nat.cast_sub (Finset.card_le_card hsub)]
  have hw : ws.getD i 0 / ws.sum = (ws.take (i + 1)).sum / ws.sum - (ws.take i).sum / ws.sum := by
    rw [List.take_succ_eq_append_getElem hi, List.sum_append, List.sum_singleton, getD_lt hi]
    ring
  rw [hsplit, hw]
  have a := hF (i + 1) hi
  have b := hF i hi.le
  rw [abs_le] at a b ⊢
  have e : ((16 * ws.length + 2 : ℝ)) / 2 ^ 53 = (8 * ws.length + 1) / 2 ^ 53 + (8 * ws.length + 1) / 2 ^ 53 := by ring
  rw [e]
  constructor <;> linarith [a.1, a.2, b.1, b.2]

/-- The mean of a quantity of the index over all variates is close to its mean under the weights. -/
theorem choices_average (strict finite : Bool) {ws : List ℝ} (hd : ∀ x ∈ ws, IsDouble x) (h0 : ∀ x ∈ ws, 0 ≤ x)
    (hs : 0 < ws.sum) (hfin : cumF ws ws.length < 2 ^ 1024) (hn : ws.length ≤ 2 ^ 50) (h : Py ℕ → ℝ)
    (hh : ∀ i < ws.length, 0 ≤ h (.ok i) ∧ h (.ok i) ≤ 1) :
    |(∑ k ∈ Finset.range (2 ^ 53), h (choices strict finite (ws.map num) k)) / 2 ^ 53 -
      ∑ i ∈ Finset.range ws.length, ws.getD i 0 / ws.sum * h (.ok i)| ≤
      (ws.length : ℝ) * (16 * (ws.length : ℝ) + 2) / 2 ^ 53 := by
  classical
  have hcl := cumF_close hd h0 (le_refl ws.length)
  rw [List.take_length] at hcl
  have ht : 0 < cumF ws ws.length := hcl.pos_iff.2 hs
  have hsplit : (∑ k ∈ Finset.range (2 ^ 53), h (choices strict finite (ws.map num) k)) / 2 ^ 53 =
      ∑ i ∈ Finset.range ws.length, chance strict finite (ws.map num) i * h (.ok i) := by
    have e1 : ∀ k ∈ Finset.range (2 ^ 53), h (choices strict finite (ws.map num) k) =
        ∑ i ∈ Finset.range ws.length, if choices strict finite (ws.map num) k = .ok i then h (.ok i) else 0 := by
      intro k hk
      obtain ⟨i, h1, h2, -⟩ := choices_num strict finite hd h0 ht hfin (Finset.mem_range.1 hk)
      rw [h1, Finset.sum_eq_single_of_mem i (Finset.mem_range.2 h2), if_pos rfl]
      intro j _ hj
      rw [if_neg]
      intro he
      cases he
      exact hj rfl
    rw [Finset.sum_congr rfl e1, Finset.sum_comm, Finset.sum_div]
    refine Finset.sum_congr rfl fun i _ => ?_
    rw [← Finset.sum_filter, Finset.sum_const, nsmul_eq_mul, chance]
    ring
  rw [hsplit, ← Finset.sum_sub_distrib]
  refine (Finset.abs_sum_le_sum_abs _ _).trans ?_
  have : ∀ i ∈ Finset.range ws.length, |chance strict finite (ws.map num) i * h (.ok i) -
      ws.getD i 0 / ws.sum * h (.ok i)| ≤ (16 * (ws.length : ℝ) + 2) / 2 ^ 53 := by
    intro i hi
    have hi := Finset.mem_range.1 hi
    rw [← sub_mul, abs_mul, abs_of_nonneg (hh i hi).1]
    exact (mul_le_of_le_one_right (abs_nonneg _) (hh i hi).2).trans (chance_error strict finite hd h0 hs hfin hn hi)
  refine (Finset.sum_le_sum this).trans (le_of_eq ?_)
  rw [Finset.sum_const, Finset.card_range, nsmul_eq_mul]
  ring

/-- An infinite weight makes the total infinite. -/
theorem accumulateFrom_inf : ∀ (xs : List Dbl) (a : Dbl), (a = inf ∨ inf ∈ xs) → a ≠ nan → (∀ x ∈ xs, x ≠ nan) →
    (a :: accumulateFrom a xs).getLast? = some inf
  | [], a, h, _, _ => by
    rcases h with rfl | h
    · rfl
    · cases h
  | x :: xs, a, h, ha, hx => by
    rw [accumulateFrom, List.getLast?_cons_cons]
    have hx' := hx x (by simp)
    have hadd : add a x ≠ nan := by
      cases a <;> cases x <;> simp_all [add, round]
      split_ifs <;> simp
    refine accumulateFrom_inf xs (add a x) ?_ hadd fun y hy => hx y (by simp [hy])
    rcases h with rfl | h
    · left
      cases x <;> simp_all [add]
    · rcases List.mem_cons.1 h with rfl | h
      · left
        cases a <;> simp_all [add]
      · exact .inr h

theorem accumulate_inf {ws : List Dbl} (h : inf ∈ ws) (hn : ∀ x ∈ ws, x ≠ nan) :
    (accumulate ws).getLast? = some inf := by
  cases ws with
  | nil => cases h
  | cons w ws =>
    rw [accumulate]
    refine accumulateFrom_inf ws w ?_ (hn w (by simp)) fun y hy => hn y (by simp [hy])
    rcases List.mem_cons.1 h with rfl | h
    · exact .inl rfl
    · exact .inr h

theorem bisect_last (a : List Dbl) (x : Dbl) (hx : ∀ y, ¬ Lt x y) (lo hi : ℕ) (h : lo ≤ hi) :
    bisect a x lo hi = hi := by
  induction hlen : hi - lo using Nat.strong_induction_on generalizing lo with
  | _ d ih =>
    rw [bisect]
    by_cases hlt : lo < hi
    · rw [if_pos hlt, if_neg (hx _)]
      exact ih _ (by omega) _ (by omega) rfl
    · rw [if_neg hlt]
      omega

/-- With an infinite total: `ValueError`, and before Python 3.10 always the last item. -/
theorem choices_inf (strict finite : Bool) {ws : List Dbl} (h : inf ∈ ws) (hn : ∀ x ∈ ws, x ≠ nan) (k : ℕ) :
    choices strict finite ws k = if finite then .error .valueError else .ok (ws.length - 1) := by
  unfold choices
  rw [accumulate_inf h hn]
  simp only [LeZero, and_false, if_false, Finite, not_false_eq_true, and_true]
  cases finite with
  | true => simp
  | false =>
    simp only [Bool.false_eq_true, if_false]
    rw [bisect_last _ _ _ _ _ (Nat.zero_le _)]
    intro y
    simp only [mul]
    split_ifs <;> cases y <;> simp [Lt]

end Dbl

/-- A summand below 2⁻⁵⁴ of a double is lost. -/
theorem fl_absorb {c w : ℝ} (hc : IsDouble c) (hc0 : 0 < c) (hw : 0 ≤ w) (hsmall : w * 2 ^ 54 < c) : fl (c + w) = c := by
  have hcf := fl_of_double hc
  set L := Int.log 2 |c| with hL
  set U : ℝ := (2 : ℝ) ^ (L - 52) with hU
  have hU0 : 0 < U := zpow_pos two_pos _
  obtain ⟨n, hn⟩ : ∃ n : ℤ, c = n * U := by
    rw [fl, if_neg hc0.ne'] at hcf
    exact ⟨_, hcf.symm⟩
  have habs : |c| = c := abs_of_pos hc0
  have hlo : (2 : ℝ) ^ L ≤ c := by
    have := two_log_le hc0.ne'
    rwa [← hL, habs] at this
  have hhi : c < (2 : ℝ) ^ (L + 1) := by
    have := lt_two_log (x := c)
    rwa [← hL, habs] at this
  have hUL : (2 : ℝ) ^ (L + 1) = 2 ^ 53 * U := by
    rw [hU, ← zpow_natCast, ← zpow_add₀ two_ne_zero]
    congr 1
    push_cast
    ring
  have hwU : w < U / 2 := by
    rw [hUL] at hhi
    nlinarith
  have hn53 : n + 1 ≤ 2 ^ 53 := by
    have : (n : ℝ) < 2 ^ 53 := by
      rw [hn, hUL] at hhi
      exact lt_of_mul_lt_mul_right hhi hU0.le
    have : n < 2 ^ 53 := by exact_mod_cast this
    omega
  have hy0 : 0 < c + w := by linarith
  have hyhi : c + w < (2 : ℝ) ^ (L + 1) := by
    have h1 : ((n : ℝ) + 1) * U ≤ 2 ^ 53 * U := mul_le_mul_of_nonneg_right (by exact_mod_cast hn53) hU0.le
    rw [hUL]
    nlinarith
  have hlog : Int.log 2 |c + w| = L := by
    rw [abs_of_pos hy0]
    refine le_antisymm ?_ ?_
    · refine Int.lt_add_one_iff.1 ((Int.lt_zpow_iff_log_lt (by norm_num) hy0).1 ?_)
      exact_mod_cast hyhi
    · refine (Int.zpow_le_iff_le_log (by norm_num) hy0).1 ?_
      have : (2 : ℝ) ^ L ≤ c + w := by linarith
      exact_mod_cast this
  have hdiv : (c + w) / U = n + w / U := by
    rw [add_div]
    congr 1
    rw [hn]
    field_simp
  have hq0 : 0 ≤ w / U := div_nonneg hw hU0.le
  have hq1 : w / U < 1 / 2 := by
    rw [div_lt_iff₀ hU0]
    linarith
  have hr : roundEven ((c + w) / U) = n := by
    have h1 := roundEven_error ((c + w) / U)
    rw [hdiv] at h1 ⊢
    have h2 := abs_le.1 h1
    have h3 : ((roundEven (n + w / U) : ℤ) : ℝ) < n + 1 := by linarith
    have h4 : (n : ℝ) - 1 < ((roundEven (n + w / U) : ℤ) : ℝ) := by linarith
    have h3' : roundEven (n + w / U) < n + 1 := by exact_mod_cast h3
    have h4' : n - 1 < roundEven (n + w / U) := by exact_mod_cast h4
    omega
  rw [fl, if_neg hy0.ne', hlog, ← hU, hr, ← hn]

end Verif
