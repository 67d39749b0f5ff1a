/-
Properties C123 and C124: the law of the candidate rules, and the greedy choice among many candidates.
-/
import Verif.Lemmas.Candidate
import Verif.Props.Thresholds
import Verif.Props.GiveUp

namespace Verif

open Classical in
/-- **C123.** The law of a batch. With uncovered area left, the call draws its tails independently, each in
proportion to uncovered area, and for every tail its heads independently, each in proportion to the number
of pairs of rows the rule tells apart: for every set of rules, the probability that the call returns and all
rules of the batch belong to the set is a power of the probability that one tail gives only such rules. -/
theorem C123_within (env : LearnEnv) (he : env.Good) (X Y : Cmp) (hD : LearnData env X Y) (pf pl : ℚ)
    (us : List (List ℕ × List ℤ)) (s : UState) (hs : TailAfter env.toHeadEnv pl true Y us s)
    (hpos : 0 < ∑ T ∈ samplesOf Y pl, openArea Y us T) (h : HeadSampler) (hh : HeadReach env.toHeadEnv X h)
    (ht : h.tight = true) (hm : h.minProba = pf) (nTails nHeads : ℕ) (hn : 0 < nHeads)
    (A : Finset ℤ → Finset ℤ → Prop) :
    (learnGen env X X.flip Y.flip nHeads s nTails h []).probOf
        (Returned fun batch => ∀ b ∈ batch, A b.head.toFinset b.tail.toFinset) =
      (∑ T ∈ samplesOf Y pl, tailChance Y pl us T *
        (∑ H ∈ (samplesOf X pf).filter fun H => A H T, headChance X Y pf T H) ^ nHeads) ^ nTails := by
  have := learnGen_expect he hD hs hpos hn (K := {()}) (fun _ => A) 0 (fun _ => 1) nTails h [] hh ht hm
  simpa [RandR.probOf, roundChance] using this

theorem head_complement (X Y : Cmp) (pf : ℚ) (T : Finset ℤ) :
    ∑ H ∈ samplesOf X pf, headChance X Y pf T H = 1 - noHead X Y pf T := by
  have := headChance_total X Y pf T
  linarith

/-- **C123.** The probability that the call returns; otherwise it raises. -/
theorem C123_returns (env : LearnEnv) (he : env.Good) (X Y : Cmp) (hD : LearnData env X Y) (pf pl : ℚ)
    (us : List (List ℕ × List ℤ)) (s : UState) (hs : TailAfter env.toHeadEnv pl true Y us s)
    (hpos : 0 < ∑ T ∈ samplesOf Y pl, openArea Y us T) (h : HeadSampler) (hh : HeadReach env.toHeadEnv X h)
    (ht : h.tight = true) (hm : h.minProba = pf) (nTails nHeads : ℕ) (hn : 0 < nHeads) :
    (learnGen env X X.flip Y.flip nHeads s nTails h []).probOf (Returned fun _ => True) =
      (∑ T ∈ samplesOf Y pl, tailChance Y pl us T * (1 - noHead X Y pf T) ^ nHeads) ^ nTails ∧
    (learnGen env X X.flip Y.flip nHeads s nTails h []).probOf (fun x => ∃ e h', x = .ok (.error e, h')) =
      1 - (∑ T ∈ samplesOf Y pl, tailChance Y pl us T * (1 - noHead X Y pf T) ^ nHeads) ^ nTails := by
  classical
  constructor
  · have := C123_within env he X Y hD pf pl us s hs hpos h hh ht hm nTails nHeads hn fun _ _ => True
    simpa [head_complement] using this
  · have := learnGen_expect he hD hs hpos hn (K := {()}) (fun _ _ _ => True) 1 (fun _ => -1) nTails h [] hh ht hm
    simp only [Finset.sum_singleton, roundChance, Finset.filter_true, head_complement, implies_true, if_true,
      one_mul, neg_mul, ← sub_eq_add_neg] at this
    rw [← this]
    unfold RandR.probOf
    refine RandR.expect_congr (learnGen_proper _ _ _ _ _ _ _ _ _) fun x hx => ?_
    obtain ⟨g, h', rfl, -⟩ := learnGen_outcome he hD hs nHeads nTails h [] x hh (by simp) hx
    cases g with
    | ok b => rw [if_neg (by rintro ⟨e, h', e'⟩; cases e'), if_pos ⟨_, _, rfl, trivial⟩]; ring
    | error e =>
      rw [if_pos ⟨_, _, rfl⟩, if_neg (by rintro ⟨_, _, e', -⟩; cases e')]; ring

/-- Events that say that a batch was returned and some rule in it has a property. -/
theorem some_rule {env : LearnEnv} (he : env.Good) {X Y : Cmp} (hD : LearnData env X Y) {pf pl : ℚ}
    {us : List (List ℕ × List ℤ)} {s : UState} (hs : TailAfter env.toHeadEnv pl true Y us s)
    (hpos : 0 < ∑ T ∈ samplesOf Y pl, openArea Y us T) {h : HeadSampler} (hh : HeadReach env.toHeadEnv X h)
    (ht : h.tight = true) (hm : h.minProba = pf) (nTails : ℕ) {nHeads : ℕ} (hn : 0 < nHeads)
    (B : Finset ℤ → Finset ℤ → Prop) (E : Py (Py (List BRule) × HeadSampler) → Prop)
    (hE : ∀ x, (learnGen env X X.flip Y.flip nHeads s nTails h []).Outcome x →
      (E x ↔ Returned (fun batch => ∃ b ∈ batch, B b.head.toFinset b.tail.toFinset) x)) :
    (learnGen env X X.flip Y.flip nHeads s nTails h []).probOf E =
      roundChance X Y pf pl us nHeads (fun _ _ => True) ^ nTails -
        roundChance X Y pf pl us nHeads (fun H T => ¬ B H T) ^ nTails := by
  classical
  have := learnGen_expect he hD hs hpos hn (K := Finset.univ)
    (fun k : Bool => if k then fun _ _ => True else fun H T => ¬ B H T) 0 (fun k => if k then 1 else -1)
    nTails h [] hh ht hm
  simp only [Fintype.sum_bool, if_true, Bool.false_eq_true, if_false, List.not_mem_nil, false_imp_iff, implies_true,
    one_mul, neg_mul, zero_add, ← sub_eq_add_neg] at this
  rw [← this]
  unfold RandR.probOf
  refine RandR.expect_congr (learnGen_proper _ _ _ _ _ _ _ _ _) fun x hx => ?_
  by_cases h1 : Returned (fun batch => ∃ b ∈ batch, B b.head.toFinset b.tail.toFinset) x
  · rw [if_pos ((hE x hx).mpr h1), if_pos, if_neg, sub_zero]
    · rintro ⟨batch, h', rfl, hb⟩
      obtain ⟨batch', h'', e, b, hb1, hb2⟩ := h1
      cases e
      exact hb b hb1 hb2
    · obtain ⟨batch', h'', e, -⟩ := h1
      exact ⟨_, _, e, by simp⟩
  · rw [if_neg (fun h => h1 ((hE x hx).mp h))]
    by_cases h2 : Returned (fun batch => ∀ b ∈ batch, ¬ B b.head.toFinset b.tail.toFinset) x
    · rw [if_pos h2, if_pos, sub_self]
      obtain ⟨batch', h'', e, -⟩ := h2
      exact ⟨_, _, e, by simp⟩
    · rw [if_neg h2, if_neg, sub_self]
      rintro ⟨batch, h', rfl, -⟩
      apply h2
      refine ⟨batch, h', rfl, fun b hb hB => h1 ⟨batch, h', rfl, b, hb, hB⟩⟩

theorem round_all (X Y : Cmp) (pf pl : ℚ) (us : List (List ℕ × List ℤ)) (m : ℕ) :
    roundChance X Y pf pl us m (fun _ _ => True) =
      ∑ T ∈ samplesOf Y pl, tailChance Y pl us T * (1 - noHead X Y pf T) ^ m := by
  unfold roundChance
  simp [head_complement]

theorem round_avoid (X Y : Cmp) (pf pl : ℚ) (us : List (List ℕ × List ℤ)) (m : ℕ) {H T : Finset ℤ}
    (hH : H ∈ samplesOf X pf) (hT : T ∈ samplesOf Y pl) :
    roundChance X Y pf pl us m (fun H' T' => ¬ (H' = H ∧ T' = T)) =
      ∑ U ∈ samplesOf Y pl, tailChance Y pl us U * (1 - noHead X Y pf U) ^ m -
        tailChance Y pl us T * ((1 - noHead X Y pf T) ^ m - (1 - noHead X Y pf T - headChance X Y pf T H) ^ m) := by
  classical
  obtain ⟨A, hA⟩ : ∃ A : Finset ℤ → Finset ℤ → Prop, A = fun H' T' => ¬ (H' = H ∧ T' = T) := ⟨_, rfl⟩
  rw [← hA]
  unfold roundChance
  rw [← Finset.add_sum_erase _ _ hT, ← Finset.add_sum_erase _ _ hT]
  have e1 : ∀ U ∈ (samplesOf Y pl).erase T, tailChance Y pl us U *
      (∑ H' ∈ (samplesOf X pf).filter fun H' => A H' U, headChance X Y pf U H') ^ m =
      tailChance Y pl us U * (1 - noHead X Y pf U) ^ m := by
    intro U hU
    have hne := Finset.ne_of_mem_erase hU
    rw [Finset.filter_true_of_mem (by intro _ _; rw [hA]; exact fun h => hne h.2), head_complement]
  have e2 : ∑ H' ∈ (samplesOf X pf).filter (fun H' => A H' T), headChance X Y pf T H' =
      1 - noHead X Y pf T - headChance X Y pf T H := by
    have : (samplesOf X pf).filter (fun H' => A H' T) = (samplesOf X pf).erase H := by
      ext H'
      simp [hA, and_comm]
    rw [this, ← head_complement, ← Finset.add_sum_erase _ _ hH]
    ring
  rw [Finset.sum_congr rfl e1, e2]
  ring

/-- **C123.** The probability that the call returns a batch that contains a given rule. -/
theorem C123_contains (env : LearnEnv) (he : env.Good) (X Y : Cmp) (hD : LearnData env X Y) (pf pl : ℚ)
    (us : List (List ℕ × List ℤ)) (s : UState) (hs : TailAfter env.toHeadEnv pl true Y us s)
    (hpos : 0 < ∑ T ∈ samplesOf Y pl, openArea Y us T) (h : HeadSampler) (hh : HeadReach env.toHeadEnv X h)
    (ht : h.tight = true) (hm : h.minProba = pf) (nTails nHeads : ℕ) (hn : 0 < nHeads)
    (H : Finset ℤ) (hH : H ∈ samplesOf X pf) (T : Finset ℤ) (hT : T ∈ samplesOf Y pl) :
    (learnGen env X X.flip Y.flip nHeads s nTails h []).probOf (Returned (HasRule H T)) =
      (∑ U ∈ samplesOf Y pl, tailChance Y pl us U * (1 - noHead X Y pf U) ^ nHeads) ^ nTails -
      (∑ U ∈ samplesOf Y pl, tailChance Y pl us U * (1 - noHead X Y pf U) ^ nHeads -
        tailChance Y pl us T *
          ((1 - noHead X Y pf T) ^ nHeads - (1 - noHead X Y pf T - headChance X Y pf T H) ^ nHeads)) ^ nTails := by
  rw [some_rule he hD hs hpos hh ht hm nTails hn (fun H' T' => H' = H ∧ T' = T) (Returned (HasRule H T))
    (fun x _ => Iff.rfl), round_all, round_avoid _ _ _ _ _ _ hH hT]

/-- **C123.** One tail, one head: the rule has the tail's share of the uncovered area times the probability
of the head. -/
theorem C123_one_rule (env : LearnEnv) (he : env.Good) (X Y : Cmp) (hD : LearnData env X Y) (pf pl : ℚ)
    (us : List (List ℕ × List ℤ)) (s : UState) (hs : TailAfter env.toHeadEnv pl true Y us s)
    (hpos : 0 < ∑ T ∈ samplesOf Y pl, openArea Y us T) (h : HeadSampler) (hh : HeadReach env.toHeadEnv X h)
    (ht : h.tight = true) (hm : h.minProba = pf)
    (H : Finset ℤ) (hH : H ∈ samplesOf X pf) (T : Finset ℤ) (hT : T ∈ samplesOf Y pl) :
    (learnGen env X X.flip Y.flip 1 s 1 h []).probOf (Returned (HasRule H T)) =
      tailChance Y pl us T * headChance X Y pf T H := by
  rw [C123_contains env he X Y hD pf pl us s hs hpos h hh ht hm 1 1 one_pos H hH T hT]
  simp only [pow_one]
  ring

/-! ### Many candidates -/

theorem pairs_le (X Y : Cmp) (pf : ℚ) (T : Finset ℤ) :
    ∑ H ∈ samplesOf X pf, (rulePairs X Y T H : ℝ) ≤ proposedPairs X Y pf T := by
  classical
  unfold proposedPairs
  push_cast
  refine Finset.sum_le_sum fun H _ => ?_
  unfold rulePairs
  exact_mod_cast Finset.card_le_card fun ij hij => by
    simp only [Finset.mem_filter] at hij ⊢
    exact ⟨hij.1, hij.2.1, hij.2.2.1⟩

theorem noHead_range (X Y : Cmp) (pf : ℚ) (T : Finset ℤ) :
    0 ≤ noHead X Y pf T ∧ noHead X Y pf T ≤ 1 ∧
      ((∃ H ∈ samplesOf X pf, 0 < rulePairs X Y T H) → noHead X Y pf T < 1) := by
  have h1 := pairs_le X Y pf T
  have h0 : 0 ≤ ∑ H ∈ samplesOf X pf, (rulePairs X Y T H : ℝ) := Finset.sum_nonneg fun _ _ => by positivity
  have hq : (∑ H ∈ samplesOf X pf, (rulePairs X Y T H : ℝ)) / proposedPairs X Y pf T ≤ 1 :=
    div_le_one_of_le₀ h1 (by positivity)
  have hq0 : 0 ≤ (∑ H ∈ samplesOf X pf, (rulePairs X Y T H : ℝ)) / proposedPairs X Y pf T := by positivity
  unfold noHead
  refine ⟨pow_nonneg (by linarith) _, pow_le_one₀ (by linarith) (by linarith), ?_⟩
  rintro ⟨H, hH, hp⟩
  refine pow_lt_one₀ (by linarith) ?_ (by norm_num)
  have hZ : 0 < ∑ H ∈ samplesOf X pf, (rulePairs X Y T H : ℝ) :=
    Finset.sum_pos' (fun _ _ => by positivity) ⟨H, hH, by exact_mod_cast hp⟩
  have := div_pos hZ (hZ.trans_le h1)
  linarith

theorem headChance_nonneg (X Y : Cmp) (pf : ℚ) (T H : Finset ℤ) : 0 ≤ headChance X Y pf T H := by
  unfold headChance
  have := (noHead_range X Y pf T).2.1
  exact mul_nonneg (by linarith) (div_nonneg (by positivity) (Finset.sum_nonneg fun _ _ => by positivity))

theorem headChance_pos {X Y : Cmp} {pf : ℚ} {T H : Finset ℤ} (hH : H ∈ samplesOf X pf)
    (hp : 0 < rulePairs X Y T H) : 0 < headChance X Y pf T H := by
  unfold headChance
  have := (noHead_range X Y pf T).2.2 ⟨H, hH, hp⟩
  have hZ : 0 < ∑ H ∈ samplesOf X pf, (rulePairs X Y T H : ℝ) :=
    Finset.sum_pos' (fun _ _ => by positivity) ⟨H, hH, by exact_mod_cast hp⟩
  exact mul_pos (by linarith) (div_pos (by exact_mod_cast hp) hZ)

theorem tailChance_nonneg (Y : Cmp) (pl : ℚ) (us : List (List ℕ × List ℤ)) (T : Finset ℤ) :
    0 ≤ tailChance Y pl us T :=
  div_nonneg (by positivity) (Finset.sum_nonneg fun _ _ => by positivity)

theorem round_nonneg (X Y : Cmp) (pf pl : ℚ) (us : List (List ℕ × List ℤ)) (m : ℕ)
    (A : Finset ℤ → Finset ℤ → Prop) : 0 ≤ roundChance X Y pf pl us m A := by
  unfold roundChance
  exact Finset.sum_nonneg fun T _ => mul_nonneg (tailChance_nonneg Y pl us T)
    (pow_nonneg (Finset.sum_nonneg fun H _ => headChance_nonneg X Y pf T H) _)

/-- Leaving out a rule that can be drawn makes the round strictly less likely. -/
theorem round_lt {X Y : Cmp} {pf pl : ℚ} {us : List (List ℕ × List ℤ)} {m : ℕ} (hm : 0 < m)
    {A : Finset ℤ → Finset ℤ → Prop} {H T : Finset ℤ} (hH : H ∈ samplesOf X pf) (hT : T ∈ samplesOf Y pl)
    (ha : 0 < openArea Y us T) (hp : 0 < rulePairs X Y T H) (hA : ¬ A H T) :
    roundChance X Y pf pl us m A < roundChance X Y pf pl us m fun _ _ => True := by
  classical
  unfold roundChance
  simp only [Finset.filter_true]
  have hle : ∀ U, ∑ H' ∈ (samplesOf X pf).filter (fun H' => A H' U), headChance X Y pf U H' ≤
      ∑ H' ∈ samplesOf X pf, headChance X Y pf U H' := fun U => by
    exact Finset.sum_le_sum_of_subset_of_nonneg (Finset.filter_subset _ _)
      fun H' _ _ => headChance_nonneg X Y pf U H'
  have h0 : ∀ U, 0 ≤ ∑ H' ∈ (samplesOf X pf).filter (fun H' => A H' U), headChance X Y pf U H' :=
    fun U => Finset.sum_nonneg fun H' _ => headChance_nonneg X Y pf U H'
  refine Finset.sum_lt_sum (fun U _ => mul_le_mul_of_nonneg_left (pow_le_pow_left₀ (h0 U) (hle U) m)
    (tailChance_nonneg Y pl us U)) ⟨T, hT, ?_⟩
  have ht : 0 < tailChance Y pl us T := by
    unfold tailChance
    exact div_pos (by exact_mod_cast ha) (Finset.sum_pos' (fun _ _ => by positivity) ⟨T, hT, by exact_mod_cast ha⟩)
  refine mul_lt_mul_of_pos_left (pow_lt_pow_left₀ ?_ (h0 T) hm.ne') ht
  exact Finset.sum_lt_sum_of_subset (Finset.filter_subset _ _) hH (by simp [hA]) (headChance_pos hH hp)
    fun H' _ _ => headChance_nonneg X Y pf T H'

theorem ratio_tendsto {a b : ℝ} (h0 : 0 ≤ b) (h : b < a) :
    Filter.Tendsto (fun n : ℕ => (a ^ n - b ^ n) / a ^ n) Filter.atTop (nhds 1) := by
  have ha : 0 < a := h0.trans_lt h
  have e : (fun n : ℕ => (a ^ n - b ^ n) / a ^ n) = fun n : ℕ => 1 - (b / a) ^ n := by
    funext n
    rw [sub_div, div_self (pow_pos ha n).ne', div_pow]
  rw [e]
  have := tendsto_pow_atTop_nhds_zero_of_lt_one (div_nonneg h0 ha.le) ((div_lt_one ha).mpr h)
  simpa using this.const_sub 1

/-- **C124.** Every rule that can be drawn is drawn sooner or later: given that the call returns, the
probability that its batch contains the rule tends to one as the number of tails grows. -/
theorem C124_every_rule (env : LearnEnv) (he : env.Good) (X Y : Cmp) (hD : LearnData env X Y) (pf pl : ℚ)
    (us : List (List ℕ × List ℤ)) (s : UState) (hs : TailAfter env.toHeadEnv pl true Y us s)
    (h : HeadSampler) (hh : HeadReach env.toHeadEnv X h)
    (ht : h.tight = true) (hm : h.minProba = pf) (nHeads : ℕ) (hn : 0 < nHeads)
    (H : Finset ℤ) (hH : H ∈ samplesOf X pf) (T : Finset ℤ) (hT : T ∈ samplesOf Y pl)
    (ha : 0 < openArea Y us T) (hp : 0 < rulePairs X Y T H) :
    Filter.Tendsto (fun nTails =>
        (learnGen env X X.flip Y.flip nHeads s nTails h []).probOf (Returned (HasRule H T)) /
        (learnGen env X X.flip Y.flip nHeads s nTails h []).probOf (Returned fun _ => True))
      Filter.atTop (nhds 1) := by
  have hpos : 0 < ∑ T ∈ samplesOf Y pl, openArea Y us T :=
    Finset.sum_pos' (fun _ _ => by positivity) ⟨T, hT, ha⟩
  refine (ratio_tendsto (round_nonneg X Y pf pl us nHeads fun H' T' => ¬ (H' = H ∧ T' = T))
    (round_lt hn hH hT ha hp (A := fun H' T' => ¬ (H' = H ∧ T' = T)) (by simp))).congr fun nTails => ?_
  rw [(C123_returns env he X Y hD pf pl us s hs hpos h hh ht hm nTails nHeads hn).1, ← round_all]
  rw [some_rule he hD hs hpos hh ht hm nTails hn (fun H' T' => H' = H ∧ T' = T) (Returned (HasRule H T))
    (fun x _ => Iff.rfl)]

/-- What is in a batch. -/
theorem learnGen_candidates {env : LearnEnv} (he : env.Good) {X Y : Cmp} (hD : LearnData env X Y) {pf pl : ℚ}
    {us : List (List ℕ × List ℤ)} {s : UState} (hs : TailAfter env.toHeadEnv pl true Y us s) (nHeads : ℕ) :
    ∀ (todo : ℕ) (h : HeadSampler) (rules : List BRule) (out : List BRule) (h' : HeadSampler),
      HeadReach env.toHeadEnv X h → h.minProba = pf → (∀ b ∈ rules, CandidateRule env X Y pf pl us b) →
      (learnGen env X X.flip Y.flip nHeads s todo h rules).Outcome (.ok (.ok out, h')) →
      ∀ b ∈ out, CandidateRule env X Y pf pl us b
  | 0, h, rules, out, h', hh, hm, hr, hx => by
    rw [learnGen] at hx
    cases hx
    exact hr
  | todo + 1, h, rules, out, h', hh, hm, hr, hx => by
    classical
    have hX := hD.features
    have hY := hD.labels
    obtain ⟨hsp, -, -⟩ := tail_area he hD hs
    rw [learnGen, RandR.bind_eq, RandR.outcome_bind] at hx
    rcases hx with ⟨t, ht, hx⟩ | ⟨e, -, hx⟩
    swap
    · cases hx
    rw [outcome_attempt] at ht
    obtain ⟨r, ht, e⟩ := ht
    cases e
    rw [outcome_toReal] at ht
    rw [outcome_orRaise] at hx
    rcases hx with ⟨T, rfl, hx⟩ | ⟨e, rfl, hx⟩
    swap
    · cases hx
    rcases tail_outcome he.heads hY hD.depthY hD.pos hs ht with ⟨e, -⟩ | ⟨T', e, hTs, hTne, hTr, i, hi, hTi, l, hl, hcl⟩
    · cases e
    cases e
    have harea : 0 < openArea Y us T := by
      unfold openArea
      refine Finset.sum_pos' (fun _ _ => by positivity) ⟨i, Finset.mem_range.mpr hi, ?_⟩
      rw [if_pos hTi, Finset.card_pos]
      exact ⟨l, Finset.mem_filter.mpr ⟨hl, hcl⟩⟩
    obtain ⟨y0, hy0, hyT⟩ := collapse_tail he hY hTne hTr
    rw [outcome_orRaise] at hx
    rcases hx with ⟨y, hy, hx⟩ | ⟨e, -, hx⟩
    swap
    · cases hx
    rw [hy0] at hy
    cases hy
    rw [hyT] at hx
    rw [outcome_orRaise] at hx
    rcases hx with ⟨h1, hf, hx⟩ | ⟨e, -, hx⟩
    swap
    · cases hx
    obtain ⟨-, -, -, c3⟩ := C58_fit env.toHeadEnv he.heads X hX hD.depthX h hh (tailColumn Y T)
    obtain ⟨gX, space, hgX, hspX, -, hmX⟩ := c3 h1 hf
    have hm1 : h1.minProba = pf := by
      obtain ⟨-, -, -, -, rfl⟩ := inv_fit he.heads hX hD.depthX (headInv_of_reach he.heads hX hD.depthX hh) hf
      exact hm
    rw [RandR.bind_eq, RandR.outcome_bind] at hx
    rcases hx with ⟨q, hq, hx⟩ | ⟨e, -, hx⟩
    swap
    · cases hx
    rw [outcome_attempt] at hq
    obtain ⟨r, hq, e⟩ := hq
    cases e
    obtain ⟨hs', rfl, -, hall⟩ := headSample_outcome he.heads hX hD.depthX hh hf nHeads q hq
    rw [outcome_orRaise] at hx
    rcases hx with ⟨a, ha, hx⟩ | ⟨e, e', -⟩
    swap
    · cases e'
    cases ha
    rw [outcome_orRaise] at hx
    rcases hx with ⟨out1, hout, hx⟩ | ⟨e, -, hx⟩
    swap
    · cases hx
    refine learnGen_candidates he hD hs nHeads todo h1 out1 out h' (.fit _ _ _ hh hf) hm1 ?_ hx
    obtain ⟨-, -, -, a4, -⟩ := addHeads_ok hout
    intro b hb
    rcases a4 b hb with hb | ⟨hd, hmem, hbd⟩
    · exact hr b hb
    obtain ⟨o, ho, e⟩ := List.mem_map.mp hmem
    cases o with
    | none => cases e
    | some H =>
      cases e
      obtain ⟨space', hsp', hH⟩ := headSample_space he.heads hX hD.depthX hh hf nHeads hs' h1 hq H ho
      rw [hspX] at hsp'
      cases hsp'
      refine ⟨H, ?_, T, by rw [← hsp]; exact List.mem_toFinset.mpr hTs, harea, ?_, hbd⟩
      · rw [mem_samplesOf hX hgX, ← hm]
        exact (hmX H).mp hH
      · rcases hall _ ho with e | ⟨H', e, k, j, hk, hj, hHk, hHj⟩
        · cases e
        cases e
        obtain ⟨k1, k2⟩ := (tailColumn_get Y T k).1.mp hk
        obtain ⟨j1, j2⟩ := (tailColumn_get Y T j).2.mp hj
        unfold rulePairs
        rw [Finset.card_pos]
        exact ⟨(k, j), by
          simp only [Finset.mem_filter, Finset.mem_product, Finset.mem_range]
          exact ⟨⟨k1, j1⟩, ⟨k2, hHk⟩, j2, hHj⟩⟩

theorem CandidateRule.supported {env : LearnEnv} (he : env.Good) {X Y : Cmp} (hD : LearnData env X Y)
    {pf pl : ℚ} {us : List (List ℕ × List ℤ)} {c : BRule} (h : CandidateRule env X Y pf pl us c) :
    Supported X Y c := by
  classical
  obtain ⟨H, hH, T, hT, ha, hp, hb⟩ := h
  unfold rulePairs at hp
  rw [Finset.card_pos] at hp
  obtain ⟨⟨i, j⟩, hij⟩ := hp
  simp only [Finset.mem_filter] at hij
  have hTne : T.Nonempty := by
    by_contra hcon
    rw [Finset.not_nonempty_iff_eq_empty] at hcon
    apply ha.ne'
    unfold openArea
    refine Finset.sum_eq_zero fun i _ => ?_
    simp [hcon, uncoveredPart]
  have hTr : ∀ l ∈ T, 0 ≤ l ∧ l < Y.nMinor := by
    unfold samplesOf at hT
    obtain ⟨U, hU, rfl⟩ := Finset.mem_image.mp hT
    have hU' := Finset.mem_powerset.mp (Finset.mem_filter.mp hU).1
    intro l hl
    simp only [intSet, Finset.mem_image] at hl
    obtain ⟨j, hj, rfl⟩ := hl
    exact ⟨by positivity, by exact_mod_cast Finset.mem_range.mp (hU' hj)⟩
  obtain ⟨b, hb', hsup⟩ := bind_supported hD.features hD.labels hD.rows he.ints hTne hTr hij.2.1.1 hij.2.1.2
    hij.2.2.2
  rw [hb] at hb'
  cases hb'
  exact hsup

theorem CandidateRule.sets {env : LearnEnv} (he : env.Good) {X Y : Cmp}
    {pf pl : ℚ} {us : List (List ℕ × List ℤ)} {c : BRule} (h : CandidateRule env X Y pf pl us c) :
    bindDataset (Rule.new (env.orderZ c.head.toFinset) (env.orderZ c.tail.toFinset)) X.flip Y.flip = .ok c ∧
      c.head.toFinset ∈ samplesOf X pf ∧ c.tail.toFinset ∈ samplesOf Y pl ∧
      0 < openArea Y us c.tail.toFinset ∧ 0 < rulePairs X Y c.tail.toFinset c.head.toFinset := by
  obtain ⟨H, hH, T, hT, ha, hp, hb⟩ := h
  have hbr := bindDataset_toRule hb
  have e1 : c.head.toFinset = H := by
    rw [show c.head = _ from congrArg Rule.head hbr, toFinset_new_head, toFinset_orderZ he]
  have e2 : c.tail.toFinset = T := by
    rw [show c.tail = _ from congrArg Rule.tail hbr, toFinset_new_tail, toFinset_orderZ he]
  rw [e1, e2]
  exact ⟨hb, hH, hT, ha, hp⟩

theorem CandidateRule.ext {env : LearnEnv} (he : env.Good) {X Y : Cmp}
    {pf pl : ℚ} {us : List (List ℕ × List ℤ)} {c c' : BRule} (h : CandidateRule env X Y pf pl us c)
    (h' : CandidateRule env X Y pf pl us c') (e1 : c.head.toFinset = c'.head.toFinset)
    (e2 : c.tail.toFinset = c'.tail.toFinset) : c = c' := by
  have h1 := (h.sets he).1
  have h2 := (h'.sets he).1
  rw [e1, e2, h2] at h1
  exact (Except.ok.inj h1).symm

/-- **C124.** The greedy choice. The learner takes, from a batch, a rule with the largest objective. Given that
candidate generation returns, the probability that this rule has the largest objective among all rules that
could have been drawn tends to one as the number of tails grows. -/
theorem C124_greedy_choice (env : LearnEnv) (he : env.Good) (X Y : Cmp) (hD : LearnData env X Y) (pf pl : ℚ)
    (us : List (List ℕ × List ℤ)) (s : UState) (hs : TailAfter env.toHeadEnv pl true Y us s)
    (h : HeadSampler) (hh : HeadReach env.toHeadEnv X h)
    (ht : h.tight = true) (hm : h.minProba = pf) (nHeads : ℕ) (hn : 0 < nHeads)
    (lr : Learner) (hlr : LearnerTotal X Y lr) (sel : List BRule) (hsel : ∀ c ∈ sel, Supported X Y c)
    (hne : ∃ c, CandidateRule env X Y pf pl us c) :
    Filter.Tendsto (fun nTails =>
        (learnGen env X X.flip Y.flip nHeads s nTails h []).probOf (Returned fun batch =>
          ∃ best, pyMax (lr.objective sel) (env.setOrder batch) = .ok best ∧
            BestPossible env X Y pf pl us (lr.objective sel) best) /
        (learnGen env X X.flip Y.flip nHeads s nTails h []).probOf (Returned fun _ => True))
      Filter.atTop (nhds 1) := by
  classical
  have hval : ∀ c, CandidateRule env X Y pf pl us c → ∃ v, lr.objective sel c = .ok v := fun c hc =>
    hlr.objective sel c hsel (hc.supported he hD)
  -- a candidate that is best of all
  obtain ⟨cs, hcs, vs, hvs, hmax⟩ : ∃ cs, CandidateRule env X Y pf pl us cs ∧ ∃ vs, lr.objective sel cs = .ok vs ∧
      ∀ c, CandidateRule env X Y pf pl us c → ∃ vc, lr.objective sel c = .ok vc ∧ vc ≤ vs := by
    have hfin : {c | CandidateRule env X Y pf pl us c}.Finite := by
      refine Set.Finite.of_finite_image (f := fun c : BRule => (c.head.toFinset, c.tail.toFinset))
        (((samplesOf X pf ×ˢ samplesOf Y pl).finite_toSet).subset ?_) ?_
      · rintro _ ⟨c, hc, rfl⟩
        obtain ⟨-, h1, h2, -⟩ := CandidateRule.sets he hc
        simpa using ⟨h1, h2⟩
      · intro c hc c' hc' e
        simp only [Prod.mk.injEq] at e
        exact CandidateRule.ext he hc hc' e.1 e.2
    let val : BRule → ℝ := fun c => match lr.objective sel c with
      | .ok v => v
      | .error _ => 0
    obtain ⟨cs, hcs, hm'⟩ := Set.exists_max_image _ val hfin hne
    obtain ⟨vs, hvs⟩ := hval cs hcs
    refine ⟨cs, hcs, vs, hvs, fun c hc => ?_⟩
    obtain ⟨v, hv⟩ := hval c hc
    refine ⟨v, hv, ?_⟩
    have := hm' c hc
    simpa only [val, hv, hvs] using this
  obtain ⟨-, hH, hT, ha, hp⟩ := hcs.sets he
  have hpos : 0 < ∑ T ∈ samplesOf Y pl, openArea Y us T :=
    Finset.sum_pos' (fun _ _ => by positivity) ⟨_, hT, ha⟩
  let B : Finset ℤ → Finset ℤ → Prop := fun H T => ∃ c, CandidateRule env X Y pf pl us c ∧
    c.head.toFinset = H ∧ c.tail.toFinset = T ∧ lr.objective sel c = .ok vs
  refine (ratio_tendsto (round_nonneg X Y pf pl us nHeads fun H T => ¬ B H T)
    (round_lt hn hH hT ha hp (A := fun H T => ¬ B H T) fun h => h ⟨cs, hcs, rfl, rfl, hvs⟩)).congr fun nTails => ?_
  rw [(C123_returns env he X Y hD pf pl us s hs hpos h hh ht hm nTails nHeads hn).1, ← round_all]
  rw [some_rule he hD hs hpos hh ht hm nTails hn B]
  intro x hx
  constructor
  · rintro ⟨batch, h', rfl, best, hb, v, hv, hall⟩
    have hcand := learnGen_candidates he hD hs nHeads nTails h [] batch h' hh hm (by simp) hx
    refine ⟨batch, h', rfl, best, ?_, best, ?_, rfl, rfl, ?_⟩
    · exact (env.setOrder_perm batch).mem_iff.mp (pyMax_spec hb).1
    · exact hcand _ ((env.setOrder_perm batch).mem_iff.mp (pyMax_spec hb).1)
    · obtain ⟨w, hw, hle⟩ := hall cs hcs
      rw [hvs] at hw
      cases hw
      obtain ⟨w', hw', hle'⟩ := hmax best (hcand _ ((env.setOrder_perm batch).mem_iff.mp (pyMax_spec hb).1))
      rw [hv] at hw'
      cases hw'
      rw [hv, le_antisymm hle' hle]
  · rintro ⟨batch, h', rfl, b, hbm, c, hc, e1, e2, hvc⟩
    have hcand := learnGen_candidates he hD hs nHeads nTails h [] batch h' hh hm (by simp) hx
    have hbc : c = b := hc.ext he (hcand b hbm) e1 e2
    subst hbc
    have hp' := env.setOrder_perm batch
    obtain ⟨best, hbest⟩ := pyMax_ok (key := lr.objective sel) (xs := env.setOrder batch)
      (by intro h0; rw [h0] at hp'; have := hp'.mem_iff.mpr hbm; simp at this)
      (fun d hd => hval d (hcand d (hp'.mem_iff.mp hd)))
    obtain ⟨m1, v, m2, m3⟩ := pyMax_spec hbest
    refine ⟨batch, h', rfl, best, hbest, v, m2, fun d hd => ?_⟩
    obtain ⟨vd, hvd, hle⟩ := hmax d hd
    obtain ⟨w, hw, hle'⟩ := m3 c (hp'.mem_iff.mpr hbm)
    rw [hvc] at hw
    cases hw
    exact ⟨vd, hvd, hle.trans hle'⟩

/-! ### A concrete case -/

/-- Single columns are always samples. -/
theorem single_mem_samplesOf {M : Cmp} (hM : M.Binary) (alpha : ℚ) {j : ℕ} (hj : j < M.nMinor) :
    {(j : ℤ)} ∈ samplesOf M alpha := by
  obtain ⟨g, hg, hwf, -, hn, -⟩ := C48_build_graph M.flip (Cmp.flip_binary hM)
  rw [mem_samplesOf hM hg]
  refine ⟨{j}, ⟨by simp, ⟨?_, ?_⟩, Or.inl (by simp)⟩, by simp [intSet]⟩
  · intro v hv
    rw [Finset.mem_singleton] at hv
    subst hv
    rw [hn, Cmp.flip_nMajor, List.mem_range]
    exact hj
  · intro u hu v hv huv
    rw [Finset.mem_singleton] at hu hv
    exact absurd (hu.trans hv.symm) huv

/-- Two rows with features {0}, {1} and labels {0}, {1}, a new learner: the rule `{0} → {0}` is drawn with
positive probability, and given that candidates are returned it is among them with a probability that tends to
one. -/
example (pf pl : ℚ) : ∃ s, TailAfter (someLearnEnv 10).toHeadEnv pl true eyeData [] s ∧
    0 < (learnGen (someLearnEnv 10) eyeData eyeData.flip eyeData.flip 1 s 1 (HeadSampler.init true pf true) []).probOf
      (Returned (HasRule {0} {0})) ∧
    Filter.Tendsto (fun nTails =>
        (learnGen (someLearnEnv 10) eyeData eyeData.flip eyeData.flip 3 s nTails (HeadSampler.init true pf true)
          []).probOf (Returned (HasRule {0} {0})) /
        (learnGen (someLearnEnv 10) eyeData eyeData.flip eyeData.flip 3 s nTails (HeadSampler.init true pf true)
          []).probOf (Returned fun _ => True)) Filter.atTop (nhds 1) := by
  classical
  have he := someLearnEnv_good 10
  have hD := eye_data
  obtain ⟨g, space, hg, hf, hnd, hmem⟩ := tailFit_ok he.heads pl true [] hD.labels hD.colsY hD.depthY
  have hs : TailAfter (someLearnEnv 10).toHeadEnv pl true eyeData [] _ := ⟨_, hf, rfl⟩
  have hmem0 : ∀ a, ({0} : Finset ℤ) ∈ samplesOf eyeData a := fun a =>
    single_mem_samplesOf (j := 0) eye_binary a (by decide)
  have r0 : RowContains eyeData 0 {0} := by
    intro x hx
    rw [Finset.mem_singleton] at hx
    subst hx
    exact ⟨0, rfl, by rw [← Cmp.mem_segIdx]; decide⟩
  have r1 : ¬ RowContains eyeData 1 {0} := by
    intro h
    obtain ⟨j, e, hj⟩ := h 0 (by simp)
    have : j = 0 := by exact_mod_cast e.symm
    subst this
    rw [← Cmp.mem_segIdx] at hj
    revert hj
    decide
  have ha : 0 < openArea eyeData [] {0} := by
    unfold openArea
    refine Finset.sum_pos' (fun _ _ => by positivity) ⟨0, by decide, ?_⟩
    rw [if_pos r0]
    simp [uncoveredPart, CoveredBy]
  have hp : 0 < rulePairs eyeData eyeData {0} {0} := by
    unfold rulePairs
    rw [Finset.card_pos]
    exact ⟨(0, 1), by
      rw [Finset.mem_filter]
      exact ⟨by decide, ⟨r0, r0⟩, r1, r1⟩⟩
  have hpos : 0 < ∑ T ∈ samplesOf eyeData pl, openArea eyeData [] T :=
    Finset.sum_pos' (fun _ _ => by positivity) ⟨_, hmem0 pl, ha⟩
  refine ⟨_, hs, ?_, ?_⟩
  · rw [C123_one_rule _ he eyeData eyeData hD pf pl [] _ hs hpos _ (.init true pf true) rfl rfl {0} (hmem0 pf) {0}
      (hmem0 pl)]
    refine mul_pos ?_ (headChance_pos (hmem0 pf) hp)
    unfold tailChance
    exact div_pos (by exact_mod_cast ha) (by exact_mod_cast hpos)
  · exact C124_every_rule _ he eyeData eyeData hD pf pl [] _ hs _ (.init true pf true) rfl rfl 3 (by norm_num)
      {0} (hmem0 pf) {0} (hmem0 pl) ha hp

end Verif
