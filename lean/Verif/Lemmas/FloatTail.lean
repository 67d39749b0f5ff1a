/-
The tail sampler in doubles is near the exact one, on every event.
-/
import Verif.Lemmas.Near
import Verif.Spec.FloatLearner
import Verif.Props.Float
import Verif.Props.HeadDetails
import Verif.Lemmas.Live

namespace Verif
open RandR

theorem toReal_bind {α β : Type} (m : Rand α) (k : α → Rand β) :
    (m.bind k).toReal = m.toReal.bind fun a => (k a).toReal := by
  induction m with
  | done r => cases r <;> rfl
  | choice p q ih => simp only [Rand.bind, Rand.toReal, RandR.bind, ih]

theorem two_pow_ne : (2 ^ 53 : ℕ) ≠ 0 := by positivity

theorem cast_two_pow : ((2 ^ 53 : ℕ) : ℝ) = 2 ^ 53 := by rw [Nat.cast_pow, Nat.cast_ofNat]

/-- Whole weights as the rational weights of the exact sampler. -/
def ratWeights (w : List ℕ) : List ℚ := w.map fun x : ℕ => (x : ℚ)

theorem ratWeights_sum (w : List ℕ) : (ratWeights w).sum = (w.sum : ℕ) := by
  unfold ratWeights
  rw [Nat.cast_list_sum]

theorem ratWeights_nonneg (w : List ℕ) : ∀ q ∈ ratWeights w, 0 ≤ q := by
  intro q hq
  obtain ⟨x, -, rfl⟩ := List.mem_map.mp hq
  positivity

theorem ratWeights_getD (w : List ℕ) (i : ℕ) : (ratWeights w).getD i 0 = (w.getD i 0 : ℕ) := by
  unfold ratWeights
  rcases lt_or_ge i w.length with h | h
  · rw [getD_lt (by simpa using h), getD_lt h, List.getElem_map]
  · rw [List.getD_eq_default _ _ (by simpa using h), List.getD_eq_default _ _ h]
    simp

/-- The exact weighted draw. -/
noncomputable def drawExact (w : List ℕ) : RandR ℕ :=
  (npChoice ((ratWeights w).map (· / (ratWeights w).sum))).toReal

/-- The weighted draw in doubles. -/
noncomputable def drawRounded (w : List ℕ) : RandR ℕ := nextBits.bind fun k => RandR.lift (choiceF (probsF w) k)

theorem expect_drawExact (w : List ℕ) (hpos : 0 < w.sum) (f : Py ℕ → ℝ) :
    (drawExact w).expect f = ∑ i ∈ Finset.range w.length, ((w.getD i 0 : ℕ) : ℝ) / w.sum * f (.ok i) := by
  have hs : 0 < (ratWeights w).sum := by rw [ratWeights_sum]; exact_mod_cast hpos
  unfold drawExact
  rw [normalised_ok (ratWeights_nonneg w) hs]
  have key : ∀ P : List ℝ, (∑ i : Fin P.length, P[i] * f (.ok (i : ℕ))) =
      ∑ i ∈ Finset.range P.length, P.getD i 0 * f (.ok i) := by
    intro P
    rw [Finset.sum_range]
    apply Finset.sum_congr rfl
    intro i _
    rw [getD_lt i.2]
    rfl
  refine (key _).trans ?_
  have hlen : (((ratWeights w).map (· / (ratWeights w).sum)).map fun q : ℚ => (q : ℝ)).length = w.length := by
    simp [ratWeights]
  rw [hlen]
  apply Finset.sum_congr rfl
  intro i hi
  have hi' := Finset.mem_range.mp hi
  have hl : i < (ratWeights w).length := by simpa [ratWeights] using hi'
  have hg := ratWeights_getD w i
  rw [getD_lt hl] at hg
  rw [getD_lt (by rw [hlen]; exact hi'), List.getElem_map, List.getElem_map, hg, ratWeights_sum]
  rw [Rat.cast_div, Rat.cast_natCast, Rat.cast_natCast]

theorem average_close {M : ℕ} {w : List ℕ} (hpos : 0 < w.sum) {idx : ℕ → ℕ} (h2 : ∀ k < M, idx k < w.length) {d : ℝ}
    (hterm : ∀ i ∈ Finset.range w.length,
      |shareOf M (fun k => idx k = i) - ((w.getD i 0 : ℕ) : ℝ) / w.sum| ≤ d)
    {f : Py ℕ → ℝ} (hf : ∀ x, 0 ≤ f x ∧ f x ≤ 1) :
    |(∑ k : Fin M, f (.ok (idx k))) / M -
      ∑ i ∈ Finset.range w.length, ((w.getD i 0 : ℕ) : ℝ) / w.sum * f (.ok i)| ≤ w.length * d := by
  rw [average_items idx (Finset.range w.length) (fun k hk => Finset.mem_range.mpr (h2 k hk)) fun i => f (.ok i)]
  have hsR : (0 : ℝ) < w.sum := by exact_mod_cast hpos
  have hsum1 : ∑ i ∈ Finset.range w.length, ((w.getD i 0 : ℕ) : ℝ) / w.sum = 1 := by
    rw [← Finset.sum_div, div_eq_one_iff_eq hsR.ne', Finset.sum_range, Nat.cast_list_sum, ← List.sum_ofFn]
    congr 1
    apply List.ext_getElem
    · simp
    · intro i h h'
      simp at h h'
      simp [h]
  have := Cftp.weighted_close (S := Finset.range w.length)
    (q := fun i => ((w.getD i 0 : ℕ) : ℝ) / w.sum) (r := fun i => shareOf M fun k => idx k = i)
    (f := fun i => f (.ok i)) (g := fun i => f (.ok i)) (d := w.length * d) (e := 0)
    (fun i _ => by positivity) hsum1 ?_ (fun i _ => by
      rw [abs_le]; constructor <;> linarith [(hf (.ok i)).1, (hf (.ok i)).2]) (fun i _ => by simp)
  · rw [add_zero] at this
    exact this
  · refine (Finset.sum_le_sum hterm).trans ?_
    rw [Finset.sum_const, Finset.card_range, nsmul_eq_mul]

theorem near_draw (w : List ℕ) (hpos : 0 < w.sum) (hn : w.length ≤ 2 ^ 23) :
    Near (w.length * (10 * w.length + 11) / 2 ^ 53) (drawExact w) (drawRounded w) := by
  classical
  have hs : 0 < (ratWeights w).sum := by rw [ratWeights_sum]; exact_mod_cast hpos
  have hsel : ∀ k < 2 ^ 53, ∃ i, choiceF (probsF w) k = .ok i ∧ i < w.length ∧ 0 < w.getD i 0 :=
    fun k hk => choiceF_positive w hpos hn k hk
  choose! idx h1 h2 h3 using hsel
  refine ⟨Discrete.toReal (npChoice_proper _), (pyChoiceIdx_discrete _).bind fun _ _ => Discrete.lift _, ?_, ?_⟩
  · intro x hx
    unfold drawRounded nextBits at hx
    rw [outcome_bind] at hx
    rcases hx with ⟨k, hk, hx⟩ | ⟨e, he, -⟩
    · obtain ⟨k', hk', e⟩ := outcome_pyChoiceIdx two_pow_ne hk
      cases e
      have hx' : x = choiceF (probsF w) k := hx
      rw [h1 k hk'] at hx'
      unfold drawExact
      rw [outcome_toReal, outcome_normalised (ratWeights_nonneg w) hs]
      refine ⟨idx k, by simpa [ratWeights] using h2 k hk', ?_, hx'⟩
      rw [ratWeights_getD]
      exact_mod_cast h3 k hk'
    · obtain ⟨k', -, e'⟩ := outcome_pyChoiceIdx two_pow_ne he
      cases e'
  · intro f hf
    rw [expect_drawExact w hpos]
    unfold drawRounded nextBits
    rw [expect_bind, expect_pyChoiceIdx two_pow_ne]
    have e1 : (∑ k : Fin (2 ^ 53), after f (fun k => RandR.lift (choiceF (probsF w) k)) (.ok (k : ℕ))) =
        ∑ k : Fin (2 ^ 53), f (.ok (idx k)) := by
      apply Finset.sum_congr rfl
      intro k _
      show f (choiceF (probsF w) k) = _
      rw [h1 k k.2]
    have hterm : ∀ i ∈ Finset.range w.length, |shareOf (2 ^ 53) (fun k => idx k = i) -
        ((w.getD i 0 : ℕ) : ℝ) / w.sum| ≤ (10 * w.length + 11) / 2 ^ 53 := by
      intro i hi
      have := chanceF_error w hpos hn i (Finset.mem_range.mp hi)
      rw [Cftp.chanceF_share, Cftp.shareOf_congr (Q := fun k => idx k = i) fun k hk => by
        rw [h1 k hk, Except.ok.injEq]] at this
      exact this
    rw [e1, mul_div_assoc]
    exact average_close hpos h2 hterm hf

theorem rowWts_length (space : List (Finset ℤ)) (newRows : List (List ℕ)) (us : List (List ℕ × List ℤ)) (i : ℕ) :
    (rowWts space newRows us i).length = (newRows.getD i []).length := by simp [rowWts]

theorem areaWts_length (space : List (Finset ℤ)) (newRows : List (List ℕ)) (us : List (List ℕ × List ℤ)) :
    (areaWts space newRows us).length = newRows.length := by simp [areaWts]

/-- The exact draw, in terms of weighted draws. -/
theorem sampleOnce_draw (space : List (Finset ℤ)) (newRows : List (List ℕ)) (us : List (List ℕ × List ℤ))
    (hpos : 0 < totalArea space newRows us) :
    (sampleOnce (stateAfter space newRows us)).toReal = (drawExact (areaWts space newRows us)).bind fun i =>
      (sampleItemsetFromRow (stateAfter space newRows us) i).toReal := by
  have e : (stateAfter space newRows us).probas =
      (ratWeights (areaWts space newRows us)).map (· / (ratWeights (areaWts space newRows us)).sum) := by
    show rowProbas (wsOf space newRows (coveredElems us)) = _
    rw [ratWeights_sum, areaWts_sum, rowProbas, ws_sum, if_neg (by exact_mod_cast hpos.ne'), ws_eq, List.map_map,
      ratWeights, areaWts, List.map_map, List.map_map]
    rfl
  unfold sampleOnce drawExact
  rw [Rand.monad_bind, toReal_bind, e]

theorem sampleRow_draw (space : List (Finset ℤ)) (newRows : List (List ℕ)) (us : List (List ℕ × List ℤ)) (i : ℕ)
    (hi : i < newRows.length) (hpos : 0 < rowArea space newRows us i) :
    (sampleItemsetFromRow (stateAfter space newRows us) i).toReal =
      (drawExact (rowWts space newRows us i)).bind fun idx =>
        .done (.ok (space.getD ((newRows.getD i []).getD idx 0) ∅)) := by
  have e : ((newRows.getD i []).map fun id => ((uncoveredPart us i (space.getD id ∅)).card : ℚ)) =
      ratWeights (rowWts space newRows us i) := by
    rw [ratWeights, rowWts, List.map_map]
    rfl
  rw [sampleRow_closed space newRows us i hi, if_neg hpos.ne', toReal_bind, e]
  rfl

theorem lift_bind {α β : Type} (r : Py α) (k : α → Py β) :
    (RandR.lift (r.bind k)) = (RandR.lift r).bind fun a => RandR.lift (k a) := by
  cases r <;> rfl

/-- The draw in doubles, in terms of weighted draws. -/
theorem tailOnceF_draw (S : Summation) (space : List (Finset ℤ)) (newRows : List (List ℕ))
    (us : List (List ℕ × List ℤ)) (hT : totalArea space newRows us ≤ 2 ^ 53)
    (hpos : 0 < totalArea space newRows us) :
    tailOnceF S (stateAfter space newRows us) = (drawRounded (areaWts space newRows us)).bind fun i =>
      nextBits.bind fun k => RandR.lift (sampleItemsetF S (stateAfter space newRows us) i k) := by
  unfold tailOnceF drawRounded
  simp only [RandR.bind_eq]
  rw [RandR.bind_assoc, rowProbasF_closed S space newRows us hT, if_neg hpos.ne']

theorem sampleRowF_draw (S : Summation) (space : List (Finset ℤ)) (newRows : List (List ℕ))
    (us : List (List ℕ × List ℤ)) (hT : totalArea space newRows us ≤ 2 ^ 53) (i : ℕ) (hi : i < newRows.length)
    (hpos : 0 < rowArea space newRows us i) :
    (nextBits.bind fun k => RandR.lift (sampleItemsetF S (stateAfter space newRows us) i k)) =
      (drawRounded (rowWts space newRows us i)).bind fun idx =>
        .done (.ok (space.getD ((newRows.getD i []).getD idx 0) ∅)) := by
  unfold drawRounded
  rw [RandR.bind_assoc]
  congr 1
  funext k
  rw [sampleItemsetF_closed S space newRows us hT i hi, if_neg hpos.ne', lift_bind]
  rfl

theorem tailErr_nonneg (n m : ℕ) : 0 ≤ tailErr n m := by unfold tailErr; positivity

theorem nextBits_discrete : nextBits.Discrete := pyChoiceIdx_discrete _

theorem near_tail (S : Summation) (space : List (Finset ℤ)) (newRows : List (List ℕ)) (us : List (List ℕ × List ℤ))
    (hne : newRows ≠ []) (hT : totalArea space newRows us ≤ 2 ^ 53) (hn : newRows.length ≤ 2 ^ 23) {m : ℕ}
    (hm : m ≤ 2 ^ 23) (hrow : ∀ i < newRows.length, (newRows.getD i []).length ≤ m) :
    Near (tailErr newRows.length m) (sampleOnce (stateAfter space newRows us)).toReal
      (tailOnceF S (stateAfter space newRows us)) := by
  have hd1 := Discrete.toReal (sampleOnce_proper (stateAfter space newRows us))
  rcases Nat.eq_zero_or_pos (totalArea space newRows us) with h0 | hpos
  · refine (Near.const hd1 (nextBits_discrete.bind fun k _ => (Discrete.lift _).bind fun row _ =>
      nextBits_discrete.bind fun k' _ => Discrete.lift _) (r := .error .noMoreSamples) ?_ ?_).mono
        (tailErr_nonneg _ _)
    · intro x hx
      rw [outcome_toReal, outcome_once space newRows us hne, if_pos h0] at hx
      exact hx
    · intro x hx
      rw [RandR.outcome_bind] at hx
      rcases hx with ⟨k, hk, hx⟩ | ⟨e, he, -⟩
      swap
      · obtain ⟨_, -, e'⟩ := outcome_pyChoiceIdx two_pow_ne he
        cases e'
      obtain ⟨_, hk', e⟩ := outcome_pyChoiceIdx two_pow_ne hk
      cases e
      have hex : ∀ k₂, sampleOnceF S (stateAfter space newRows us) k k₂ = .error .noMoreSamples := by
        intro k₂
        obtain ⟨i, hi, hil, -⟩ := choiceF_positive (List.replicate newRows.length 1)
          (by rw [List.sum_replicate]; simpa using List.length_pos_of_ne_nil hne) (by simpa using hn) k hk'
        have hil' : i < newRows.length := by simpa using hil
        unfold sampleOnceF
        rw [rowProbasF_closed S space newRows us hT, if_pos h0, hi]
        show sampleItemsetF S _ i k₂ = _
        rw [sampleItemsetF_closed S space newRows us hT i hil',
          if_pos ((totalArea_eq_zero_iff space newRows us).mp h0 i hil')]
      unfold sampleOnceF at hex
      rw [RandR.outcome_bind] at hx
      rcases hx with ⟨row, hrow, hx⟩ | ⟨e, he, hx⟩
      · have hrow' : .ok row = choiceF (rowProbasF S (stateAfter space newRows us).weights) k := hrow
        rw [← hrow'] at hex
        rw [RandR.outcome_bind] at hx
        rcases hx with ⟨k₂, -, hx⟩ | ⟨e, he, -⟩
        · have hx' : x = sampleItemsetF S (stateAfter space newRows us) row k₂ := hx
          rw [hx']
          exact hex k₂
        · obtain ⟨_, -, e'⟩ := outcome_pyChoiceIdx two_pow_ne he
          cases e'
      · have he' : .error e = choiceF (rowProbasF S (stateAfter space newRows us).weights) k := he
        rw [← he'] at hex
        rw [hx]
        have := hex 0
        exact this
  · rw [sampleOnce_draw space newRows us hpos, tailOnceF_draw S space newRows us hT hpos]
    have hnear := near_draw (areaWts space newRows us) (by rw [areaWts_sum]; exact hpos)
      (by rw [areaWts_length]; exact hn)
    have hcl : ∀ i, (drawExact (areaWts space newRows us)).Outcome (.ok i) →
        i < newRows.length ∧ 0 < rowArea space newRows us i := by
      intro i hi
      unfold drawExact at hi
      rw [outcome_toReal, outcome_normalised (ratWeights_nonneg _)
        (by rw [ratWeights_sum, areaWts_sum]; exact_mod_cast hpos)] at hi
      obtain ⟨j, hj, hp, e⟩ := hi
      cases e
      have hj' : i < newRows.length := by simpa [ratWeights, areaWts] using hj
      refine ⟨hj', ?_⟩
      rw [ratWeights_getD] at hp
      have hp' : 0 < (areaWts space newRows us).getD i 0 := by exact_mod_cast hp
      rw [getD_lt (by rw [areaWts_length]; exact hj')] at hp'
      simpa [areaWts] using hp'
    have := hnear.bind (k := fun i => (sampleItemsetFromRow (stateAfter space newRows us) i).toReal)
      (k' := fun i => nextBits.bind fun k => RandR.lift (sampleItemsetF S (stateAfter space newRows us) i k))
      (δ := m * (10 * m + 11) / 2 ^ 53) (by positivity) ?_ ?_
    · refine this.mono (le_of_eq ?_)
      unfold tailErr
      rw [areaWts_length]
      ring
    · intro i hi
      obtain ⟨h1, h2⟩ := hcl i hi
      rw [sampleRow_draw space newRows us i h1 h2]
      exact (Discrete.toReal (npChoice_proper _)).bind fun _ _ => Discrete.proper_done _
    · intro i hi
      obtain ⟨h1, h2⟩ := hcl i (hnear.sub _ hi)
      rw [sampleRow_draw space newRows us i h1 h2, sampleRowF_draw S space newRows us hT i h1 h2]
      have hl := hrow i h1
      have hn2 := near_draw (rowWts space newRows us i) h2 (by rw [rowWts_length]; omega)
      have := hn2.bind (k := fun idx => RandR.done (.ok (space.getD ((newRows.getD i []).getD idx 0) ∅)))
        (k' := fun idx => RandR.done (.ok (space.getD ((newRows.getD i []).getD idx 0) ∅)))
        (δ := 0) le_rfl (fun _ _ => Discrete.proper_done _) fun _ _ => Near.refl (Discrete.proper_done _)
      refine this.mono ?_
      rw [add_zero, rowWts_length]
      have hl' : (((newRows.getD i []).length : ℕ) : ℝ) ≤ m := by exact_mod_cast hl
      gcongr

end Verif
