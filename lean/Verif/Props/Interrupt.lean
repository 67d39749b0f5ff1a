/-
C135: what an interrupted update of the tail sampler leaves behind.
-/
import Verif.Lemmas.Interrupt
import Verif.Props.Uncovered

namespace Verif

/-! ### C135 -/

/-- **C135.** The points are those of the call: it returns with an object exactly if its last point has that
object, and it raises exactly if it gets stuck with that exception at one of its points. -/
theorem C135_points_of_the_call (space : List (Finset ℤ)) (newRows : List (List ℕ))
    (us : List (List ℕ × List ℤ)) (st : UState) (h : applyUpdates (freshSampler space newRows) us = .ok st)
    (affected : List ℕ) (newSet : List ℤ) :
    (∀ obj, UpdPoint affected newSet st .returned obj ↔ updateRowWeights st affected newSet = .ok obj) ∧
    ∀ e, (∃ pc obj, UpdPoint affected newSet st pc obj ∧ updStep affected newSet pc obj = .error e) ↔
      updateRowWeights st affected newSet = .error e := by
  obtain ⟨-, rfl⟩ := fresh_applyUpdates_inv h
  have hlen : (stateAfter space newRows us).weights.length = (stateAfter space newRows us).counters.length := by
    simp [stateAfter, wsOf, csOf]
  have hret : ∀ obj, UpdPoint affected newSet (stateAfter space newRows us) .returned obj →
      updateRowWeights (stateAfter space newRows us) affected newSet = .ok obj := by
    intro obj hp
    rw [← (updPoint_rest hlen hp).1]
    simp [updRest]
  have herr : ∀ e pc obj, UpdPoint affected newSet (stateAfter space newRows us) pc obj →
      updStep affected newSet pc obj = .error e →
      updateRowWeights (stateAfter space newRows us) affected newSet = .error e := by
    intro e pc obj hp hs
    obtain ⟨h1, h2⟩ := updPoint_rest hlen hp
    rw [← h1]
    exact (updStep_rest h2).2 e hs
  have hfin := updPoint_finish (UpdPoint.start (affected := affected) (newSet := newSet)
    (st := stateAfter space newRows us))
  refine ⟨fun obj => ⟨hret obj, fun hu => ?_⟩, fun e => ⟨fun ⟨pc, obj, hp, hs⟩ => herr e pc obj hp hs, fun hu => ?_⟩⟩
  · rcases hfin with ⟨obj', hp⟩ | ⟨pc, obj', e, hp, hs⟩
    · have := hret _ hp
      rw [hu] at this
      cases this
      exact hp
    · have := herr e pc obj' hp hs
      rw [hu] at this
      cases this
  · rcases hfin with ⟨obj', hp⟩ | ⟨pc, obj', e', hp, hs⟩
    · have := hret _ hp
      rw [hu] at this
      cases this
    · have := herr e' pc obj' hp hs
      rw [hu] at this
      cases this
      exact ⟨pc, obj', hp, hs⟩

theorem partState_weights (space : List (Finset ℤ)) (newRows : List (List ℕ)) (us : List (List ℕ × List ℤ))
    (P Q : List (ℕ × ℤ)) (i : ℕ) (hi : i < newRows.length) :
    (partState space newRows us P Q).weights[i]? = some (rowArea space newRows (us ++ onePairEach P) i : ℤ) := by
  rw [← weights_getD space newRows _ i hi]
  show (stateAfter space newRows (us ++ onePairEach P)).weights[i]? = _
  simp [stateAfter, wsOf, hi]

theorem rowArea_mono (space : List (Finset ℤ)) (newRows : List (List ℕ)) (us vs : List (List ℕ × List ℤ)) (i : ℕ) :
    rowArea space newRows (us ++ vs) i ≤ rowArea space newRows us i := by
  unfold rowArea
  apply List.sum_le_sum
  intro id _
  apply Finset.card_le_card
  intro el hel
  simp only [uncoveredPart, Finset.mem_filter, coveredBy_append] at hel ⊢
  exact ⟨hel.1, fun hc => hel.2 (Or.inl hc)⟩

/-- Sampling from a row whose weight is not what the history says. -/
theorem sampleRow_of_weights {space : List (Finset ℤ)} {newRows : List (List ℕ)} {us : List (List ℕ × List ℤ)}
    {obj : UState} (hs : obj.space = space) (hn : obj.newRows = newRows) (hh : obj.history = us) {i : ℕ} {w : ℤ}
    (hi : i < newRows.length) (hw : obj.weights[i]? = some w) :
    ((sampleItemsetFromRow obj i).Outcome (.error .exception) ↔
      1 / 100000000 + 1 / 100000 * |(w : ℚ)| < |(rowArea space newRows us i : ℚ) - w|) ∧
    (1 / 100000000 + 1 / 100000 * |(w : ℚ)| < |(rowArea space newRows us i : ℚ) - w| →
      sampleItemsetFromRow obj i = .raise .exception) ∧
    (w = rowArea space newRows us i →
      sampleItemsetFromRow obj i = sampleItemsetFromRow (stateAfter space newRows us) i) := by
  subst hs hn hh
  have hsw : sampleWeights obj i = sampleWeights (stateAfter obj.space obj.newRows obj.history) i := rfl
  have hwd : obj.weights.getD i 0 = w := by
    rw [List.getD_eq_getElem?_getD, hw]; rfl
  have hcl : allclose ((sampleWeights obj i).sum : ℤ) (w : ℤ) = false ↔
      1 / 100000000 + 1 / 100000 * |(w : ℚ)| < |(rowArea obj.space obj.newRows obj.history i : ℚ) - w| := by
    rw [hsw, sampleWeights_sum]
    simp only [allclose, decide_eq_false_iff_not, not_le, Int.cast_natCast]
  have hraise : 1 / 100000000 + 1 / 100000 * |(w : ℚ)| <
      |(rowArea obj.space obj.newRows obj.history i : ℚ) - w| →
      sampleItemsetFromRow obj i = .raise .exception := by
    intro hlt
    unfold sampleItemsetFromRow
    simp only [hwd]
    rw [if_pos (hcl.mpr hlt)]
  refine ⟨⟨fun ho => ?_, fun hlt => ?_⟩, hraise, fun hw' => ?_⟩
  · by_contra hcon
    have hnot : ¬ allclose ((sampleWeights obj i).sum : ℤ) (w : ℤ) = false := fun hc => hcon (hcl.mp hc)
    unfold sampleItemsetFromRow at ho
    simp only [hwd] at ho
    rw [if_neg hnot] at ho
    split at ho
    · cases ho
    · rw [Rand.monad_bind, Rand.outcome_bind] at ho
      rcases ho with ⟨idx, -, hx⟩ | ⟨e, he, hx⟩
      · cases hx
      · cases hx
        revert he
        unfold npChoice
        split
        · rintro ⟨j, hj, -, hx⟩
          cases hx
        · intro hx
          cases hx
  · rw [hraise hlt]
    rfl
  · unfold sampleItemsetFromRow
    simp only [hwd, hsw]
    rw [weights_getD _ _ _ _ hi, hw']
    rfl

/-- **C135.** Interrupt the call anywhere before it returns: some first pairs of row and label were dealt with
in the order of the loops. Row weights count what these pairs leave uncovered, while the history knows nothing of
them. So sampling from a row raises the consistency exception exactly when the part of its area taken away exceeds
the tolerance of the check; a row nothing was taken from is sampled as before. -/
theorem C135_interrupted (space : List (Finset ℤ)) (newRows : List (List ℕ))
    (us : List (List ℕ × List ℤ)) (st : UState) (h : applyUpdates (freshSampler space newRows) us = .ok st)
    (affected : List ℕ) (newSet : List ℤ) (pc : UpdPc) (obj : UState) (hp : UpdPoint affected newSet st pc obj)
    (hpc : pc ≠ .returned) :
    obj.space = space ∧ obj.newRows = newRows ∧ obj.history = us ∧
    ∃ k ≤ (affected ×ˢ newSet).length, ∀ i < newRows.length,
      obj.weights[i]? =
        some (rowArea space newRows (us ++ onePairEach ((affected ×ˢ newSet).take k)) i : ℤ) ∧
      ((sampleItemsetFromRow obj i).Outcome (.error .exception) ↔
        1 / 100000000 +
          1 / 100000 * (rowArea space newRows (us ++ onePairEach ((affected ×ˢ newSet).take k)) i : ℚ) <
        (rowArea space newRows us i : ℚ) -
          rowArea space newRows (us ++ onePairEach ((affected ×ˢ newSet).take k)) i) ∧
      (rowArea space newRows (us ++ onePairEach ((affected ×ˢ newSet).take k)) i = rowArea space newRows us i →
        sampleItemsetFromRow obj i = sampleItemsetFromRow st i) := by
  obtain ⟨-, rfl⟩ := fresh_applyUpdates_inv h
  obtain ⟨P, hP, -, hinv⟩ := updPoint_inv hp
  have hparts : obj.space = space ∧ obj.newRows = newRows ∧ obj.history = us ∧
      ∀ i < newRows.length, obj.weights[i]? = some (rowArea space newRows (us ++ onePairEach P) i : ℤ) := by
    match pc, hinv with
    | .rows _, hinv => subst hinv; exact ⟨rfl, rfl, rfl, fun i hi => partState_weights _ _ _ _ _ i hi⟩
    | .labels _ _ _, hinv => subst hinv; exact ⟨rfl, rfl, rfl, fun i hi => partState_weights _ _ _ _ _ i hi⟩
    | .forget _ _ _ _, hinv =>
      obtain ⟨Q, -, rfl, -⟩ := hinv
      exact ⟨rfl, rfl, rfl, fun i hi => partState_weights _ _ _ _ _ i hi⟩
    | .normalise, hinv => subst hinv; exact ⟨rfl, rfl, rfl, fun i hi => partState_weights _ _ _ _ _ i hi⟩
    | .record, hinv => subst hinv; exact ⟨rfl, rfl, rfl, fun i hi => partState_weights _ _ _ P P i hi⟩
    | .returned, _ => exact absurd rfl hpc
  obtain ⟨h1, h2, h3, h4⟩ := hparts
  have htake : (affected ×ˢ newSet).take P.length = P := by rw [← hP]; simp
  refine ⟨h1, h2, h3, P.length, by rw [← hP]; simp, fun i hi => ?_⟩
  rw [htake]
  obtain ⟨g1, -, g3⟩ := sampleRow_of_weights h1 h2 h3 hi (h4 i hi)
  have hle : (rowArea space newRows (us ++ onePairEach P) i : ℚ) ≤ rowArea space newRows us i := by
    exact_mod_cast rowArea_mono space newRows us (onePairEach P) i
  refine ⟨h4 i hi, ?_, fun he => g3 (by rw [he])⟩
  rw [g1, Int.cast_natCast, abs_of_nonneg (by positivity), abs_of_nonneg (by linarith)]

/-- **C135.** The row probabilities are the old ones until the loops are through. So if the weight of a row had
changed and was at most 99999, `sample_once` raises the consistency exception in some execution. -/
theorem C135_sampling_may_raise (space : List (Finset ℤ)) (newRows : List (List ℕ))
    (us : List (List ℕ × List ℤ)) (st : UState) (h : applyUpdates (freshSampler space newRows) us = .ok st)
    (affected : List ℕ) (newSet : List ℤ) (pc : UpdPc) (obj : UState) (hp : UpdPoint affected newSet st pc obj)
    (hpc : pc ≠ .returned) (hpc' : pc ≠ .record) :
    obj.probas = st.probas ∧
    ∀ i < newRows.length, obj.weights[i]? ≠ st.weights[i]? → rowArea space newRows us i ≤ 99999 →
      (sampleOnce obj).Outcome (.error .exception) := by
  have hint := C135_interrupted space newRows us st h affected newSet pc obj hp hpc
  have h32 := C32_row_weights space newRows us st h
  obtain ⟨-, hst⟩ := fresh_applyUpdates_inv h
  subst hst
  obtain ⟨P, -, -, hinv⟩ := updPoint_inv hp
  have hprob : obj.probas = (stateAfter space newRows us).probas := by
    match pc, hinv with
    | .rows _, hinv => subst hinv; rfl
    | .labels _ _ _, hinv => subst hinv; rfl
    | .forget _ _ _ _, hinv => obtain ⟨Q, -, rfl, -⟩ := hinv; rfl
    | .normalise, hinv => subst hinv; rfl
    | .record, _ => exact absurd rfl hpc'
    | .returned, _ => exact absurd rfl hpc
  refine ⟨hprob, fun i hi hne hsmall => ?_⟩
  obtain ⟨-, -, -, k, -, hk⟩ := hint
  obtain ⟨hw, hex, -⟩ := hk i hi
  rw [hw, h32.2 i hi] at hne
  have hmono := rowArea_mono space newRows us (onePairEach ((affected ×ˢ newSet).take k)) i
  have hlt : rowArea space newRows (us ++ onePairEach ((affected ×ˢ newSet).take k)) i + 1 ≤
      rowArea space newRows us i := by
    rcases Nat.lt_or_ge (rowArea space newRows (us ++ onePairEach ((affected ×ˢ newSet).take k)) i)
      (rowArea space newRows us i) with hlt | hge
    · exact hlt
    · exact absurd (by rw [le_antisymm hmono hge]) hne
  have hrow := hex.mpr (by
    have h1 : (rowArea space newRows (us ++ onePairEach ((affected ×ˢ newSet).take k)) i : ℚ) + 1 ≤
        rowArea space newRows us i := by exact_mod_cast hlt
    have h2 : (rowArea space newRows us i : ℚ) ≤ 99999 := by exact_mod_cast hsmall
    linarith)
  have hpos : 0 < rowArea space newRows us i := by omega
  unfold sampleOnce
  rw [hprob, Rand.monad_bind, Rand.outcome_bind]
  left
  have hne' : newRows ≠ [] := by rintro rfl; simp at hi
  exact ⟨i, (outcome_probas space newRows us hne' _).mpr ⟨i, hi, rfl, Or.inr (by omega)⟩, hrow⟩

/-- **C135.** Recovery: interrupted at any point but between the two statements that take away a label, the call
can simply be repeated; the result is that of a call without interruption (an exception of that call included). -/
theorem C135_retry (space : List (Finset ℤ)) (newRows : List (List ℕ))
    (us : List (List ℕ × List ℤ)) (st : UState) (h : applyUpdates (freshSampler space newRows) us = .ok st)
    (affected : List ℕ) (newSet : List ℤ) (pc : UpdPc) (obj : UState) (hp : UpdPoint affected newSet st pc obj)
    (hpc : pc ≠ .returned) (hpc' : ∀ r el els rs, pc ≠ .forget r el els rs) :
    updateRowWeights obj affected newSet = updateRowWeights st affected newSet := by
  obtain ⟨-, rfl⟩ := fresh_applyUpdates_inv h
  obtain ⟨P, hP, -, hinv⟩ := updPoint_inv hp
  have hsub : ∀ pr ∈ P, pr ∈ affected ×ˢ newSet := fun pr hpr => by
    rw [← hP]; exact List.mem_append_left _ hpr
  have hag := coverRows_again space newRows us hsub
  have hgen : ∀ q, updateRowWeights { partState space newRows us P P with probas := q } affected newSet =
      updateRowWeights (stateAfter space newRows us) affected newSet := by
    intro q
    unfold updateRowWeights
    simp only [partState]
    rw [hag]
  match pc, hinv with
  | .rows _, hinv => subst hinv; exact hgen _
  | .labels _ _ _, hinv => subst hinv; exact hgen _
  | .forget _ _ _ _, _ => exact absurd rfl (hpc' _ _ _ _)
  | .normalise, hinv => subst hinv; exact hgen _
  | .record, hinv => subst hinv; exact hgen _
  | .returned, _ => exact absurd rfl hpc

/-- **C135.** Between the two statements, repeating the call does harm: the weight of that row ends too small by
the number of its samples with that label, which is positive; everything else but the row probabilities is as
without interruption. Sampling from the row raises the consistency exception exactly when that number exceeds the
tolerance of the check. -/
theorem C135_retry_between (space : List (Finset ℤ)) (newRows : List (List ℕ))
    (us : List (List ℕ × List ℤ)) (st : UState) (h : applyUpdates (freshSampler space newRows) us = .ok st)
    (affected : List ℕ) (newSet : List ℤ) (hrows : ∀ i ∈ affected, i < newRows.length)
    (r : ℕ) (el : ℤ) (els : List ℤ) (rs : List ℕ) (obj : UState)
    (hp : UpdPoint affected newSet st (.forget r el els rs) obj) :
    ∃ good bad, updateRowWeights st affected newSet = .ok good ∧ updateRowWeights obj affected newSet = .ok bad ∧
      bad.space = good.space ∧ bad.newRows = good.newRows ∧ bad.counters = good.counters ∧
      bad.history = good.history ∧ 0 < holders space newRows r el ∧
      (∀ i < newRows.length, bad.weights[i]? =
        some ((rowArea space newRows (us ++ [(affected, newSet)]) i : ℤ) -
          if i = r then (holders space newRows r el : ℤ) else 0)) ∧
      ((sampleItemsetFromRow bad r).Outcome (.error .exception) ↔
        1 / 100000000 + 1 / 100000 *
          |(rowArea space newRows (us ++ [(affected, newSet)]) r : ℚ) - holders space newRows r el| <
        holders space newRows r el) := by
  obtain ⟨-, rfl⟩ := fresh_applyUpdates_inv h
  obtain ⟨P, hP, -, Q, rfl, rfl, hr, hbag, hcov⟩ := updPoint_inv hp
  have hsub : ∀ pr ∈ Q, pr ∈ affected ×ˢ newSet := fun pr hpr => by
    rw [← hP]; simp [hpr]
  have hag := coverRows_again space newRows us hsub
  have hu : UpdateOk newRows (affected, newSet) := Or.inr hrows
  have hgood := update_closed space newRows us (affected, newSet) hu
  obtain ⟨c, w, hc, hw, h1, h2, hcof⟩ := pair_step space newRows us Q r el hr
  have hn : c el = some ((bagAt space newRows r).count el) := by
    rw [hcof]
    simp only [cOf]
    rw [if_pos ⟨hbag, fun hcon => hcov ((mem_coveredElems _ _ _).mp hcon)⟩]
  have hws : (stateAfter space newRows (us ++ onePairEach (Q ++ [(r, el)]))).weights =
      (stateAfter space newRows (us ++ onePairEach Q)).weights.modify r
        (· + -(holders space newRows r el : ℤ)) := by
    rw [h1]
    have e : coverRow w c [el] = (w - (holders space newRows r el : ℤ), c.del el) := by
      simp [coverRow, hn, count_eq_holders]
    rw [e]
    apply List.ext_getElem?
    intro i
    rw [List.getElem?_set, List.getElem?_modify]
    by_cases hi : r = i
    · subst hi
      have hlt : r < (stateAfter space newRows (us ++ onePairEach Q)).weights.length :=
        (List.getElem?_eq_some_iff.mp hw).1
      rw [if_pos rfl, if_pos hlt, hw]
      simp [sub_eq_add_neg]
    · simp [hi]
  have hbad : updateRowWeights (partState space newRows us (Q ++ [(r, el)]) Q) affected newSet =
      .ok { stateAfter space newRows (us ++ [(affected, newSet)]) with
        weights := (stateAfter space newRows (us ++ [(affected, newSet)])).weights.modify r
          (· + -(holders space newRows r el : ℤ))
        probas := rowProbas ((stateAfter space newRows (us ++ [(affected, newSet)])).weights.modify r
          (· + -(holders space newRows r el : ℤ))) } := by
    have hcl : coverRows newSet affected (stateAfter space newRows us).weights
        (stateAfter space newRows us).counters =
        .ok ((stateAfter space newRows (us ++ [(affected, newSet)])).weights,
          (stateAfter space newRows (us ++ [(affected, newSet)])).counters) := by
      have := coverRows_closed space newRows newSet affected (coveredElems us) hu
      simp only [stateAfter]
      rw [this]
      have e : (fun i => if i ∈ affected then coveredElems us i ∪ newSet.toFinset else coveredElems us i) =
          coveredElems (us ++ [(affected, newSet)]) := by
        funext i; rw [coveredElems_snoc]
      rw [e]
    unfold updateRowWeights
    simp only [partState]
    rw [hws, coverRows_shift, hag, hcl]
    rfl
  have hpos : 0 < holders space newRows r el := by
    rw [← count_eq_holders]; exact List.count_pos_iff.mpr hbag
  have hweights : ∀ i < newRows.length,
      ((stateAfter space newRows (us ++ [(affected, newSet)])).weights.modify r
          (· + -(holders space newRows r el : ℤ)))[i]? =
        some ((rowArea space newRows (us ++ [(affected, newSet)]) i : ℤ) -
          if i = r then (holders space newRows r el : ℤ) else 0) := by
    intro i hi
    have hwi : (stateAfter space newRows (us ++ [(affected, newSet)])).weights[i]? =
        some (rowArea space newRows (us ++ [(affected, newSet)]) i : ℤ) := by
      rw [← weights_getD space newRows _ i hi]
      simp [stateAfter, wsOf, hi]
    rw [List.getElem?_modify, hwi]
    by_cases hir : i = r
    · subst hir; simp [sub_eq_add_neg]
    · simp [hir, Ne.symm hir]
  refine ⟨_, _, hgood, hbad, rfl, rfl, rfl, rfl, hpos, hweights, ?_⟩
  have hwr := hweights r hr
  rw [if_pos rfl] at hwr
  rw [(sampleRow_of_weights (space := space) (newRows := newRows) (us := us ++ [(affected, newSet)]) rfl rfl rfl hr
    hwr).1]
  push_cast
  rw [sub_sub_cancel, abs_of_nonneg (by positivity : (0 : ℚ) ≤ (holders space newRows r el : ℚ))]

/-- **C135.** A call with a row that does not exist is such an interruption: it raises `IndexError` and leaves the
rows before that one without the labels, the row probabilities and the history as they were. -/
theorem C135_missing_row (space : List (Finset ℤ)) (newRows : List (List ℕ))
    (us : List (List ℕ × List ℤ)) (st : UState) (h : applyUpdates (freshSampler space newRows) us = .ok st)
    (good : List ℕ) (bad : ℕ) (rest : List ℕ) (newSet : List ℤ) (hne : newSet ≠ [])
    (hgood : ∀ i ∈ good, i < newRows.length) (hbad : newRows.length ≤ bad) :
    updateRowWeights st (good ++ bad :: rest) newSet = .error .indexError ∧
    ∀ pc obj e, UpdPoint (good ++ bad :: rest) newSet st pc obj →
      updStep (good ++ bad :: rest) newSet pc obj = .error e →
      e = .indexError ∧ obj.history = us ∧ obj.probas = st.probas ∧
      ∀ i < newRows.length, obj.weights[i]? = some (rowArea space newRows (us ++ [(good, newSet)]) i : ℤ) := by
  have hpts := C135_points_of_the_call space newRows us st h (good ++ bad :: rest) newSet
  obtain ⟨-, rfl⟩ := fresh_applyUpdates_inv h
  have herr : updateRowWeights (stateAfter space newRows us) (good ++ bad :: rest) newSet = .error .indexError := by
    apply update_error space newRows us (good ++ bad :: rest, newSet)
    rintro (hc | hc)
    · exact hne hc
    · have := hc bad (by simp)
      omega
  refine ⟨herr, fun pc obj e hp hs => ?_⟩
  have he : e = .indexError := by
    have := (hpts.2 e).mp ⟨pc, obj, hp, hs⟩
    rw [herr] at this
    cases this
    rfl
  refine ⟨he, ?_⟩
  obtain ⟨P, hP, hin, hinv⟩ := updPoint_inv hp
  match pc, hinv with
  | .rows [], _ => cases hs
  | .rows (_ :: _), _ => cases hs
  | .labels _ [] _, _ => cases hs
  | .normalise, _ => cases hs
  | .record, _ => cases hs
  | .returned, _ => cases hs
  | .forget r el els rs, hinv =>
    obtain ⟨Q, rfl, rfl, hr, -, -⟩ := hinv
    obtain ⟨c, -, hc, -⟩ := pair_step space newRows us Q r el hr
    have hc' : (partState space newRows us (Q ++ [(r, el)]) Q).counters[r]? = some c := hc
    simp only [updStep, hc'] at hs
    cases hs
  | .labels r (el :: els) rs, hinv =>
    simp only at hinv
    subst hinv
    have hr : newRows.length ≤ r := by
      by_contra hr
      obtain ⟨c, w, hc, hw, -⟩ := pair_step space newRows us P r el (by omega)
      have hc' : (partState space newRows us P P).counters[r]? = some c := hc
      have hw' : (partState space newRows us P P).weights[r]? = some w := hw
      simp only [updStep, hc', hw'] at hs
      split at hs <;> cases hs
    have hPeq : P = good ×ˢ newSet := by
      obtain ⟨x, xs, rfl⟩ := List.exists_cons_of_ne_nil hne
      have hT := congrArg (List.takeWhile fun pr : ℕ × ℤ => decide (pr.1 < newRows.length)) hP
      have h1 : (P ++ pairsLeft (x :: xs) (.labels r (el :: els) rs)).takeWhile
          (fun pr : ℕ × ℤ => decide (pr.1 < newRows.length)) = P := by
        rw [List.takeWhile_append_of_pos (by simpa using hin)]
        simp [pairsLeft, List.takeWhile_cons, Nat.not_lt.mpr hr]
      have h2 : ((good ++ bad :: rest) ×ˢ (x :: xs)).takeWhile
          (fun pr : ℕ × ℤ => decide (pr.1 < newRows.length)) = good ×ˢ (x :: xs) := by
        have hsplit : (good ++ bad :: rest) ×ˢ (x :: xs) =
            good ×ˢ (x :: xs) ++ ((x :: xs).map (Prod.mk bad) ++ rest ×ˢ (x :: xs)) := by
          simp [SProd.sprod, List.product]
        rw [hsplit, List.takeWhile_append_of_pos]
        · simp [List.takeWhile_cons, Nat.not_lt.mpr hbad]
        · rintro ⟨i, l⟩ hpr
          simpa using hgood i (by simpa using (List.mem_product.mp hpr).1)
      rw [h1, h2] at hT
      exact hT
    refine ⟨rfl, rfl, fun i hi => ?_⟩
    rw [partState_weights _ _ _ _ _ i hi]
    have : rowArea space newRows (us ++ onePairEach P) i = rowArea space newRows (us ++ [(good, newSet)]) i := by
      unfold rowArea
      congr 2
      funext id
      congr 1
      unfold uncoveredPart
      apply Finset.filter_congr
      intro l _
      rw [coveredBy_append, coveredBy_append, coveredBy_onePairEach, hPeq]
      have : CoveredBy [(good, newSet)] i l ↔ i ∈ good ∧ l ∈ newSet := by simp [CoveredBy]
      rw [this]
      simp
    rw [this]

/-- **C135.** The points between the two statements are met: whenever the first row of the call has a sample with
the first label, not yet covered. The weight of that row has then changed. -/
theorem C135_between_reachable (space : List (Finset ℤ)) (newRows : List (List ℕ))
    (us : List (List ℕ × List ℤ)) (st : UState) (h : applyUpdates (freshSampler space newRows) us = .ok st)
    (r : ℕ) (rs : List ℕ) (el : ℤ) (els : List ℤ) (hr : r < newRows.length)
    (hel : ∃ id ∈ newRows.getD r [], el ∈ space.getD id ∅) (hcov : ¬ CoveredBy us r el) :
    ∃ obj, UpdPoint (r :: rs) (el :: els) st (.forget r el els rs) obj ∧
      obj.weights[r]? = some ((rowArea space newRows us r : ℤ) - holders space newRows r el) ∧
      obj.weights[r]? ≠ st.weights[r]? := by
  have h32 := (C32_row_weights space newRows us st h).2 r hr
  obtain ⟨-, rfl⟩ := fresh_applyUpdates_inv h
  have hbag : el ∈ bagAt space newRows r := mem_bag.mpr hel
  have hc : (stateAfter space newRows us).counters[r]? =
      some (cOf (bagAt space newRows r) (coveredElems us r)) := by
    simp [stateAfter, csOf, hr]
  have hn : cOf (bagAt space newRows r) (coveredElems us r) el = some (holders space newRows r el) := by
    rw [← count_eq_holders]
    simp only [cOf]
    rw [if_pos ⟨hbag, fun hcon => hcov ((mem_coveredElems _ _ _).mp hcon)⟩]
  have hpos : 0 < holders space newRows r el := by
    rw [← count_eq_holders]; exact List.count_pos_iff.mpr hbag
  have hlt : r < (stateAfter space newRows us).weights.length := (List.getElem?_eq_some_iff.mp h32).1
  refine ⟨_, UpdPoint.step (UpdPoint.step UpdPoint.start rfl) (by simp only [updStep, hc, hn, h32]; rfl), ?_, ?_⟩
  · simp only [List.getElem?_set_self hlt]
  · simp only [List.getElem?_set_self hlt, h32]
    intro hcon
    have := Option.some.inj hcon
    omega

/-- An interruption between the two statements, on concrete data, and what comes of repeating the call. -/
example : ∃ st obj bad, applyUpdates (freshSampler demoSpace demoRows) [] = .ok st ∧
    UpdPoint [0, 1] [1, 0] st (.forget 0 1 [0] [1]) obj ∧
    (sampleOnce obj).Outcome (.error .exception) ∧
    updateRowWeights obj [0, 1] [1, 0] = .ok bad ∧
    (sampleItemsetFromRow bad 0).Outcome (.error .exception) := by
  obtain ⟨st, h⟩ := (C32_updates_succeed_iff demoSpace demoRows []).mpr (by simp)
  obtain ⟨obj, hp, -, hne⟩ := C135_between_reachable _ _ _ _ h 0 [1] 1 [0] (by decide) (by decide) (by decide)
  obtain ⟨good, bad, -, hb, -, -, -, -, hpos, -, hiff⟩ :=
    C135_retry_between _ _ _ _ h [0, 1] [1, 0] (by decide) 0 1 [0] [1] obj hp
  refine ⟨st, obj, bad, h, hp, ?_, hb, hiff.mpr ?_⟩
  · exact (C135_sampling_may_raise _ _ _ _ h _ _ _ _ hp (by simp) (by simp)).2 0 (by decide) hne (by decide)
  · have h1 : rowArea demoSpace demoRows [([0, 1], [1, 0])] 0 = 0 := by decide
    have h2 : holders demoSpace demoRows 0 1 = 2 := by decide
    simp only [List.nil_append, h1, h2]
    norm_num

/-- A row that does not exist: the rows before it have lost their labels, and sampling raises. -/
example : ∃ st, applyUpdates (freshSampler demoSpace demoRows) [] = .ok st ∧
    updateRowWeights st [0, 7] [1] = .error .indexError ∧
    ∃ pc obj, UpdPoint [0, 7] [1] st pc obj ∧ updStep [0, 7] [1] pc obj = .error .indexError ∧
      (sampleItemsetFromRow obj 0).Outcome (.error .exception) := by
  obtain ⟨st, h⟩ := (C32_updates_succeed_iff demoSpace demoRows []).mpr (by simp)
  obtain ⟨herr, hall⟩ := C135_missing_row _ _ _ _ h [0] 7 [] [1] (by simp) (by decide) (by decide)
  obtain ⟨pc, obj, hp, hs⟩ := ((C135_points_of_the_call _ _ _ _ h [0, 7] [1]).2 .indexError).mpr herr
  refine ⟨st, h, herr, pc, obj, hp, hs, ?_⟩
  have hret : pc ≠ .returned := by rintro rfl; cases hs
  obtain ⟨-, hist, -, hw⟩ := hall pc obj _ hp hs
  obtain ⟨e1, e2, -⟩ := C135_interrupted _ _ _ _ h _ _ _ _ hp hret
  rw [(sampleRow_of_weights e1 e2 hist (by decide : 0 < demoRows.length) (hw 0 (by decide))).1]
  have h1 : rowArea demoSpace demoRows ([] ++ [([0], [1])]) 0 = 2 := by decide
  have h2 : rowArea demoSpace demoRows [] 0 = 4 := by decide
  rw [h1, h2]
  norm_num

end Verif
