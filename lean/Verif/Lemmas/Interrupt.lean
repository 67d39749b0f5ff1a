/-
Lemmas for interrupted updates of the tail sampler.
-/
import Verif.Spec.Interrupt
import Verif.Lemmas.Uncovered

namespace Verif

/-! ### The statements make up the call -/

/-- What is left of the call at a point. -/
def updRest (affected : List ℕ) (newSet : List ℤ) : UpdPc → UState → Py UState
  | .rows rs, st => do
    let (ws, cs) ← coverRows newSet rs st.weights st.counters
    return { st with weights := ws, counters := cs, probas := rowProbas ws
                     history := st.history ++ [(affected, newSet)] }
  | .labels r els rs, st =>
    if els = [] then updRest affected newSet (.rows rs) st
    else
      match st.weights[r]?, st.counters[r]? with
      | some w, some c => updRest affected newSet (.rows rs)
          { st with weights := st.weights.set r (coverRow w c els).1
                    counters := st.counters.set r (coverRow w c els).2 }
      | _, _ => .error .indexError
  | .forget r el els rs, st =>
      match st.weights[r]?, st.counters[r]? with
      | some w, some c => updRest affected newSet (.rows rs)
          { st with weights := st.weights.set r (coverRow w (c.del el) els).1
                    counters := st.counters.set r (coverRow w (c.del el) els).2 }
      | _, _ => .error .indexError
  | .normalise, st => .ok { st with probas := rowProbas st.weights
                                    history := st.history ++ [(affected, newSet)] }
  | .record, st => .ok { st with history := st.history ++ [(affected, newSet)] }
  | .returned, st => .ok st
termination_by pc => match pc with
  | .rows _ => 0
  | _ => 1

theorem set_self {α : Type} {l : List α} {i : ℕ} {a : α} (h : l[i]? = some a) : l.set i a = l := by
  obtain ⟨hi, rfl⟩ := List.getElem?_eq_some_iff.mp h
  simp

theorem updStep_rest {affected : List ℕ} {newSet : List ℤ} {pc : UpdPc} {obj : UState}
    (hlen : obj.weights.length = obj.counters.length) :
    (∀ pc' obj', updStep affected newSet pc obj = .ok (pc', obj') →
      updRest affected newSet pc' obj' = updRest affected newSet pc obj ∧
      obj'.weights.length = obj'.counters.length) ∧
    (∀ e, updStep affected newSet pc obj = .error e → updRest affected newSet pc obj = .error e) := by
  have hboth : ∀ (r : ℕ) (c : Counter), obj.counters[r]? = some c → ∃ w, obj.weights[r]? = some w := by
    intro r c hc
    obtain ⟨hr, -⟩ := List.getElem?_eq_some_iff.mp hc
    exact ⟨obj.weights[r]'(by omega), by rw [List.getElem?_eq_getElem]⟩
  match pc with
  | .rows [] =>
    simp only [updStep]
    refine ⟨fun pc' obj' h => ?_, fun e h => by cases h⟩
    cases h
    exact ⟨by simp [updRest, coverRows], hlen⟩
  | .rows (r :: rs) =>
    simp only [updStep]
    refine ⟨fun pc' obj' h => ?_, fun e h => by cases h⟩
    cases h
    refine ⟨?_, hlen⟩
    rw [updRest.eq_def affected newSet (.labels r newSet rs)]
    simp only
    split
    · rename_i hn
      rw [updRest, updRest, coverRows, if_pos hn]
    · rename_i hn
      conv_rhs => rw [updRest, coverRows, if_neg hn]
      rcases hw : obj.weights[r]? with _ | w <;> rcases hc : obj.counters[r]? with _ | c
      · rfl
      · rfl
      · rfl
      · simp only [updRest]
  | .labels r [] rs =>
    simp only [updStep]
    refine ⟨fun pc' obj' h => ?_, fun e h => by cases h⟩
    cases h
    exact ⟨by rw [updRest.eq_def affected newSet (.labels r [] rs)]; simp, hlen⟩
  | .labels r (el :: els) rs =>
    rcases hc : obj.counters[r]? with _ | c
    · simp only [updStep, hc]
      refine ⟨fun pc' obj' h => by (cases h), fun e h => ?_⟩
      cases h
      rw [updRest, if_neg (by simp), hc]
      rcases obj.weights[r]? <;> rfl
    · obtain ⟨w, hw⟩ := hboth r c hc
      rcases hn : c el with _ | n
      · simp only [updStep, hc, hn]
        refine ⟨fun pc' obj' h => ?_, fun e h => by cases h⟩
        cases h
        refine ⟨?_, hlen⟩
        rw [updRest.eq_def affected newSet (.labels r (el :: els) rs)]
        simp only [reduceCtorEq, if_false, hw, hc]
        rw [updRest.eq_def affected newSet (.labels r els rs)]
        simp only [hw, hc]
        have hcr : coverRow w c (el :: els) = coverRow w c els := by rw [coverRow, hn]
        rw [hcr]
        split
        · rename_i he
          subst he
          simp only [coverRow]
          rw [set_self hw, set_self hc]
        · rfl
      · simp only [updStep, hc, hn, hw]
        refine ⟨fun pc' obj' h => ?_, fun e h => by cases h⟩
        cases h
        refine ⟨?_, by simpa using hlen⟩
        have hr : r < obj.weights.length := (List.getElem?_eq_some_iff.mp hw).1
        rw [updRest.eq_def affected newSet (.forget r el els rs), updRest.eq_def affected newSet (.labels r (el :: els) rs)]
        simp only [reduceCtorEq, if_false, hw, hc, List.getElem?_set_self hr, List.set_set]
        rw [coverRow, hn]
  | .forget r el els rs =>
    rcases hc : obj.counters[r]? with _ | c
    · simp only [updStep, hc]
      refine ⟨fun pc' obj' h => by (cases h), fun e h => ?_⟩
      cases h
      rw [updRest, hc]
      rcases obj.weights[r]? <;> rfl
    · obtain ⟨w, hw⟩ := hboth r c hc
      simp only [updStep, hc]
      refine ⟨fun pc' obj' h => ?_, fun e h => by cases h⟩
      cases h
      refine ⟨?_, by simpa using hlen⟩
      have hr : r < obj.counters.length := (List.getElem?_eq_some_iff.mp hc).1
      rw [updRest.eq_def affected newSet (.forget r el els rs), updRest.eq_def affected newSet (.labels r els rs)]
      simp only [hw, hc, List.getElem?_set_self hr, List.set_set]
      split
      · rename_i he
        subst he
        simp only [coverRow]
        rw [set_self hw]
      · rfl
  | .normalise =>
    simp only [updStep]
    refine ⟨fun pc' obj' h => ?_, fun e h => by cases h⟩
    cases h
    exact ⟨by simp [updRest], hlen⟩
  | .record =>
    simp only [updStep]
    refine ⟨fun pc' obj' h => ?_, fun e h => by cases h⟩
    cases h
    exact ⟨by simp [updRest], hlen⟩
  | .returned =>
    simp only [updStep]
    refine ⟨fun pc' obj' h => ?_, fun e h => by cases h⟩
    cases h
    exact ⟨by simp [updRest], hlen⟩

theorem updPoint_rest {affected : List ℕ} {newSet : List ℤ} {st : UState}
    (hlen : st.weights.length = st.counters.length) {pc : UpdPc} {obj : UState}
    (h : UpdPoint affected newSet st pc obj) :
    updRest affected newSet pc obj = updateRowWeights st affected newSet ∧
      obj.weights.length = obj.counters.length := by
  induction h with
  | start => exact ⟨by rw [updRest]; rfl, hlen⟩
  | step h hs ih =>
    obtain ⟨h1, h2⟩ := (updStep_rest ih.2).1 _ _ hs
    exact ⟨h1.trans ih.1, h2⟩

/-- From every point the call goes on until it returns or raises. -/
theorem updPoint_finish {affected : List ℕ} {newSet : List ℤ} {st : UState} {pc : UpdPc} {obj : UState}
    (h : UpdPoint affected newSet st pc obj) :
    (∃ obj', UpdPoint affected newSet st .returned obj') ∨
    ∃ pc' obj' e, UpdPoint affected newSet st pc' obj' ∧ updStep affected newSet pc' obj' = .error e := by
  have hnorm : ∀ obj, UpdPoint affected newSet st .normalise obj →
      ∃ obj', UpdPoint affected newSet st .returned obj' :=
    fun obj h => ⟨_, UpdPoint.step (UpdPoint.step h rfl) rfl⟩
  have hlab : ∀ rs, (∀ obj, UpdPoint affected newSet st (.rows rs) obj →
      (∃ obj', UpdPoint affected newSet st .returned obj') ∨
      ∃ pc' obj' e, UpdPoint affected newSet st pc' obj' ∧ updStep affected newSet pc' obj' = .error e) →
      ∀ r els obj, UpdPoint affected newSet st (.labels r els rs) obj →
      (∃ obj', UpdPoint affected newSet st .returned obj') ∨
      ∃ pc' obj' e, UpdPoint affected newSet st pc' obj' ∧ updStep affected newSet pc' obj' = .error e := by
    intro rs hrs r els
    induction els with
    | nil => intro obj h; exact hrs _ (UpdPoint.step h rfl)
    | cons el els ih =>
      intro obj h
      rcases hs : updStep affected newSet (.labels r (el :: els) rs) obj with e | ⟨pc', obj'⟩
      · exact Or.inr ⟨_, _, e, h, hs⟩
      · have h' := UpdPoint.step h hs
        simp only [updStep] at hs
        split at hs
        · cases hs
        · split at hs
          · cases hs; exact ih _ h'
          · split at hs
            · cases hs
            · cases hs
              rcases hs2 : updStep affected newSet (.forget r el els rs) _ with e | ⟨pc2, obj2⟩
              · exact Or.inr ⟨_, _, e, h', hs2⟩
              · have h2 := UpdPoint.step h' hs2
                simp only [updStep] at hs2
                split at hs2
                · cases hs2
                · cases hs2; exact ih _ h2
  have hrows : ∀ rs obj, UpdPoint affected newSet st (.rows rs) obj →
      (∃ obj', UpdPoint affected newSet st .returned obj') ∨
      ∃ pc' obj' e, UpdPoint affected newSet st pc' obj' ∧ updStep affected newSet pc' obj' = .error e := by
    intro rs
    induction rs with
    | nil => intro obj h; exact Or.inl (hnorm _ (UpdPoint.step h rfl))
    | cons r rs ih => intro obj h; exact hlab rs ih r newSet _ (UpdPoint.step h rfl)
  exact hrows affected st .start

/-! ### The object at a point -/

theorem coveredBy_append {us vs : List (List ℕ × List ℤ)} {i : ℕ} {el : ℤ} :
    CoveredBy (us ++ vs) i el ↔ CoveredBy us i el ∨ CoveredBy vs i el := by
  simp only [CoveredBy, List.mem_append]
  constructor
  · rintro ⟨u, hu | hu, h⟩
    · exact Or.inl ⟨u, hu, h⟩
    · exact Or.inr ⟨u, hu, h⟩
  · rintro (⟨u, hu, h⟩ | ⟨u, hu, h⟩)
    · exact ⟨u, Or.inl hu, h⟩
    · exact ⟨u, Or.inr hu, h⟩

theorem coveredBy_onePairEach {P : List (ℕ × ℤ)} {i : ℕ} {el : ℤ} :
    CoveredBy (onePairEach P) i el ↔ (i, el) ∈ P := by
  simp only [CoveredBy, onePairEach, List.mem_map]
  constructor
  · rintro ⟨u, ⟨pr, hpr, rfl⟩, h1, h2⟩
    simp only [List.mem_singleton] at h1 h2
    rw [h1, h2]
    exact hpr
  · intro h
    exact ⟨_, ⟨(i, el), h, rfl⟩, by simp, by simp⟩

/-- The pairs of row and label that the call has still to look at. -/
def pairsLeft (newSet : List ℤ) : UpdPc → List (ℕ × ℤ)
  | .rows rs => rs ×ˢ newSet
  | .labels r els rs => els.map (Prod.mk r) ++ rs ×ˢ newSet
  | .forget r _ els rs => els.map (Prod.mk r) ++ rs ×ˢ newSet
  | _ => []

/-- The object after the pairs `P` had their weight taken away, and `Q` their counter. -/
def partState (space : List (Finset ℤ)) (newRows : List (List ℕ)) (us : List (List ℕ × List ℤ))
    (P Q : List (ℕ × ℤ)) : UState :=
  { stateAfter space newRows us with
    weights := (stateAfter space newRows (us ++ onePairEach P)).weights
    counters := (stateAfter space newRows (us ++ onePairEach Q)).counters }

theorem coveredElems_pair (us : List (List ℕ × List ℤ)) (P : List (ℕ × ℤ)) (r : ℕ) (el : ℤ) (i : ℕ) :
    coveredElems (us ++ onePairEach (P ++ [(r, el)])) i =
      if i = r then coveredElems (us ++ onePairEach P) i ∪ {el} else coveredElems (us ++ onePairEach P) i := by
  have : us ++ onePairEach (P ++ [(r, el)]) = (us ++ onePairEach P) ++ [([r], [el])] := by
    simp [onePairEach]
  rw [this, coveredElems_snoc]
  simp

/-- One label of one row: what it does to the weights and counters. -/
theorem pair_step (space : List (Finset ℤ)) (newRows : List (List ℕ)) (us : List (List ℕ × List ℤ))
    (P : List (ℕ × ℤ)) (r : ℕ) (el : ℤ) (hr : r < newRows.length) :
    ∃ c w, (stateAfter space newRows (us ++ onePairEach P)).counters[r]? = some c ∧
      (stateAfter space newRows (us ++ onePairEach P)).weights[r]? = some w ∧
      (stateAfter space newRows (us ++ onePairEach (P ++ [(r, el)]))).weights =
        (stateAfter space newRows (us ++ onePairEach P)).weights.set r (coverRow w c [el]).1 ∧
      (stateAfter space newRows (us ++ onePairEach (P ++ [(r, el)]))).counters =
        (stateAfter space newRows (us ++ onePairEach P)).counters.set r (coverRow w c [el]).2 ∧
      c = cOf (bagAt space newRows r) (coveredElems (us ++ onePairEach P) r) := by
  refine ⟨cOf (bagAt space newRows r) (coveredElems (us ++ onePairEach P) r),
    wOf (bagAt space newRows r) (coveredElems (us ++ onePairEach P) r), ?_, ?_, ?_, ?_, rfl⟩
  · simp [stateAfter, csOf, hr]
  · simp [stateAfter, wsOf, hr]
  · rw [coverRow_closed]
    simp only [stateAfter, wsOf]
    rw [range_map_set]
    apply List.map_congr_left
    intro i _
    rw [coveredElems_pair]
    by_cases h : i = r
    · subst h; simp
    · simp [h]
  · rw [coverRow_closed]
    simp only [stateAfter, csOf]
    rw [range_map_set]
    apply List.map_congr_left
    intro i _
    rw [coveredElems_pair]
    by_cases h : i = r
    · subst h; simp
    · simp [h]

/-- What is known of the object at a point. -/
def PointInv (space : List (Finset ℤ)) (newRows : List (List ℕ)) (us : List (List ℕ × List ℤ))
    (affected : List ℕ) (newSet : List ℤ) (pc : UpdPc) (obj : UState) : Prop :=
  ∃ P, P ++ pairsLeft newSet pc = affected ×ˢ newSet ∧ (∀ pr ∈ P, pr.1 < newRows.length) ∧
    match pc with
    | .rows _ | .labels _ _ _ | .normalise => obj = partState space newRows us P P
    | .forget r el _ _ => ∃ Q, P = Q ++ [(r, el)] ∧ obj = partState space newRows us P Q ∧
        r < newRows.length ∧ el ∈ bagAt space newRows r ∧ ¬ CoveredBy (us ++ onePairEach Q) r el
    | .record => obj = { partState space newRows us P P with probas := rowProbas (partState space newRows us P P).weights }
    | .returned => obj = { partState space newRows us P P with
        probas := rowProbas (partState space newRows us P P).weights
        history := us ++ [(affected, newSet)] }

theorem pointInv_step {space : List (Finset ℤ)} {newRows : List (List ℕ)} {us : List (List ℕ × List ℤ)}
    {affected : List ℕ} {newSet : List ℤ} {pc pc' : UpdPc} {obj obj' : UState}
    (h : PointInv space newRows us affected newSet pc obj)
    (hs : updStep affected newSet pc obj = .ok (pc', obj')) :
    PointInv space newRows us affected newSet pc' obj' := by
  obtain ⟨P, hP, hin, h⟩ := h
  match pc, h with
  | .rows [], h =>
    simp only [updStep] at hs
    cases hs
    exact ⟨P, by simpa [pairsLeft] using hP, hin, h⟩
  | .rows (r :: rs), h =>
    simp only [updStep] at hs
    cases hs
    exact ⟨P, by simpa [pairsLeft, List.product_cons] using hP, hin, h⟩
  | .labels r [] rs, h =>
    simp only [updStep] at hs
    cases hs
    exact ⟨P, by simpa [pairsLeft] using hP, hin, h⟩
  | .labels r (el :: els) rs, h =>
    simp only at h
    have hP' : (P ++ [(r, el)]) ++ (els.map (Prod.mk r) ++ rs ×ˢ newSet) = affected ×ˢ newSet := by
      rw [← hP]; simp [pairsLeft]
    subst h
    by_cases hr : r < newRows.length
    · have hin' : ∀ pr ∈ P ++ [(r, el)], pr.1 < newRows.length := by
        intro pr hpr
        rcases List.mem_append.mp hpr with h | h
        · exact hin pr h
        · rw [List.mem_singleton.mp h]; exact hr
      obtain ⟨c, w, hc, hw, h1, h2, hcof⟩ := pair_step space newRows us P r el hr
      have hc' : (partState space newRows us P P).counters[r]? = some c := hc
      have hw' : (partState space newRows us P P).weights[r]? = some w := hw
      rcases hn : c el with _ | n
      · simp only [updStep, hc', hn] at hs
        cases hs
        refine ⟨P ++ [(r, el)], hP', hin', ?_⟩
        simp only [partState]
        have e : coverRow w c [el] = (w, c) := by simp [coverRow, hn]
        rw [h1, h2, e, set_self hw, set_self hc]
      · simp only [updStep, hc', hn, hw'] at hs
        cases hs
        refine ⟨P ++ [(r, el)], hP', hin', P, rfl, ?_, hr, ?_, ?_⟩
        · have e : coverRow w c [el] = (w - n, c.del el) := by simp [coverRow, hn]
          simp only [partState]
          rw [h1, e]
        · rw [hcof] at hn
          by_contra hcon
          simp [cOf, hcon] at hn
        · rw [hcof] at hn
          intro hcon
          simp [cOf, (mem_coveredElems _ _ _).mpr hcon] at hn
    · have hc : (partState space newRows us P P).counters[r]? = none := by
        simp [partState, stateAfter, csOf]
        omega
      simp only [updStep, hc] at hs
      cases hs
  | .forget r el els rs, h =>
    obtain ⟨Q, rfl, rfl, hr, hbag, hcov⟩ := h
    obtain ⟨c, w, hc, hw, h1, h2, hcof⟩ := pair_step space newRows us Q r el hr
    have hc' : (partState space newRows us (Q ++ [(r, el)]) Q).counters[r]? = some c := hc
    simp only [updStep, hc'] at hs
    cases hs
    refine ⟨Q ++ [(r, el)], hP, hin, ?_⟩
    have e : (coverRow w c [el]).2 = c.del el := by
      have hn : c el = some ((bagAt space newRows r).count el) := by
        rw [hcof]
        simp only [cOf]
        rw [if_pos ⟨hbag, fun hcon => hcov ((mem_coveredElems _ _ _).mp hcon)⟩]
      simp [coverRow, hn]
    simp only [partState]
    rw [h2, e]
  | .normalise, h =>
    simp only [updStep] at hs
    cases hs
    exact ⟨P, hP, hin, by rw [h]⟩
  | .record, h =>
    simp only [updStep] at hs
    cases hs
    exact ⟨P, hP, hin, by rw [h]; rfl⟩
  | .returned, h =>
    simp only [updStep] at hs
    cases hs
    exact ⟨P, hP, hin, h⟩

theorem updPoint_inv {space : List (Finset ℤ)} {newRows : List (List ℕ)} {us : List (List ℕ × List ℤ)}
    {affected : List ℕ} {newSet : List ℤ} {pc : UpdPc} {obj : UState}
    (h : UpdPoint affected newSet (stateAfter space newRows us) pc obj) :
    PointInv space newRows us affected newSet pc obj := by
  induction h with
  | start => exact ⟨[], by simp [pairsLeft], by simp, by simp [partState, onePairEach]⟩
  | step h hs ih => exact pointInv_step ih hs

/-! ### Repeating the call -/

theorem coverRow_shift (d : ℤ) : ∀ (els : List ℤ) (w : ℤ) (c : Counter),
    coverRow (w + d) c els = ((coverRow w c els).1 + d, (coverRow w c els).2)
  | [], w, c => rfl
  | el :: els, w, c => by
    rw [coverRow, coverRow]
    rcases c el with _ | n
    · exact coverRow_shift d els w c
    · have : w + d - (n : ℤ) = (w - n) + d := by ring
      simp only
      rw [this]
      exact coverRow_shift d els (w - n) (c.del el)

theorem coverRows_shift (newSet : List ℤ) (k : ℕ) (d : ℤ) : ∀ (rows : List ℕ) (ws : List ℤ) (cs : List Counter),
    coverRows newSet rows (ws.modify k (· + d)) cs =
      (coverRows newSet rows ws cs).map fun x => (x.1.modify k (· + d), x.2)
  | [], ws, cs => rfl
  | r :: rs, ws, cs => by
    rw [coverRows, coverRows]
    split
    · exact coverRows_shift newSet k d rs ws cs
    · rcases hc : cs[r]? with _ | c
      · rcases (ws.modify k (· + d))[r]? with _ | _ <;> rcases ws[r]? with _ | _ <;> rfl
      · rcases hw : ws[r]? with _ | w
        · have : (ws.modify k (· + d))[r]? = none := by simp [List.getElem?_modify, hw]
          rw [this]; rfl
        · have h1 : (ws.modify k (· + d))[r]? = some (if k = r then w + d else w) := by
            rw [List.getElem?_modify, hw]
            by_cases hk : k = r <;> simp [hk]
          rw [h1]
          simp only
          have h2 : (ws.modify k (· + d)).set r (coverRow (if k = r then w + d else w) c newSet).1 =
              (ws.set r (coverRow w c newSet).1).modify k (· + d) := by
            apply List.ext_getElem?
            intro i
            rw [List.getElem?_set, List.getElem?_modify, List.getElem?_modify, List.getElem?_set]
            by_cases hi : r = i
            · subst hi
              have hr : r < ws.length := (List.getElem?_eq_some_iff.mp hw).1
              by_cases hk : k = r
              · simp [hk, hr, coverRow_shift]
              · simp [hk, hr]
            · simp [hi]
          have h3 : (coverRow (if k = r then w + d else w) c newSet).2 = (coverRow w c newSet).2 := by
            by_cases hk : k = r
            · simp [hk, coverRow_shift]
            · simp [hk]
          rw [h2, h3]
          exact coverRows_shift newSet k d rs _ _

/-- Covering everything after part of it was covered. -/
theorem coverRows_again (space : List (Finset ℤ)) (newRows : List (List ℕ)) (us : List (List ℕ × List ℤ))
    {affected : List ℕ} {newSet : List ℤ} {P : List (ℕ × ℤ)} (hP : ∀ pr ∈ P, pr ∈ affected ×ˢ newSet) :
    coverRows newSet affected (stateAfter space newRows (us ++ onePairEach P)).weights
        (stateAfter space newRows (us ++ onePairEach P)).counters =
      coverRows newSet affected (stateAfter space newRows us).weights (stateAfter space newRows us).counters := by
  by_cases hu : UpdateOk newRows (affected, newSet)
  · have h1 := coverRows_closed space newRows newSet affected (coveredElems us) hu
    have h2 := coverRows_closed space newRows newSet affected (coveredElems (us ++ onePairEach P)) hu
    simp only [stateAfter]
    rw [h1, h2]
    have e : (fun i => if i ∈ affected then coveredElems (us ++ onePairEach P) i ∪ newSet.toFinset
        else coveredElems (us ++ onePairEach P) i) =
        fun i => if i ∈ affected then coveredElems us i ∪ newSet.toFinset else coveredElems us i := by
      funext i
      ext el
      have hcov : (i, el) ∈ P → i ∈ affected ∧ el ∈ newSet := fun h => by
        simpa using hP _ h
      split
      · simp only [Finset.mem_union, mem_coveredElems, coveredBy_append, coveredBy_onePairEach, List.mem_toFinset]
        tauto
      · simp only [mem_coveredElems, coveredBy_append, coveredBy_onePairEach]
        tauto
    rw [e]
  · unfold UpdateOk at hu
    push Not at hu
    rw [coverRows_error, coverRows_error]
    · exact hu.1
    · simp [stateAfter, wsOf, csOf]
    · simpa [stateAfter, wsOf] using hu.2
    · exact hu.1
    · simp [stateAfter, wsOf, csOf]
    · simpa [stateAfter, wsOf] using hu.2

theorem count_eq_holders (space : List (Finset ℤ)) (newRows : List (List ℕ)) (i : ℕ) (el : ℤ) :
    (bagAt space newRows i).count el = holders space newRows i el := by
  rw [bagAt, count_bag, holders]
  induction newRows.getD i [] with
  | nil => rfl
  | cons id row ih =>
    rw [List.map_cons, List.sum_cons, ih, List.filter_cons]
    simp only [sampleAt]
    by_cases hm : el ∈ space.getD id ∅
    · simp only [hm, if_true, decide_true, List.length_cons]
      omega
    · simp only [hm, if_false, decide_false, Bool.false_eq_true]
      omega

end Verif
