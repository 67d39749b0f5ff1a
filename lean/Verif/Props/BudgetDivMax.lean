/-
What a greater rule budget changes for the two-round learner.
-/
import Verif.Props.Tolerance

namespace Verif

/-- **C164** A greater budget makes `fit` of a new `GreedyCFTPDivMax` raise at least as often. -/
theorem C164_raises_divmax (env : LearnEnv) (he : env.Good) (X Y : Cmp) (hD : LearnData env X Y)
    (hlab : ∃ i l, Y.Stored i l) (pf pl : ℚ) (p : Params) (k k' : ℕ) (hkk : k ≤ k') (fuel : ℕ) :
    (learnFitDivMax env { p with nMaxRules := some k } (LearnObj.new pf pl) X Y fuel).probOf (fun x => ∃ e, x = .error e) ≤
      (learnFitDivMax env { p with nMaxRules := some k' } (LearnObj.new pf pl) X Y fuel).probOf
        (fun x => ∃ e, x = .error e) := by
  classical
  have hlr : ∀ k, LearnerTotal X Y (learnerDivMax { p with nMaxRules := some k } Y) := fun k =>
    total_DivMax hD.features.toWF hD.labels hD.rows _
  obtain ⟨s, hs, hi⟩ := start_inv he hD pf pl
  rw [(divmax_of_loop he hD hlab (p := { p with nMaxRules := some k }) fuel).2,
    (divmax_of_loop he hD hlab (p := { p with nMaxRules := some k' }) fuel).2]
  have hd := fun k => learnRun_discrete he hD pf pl (hlr k) (p := { p with nMaxRules := some k }) fuel
  have hnot := fun k => (hd k).probOf_not fun x => ∃ e, x = .error e
  have hle : (learnRun env { p with nMaxRules := some k' } (learnerDivMax { p with nMaxRules := some k' } Y)
        (LearnObj.new pf pl) X Y fuel).probOf (fun x => ¬ ∃ e, x = .error e) ≤
      (learnRun env { p with nMaxRules := some k } (learnerDivMax { p with nMaxRules := some k } Y)
        (LearnObj.new pf pl) X Y fuel).probOf (fun x => ¬ ∃ e, x = .error e) := by
    rw [learnRun_new hs, learnRun_new hs]
    refine loop_budget he hD (p := { p with nMaxRules := some k }) (p' := { p with nMaxRules := some k' }) rfl rfl (hlr k)
      (hlr k') rfl hkk (fun sel b => rfl) (fun sel b => rfl) (fun e => le_rfl) le_rfl ?_ ?_ ?_ fuel _ hi (Nat.zero_le _)
    · intro st st' _
      rw [if_pos (by rintro ⟨_, e⟩; cases e), if_pos (by rintro ⟨_, e⟩; cases e)]
    · intro e st
      rw [if_pos (c := ¬ ∃ e, Except.ok (some st) = Except.error e) (by rintro ⟨_, e⟩; cases e)]
      split_ifs <;> norm_num
    · intro st
      rw [if_pos (by rintro ⟨_, e⟩; cases e), if_pos (by rintro ⟨_, e⟩; cases e)]
  linarith [hnot k, hnot k']

/-- **C164** On data on which no fit raises, the first `k` rules of the first round of `GreedyCFTPDivMax` with a greater
budget have exactly the law of the first round with budget `k`. -/
theorem C164_exact_divmax (env : LearnEnv) (he : env.Good) (X Y : Cmp) (hD : LearnData env X Y)
    (hlab : ∃ i l, Y.Stored i l) (pf pl : ℚ) (p : Params) (ht : 0 < p.nTails) (hh : 0 < p.nHeads)
    (h1 : ¬ SharedFeature X Y) (h2 : ¬ FeaturelessTail X Y pl) (h3 : ¬ UniversalLabel Y) (k k' : ℕ) (hkk : k ≤ k')
    (fuel : ℕ) (hf : k' < fuel) (E : List BRule → Prop) :
    (learnFitDivMax env { p with nMaxRules := some k' } (LearnObj.new pf pl) X Y fuel).probOf
        (fun x => ∃ o res, x = .ok (some (o, res)) ∧ E (res.round1.take k)) =
      (learnFitDivMax env { p with nMaxRules := some k } (LearnObj.new pf pl) X Y fuel).probOf
        (fun x => ∃ o res, x = .ok (some (o, res)) ∧ E res.round1) := by
  classical
  have hlr : ∀ k, LearnerTotal X Y (learnerDivMax { p with nMaxRules := some k } Y) := fun k =>
    total_DivMax hD.features.toWF hD.labels hD.rows _
  obtain ⟨s, hs, hi⟩ := start_inv he hD pf pl
  have hfit := fun k => (divmax_of_loop he hD hlab (pf := pf) (pl := pl) (p := { p with nMaxRules := some k }) fuel).1
  have hd := fun k => learnRun_discrete he hD pf pl (hlr k) (p := { p with nMaxRules := some k }) fuel
  have hpre := C164_prefix_divmax env he X Y hD hlab pf pl p k k' hkk fuel
  refine le_antisymm (hpre E) ?_
  have hno := hpre fun l => ¬ E l
  rw [hfit k' fun l => ¬ E (l.take k), hfit k fun l => ¬ E l] at hno
  rw [hfit k' fun l => E (l.take k), hfit k E]
  have hret : ∀ x, (learnRun env { p with nMaxRules := some k' } (learnerDivMax { p with nMaxRules := some k' } Y)
      (LearnObj.new pf pl) X Y fuel).Outcome x → ∃ st, x = .ok (some st) := by
    intro x hx
    have hx' := hx
    rw [learnRun_new hs] at hx'
    rcases learnLoop_outcome he hD (hlr k') fuel _ _ hi.inv hx' with rfl | ⟨st', rfl, -⟩ | rfl | ⟨rfl, hu⟩ | ⟨rfl, hz⟩
    · exact absurd hx' (loop_ends (k := k') (fun sel b => rfl) fuel _ (by simpa using hf) (Nat.zero_le _))
    · exact ⟨st', rfl⟩
    · rcases (C83_loop_type_error_iff env he X Y hD pf pl { p with nMaxRules := some k' } ht hh _ (hlr k') fuel
        (by omega)).mp hx with h | h
      · exact absurd h h1
      · exact absurd h h2
    · exact absurd hu h3
    · rcases hz with hz | hz
      · exact absurd hz ht.ne'
      · exact absurd hz hh.ne'
  have hsum' : 1 ≤ (learnRun env { p with nMaxRules := some k' } (learnerDivMax { p with nMaxRules := some k' } Y)
        (LearnObj.new pf pl) X Y fuel).probOf (fun x => ∃ st, x = .ok (some st) ∧ E (st.selected.take k)) +
      (learnRun env { p with nMaxRules := some k' } (learnerDivMax { p with nMaxRules := some k' } Y)
        (LearnObj.new pf pl) X Y fuel).probOf (fun x => ∃ st, x = .ok (some st) ∧ ¬ E (st.selected.take k)) := by
    rw [← (hd k').probOf_one (E := fun _ => True) fun _ _ => trivial]
    refine (hd k').probOf_or fun x hx _ => ?_
    obtain ⟨st, rfl⟩ := hret x hx
    by_cases hE : E (st.selected.take k)
    · exact Or.inl ⟨st, rfl, hE⟩
    · exact Or.inr ⟨st, rfl, hE⟩
  have hsum : (learnRun env { p with nMaxRules := some k } (learnerDivMax { p with nMaxRules := some k } Y)
        (LearnObj.new pf pl) X Y fuel).probOf (fun x => ∃ st, x = .ok (some st) ∧ ¬ E st.selected) ≤
      1 - (learnRun env { p with nMaxRules := some k } (learnerDivMax { p with nMaxRules := some k } Y)
        (LearnObj.new pf pl) X Y fuel).probOf (fun x => ∃ st, x = .ok (some st) ∧ E st.selected) := by
    rw [← (hd k).probOf_not]
    refine (hd k).probOf_mono fun x _ hx => ?_
    rintro ⟨st, rfl, hE⟩
    obtain ⟨st', e, hE'⟩ := hx
    cases e
    exact hE' hE
  linarith

/-- Two rows with features {0}, {1} and labels {0}, {1}: the first of at most two rules has the law of the only one. -/
example (pf pl : ℚ) (E : List BRule → Prop) :
    (learnFitDivMax (someLearnEnv 10) { demoParams with nMaxRules := some 2 } (LearnObj.new pf pl) eyeData eyeData 3).probOf
        (fun x => ∃ o res, x = .ok (some (o, res)) ∧ E (res.round1.take 1)) =
      (learnFitDivMax (someLearnEnv 10) { demoParams with nMaxRules := some 1 } (LearnObj.new pf pl) eyeData eyeData
        3).probOf (fun x => ∃ o res, x = .ok (some (o, res)) ∧ E res.round1) :=
  C164_exact_divmax _ (someLearnEnv_good 10) eyeData eyeData eye_data ⟨0, 0, by decide⟩ pf pl demoParams Nat.one_pos
    Nat.one_pos (eye_clean pl).1 (eye_clean pl).2.1 (eye_clean pl).2.2 1 2 (by norm_num) 3 (by norm_num) E

end Verif
