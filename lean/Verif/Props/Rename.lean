/-
C152: the numbering of features and labels does not matter.
-/
import Verif.Lemmas.Rename
import Verif.Props.RowOrder
import Verif.Props.Predict
import Mathlib.Logic.Equiv.Basic

namespace Verif

open Cmp

/-- Training on the same data with other numbers for the features (`τ`) and the labels (`ρ`): whatever is asked of the
result of `fit`, it has the same probability as for the old numbers, up to the renumbering of the rules. Only the way
in which ties between best candidates are broken may see the numbers; it is assumed to treat both alike.
`GreedyCFTPDivMaxV2` and `GreedyCFTPDivMaxV3`. -/
theorem C152_fit (τ ρ : Equiv.Perm ℕ) (env env' : LearnEnv) (he : env.Good) (he' : env'.Good)
    (ho : OrdersRenumbered τ ρ env env') (hd : env.depth ≤ env'.depth) (X Y : Cmp) (hD : LearnData env X Y)
    (hτ : NumberingOf X τ) (hρ : NumberingOf Y ρ) (p : Params) (pf pl : ℚ) (fuel : ℕ)
    (E : Py (Option (List Rule × ℝ)) → Prop) :
    (learnFitV2 env' p (learnerV2 p) qualityOfRule (LearnObj.new pf pl) (X.renumber τ) (Y.renumber ρ) fuel).probOf
        (fun x => E (learned x)) =
      (learnFitV2 env p (learnerV2 p) qualityOfRule (LearnObj.new pf pl) X Y fuel).probOf
        (fun x => E (renumberLearned τ ρ (learned x))) ∧
    (learnFitV2 env' p (learnerV3 p) qualityOfRuleV3 (LearnObj.new pf pl) (X.renumber τ) (Y.renumber ρ) fuel).probOf
        (fun x => E (learned x)) =
      (learnFitV2 env p (learnerV3 p) qualityOfRuleV3 (LearnObj.new pf pl) X Y fuel).probOf
        (fun x => E (renumberLearned τ ρ (learned x))) := by
  have hX := renamed_renumber hD.features hτ
  have hY := renamed_renumber hD.labels hρ
  have hD' := renumber_data hD hd hτ hρ
  exact ⟨fitV2_renamed he he' ho hD hD' hX hY p pf pl fuel (blindR_objective blindR_quality _) (blindR_stopV2 p)
      blindR_quality E,
    fitV2_renamed he he' ho hD hD' hX hY p pf pl fuel (blindR_objective blindR_qualityV3 _) (blindR_stopV2 p)
      blindR_qualityV3 E⟩

/-- The same for `GreedyCFTPDivMax`, with its two rounds. -/
theorem C152_fit_divmax (τ ρ : Equiv.Perm ℕ) (env env' : LearnEnv) (he : env.Good) (he' : env'.Good)
    (ho : OrdersRenumbered τ ρ env env') (hd : env.depth ≤ env'.depth) (X Y : Cmp) (hD : LearnData env X Y)
    (hτ : NumberingOf X τ) (hρ : NumberingOf Y ρ) (p : Params) (pf pl : ℚ) (fuel : ℕ)
    (E : Py (Option (List Rule × ℝ × ℝ × ℝ × List Rule × List Rule)) → Prop) :
    (learnFitDivMax env' p (LearnObj.new pf pl) (X.renumber τ) (Y.renumber ρ) fuel).probOf
        (fun x => E (learnedDivMax x)) =
      (learnFitDivMax env p (LearnObj.new pf pl) X Y fuel).probOf
        (fun x => E (renumberDivMax τ ρ (learnedDivMax x))) :=
  fitDivMax_renamed he he' ho hD (renumber_data hD hd hτ hρ) (renamed_renumber hD.features hτ)
    (renamed_renumber hD.labels hρ) p pf pl fuel E

/-- Predicting with renumbered rules on renumbered records gives the renumbered predictions. -/
theorem C152_predict (τ ρ : Equiv.Perm ℕ) (rules : List Rule) (L : ℕ) (hL : ∀ j, ρ j < L ↔ j < L)
    (hr : ∀ r ∈ rules, ∀ l ∈ r.tail, 0 ≤ l ∧ l < L) (X : Cmp) : ∃ P P',
      predict rules (some L) X = .ok P ∧
      predict (rules.map (Rule.renumber τ ρ)) (some L) (X.renumber τ) = .ok P' ∧
      P.nMajor = X.nMajor ∧ P'.nMajor = X.nMajor ∧ P.nMinor = L ∧ P'.nMinor = L ∧
      ∀ i < X.nMajor, ∀ j < L, P'.val i (ρ j) = P.val i j := by
  have hst : ∀ i j, (X.renumber τ).Stored i (τ j) ↔ X.Stored i j := fun i j => by
    rw [← mem_segIdx, ← mem_segIdx, renumber_segIdx, List.mem_map_of_injective τ.injective]
  have hf : ∀ (r : Rule) (i : ℕ), Fires (X.renumber τ) (r.renumber τ ρ) i ↔ Fires X r i := by
    intro r i
    unfold Fires
    have key : ∀ x : ℤ, (0 ≤ newNumber τ x ∧ (X.renumber τ).Stored i (newNumber τ x).toNat) ↔
        0 ≤ x ∧ X.Stored i x.toNat := by
      intro x
      rw [newNumber_nonneg]
      refine and_congr_right fun hx => ?_
      obtain ⟨j, rfl⟩ := Int.eq_ofNat_of_zero_le hx
      rw [newNumber_cast, Int.toNat_natCast, Int.toNat_natCast, hst]
    constructor
    · intro h x hx
      exact (key x).mp (h _ ((mem_renumber_head r x).mpr hx))
    · intro h y hy
      obtain ⟨x, rfl⟩ := (numberPerm τ).surjective y
      exact (key x).mpr (h x ((mem_renumber_head r x).mp hy))
  obtain ⟨P, h1, h2, h3, -, h5⟩ := C14_predict_exact rules L X fun i _ r h _ => hr r h
  obtain ⟨P', h1', h2', h3', -, h5'⟩ := C14_predict_exact (rules.map (Rule.renumber τ ρ)) L (X.renumber τ) (by
    intro i _ r h _ l hl
    obtain ⟨s, hs, rfl⟩ := List.mem_map.mp h
    obtain ⟨x, rfl⟩ := (numberPerm ρ).surjective l
    obtain ⟨h0, h1⟩ := hr s hs x ((mem_renumber_tail s x).mp hl)
    obtain ⟨j, rfl⟩ := Int.eq_ofNat_of_zero_le h0
    change 0 ≤ newNumber ρ j ∧ newNumber ρ j < L
    rw [newNumber_cast]
    exact ⟨by positivity, by exact_mod_cast (hL j).mpr (by exact_mod_cast h1)⟩)
  refine ⟨P, P', h1, h1', h2, h2', h3, h3', fun i hi j hj => ?_⟩
  have hiff : (∃ r ∈ rules.map (Rule.renumber τ ρ), Fires (X.renumber τ) r i ∧ ((ρ j : ℕ) : ℤ) ∈ r.tail) ↔
      ∃ r ∈ rules, Fires X r i ∧ (j : ℤ) ∈ r.tail := by
    constructor
    · rintro ⟨_, h, hfi, hl⟩
      obtain ⟨r, hr', rfl⟩ := List.mem_map.mp h
      exact ⟨r, hr', (hf r i).mp hfi, (mem_renumber_tail r (j : ℤ)).mp hl⟩
    · rintro ⟨r, hr', hfi, hl⟩
      exact ⟨_, List.mem_map_of_mem hr', (hf r i).mpr hfi, (mem_renumber_tail r (j : ℤ)).mpr hl⟩
  by_cases hp : ∃ r ∈ rules, Fires X r i ∧ (j : ℤ) ∈ r.tail
  · rw [((h5 i hi j hj).1).mpr hp, ((h5' i hi (ρ j) ((hL j).mpr hj)).1).mpr (hiff.mpr hp)]
  · rw [((h5 i hi j hj).2).mpr hp, ((h5' i hi (ρ j) ((hL j).mpr hj)).2).mpr (fun h => hp (hiff.mp h))]

/-! ### The hypotheses can be met -/

/-- The example with the features 0 and 2 swapped, and the labels 0 and 1. -/
theorem train_numbering : NumberingOf trainX (Equiv.swap 0 2) ∧ NumberingOf trainY (Equiv.swap 0 1) := by
  have h : ∀ a b n : ℕ, a < n → b < n → ∀ j, Equiv.swap a b j < n ↔ j < n := by
    intro a b n ha hb j
    rw [Equiv.swap_apply_def]
    split
    · omega
    · split
      · omega
      · rfl
  exact ⟨h 0 2 3 (by omega) (by omega), h 0 1 2 (by omega) (by omega)⟩

/-- The second record, `{0}`, becomes `{2}`; the first, `{0, 1}`, is stored as `2, 1`. -/
example : (trainX.renumber (Equiv.swap 0 2)).segIdx 1 = [2] ∧ (trainX.renumber (Equiv.swap 0 2)).segIdx 0 = [2, 1] := by
  decide

/-- The rule `{0, 1} → {0}` becomes `{1, 2} → {1}`. -/
example : Rule.renumber (Equiv.swap 0 2) (Equiv.swap 0 1) ⟨[0, 1], [0]⟩ = Rule.new [1, 2] [1] := by
  unfold Rule.renumber
  rw [Rule.new_eq_iff]
  decide

theorem someLearnEnv_renumbered (τ ρ : Equiv.Perm ℕ) (d d' : ℕ) :
    OrdersRenumbered τ ρ (someLearnEnv d) (someLearnEnv d') := fun _ _ h => h

example (p : Params) (pf pl : ℚ) (fuel : ℕ) (E : Py (Option (List Rule × ℝ)) → Prop) :
    (learnFitV2 (someLearnEnv 10) p (learnerV2 p) qualityOfRule (LearnObj.new pf pl) (trainX.renumber (Equiv.swap 0 2))
        (trainY.renumber (Equiv.swap 0 1)) fuel).probOf (fun x => E (learned x)) =
      (learnFitV2 (someLearnEnv 10) p (learnerV2 p) qualityOfRule (LearnObj.new pf pl) trainX trainY fuel).probOf
        (fun x => E (renumberLearned (Equiv.swap 0 2) (Equiv.swap 0 1) (learned x))) :=
  (C152_fit _ _ (someLearnEnv 10) (someLearnEnv 10) (someLearnEnv_good 10) (someLearnEnv_good 10)
    (someLearnEnv_renumbered _ _ 10 10) le_rfl trainX trainY train_data train_numbering.1 train_numbering.2 p pf pl
    fuel E).1

end Verif
