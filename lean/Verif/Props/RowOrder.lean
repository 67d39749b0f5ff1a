/-
C150: the order of the training records does not matter.
C151: the learned rules depend only on which record has which features and labels.
C153: repeating all records is the same as dividing the weight of diversity.
-/
import Verif.Lemmas.RowOrder

namespace Verif

/-- Training on the records in another order: whatever is asked of the result of `fit`, the exception it raised, or
the rules it learned in the order of their selection and the objective, has the same probability.
`GreedyCFTPDivMaxV2` and `GreedyCFTPDivMaxV3`. -/
theorem C150_fit (env : LearnEnv) (he : env.Good) (ho : OrdersAlike env env) (X Y : Cmp) (hD : LearnData env X Y)
    (order : List ℕ) (hord : OrderOf Y order) (p : Params) (pf pl : ℚ) (fuel : ℕ)
    (E : Py (Option (List Rule × ℝ)) → Prop) :
    (learnFitV2 env p (learnerV2 p) qualityOfRule (LearnObj.new pf pl) (X.reorder order) (Y.reorder order)
        fuel).probOf (fun x => E (learned x)) =
      (learnFitV2 env p (learnerV2 p) qualityOfRule (LearnObj.new pf pl) X Y fuel).probOf (fun x => E (learned x)) ∧
    (learnFitV2 env p (learnerV3 p) qualityOfRuleV3 (LearnObj.new pf pl) (X.reorder order) (Y.reorder order)
        fuel).probOf (fun x => E (learned x)) =
      (learnFitV2 env p (learnerV3 p) qualityOfRuleV3 (LearnObj.new pf pl) X Y fuel).probOf
        (fun x => E (learned x)) := by
  have hX := copies_reorder Nat.one_pos hord.copies hD.features hD.rows
  have hY := copies_reorder Nat.one_pos hord.copies hD.labels rfl
  exact fit_same_law he he ho hD (reorder_data hD Nat.one_pos hord.copies) hX hY p pf pl fuel E

/-- The same for `GreedyCFTPDivMax`, with its two rounds. -/
theorem C150_fit_divmax (env : LearnEnv) (he : env.Good) (ho : OrdersAlike env env) (X Y : Cmp) (hD : LearnData env X Y)
    (order : List ℕ) (hord : OrderOf Y order) (p : Params) (pf pl : ℚ) (fuel : ℕ)
    (E : Py (Option (List Rule × ℝ × ℝ × ℝ × List Rule × List Rule)) → Prop) :
    (learnFitDivMax env p (LearnObj.new pf pl) (X.reorder order) (Y.reorder order) fuel).probOf
        (fun x => E (learnedDivMax x)) =
      (learnFitDivMax env p (LearnObj.new pf pl) X Y fuel).probOf (fun x => E (learnedDivMax x)) := by
  exact fit_same_law_divmax he he ho hD (reorder_data hD Nat.one_pos hord.copies)
    (copies_reorder Nat.one_pos hord.copies hD.features hD.rows)
    (copies_reorder Nat.one_pos hord.copies hD.labels rfl) p pf pl fuel E

/-- Two machines that traverse sets of features, labels and rows and list the samples in different orders, and two
sparse representations of the same records, of which the second may have more (empty) columns: the results of `fit`
have the same law. `GreedyCFTPDivMaxV2` and `GreedyCFTPDivMaxV3`. -/
theorem C151_fit (env env' : LearnEnv) (he : env.Good) (he' : env'.Good) (ho : OrdersAlike env env') (X Y X' Y' : Cmp)
    (hD : LearnData env X Y) (hD' : LearnData env' X' Y') (hX : SameRecords X X') (hY : SameRecords Y Y') (p : Params)
    (pf pl : ℚ) (fuel : ℕ) (E : Py (Option (List Rule × ℝ)) → Prop) :
    (learnFitV2 env p (learnerV2 p) qualityOfRule (LearnObj.new pf pl) X Y fuel).probOf (fun x => E (learned x)) =
      (learnFitV2 env' p (learnerV2 p) qualityOfRule (LearnObj.new pf pl) X' Y' fuel).probOf
        (fun x => E (learned x)) ∧
    (learnFitV2 env p (learnerV3 p) qualityOfRuleV3 (LearnObj.new pf pl) X Y fuel).probOf (fun x => E (learned x)) =
      (learnFitV2 env' p (learnerV3 p) qualityOfRuleV3 (LearnObj.new pf pl) X' Y' fuel).probOf
        (fun x => E (learned x)) :=
  (fit_same_law he he' ho hD hD' hX.copies hY.copies p pf pl fuel E).imp Eq.symm Eq.symm

/-- The same for `GreedyCFTPDivMax`, with its two rounds. -/
theorem C151_fit_divmax (env env' : LearnEnv) (he : env.Good) (he' : env'.Good) (ho : OrdersAlike env env')
    (X Y X' Y' : Cmp) (hD : LearnData env X Y) (hD' : LearnData env' X' Y') (hX : SameRecords X X')
    (hY : SameRecords Y Y') (p : Params) (pf pl : ℚ) (fuel : ℕ)
    (E : Py (Option (List Rule × ℝ × ℝ × ℝ × List Rule × List Rule)) → Prop) :
    (learnFitDivMax env p (LearnObj.new pf pl) X Y fuel).probOf (fun x => E (learnedDivMax x)) =
      (learnFitDivMax env' p (LearnObj.new pf pl) X' Y' fuel).probOf (fun x => E (learnedDivMax x)) :=
  (fit_same_law_divmax he he' ho hD hD' hX.copies hY.copies p pf pl fuel E).symm

/-- Training on data in which every record occurs `k` times as often, in any order, with `lambd` multiplied by `k`:
whatever is asked of the result of `fit`, the exception it raised, or the rules it learned in the order of their
selection and the objective, has the same probability as for the original data, once the objective is multiplied by
`k`. `GreedyCFTPDivMaxV2`; for `GreedyCFTPDivMaxV3`, whose quality has the square root of the coverage, the factor
of `lambd` and of the objective is the square root of `k`. -/
theorem C153_fit (env : LearnEnv) (he : env.Good) (ho : OrdersAlike env env) (X Y : Cmp) (hD : LearnData env X Y)
    (k : ℕ) (hk : 0 < k) (order : List ℕ) (hord : CopiesOf k Y order) (p : Params) (pf pl : ℚ) (fuel : ℕ)
    (E : Py (Option (List Rule × ℝ)) → Prop) :
    (learnFitV2 env { p with lambd := k * p.lambd } (learnerV2 { p with lambd := k * p.lambd }) qualityOfRule
        (LearnObj.new pf pl) (X.reorder order) (Y.reorder order) fuel).probOf (fun x => E (learned x)) =
      (learnFitV2 env p (learnerV2 p) qualityOfRule (LearnObj.new pf pl) X Y fuel).probOf
        (fun x => E (scaleLearned k (learned x))) ∧
    (learnFitV2 env { p with lambd := Real.sqrt k * p.lambd } (learnerV3 { p with lambd := Real.sqrt k * p.lambd })
        qualityOfRuleV3 (LearnObj.new pf pl) (X.reorder order) (Y.reorder order) fuel).probOf
        (fun x => E (learned x)) =
      (learnFitV2 env p (learnerV3 p) qualityOfRuleV3 (LearnObj.new pf pl) X Y fuel).probOf
        (fun x => E (scaleLearned (Real.sqrt k) (learned x))) := by
  have hX := copies_reorder hk hord hD.features hD.rows
  have hY := copies_reorder hk hord hD.labels rfl
  have hD' := reorder_data hD hk hord
  exact ⟨(fitV2_law he he ho hD hD' hX hY p pf pl fuel (Nat.cast_pos.mpr hk) (scaled_objective scaled_quality _)
      (blind_stopV2 p _) scaled_quality E).symm,
    (fitV2_law he he ho hD hD' hX hY p pf pl fuel (Real.sqrt_pos.mpr (Nat.cast_pos.mpr hk))
      (scaled_objective scaled_qualityV3 _) (blind_stopV2 p _) scaled_qualityV3 E).symm⟩

/-- The same for `GreedyCFTPDivMax`, with its two rounds; its tolerance, a share of the label occurrences, stays as it
is. -/
theorem C153_fit_divmax (env : LearnEnv) (he : env.Good) (ho : OrdersAlike env env) (X Y : Cmp) (hD : LearnData env X Y)
    (k : ℕ) (hk : 0 < k) (order : List ℕ) (hord : CopiesOf k Y order) (p : Params) (pf pl : ℚ) (fuel : ℕ)
    (E : Py (Option (List Rule × ℝ × ℝ × ℝ × List Rule × List Rule)) → Prop) :
    (learnFitDivMax env { p with lambd := k * p.lambd } (LearnObj.new pf pl) (X.reorder order) (Y.reorder order)
        fuel).probOf (fun x => E (learnedDivMax x)) =
      (learnFitDivMax env p (LearnObj.new pf pl) X Y fuel).probOf (fun x => E (scaleDivMax k (learnedDivMax x))) :=
  (fitDivMax_law he he ho hD (reorder_data hD hk hord) (copies_reorder hk hord hD.features hD.rows)
    (copies_reorder hk hord hD.labels rfl) p pf pl fuel E).symm

/-! ### The hypotheses can be met -/

theorem someLearnEnv_orders (d d' : ℕ) : OrdersAlike (someLearnEnv d) (someLearnEnv d') := fun _ _ h => h

/-- The records of the examples, last first; row 0 is then `{0, 1, 2}`. -/
example : OrderOf trainY [3, 2, 1, 0] ∧ (trainX.reorder [3, 2, 1, 0]).segIdx 0 = [0, 1, 2] ∧
    (trainX.reorder [3, 2, 1, 0]).segIdx 2 = [0] := by
  refine ⟨?_, by decide, by decide⟩
  unfold OrderOf
  decide

example (p : Params) (pf pl : ℚ) (fuel : ℕ) (E : Py (Option (List Rule × ℝ)) → Prop) :
    (learnFitV2 (someLearnEnv 10) p (learnerV2 p) qualityOfRule (LearnObj.new pf pl) (trainX.reorder [3, 2, 1, 0])
        (trainY.reorder [3, 2, 1, 0]) fuel).probOf (fun x => E (learned x)) =
      (learnFitV2 (someLearnEnv 10) p (learnerV2 p) qualityOfRule (LearnObj.new pf pl) trainX trainY fuel).probOf
        (fun x => E (learned x)) :=
  (C150_fit (someLearnEnv 10) (someLearnEnv_good 10) (someLearnEnv_orders 10 10) trainX trainY train_data [3, 2, 1, 0]
    (by unfold OrderOf; decide) p pf pl fuel E).1

/-- The records of the examples, three times each. -/
example (p : Params) (pf pl : ℚ) (fuel : ℕ) (E : Py (Option (List Rule × ℝ)) → Prop) :
    (learnFitV2 (someLearnEnv 10) { p with lambd := 3 * p.lambd } (learnerV2 { p with lambd := 3 * p.lambd })
        qualityOfRule (LearnObj.new pf pl) (trainX.reorder [0, 1, 2, 3, 3, 3, 2, 2, 1, 0, 1, 0])
        (trainY.reorder [0, 1, 2, 3, 3, 3, 2, 2, 1, 0, 1, 0]) fuel).probOf (fun x => E (learned x)) =
      (learnFitV2 (someLearnEnv 10) p (learnerV2 p) qualityOfRule (LearnObj.new pf pl) trainX trainY fuel).probOf
        (fun x => E (scaleLearned 3 (learned x))) := by
  have h : CopiesOf 3 trainY [0, 1, 2, 3, 3, 3, 2, 2, 1, 0, 1, 0] := by
    intro i
    by_cases hi : i < 4
    · interval_cases i <;> decide
    · rw [if_neg (show ¬ i < trainY.nMajor from hi), List.count_eq_zero]
      intro hm
      apply hi
      simp only [List.mem_cons, List.not_mem_nil, or_false] at hm
      omega
  have := (C153_fit (someLearnEnv 10) (someLearnEnv_good 10) (someLearnEnv_orders 10 10) trainX trainY train_data 3
    (by decide) _ h p pf pl fuel E).1
  simpa using this

/-- The features of the examples with unsorted rows and two columns that no record has. -/
def wideX : Cmp :=
  { nMajor := 4, nMinor := 5, indptr := [0, 2, 3, 5, 8], indices := [1, 0, 0, 2, 1, 2, 0, 1],
    data := [1, 1, 1, 1, 1, 1, 1, 1] }

theorem wideX_binary : wideX.Binary :=
  { len_indptr := by decide, ptr_zero := by decide, ptr_mono := by decide, ptr_last := by decide,
    len_data := by decide, idx_lt := by decide, data_one := by decide, nodup := by decide }

theorem wideX_same : SameRecords trainX wideX := by
  refine ⟨wideX_binary, rfl, by decide, fun i j => ?_⟩
  by_cases hi : i < 4
  · have h1 : ∀ i < 4, (wideX.segIdx i).toFinset = (trainX.segIdx i).toFinset := by decide
    rw [← Cmp.mem_segIdx, ← Cmp.mem_segIdx, ← List.mem_toFinset, h1 i hi, List.mem_toFinset]
  · constructor
    · intro h
      exact absurd (h.major_lt wideX_binary.toWF) hi
    · intro h
      exact absurd (h.major_lt trainX_binary.toWF) hi

/-- The same machine with a larger recursion limit that traverses sets backwards. -/
noncomputable def otherLearnEnv : LearnEnv :=
  { someLearnEnv 20 with orderZ := fun S => ((someLearnEnv 20).orderZ S).reverse }

theorem otherLearnEnv_good : otherLearnEnv.Good :=
  ⟨(someLearnEnv_good 20).heads, fun S => ⟨List.nodup_reverse.mpr ((someLearnEnv_good 20).ints S).1,
    fun x => by rw [show otherLearnEnv.orderZ S = ((someLearnEnv 20).orderZ S).reverse from rfl, List.mem_reverse,
      ((someLearnEnv_good 20).ints S).2]⟩⟩

example (p : Params) (pf pl : ℚ) (fuel : ℕ) (E : Py (Option (List Rule × ℝ)) → Prop) :
    (learnFitV2 (someLearnEnv 10) p (learnerV2 p) qualityOfRule (LearnObj.new pf pl) trainX trainY fuel).probOf
        (fun x => E (learned x)) =
      (learnFitV2 otherLearnEnv p (learnerV2 p) qualityOfRule (LearnObj.new pf pl) wideX trainY fuel).probOf
        (fun x => E (learned x)) :=
  (C151_fit (someLearnEnv 10) otherLearnEnv (someLearnEnv_good 10) otherLearnEnv_good (fun _ _ h => h) trainX trainY
    wideX trainY train_data
    ⟨wideX_binary, trainY_binary, rfl, by decide, by decide, by decide, by decide, by decide⟩ wideX_same
    ⟨trainY_binary, rfl, le_rfl, fun _ _ => Iff.rfl⟩ p pf pl fuel E).1

end Verif
