/-
Property C64 (counts to probabilities) and the ground truth functions of the head sampler (C58).
-/
import Verif.Props.Head

namespace Verif

/-! ### C64 -/

/-- **C64** With a non-zero total every count is divided by the total; keys and their order are kept. -/
theorem C64_proportional {α : Type} (counter : List (α × ℚ)) (h : (counter.map Prod.snd).sum ≠ 0) :
    counter2proba counter = .ok (counter.map fun e => (e.1, e.2 / (counter.map Prod.snd).sum)) := by
  unfold counter2proba
  apply mapM_ok_of_forall
  intro e _
  rw [if_neg h]

/-- **C64** With counts that are not negative and not all zero the result is a probability distribution:
values between 0 and 1 whose sum is 1. -/
theorem C64_distribution {α : Type} (counter : List (α × ℚ)) (h0 : ∀ e ∈ counter, 0 ≤ e.2)
    (h : ∃ e ∈ counter, e.2 ≠ 0) :
    ∃ proba, counter2proba counter = .ok proba ∧ proba.map Prod.fst = counter.map Prod.fst ∧
      (∀ e ∈ proba, 0 ≤ e.2 ∧ e.2 ≤ 1) ∧ (proba.map Prod.snd).sum = 1 := by
  have hle : ∀ e ∈ counter, e.2 ≤ (counter.map Prod.snd).sum := fun e he =>
    List.single_le_sum (by simpa using fun a b hab => h0 (b, a) hab) _ (List.mem_map_of_mem he)
  obtain ⟨e, he, hne⟩ := h
  have hpos : 0 < (counter.map Prod.snd).sum :=
    lt_of_lt_of_le (lt_of_le_of_ne (h0 e he) (Ne.symm hne)) (hle e he)
  refine ⟨_, C64_proportional counter hpos.ne', by simp [Function.comp_def], ?_, ?_⟩
  · intro e' he'
    obtain ⟨e, he, rfl⟩ := List.mem_map.mp he'
    exact ⟨div_nonneg (h0 e he) hpos.le, (div_le_one hpos).mpr (hle e he)⟩
  · have : ((counter.map fun e => (e.1, e.2 / (counter.map Prod.snd).sum)).map Prod.snd).sum =
        (counter.map Prod.snd).sum / (counter.map Prod.snd).sum := by
      rw [List.map_map]
      have : ∀ (l : List (α × ℚ)) (t : ℚ), (l.map (Prod.snd ∘ fun e => (e.1, e.2 / t))).sum =
          (l.map Prod.snd).sum / t := by
        intro l t
        induction l with
        | nil => simp
        | cons a l ih => simp [ih, add_div]
      exact this _ _
    rw [this, div_self hpos.ne']

/-- **C64** No keys: an empty dictionary; keys with a zero total: `ZeroDivisionError`. -/
theorem C64_degenerate {α : Type} (counter : List (α × ℚ)) :
    (counter = [] → counter2proba counter = .ok []) ∧
    (counter ≠ [] → (counter.map Prod.snd).sum = 0 → counter2proba counter = .error .zeroDivisionError) := by
  constructor
  · rintro rfl; rfl
  · intro hne h
    unfold counter2proba
    cases counter with
    | nil => exact absurd rfl hne
    | cons a l => simp only [List.mapM_cons, if_pos h]; rfl

example : counter2proba [('a', (1 : ℚ)), ('b', 3)] = .ok [('a', 1 / 4), ('b', 3 / 4)] := by
  rw [C64_proportional _ (by norm_num)]
  norm_num

/-! ### Ground truth of the head sampler -/

open Cftp

theorem nodup_posIndices (y : List ℤ) : (posIndices y).Nodup := List.nodup_range.filter _
theorem nodup_negIndices (y : List ℤ) : (negIndices y).Nodup := List.nodup_range.filter _

/-- The tally over all pairs counts separating pairs. -/
theorem count_pairs {order : Finset ℕ → List ℕ} (ho : Traverses order) (rows : List (List ℕ)) {pos neg : List ℕ}
    (hp : pos.Nodup) (hn : neg.Nodup) (id : ℕ) :
    ((pos ×ˢ neg).flatMap fun pr => order (recordAt rows pr.1 \ recordAt rows pr.2)).count id =
      pairCount rows pos neg id := by
  rw [List.count_flatMap]
  have h1 : (pos ×ˢ neg).map (List.count id ∘ fun pr => order (recordAt rows pr.1 \ recordAt rows pr.2)) =
      (pos ×ˢ neg).map fun pr => if id ∈ recordAt rows pr.1 ∧ id ∉ recordAt rows pr.2 then 1 else 0 := by
    apply List.map_congr_left
    intro pr _
    simp only [Function.comp]
    obtain ⟨hnd, hm⟩ := ho (recordAt rows pr.1 \ recordAt rows pr.2)
    split
    · rename_i h
      exact List.count_eq_one_of_mem hnd ((hm id).mpr (Finset.mem_sdiff.mpr h))
    · rename_i h
      exact List.count_eq_zero_of_not_mem fun hc => h (Finset.mem_sdiff.mp ((hm id).mp hc))
  rw [h1, ← List.sum_toFinset _ (hp.product hn)]
  unfold pairCount
  rw [Finset.card_filter]
  apply Finset.sum_congr _ fun _ _ => rfl
  ext ⟨a, b⟩
  simp

theorem sum_tallyOf {α : Type} [DecidableEq α] (items : List α) :
    ((tallyOf items).map Prod.snd).sum = items.length := by
  have key : ∀ (items : List α) (l : List (α × ℕ)),
      ((items.foldl tallyAdd l).map Prod.snd).sum = (l.map Prod.snd).sum + items.length := by
    have add : ∀ (l : List (α × ℕ)) (k : α), ((tallyAdd l k).map Prod.snd).sum = (l.map Prod.snd).sum + 1 := by
      intro l k
      induction l with
      | nil => rfl
      | cons e r ih =>
        obtain ⟨a, n⟩ := e
        unfold tallyAdd
        split
        · simp; omega
        · simp [ih]; omega
    intro items
    induction items with
    | nil => simp
    | cons a r ih =>
      intro l
      rw [List.foldl_cons, ih, add]
      simp
      omega
  simpa [tallyOf] using key items []

/-- **C58** `get_ground_truth_proba_for_samples` after a fit never raises, and lists exactly the samples
that separate some pair, once each, with the number of separated pairs divided by the sum of these
numbers over the whole sample space. -/
theorem C58_ground_truth_samples (env : HeadEnv) (he : env.Good) (X : Cmp) (hX : X.Binary)
    (hd : X.nMinor < env.depth) (s s' : HeadSampler) (hs : HeadReach env X s) (y : List ℤ)
    (hf : headFit env s X y = .ok s') :
    ∃ rows space gt, s'.newRows = some rows ∧ s'.space = some space ∧
      groundTruthSamples env.order rows (posIndices y) (negIndices y) = .ok gt ∧
      (gt.map Prod.fst).Nodup ∧
      ∀ id q, (id, q) ∈ gt ↔ ∃ T, space[id]? = some T ∧ 0 < separations X y T ∧
        q = (separations X y T : ℚ) / ∑ U ∈ space.toFinset, (separations X y U : ℚ) := by
  have hi := headInv_of_reach he hX hd hs
  obtain ⟨g, space, hg, hb, hnd, hmem⟩ := buildSpaceAndRows_ok he s hX (columns_of_fit he hX hd hs hf) hd
  obtain ⟨space', hb', hy, hyl, rfl⟩ := inv_fit he hX hd hi hf
  rw [hb] at hb'
  cases hb'
  set rows := naiveNewRows X space with hrows
  have hok := naiveNewRows_ok X space
  set items := (posIndices y ×ˢ negIndices y).flatMap fun pr => env.order (recordAt rows pr.1 \ recordAt rows pr.2)
    with hitems
  have hcount : ∀ id, items.count id = pairCount rows (posIndices y) (negIndices y) id :=
    count_pairs he.1 rows (nodup_posIndices y) (nodup_negIndices y)
  have hcs : ∀ id (h : id < space.length), items.count id = separations X y space[id] := by
    intro id h
    rw [hcount, hrows, pairCount_eq hy hyl h, getD_lt h]
  have hlt : ∀ id ∈ items, id < space.length := by
    intro id hm
    rw [hitems, List.mem_flatMap] at hm
    obtain ⟨pr, -, hm⟩ := hm
    have h1 := ((he.1 _).2 id).mp hm
    exact Finset.mem_range.mp ((recordAt_ok hok pr.1).1 (Finset.mem_sdiff.mp h1).1)
  have hlen : items.length = ∑ U ∈ space.toFinset, separations X y U := by
    have h1 : items.length = ∑ id ∈ Finset.range space.length, items.count id := by
      have h2 : items.toFinset ⊆ Finset.range space.length := by
        intro id hm
        exact Finset.mem_range.mpr (hlt id (List.mem_toFinset.mp hm))
      rw [← List.sum_toFinset_count_eq_length]
      apply Finset.sum_subset h2
      intro id _ hn
      exact List.count_eq_zero_of_not_mem fun hc => hn (List.mem_toFinset.mpr hc)
    have h3 : ∑ id ∈ Finset.range space.length, items.count id =
        ∑ id ∈ Finset.range space.length, separations X y (space.getD id ∅) := by
      apply Finset.sum_congr rfl
      intro id hid
      have := Finset.mem_range.mp hid
      rw [hcs id this, getD_lt this]
    rw [h1, h3]
    have := sum_space hnd fun T => (separations X y T : ℝ)
    exact_mod_cast this
  have htotal : (((tallyOf items).map fun e => (e.1, (e.2 : ℚ))).map Prod.snd).sum =
      ∑ U ∈ space.toFinset, (separations X y U : ℚ) := by
    have h1 : ∀ l : List (ℕ × ℕ), ((l.map fun e => (e.1, (e.2 : ℚ))).map Prod.snd).sum =
        (((l.map Prod.snd).sum : ℕ) : ℚ) := by
      intro l
      induction l with
      | nil => simp
      | cons a l ih => simpa using ih
    rw [h1, sum_tallyOf, hlen]
    push_cast
    rfl
  have hmemt : ∀ id n, (id, n) ∈ tallyOf items ↔ ∃ T, space[id]? = some T ∧ 0 < separations X y T ∧
      n = separations X y T := by
    intro id n
    rw [mem_tallyOf]
    constructor
    · rintro ⟨hm, rfl⟩
      have h := hlt id hm
      refine ⟨space[id], by rw [List.getElem?_eq_getElem h], ?_, hcs id h⟩
      rw [← hcs id h]
      exact List.count_pos_iff.mpr hm
    · rintro ⟨T, hT, hpos, rfl⟩
      obtain ⟨h, rfl⟩ := List.getElem?_eq_some_iff.mp hT
      rw [← hcs id h] at hpos ⊢
      exact ⟨List.count_pos_iff.mp hpos, rfl⟩
  refine ⟨rows, space, ?_⟩
  by_cases h0 : (((tallyOf items).map fun e => (e.1, (e.2 : ℚ))).map Prod.snd).sum = 0
  · have hnil : items = [] := by
      have h1 : ((items.length : ℕ) : ℚ) = 0 := by
        rw [htotal] at h0
        rw [hlen]
        push_cast
        exact h0
      exact List.length_eq_zero_iff.mp (by exact_mod_cast h1)
    refine ⟨[], rfl, rfl, ?_, List.nodup_nil, ?_⟩
    · unfold groundTruthSamples
      rw [← hitems, hnil]
      rfl
    · intro id q
      constructor
      · intro h; cases h
      · rintro ⟨T, hT, hpos, -⟩
        have := (hmemt id _).mpr ⟨T, hT, hpos, rfl⟩
        rw [hnil] at this
        cases this
  · refine ⟨((tallyOf items).map fun e => (e.1, (e.2 : ℚ))).map fun e =>
        (e.1, e.2 / (((tallyOf items).map fun e => (e.1, (e.2 : ℚ))).map Prod.snd).sum), rfl, rfl, ?_, ?_, ?_⟩
    · unfold groundTruthSamples
      rw [← hitems]
      exact C64_proportional _ h0
    · have := (tallyOf_spec items).1
      simpa [Function.comp_def] using this
    · intro id q
      rw [htotal]
      simp only [List.map_map, List.mem_map, Function.comp, Prod.exists, Prod.mk.injEq]
      constructor
      · rintro ⟨a, n, hm, rfl, rfl⟩
        obtain ⟨T, hT, hpos, rfl⟩ := (hmemt _ _).mp hm
        exact ⟨T, hT, hpos, rfl⟩
      · rintro ⟨T, hT, hpos, rfl⟩
        exact ⟨id, _, (hmemt _ _).mpr ⟨T, hT, hpos, rfl⟩, rfl, rfl⟩

/-- **C58** `get_ground_truth_proba_for_pairs` after a fit: the weight of every (positive, negative) pair
of rows divided by the total weight; when no sample separates anything, `ZeroDivisionError`. -/
theorem C58_ground_truth_pairs (env : HeadEnv) (he : env.Good) (X : Cmp) (hX : X.Binary)
    (hd : X.nMinor < env.depth) (s s' : HeadSampler) (hs : HeadReach env X s) (y : List ℤ)
    (hf : headFit env s X y = .ok s') :
    ∃ rows space, s'.newRows = some rows ∧ s'.space = some space ∧
      ((∑ U ∈ space.toFinset, separations X y U = 0) →
        groundTruthPairs rows (posIndices y) (negIndices y) = .error .zeroDivisionError) ∧
      ((∑ U ∈ space.toFinset, separations X y U ≠ 0) →
        groundTruthPairs rows (posIndices y) (negIndices y) =
          .ok ((posIndices y ×ˢ negIndices y).map fun pr =>
            (pr, ((recordAt rows pr.1 \ recordAt rows pr.2).card : ℚ) /
              ∑ U ∈ space.toFinset, (separations X y U : ℚ)))) := by
  have hi := headInv_of_reach he hX hd hs
  obtain ⟨g, space, hg, hb, hnd, hmem⟩ := buildSpaceAndRows_ok he s hX (columns_of_fit he hX hd hs hf) hd
  obtain ⟨space', hb', hy, hyl, rfl⟩ := inv_fit he hX hd hi hf
  rw [hb] at hb'
  cases hb'
  set rows := naiveNewRows X space with hrows
  have htotal : (((posIndices y ×ˢ negIndices y).map fun pr =>
      (pr, ((recordAt rows pr.1 \ recordAt rows pr.2).card : ℚ))).map Prod.snd).sum =
      ((∑ U ∈ space.toFinset, separations X y U : ℕ) : ℚ) := by
    have h1 := (expect_headSampleOnce (tight := true) (s := {
        minProba := 0, doPrune := true, tight := true, space := some space, newRows := some rows,
        cftp := some (headCftp true space.length rows X.nMajor y), lists := reset })
      he hnd hy hyl rfl rfl rfl rfl fun _ => 0).1
    rw [List.map_map, ← List.sum_toFinset _ ((nodup_posIndices y).product (nodup_negIndices y))]
    have h2 : (posIndices y ×ˢ negIndices y).toFinset = (posIndices y).toFinset ×ˢ (negIndices y).toFinset := by
      ext ⟨a, b⟩; simp
    rw [h2, Finset.sum_product]
    unfold totalW at h1
    simp only [headCftp, discrimWeight] at h1
    simp only [Function.comp]
    exact_mod_cast h1
  have hne : (posIndices y ×ˢ negIndices y).map (fun pr =>
      (pr, ((recordAt rows pr.1 \ recordAt rows pr.2).card : ℚ))) ≠ [] := by
    have hm0 : (0 : ℤ) ∈ y := by rw [← List.mem_toFinset, hy]; simp
    have hm1 : (1 : ℤ) ∈ y := by rw [← List.mem_toFinset, hy]; simp
    obtain ⟨i, hi, e1⟩ := List.getElem_of_mem hm1
    obtain ⟨j, hj, e2⟩ := List.getElem_of_mem hm0
    have h1 : i ∈ posIndices y := mem_posIndices.mpr ⟨hi, by rw [getD_lt hi, e1]; norm_num⟩
    have h2 : j ∈ negIndices y := mem_negIndices.mpr ⟨hj, by rw [getD_lt hj, e2]⟩
    intro hnil
    have := List.mem_map_of_mem (f := fun pr : ℕ × ℕ =>
      (pr, ((recordAt rows pr.1 \ recordAt rows pr.2).card : ℚ))) (List.pair_mem_product.mpr ⟨h1, h2⟩)
    rw [show (posIndices y).product (negIndices y) = posIndices y ×ˢ negIndices y from rfl, hnil] at this
    cases this
  refine ⟨rows, space, rfl, rfl, ?_, ?_⟩
  · intro h0
    unfold groundTruthPairs
    exact (C64_degenerate _).2 hne (by rw [htotal, h0]; rfl)
  · intro h0
    unfold groundTruthPairs
    rw [C64_proportional _ (by rw [htotal]; exact_mod_cast h0), htotal, List.map_map]
    push_cast
    rfl

/-! ### Batches -/

theorem RandR.expect_const_mul {α : Type} (m : RandR α) (a : ℝ) (f : Py α → ℝ) :
    m.expect (fun x => a * f x) = a * m.expect f := by
  induction m with
  | done r => rfl
  | choice p k ih =>
    simp only [RandR.expect, ih, Finset.mul_sum]
    exact Finset.sum_congr rfl fun _ _ => by ring
  | unif k ih =>
    simp only [RandR.expect, ih]
    exact intervalIntegral.integral_const_mul _ _

/-- **C58** `sample(k)` after a fit: the `k` results are independent draws of `sample_once`, that is, the
probability of any list of results is the product of the probabilities of its entries. -/
theorem C58_batch (env : HeadEnv) (he : env.Good) (X : Cmp) (hX : X.Binary) (hd : X.nMinor < env.depth)
    (s s' : HeadSampler) (hs : HeadReach env X s) (y : List ℤ) (hf : headFit env s X y = .ok s')
    (ts : List (Option (Finset ℤ))) :
    (headSample env ts.length s').prob (.ok (ts, s')) =
      (ts.map fun t => (headSampleOnce env s').prob (.ok (t, s'))).prod := by
  classical
  have hi := headInv_of_reach he hX hd hs
  obtain ⟨g, space, hg, hb, hnd, hmem⟩ := buildSpaceAndRows_ok he s hX (columns_of_fit he hX hd hs hf) hd
  obtain ⟨space', hb', hy, hyl, hs'⟩ := inv_fit he hX hd hi hf
  rw [hb] at hb'
  cases hb'
  have hexp := expect_headSampleOnce (s := s') (tight := s.tight) he hnd hy hyl (by rw [hs']) (by rw [hs'])
    (by rw [hs']) (by rw [hs'])
  have congr : ∀ F G : Py (Option (Finset ℤ) × HeadSampler) → ℝ, (∀ t, F (.ok (t, s')) = G (.ok (t, s'))) →
      (headSampleOnce env s').expect F = (headSampleOnce env s').expect G := by
    intro F G h
    rw [(hexp F).2, (hexp G).2]
    simp only [h]
  induction ts with
  | nil => simp [RandR.prob, headSample, RandR.pure_eq, RandR.expect]
  | cons t ts ih =>
    rw [List.map_cons, List.prod_cons, ← ih]
    unfold RandR.prob
    rw [mul_comm, ← RandR.expect_const_mul, List.length_cons, headSample]
    rw [RandR.bind_eq, RandR.expect_bind]
    apply congr
    intro t'
    simp only [RandR.after, RandR.bind_eq, RandR.expect_bind]
    by_cases ht : t' = t
    · subst ht
      rw [if_pos rfl, mul_one]
      congr 1
      funext x
      rcases x with e | r
      · simp [RandR.after]
      · simp only [RandR.after, RandR.pure_eq, RandR.expect]
        obtain ⟨a, b⟩ := r
        simp
    · rw [if_neg (by simp [ht]), mul_zero]
      have : ∀ (m : RandR (List (Option (Finset ℤ)) × HeadSampler)),
          m.expect (fun _ => (0 : ℝ)) = 0 := by
        intro m
        simpa using RandR.expect_const_mul m 0 fun _ => 0
      refine Eq.trans ?_ (this (headSample env ts.length s'))
      congr 1
      funext x
      rcases x with e | r
      · simp [RandR.after]
      · simp [RandR.after, RandR.pure_eq, RandR.expect, ht]

end Verif
