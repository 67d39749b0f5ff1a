/-
C140: the head sampler with the original proposal in double precision.

C132 is about the default proposal, whose weights are integers. The weights of the original proposal are square roots.
The theorems here bound the effect of rounding them, their sums, their products and everything else that the
program computes from them.
-/
import Verif.Lemmas.FloatOriginal
import Verif.Props.FloatBoley

namespace Verif

open Cftp RandR

/-! ### Reachable states -/

/-- What holds of every reachable state. -/
def HeadInvD (env : HeadEnv) (X : Cmp) (s : HeadSamplerD) : Prop :=
  s.space = none ∨ ∃ space rows, s.space = some space ∧ s.newRows = some rows ∧
    buildSpaceAndRows env s.parts X = .ok (space, rows)

theorem spaceAndRowsD_eq {env : HeadEnv} {X : Cmp} {s : HeadSamplerD} (hi : HeadInvD env X s) :
    spaceAndRows env s.parts X = buildSpaceAndRows env s.parts X := by
  unfold spaceAndRows
  show (match s.space, s.newRows with
    | none, _ => _
    | some _, none => _
    | some space, some rows => _) = _
  rcases hi with h1 | ⟨space, rows, h1, h2, h3⟩
  · rw [h1]
  · rw [h1, h2, h3]

theorem headFitD_inv {env : HeadEnv} {s s' : HeadSamplerD} {X : Cmp} {y : List ℤ} (h : headFitD env s X y = .ok s') :
    y.toFinset = {0, 1} ∧ y.length ≤ X.nMajor ∧ ∃ space rows, spaceAndRows env s.parts X = .ok (space, rows) := by
  unfold headFitD checkLabels at h
  by_cases hy : y.toFinset = {0, 1}
  · rw [if_pos hy] at h
    simp only [Bind.bind, Except.bind] at h
    cases hsr : spaceAndRows env s.parts X with
    | error e => rw [hsr] at h; cases h
    | ok sr =>
      rw [hsr] at h
      simp only at h
      cases hw : (List.range X.nMajor).mapM (headWeightD sr.1.length sr.2 (posIndices y)) with
      | error e => rw [hw] at h; cases h
      | ok w =>
        rw [hw] at h
        simp only at h
        cases hk : checkKeys X.nMajor (posIndices y ++ negIndices y) with
        | error e => rw [hk] at h; cases h
        | ok u =>
          refine ⟨hy, ?_, sr.1, sr.2, rfl⟩
          unfold checkKeys at hk
          split at hk
          · rename_i hkeys
            by_contra hlt
            have hb : X.nMajor < y.length := by omega
            have hv : y.getD X.nMajor 0 ∈ y := by rw [getD_lt hb]; exact List.getElem_mem _
            rw [← List.mem_toFinset, hy] at hv
            rcases Finset.mem_insert.mp hv with h1 | h1
            · exact absurd (hkeys _ (List.mem_append_right _ (mem_negIndices.mpr ⟨hb, h1⟩))) (lt_irrefl _)
            · rw [Finset.mem_singleton] at h1
              exact absurd (hkeys _ (List.mem_append_left _ (mem_posIndices.mpr ⟨hb, by omega⟩))) (lt_irrefl _)
          · cases hk
  · rw [if_neg hy] at h
    cases h

theorem invD_fit {env : HeadEnv} {X : Cmp} {s s' : HeadSamplerD} {y : List ℤ} (he : env.Good) (hX : X.Binary)
    (hd : X.nMinor < env.depth) (hi : HeadInvD env X s) (h : headFitD env s X y = .ok s') :
    ∃ space, buildSpaceAndRows env s.parts X = .ok (space, naiveNewRows X space) ∧ space.Nodup ∧
      y.toFinset = {0, 1} ∧ y.length ≤ X.nMajor ∧
      s' = { s with space := some space, newRows := some (naiveNewRows X space),
                    cftp := some (headCftpD space.length (naiveNewRows X space) X.nMajor y), lists := reset } := by
  obtain ⟨hy, hyl, space', rows', hsr⟩ := headFitD_inv h
  have hsr' := hsr
  rw [spaceAndRowsD_eq hi] at hsr'
  obtain ⟨g, space, -, hb, hnd, -⟩ := buildSpaceAndRows_ok he s.parts hX (columns_of_build hX hsr') hd
  rw [hb] at hsr'
  cases hsr'
  have := headFitD_of hy hsr (naiveNewRows_length X _) hyl
  rw [h] at this
  exact ⟨_, hb, hnd, hy, hyl, Except.ok.inj this⟩

theorem headSampleOnceD_parts {S : Dbl.Order} {env : HeadEnv} {s s' : HeadSamplerD} {ω : List ℕ}
    {r : Option (Finset ℤ)} (h : (headSampleOnceD S env s ω).Outcome (.ok (r, s'))) :
    ∃ l, s' = { s with lists := l } := by
  unfold headSampleOnceD at h
  cases hc : s.cftp with
  | none => rw [hc] at h; cases h
  | some c =>
    cases hr : s.newRows with
    | none => rw [hc, hr] at h; cases h
    | some rows =>
      cases hsp : s.space with
      | none => rw [hc, hr, hsp] at h; cases h
      | some space =>
        rw [hc, hr, hsp] at h
        simp only at h
        rw [bind_eq, outcome_bind] at h
        rcases h with ⟨a, -, h⟩ | ⟨e, -, h⟩
        · rcases a with ⟨_ | pr, l⟩
          · cases h
            exact ⟨l, by rw [← hc, ← hr, ← hsp]⟩
          · simp only [bind_eq, outcome_bind] at h
            rcases h with ⟨id, -, h⟩ | ⟨e, -, h⟩
            · rcases h with ⟨T, -, h⟩ | ⟨e, -, h⟩
              · cases h
                exact ⟨l, by rw [← hc, ← hr, ← hsp]⟩
              · cases h
            · cases h
        · cases h

theorem headInvD_of_reach {S : Dbl.Order} {env : HeadEnv} {X : Cmp} (he : env.Good) (hX : X.Binary)
    (hd : X.nMinor < env.depth) {s : HeadSamplerD} (h : HeadReachD S env X s) : HeadInvD env X s := by
  induction h with
  | init doPrune minProba => exact Or.inl rfl
  | fit s s' y hr hf ih =>
    obtain ⟨space, hb, -, -, -, rfl⟩ := invD_fit he hX hd ih hf
    exact Or.inr ⟨space, _, rfl, rfl, hb⟩
  | sample s s' ω r hr ho ih =>
    obtain ⟨l, rfl⟩ := headSampleOnceD_parts ho
    exact ih

/-! ### From pairs to samples -/

/-- What follows the choice of a pair in `sample_once`. -/
noncomputable def finishHead {σ : Type} (g : CftpState → σ) (order : Finset ℕ → List ℕ) (rows : List (List ℕ))
    (space : List (Finset ℤ)) (r : Option (ℕ × ℕ) × CftpState) : RandR (Option (Finset ℤ) × σ) :=
  match r.1 with
  | none => pure (none, g r.2)
  | some pr => (choosePattern order rows pr).bind fun id =>
      (RandR.lift (pyGet space id)).bind fun T => pure (some T, g r.2)

theorem finishHead_bounds {σ : Type} (g : CftpState → σ) (order : Finset ℕ → List ℕ) (rows : List (List ℕ))
    (space : List (Finset ℤ)) {f : Py (Option (Finset ℤ) × σ) → ℝ} (hf : ∀ x, 0 ≤ f x ∧ f x ≤ 1) :
    ∀ x, 0 ≤ after f (finishHead g order rows space) x ∧ after f (finishHead g order rows space) x ≤ 1 := by
  rintro (e | ⟨_ | pr, st⟩)
  · exact hf _
  · exact hf _
  · show 0 ≤ RandR.expect _ ((choosePattern order rows pr).bind _) ∧
      RandR.expect _ ((choosePattern order rows pr).bind _) ≤ 1
    rw [RandR.expect_bind]
    refine choosePattern_bounds order rows pr fun x => ?_
    rcases x with e | id
    · exact hf (.error e)
    · show 0 ≤ RandR.expect f ((RandR.lift (pyGet space id)).bind _) ∧
        RandR.expect f ((RandR.lift (pyGet space id)).bind _) ≤ 1
      rcases pyGet space id with e | T <;> exact hf _

/-- The probability of a result does not depend on how the state of the sampler is represented. -/
theorem finishHead_transfer {σ τ : Type} (g : CftpState → σ) (h : CftpState → τ) (order : Finset ℕ → List ℕ)
    (rows : List (List ℕ)) (space : List (Finset ℤ)) {f : Py (Option (Finset ℤ) × σ) → ℝ}
    {f' : Py (Option (Finset ℤ) × τ) → ℝ} (hok : ∀ b, f (.ok (b, g reset)) = f' (.ok (b, h reset)))
    (herr : ∀ e, f (.error e) = f' (.error e)) (D : Option (ℕ × ℕ)) :
    (finishHead g order rows space (D, reset)).expect f = (finishHead h order rows space (D, reset)).expect f' := by
  rcases D with _ | pr
  · exact hok _
  · show RandR.expect _ ((choosePattern order rows pr).bind _) = RandR.expect _ ((choosePattern order rows pr).bind _)
    rw [RandR.expect_bind, RandR.expect_bind]
    congr 1
    funext x
    rcases x with e | id
    · exact herr e
    · show RandR.expect f ((RandR.lift (pyGet space id)).bind _) = RandR.expect f' ((RandR.lift (pyGet space id)).bind _)
      rcases pyGet space id with e | T
      · exact herr e
      · exact hok _

theorem headSampleOnce_finishHead {env : HeadEnv} {t : HeadSampler} {c : Cftp} {rows : List (List ℕ)}
    {space : List (Finset ℤ)} (h1 : t.cftp = some c) (h2 : t.newRows = some rows) (h3 : t.space = some space)
    {f : Py (Option (Finset ℤ) × HeadSampler) → ℝ} :
    (headSampleOnce env t).expect f =
      (c.sample t.lists).expect (after f (finishHead (fun l => { t with lists := l }) env.order rows space)) := by
  rw [(headSampleOnce_finish (env := env) h1 h2 h3).1, RandR.expect_bind, RandR.expect_bind]
  congr 1
  funext x
  rcases x with e | ⟨_ | pr, st⟩
  · rfl
  · rfl
  · show RandR.expect _ ((choosePattern env.order rows pr).bind _) = RandR.expect _ ((choosePattern env.order rows pr).bind _)
    rw [RandR.expect_bind, RandR.expect_bind]
    congr 1

/-- The probability of a result in doubles is close to the exact one. -/
theorem headProbD_close (S : Dbl.Order) {env : HeadEnv} {rows : List (List ℕ)} {space : List (Finset ℤ)}
    {n : ℕ} {y : List ℤ} (hr : RowsOk space.length rows) (hsz : space.length ≤ 2 ^ 53) (hy : y.toFinset = {0, 1})
    (hyl : y.length ≤ n) (hrows : y.length ≤ 2 ^ 23) {s : HeadSamplerD} (s1 : s.space = some space)
    (s2 : s.newRows = some rows) (s3 : s.cftp = some (headCftpD space.length rows n y)) (s4 : s.lists = reset)
    {t : HeadSampler} (t1 : t.space = some space) (t2 : t.newRows = some rows)
    (t3 : t.cftp = some (headCftp false space.length rows n y)) (t4 : t.lists = reset) (b : Option (Finset ℤ)) :
    |headProbD S env s (.ok (b, s)) - (headSampleOnce env t).prob (.ok (b, t))| ≤
      1024 * ((y.count 1 * (34 * y.count 1 + 63) + y.count 0 * (34 * y.count 0 + 63) + 75) / 2 ^ 53) := by
  obtain ⟨F, hF, hF1, hF0⟩ : ∃ F : Py (Option (Finset ℤ) × HeadSamplerD) → ℝ,
      (∀ m : RandR (Option (Finset ℤ) × HeadSamplerD), m.prob (.ok (b, s)) = m.expect F) ∧ F (.ok (b, s)) = 1 ∧
        ∀ x, x ≠ .ok (b, s) → F x = 0 := ⟨_, fun m => rfl, if_pos rfl, fun x hx => if_neg hx⟩
  obtain ⟨G, hG, hG1, hG0, hG01⟩ : ∃ F : Py (Option (Finset ℤ) × HeadSampler) → ℝ,
      (∀ m : RandR (Option (Finset ℤ) × HeadSampler), m.prob (.ok (b, t)) = m.expect F) ∧ F (.ok (b, t)) = 1 ∧
        (∀ x, x ≠ .ok (b, t) → F x = 0) ∧ ∀ x, 0 ≤ F x ∧ F x ≤ 1 :=
    ⟨_, fun m => rfl, if_pos rfl, fun x hx => if_neg hx, fun x => by split <;> norm_num⟩
  have hs2 : { s with lists := reset } = s := by rw [← s4]
  have ht2 : { t with lists := reset } = t := by rw [← t4]
  have e2 : headProbD S env s (.ok (b, s)) = averageOver (2 ^ 53) 3072 fun ω =>
      after G (finishHead (fun l => { t with lists := l }) env.order rows space)
        ((headCftpD space.length rows n y).sample S reset ω) := by
    refine averageOver_congr fun ω hl hω => ?_
    obtain ⟨D, hD, -⟩ := orig_sample_result S hr hsz hy hyl hrows hω hl.ge
    have e3 : headSampleOnceD S env s ω = (RandR.lift ((headCftpD space.length rows n y).sample S reset ω)).bind
        (finishHead (fun l => { s with lists := l }) env.order rows space) := by
      unfold headSampleOnceD
      rw [s1, s2, s3, s4]
      rfl
    rw [hF, e3, hD]
    show (finishHead (fun l => { s with lists := l }) env.order rows space (D, reset)).expect F =
      (finishHead (fun l => { t with lists := l }) env.order rows space (D, reset)).expect G
    refine finishHead_transfer _ _ env.order rows space (fun c => ?_) (fun e => ?_) D
    · rw [hs2, ht2]
      by_cases hc : c = b
      · rw [hc, hF1, hG1]
      · rw [hF0 _ (by simpa using hc), hG0 _ (by simpa using hc)]
    · rw [hF0 _ (by simp), hG0 _ (by simp)]
  rw [hG, headSampleOnce_finishHead t3 t2 t1, t4, e2]
  exact orig_sample_close S hr hsz hy hyl hrows (finishHead_bounds _ env.order rows space hG01)

/-! ### The weights in terms of the data -/

theorem headsIn_eq {X : Cmp} {space : List (Finset ℤ)} (hnd : space.Nodup) {i : ℕ} (hi : i < X.nMajor) :
    ((naiveNewRows X space).getD i []).length = headsIn X space i := by
  classical
  have h1 : (recordAt (naiveNewRows X space) i).card = ((naiveNewRows X space).getD i []).length :=
    (recordAt_ok (naiveNewRows_ok X space) i).2
  rw [← h1]
  have h2 : recordAt (naiveNewRows X space) i =
      (Finset.range space.length).filter fun id => RowContains X i (space.getD id ∅) := by
    ext id
    rw [recordAt_naive X space hi, Finset.mem_filter, Finset.mem_range]
  have h3 := sum_space hnd fun T => if RowContains X i T then (1 : ℝ) else 0
  rw [Finset.sum_boole, Finset.sum_boole] at h3
  rw [h2]
  unfold headsIn
  exact_mod_cast h3

theorem orig_weights {X : Cmp} {space : List (Finset ℤ)} (hnd : space.Nodup) {y : List ℤ} (hy : y.toFinset = {0, 1})
    (hyl : y.length ≤ X.nMajor) :
    ((headCftp false space.length (naiveNewRows X space) X.nMajor y).posList.map
        (headCftp false space.length (naiveNewRows X space) X.nMajor y).wPos).sum =
      ∑ i ∈ labelled y 1, Real.sqrt (headsIn X space i) ∧
    ((headCftp false space.length (naiveNewRows X space) X.nMajor y).negList.map
        (headCftp false space.length (naiveNewRows X space) X.nMajor y).wNeg).sum =
      ∑ i ∈ labelled y 0, Real.sqrt ((space.length : ℝ) - headsIn X space i) := by
  have hok := naiveNewRows_ok X space
  constructor
  · rw [← posIndices_labelled hy, List.sum_toFinset _ (posIndices_nodup y)]
    congr 1
    refine List.map_congr_left fun i hi => ?_
    have hi' : i ∈ posIndices y := hi
    rw [(orig_exact hok (pos_lt hyl hi')).1, rootOf, if_pos hi', headsIn_eq hnd (pos_lt hyl hi')]
  · rw [← negIndices_labelled, List.sum_toFinset _ (negIndices_nodup y)]
    congr 1
    refine List.map_congr_left fun i hi => ?_
    have hi' : i ∈ negIndices y := hi
    rw [(orig_exact hok (neg_lt hyl hi')).2, rootOf, if_neg (neg_not_pos hi'), Nat.cast_sub (row_length_le hok i),
      headsIn_eq hnd (neg_lt hyl hi')]

/-! ### Theorems -/

/-- **C140** Fitting in doubles. In every reachable state `fit` succeeds exactly when the labels are 0 and 1, both occur,
there are not more labels than rows and there is a feature; a missing label value is an `AssertionError`. The sample
space consists, each once, of the probable cliques of the graph of the feature matrix. -/
theorem C140_fit (S : Dbl.Order) (env : HeadEnv) (he : env.Good) (X : Cmp) (hX : X.Binary) (hd : X.nMinor < env.depth)
    (s : HeadSamplerD) (hs : HeadReachD S env X s) (y : List ℤ) :
    ((∃ s', headFitD env s X y = .ok s') ↔ y.toFinset = {0, 1} ∧ y.length ≤ X.nMajor ∧ 0 < X.nMinor) ∧
    (y.toFinset ≠ {0, 1} → headFitD env s X y = .error .assertionError) ∧
    ∀ s', headFitD env s X y = .ok s' → ∃ g space, buildGraph X.flip = .ok g ∧ s'.space = some space ∧
      space.Nodup ∧ ∀ T, T ∈ space ↔ ∃ U, g.Probable s.minProba U ∧ T = intSet U := by
  have hi := headInvD_of_reach he hX hd hs
  refine ⟨⟨?_, ?_⟩, ?_, ?_⟩
  · rintro ⟨s', h⟩
    obtain ⟨_, hb, -, h1, h2, -⟩ := invD_fit he hX hd hi h
    exact ⟨h1, h2, columns_of_build hX hb⟩
  · rintro ⟨h1, h2, hc⟩
    obtain ⟨g, space, hg, hb, -⟩ := buildSpaceAndRows_ok he s.parts hX hc hd
    exact ⟨_, headFitD_of h1 (by rw [spaceAndRowsD_eq hi, hb]) (naiveNewRows_length X space) h2⟩
  · intro h
    unfold headFitD checkLabels
    rw [if_neg h]
    rfl
  · intro s' h
    obtain ⟨space', hb', -, -, -, rfl⟩ := invD_fit he hX hd hi h
    obtain ⟨g, space, hg, hb, hnd, hmem⟩ := buildSpaceAndRows_ok he s.parts hX (columns_of_build hX hb') hd
    rw [hb] at hb'
    cases hb'
    exact ⟨g, _, hg, rfl, hnd, hmem⟩

/-- **C140** The law. After a fit with labels `y`, `sample_once` in doubles returns the feature set `T` with probability
proportional to its discriminativity, and `None` with the exact probability of failure, up to a small error. The
probability of failure is given by the square roots of how many samples the positive rows contain and the negative
rows lack. -/
theorem C140_heads (S : Dbl.Order) (env : HeadEnv) (he : env.Good) (X : Cmp) (hX : X.Binary) (hd : X.nMinor < env.depth)
    (s s' : HeadSamplerD) (hs : HeadReachD S env X s) (y : List ℤ) (hf : headFitD env s X y = .ok s')
    (space : List (Finset ℤ)) (hsp : s'.space = some space) (hrows : y.length ≤ 2 ^ 23) (hsize : space.length ≤ 2 ^ 53) :
    ∃ success err : ℝ, success = 1 - (1 - (∑ U ∈ space.toFinset, (separations X y U : ℝ)) /
        ((∑ i ∈ labelled y 1, Real.sqrt (headsIn X space i)) *
          ∑ i ∈ labelled y 0, Real.sqrt ((space.length : ℝ) - headsIn X space i))) ^ 1024 ∧
      err = 1024 * ((y.count 1 * (34 * y.count 1 + 63) + y.count 0 * (34 * y.count 0 + 63) + 75) / 2 ^ 53) ∧
      (∀ T ∈ space, |headProbD S env s' (.ok (some T, s')) -
          success * ((separations X y T : ℝ) / ∑ U ∈ space.toFinset, (separations X y U : ℝ))| ≤ err) ∧
      |headProbD S env s' (.ok (none, s')) - (1 - success)| ≤ err := by
  have hi := headInvD_of_reach he hX hd hs
  obtain ⟨space', hb, hnd, hy, hyl, rfl⟩ := invD_fit he hX hd hi hf
  cases hsp
  set t0 := HeadSampler.init s.doPrune s.minProba false with ht0
  have hb0 : buildSpaceAndRows env t0 X = .ok (space, naiveNewRows X space) := hb
  obtain ⟨t, ht⟩ : ∃ t, headFit env t0 X y = .ok t := (C58_fit env he X hX hd t0 (.init _ _ _) y).1.mpr
    ⟨hy, hyl, columns_of_build hX hb⟩
  obtain ⟨space', hb', -, -, rfl⟩ := inv_fit he hX hd (headInv_of_reach he hX hd (.init _ _ _)) ht
  rw [hb0] at hb'
  cases hb'
  obtain ⟨space', c, success, h1, h2, h3, h4, h5⟩ := C58_heads env he X hX hd t0 _ (.init _ _ _) y ht
  cases h1
  cases h2
  obtain ⟨w1, w2⟩ := orig_weights hnd hy hyl
  change success = 1 - (1 - (∑ U ∈ space.toFinset, (separations X y U : ℝ)) /
    (((headCftp false space.length (naiveNewRows X space) X.nMajor y).posList.map
        (headCftp false space.length (naiveNewRows X space) X.nMajor y).wPos).sum *
      ((headCftp false space.length (naiveNewRows X space) X.nMajor y).negList.map
        (headCftp false space.length (naiveNewRows X space) X.nMajor y).wNeg).sum)) ^ 1024 at h3
  rw [w1, w2] at h3
  have hcl := fun b => headProbD_close S (env := env) (naiveNewRows_ok X space) hsize hy hyl hrows
    (s := { s with space := some space, newRows := some (naiveNewRows X space),
                   cftp := some (headCftpD space.length (naiveNewRows X space) X.nMajor y), lists := reset })
    rfl rfl rfl rfl
    (t := { t0 with space := some space, newRows := some (naiveNewRows X space),
                    cftp := some (headCftp t0.tight space.length (naiveNewRows X space) X.nMajor y), lists := reset })
    rfl rfl rfl rfl b
  refine ⟨success, _, h3, rfl, fun T hT => ?_, ?_⟩
  · rw [← h4 T hT]
    exact hcl _
  · rw [← h5]
    exact hcl _

/-- **C140** Whatever the generator gives, `sample_once` in doubles returns `None` or a sample that some positive row
contains and some negative row does not. It never raises and leaves the sampler unchanged. -/
theorem C140_outcomes (S : Dbl.Order) (env : HeadEnv) (he : env.Good) (X : Cmp) (hX : X.Binary)
    (hd : X.nMinor < env.depth) (s s' : HeadSamplerD) (hs : HeadReachD S env X s) (y : List ℤ)
    (hf : headFitD env s X y = .ok s') (space : List (Finset ℤ)) (hsp : s'.space = some space)
    (hrows : y.length ≤ 2 ^ 23) (hsize : space.length ≤ 2 ^ 53)
    (ω : List ℕ) (hl : 3072 ≤ ω.length) (hω : ∀ k ∈ ω, k < 2 ^ 53)
    (x : Py (Option (Finset ℤ) × HeadSamplerD)) (h : (headSampleOnceD S env s' ω).Outcome x) :
    x = .ok (none, s') ∨ ∃ T ∈ space, x = .ok (some T, s') ∧
      ∃ i j, y[i]? = some 1 ∧ y[j]? = some 0 ∧ RowContains X i T ∧ ¬ RowContains X j T := by
  have hi := headInvD_of_reach he hX hd hs
  obtain ⟨space', hb, hnd, hy, hyl, rfl⟩ := invD_fit he hX hd hi hf
  cases hsp
  have hok := naiveNewRows_ok X space
  obtain ⟨D, hD, hv⟩ := orig_sample_result S hok hsize hy hyl hrows hω hl
  change ((RandR.lift ((headCftpD space.length (naiveNewRows X space) X.nMajor y).sample S reset ω)).bind
    (finishHead (fun l => { s with
        space := some space, newRows := some (naiveNewRows X space),
        cftp := some (headCftpD space.length (naiveNewRows X space) X.nMajor y), lists := l })
      env.order (naiveNewRows X space) space)).Outcome x at h
  rw [hD] at h
  rcases D with _ | ⟨p, q⟩
  · exact Or.inl h
  · right
    obtain ⟨hp1, hn1, hW⟩ := hv p q rfl
    have hp' := mem_posIndices.mp hp1
    have hn' := mem_negIndices.mp hn1
    change ((choosePattern env.order (naiveNewRows X space) (p, q)).bind fun id =>
      (RandR.lift (pyGet space id)).bind fun T => pure (some T, { s with
        space := some space, newRows := some (naiveNewRows X space),
        cftp := some (headCftpD space.length (naiveNewRows X space) X.nMajor y), lists := reset })).Outcome x at h
    rw [outcome_bind] at h
    rcases h with ⟨id, hid, h⟩ | ⟨e, hid, -⟩
    · obtain ⟨id', hm, e'⟩ := choosePattern_outcome he.1 hW hid
      cases e'
      rw [Finset.mem_sdiff, recordAt_naive X space (by omega), recordAt_naive X space (by omega)] at hm
      obtain ⟨h1, h2⟩ := hm
      rw [pyGet_getD h1.1 ∅] at h
      refine ⟨space.getD id ∅, ?_, h, p, q, ?_, ?_, h1.2, fun hc => h2 ⟨h1.1, hc⟩⟩
      · rw [getD_lt h1.1]; exact List.getElem_mem _
      · rcases label_values hy hp'.1 with h3 | h3
        · omega
        · rw [getD_lt hp'.1] at h3
          rw [List.getElem?_eq_getElem hp'.1, h3]
      · have h3 := hn'.2
        rw [getD_lt hn'.1] at h3
        rw [List.getElem?_eq_getElem hn'.1, h3]
    · obtain ⟨id', hm, e'⟩ := choosePattern_outcome he.1 hW hid
      cases e'

/-! A case that meets the hypotheses: two features, three rows, one of them positive. -/

example : ∃ s' space, HeadReachD rightOrderD (someEnv 10) headMatrix (HeadSamplerD.init true (1 / 10)) ∧
    headFitD (someEnv 10) (HeadSamplerD.init true (1 / 10)) headMatrix [1, 0, 0] = .ok s' ∧
    s'.space = some space ∧ [1, 0, 0].length ≤ 2 ^ 23 ∧ space.length ≤ 2 ^ 53 ∧
    ∃ ω : List ℕ, 3072 ≤ ω.length ∧ ∀ k ∈ ω, k < 2 ^ 53 := by
  have hr : HeadReachD rightOrderD (someEnv 10) headMatrix (HeadSamplerD.init true (1 / 10)) := .init _ _
  obtain ⟨⟨-, h1⟩, -, h2⟩ := C140_fit rightOrderD (someEnv 10) (someEnv_good 10) headMatrix headMatrix_binary (by decide)
    _ hr [1, 0, 0]
  obtain ⟨s', h⟩ := h1 ⟨by decide, by decide⟩
  obtain ⟨g, space, hg, hsp, hnd, hm⟩ := h2 s' h
  obtain ⟨g', hg', -, -, hn, -⟩ := C48_build_graph headMatrix.flip (Cmp.flip_binary headMatrix_binary)
  rw [hg] at hg'
  cases hg'
  have hsub : space.toFinset ⊆ ({0, 1} : Finset ℤ).powerset := by
    intro T hT
    obtain ⟨U, hU, rfl⟩ := (hm T).mp (List.mem_toFinset.mp hT)
    rw [Finset.mem_powerset]
    intro x hx
    obtain ⟨j, hj, rfl⟩ := Finset.mem_image.mp hx
    have := hU.2.1.1 j hj
    rw [hn, Cmp.flip_nMajor, List.mem_range] at this
    have h2 : j < 2 := this
    interval_cases j <;> simp
  have hc := Finset.card_le_card hsub
  rw [List.toFinset_card_of_nodup hnd] at hc
  have h4 : space.length ≤ 4 := hc
  refine ⟨s', space, hr, h, hsp, by decide, by omega, List.replicate 3072 0, ?_, ?_⟩
  · rw [List.length_replicate]
  · intro k hk
    rw [List.eq_of_mem_replicate hk]
    exact Nat.two_pow_pos 53

end Verif
