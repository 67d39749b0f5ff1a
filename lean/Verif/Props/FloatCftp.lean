/-
C132: the head sampler in double precision.

The properties C57 and C58 are about exact numbers. The theorems here bound the effect of rounding, for the default
proposal distribution: with `P` positive and `N` negative rows, the probability of every result of `sample_once`
differs from the exact one by at most `1024 * (P * (10 * P + 11) + N * (10 * N + 11) + 2) / 2⁵³`, and no output of
the generator makes it raise.
-/
import Verif.Lemmas.FloatCftpRun
import Verif.Props.Head

namespace Verif

open Cftp

namespace Cftp

variable {c : Cftp}

theorem laterCount_zero (k : ℕ) : laterCount k 0 = lenBefore k := by
  rw [laterCount_eq]
  simp [lenBefore]

theorem sampleF_later (hr : c.Ready) (hw : c.Whole) {ip iq : ℕ → ℕ} (hsel : c.Selects ip iq) {k : ℕ}
    (h1 : 2 ^ k > c.maxIters) (h2 : lenBefore k ≤ c.maxIters) {ω : List ℕ} (hω : ∀ x ∈ ω, x < 2 ^ 53)
    (hl : 3 * lenBefore k ≤ ω.length) :
    c.sampleF reset ω = .ok ((later ip iq k 0 ω).foldl c.stepTF none, reset) := by
  have h := sampleLoopF_eq hr hw hsel k 0 reset ω (by rw [Nat.zero_add]; exact h1) (by rw [Nat.zero_add]; exact h2)
    (by simpa [lenBefore] using goodState_reset) rfl hω (by rw [laterCount_zero]; exact hl)
  rw [show CftpState.draws reset = [] from rfl, List.append_nil] at h
  exact h

/-- The effect of rounding on any quantity of the result of `sample`. -/
theorem average_sampleF (hd : c.Dominated) (hw : c.Whole) (hp : c.posWeights.sum ≤ 2 ^ 53)
    (hn : c.negWeights.sum ≤ 2 ^ 53) (hpl : c.posList.length ≤ 2 ^ 23) (hnl : c.negList.length ≤ 2 ^ 23) {k : ℕ}
    (h1 : 2 ^ k > c.maxIters) (h2 : lenBefore k ≤ c.maxIters) (h3 : 0 < c.maxIters)
    {f : Py (Option (ℕ × ℕ) × CftpState) → ℝ} (hf : ∀ x, 0 ≤ f x ∧ f x ≤ 1) :
    |averageOver (2 ^ 53) (3 * lenBefore k) (fun ω => f (c.sampleF reset ω)) - (c.sample reset).expect f| ≤
      lenBefore k * ((c.posList.length * (10 * c.posList.length + 11) + c.negList.length * (10 * c.negList.length + 11) +
        2) / 2 ^ 53) := by
  by_cases h : c.posWeights.sum = 0 ∨ c.negWeights.sum = 0
  · rw [sample_no_weights h]
    have e : ∀ ω, c.sampleF reset ω = .ok (none, reset) := by
      intro ω
      unfold sampleF
      rw [sampleLoopF, if_neg (by rw [pow_zero]; omega), if_pos h]
    simp only [e, averageOver_const (show 0 < 2 ^ 53 by positivity)]
    have : (RandR.expect f (pure (none, reset))) = f (.ok (none, reset)) := rfl
    rw [this, sub_self, abs_zero]
    positivity
  · have hr := Ready.of_ne hd h
    obtain ⟨ip, iq, hsel⟩ := exists_selects hr hw hp hn hpl hnl
    have e1 : averageOver (2 ^ 53) (3 * lenBefore k) (fun ω => f (c.sampleF reset ω)) =
        ((c.TF (2 ^ 53) ip iq)^[lenBefore k] fun s => f (.ok (s, reset))) none := by
      have h4 := average_later hsel k 0 fun s => f (.ok (s, reset))
      rw [laterCount_zero] at h4
      rw [← h4]
      refine averageOver_congr fun ω hl hω => ?_
      rw [sampleF_later hr hw hsel h1 h2 hω hl.ge]
    have e2 : (c.sample reset).expect f = (c.T^[lenBefore k] fun s => f (.ok (s, reset))) none := by
      rw [expect_sample hr, T_iter_none hr, horizon_eq h1 h2]
      rfl
    rw [e1, e2]
    refine (TF_iter_close hr hsel.posClose hsel.negClose
      (fun s p hp n hn => accF_close hd hw s (List.mem_toFinset.mp hp) (List.mem_toFinset.mp hn))
      (fun s => hf _) (by positivity) (fun k hk => (hsel.posOk k hk).1) (fun k hk => (hsel.negOk k hk).1)
      (lenBefore k) none).trans (le_of_eq ?_)
    ring

/-- Whatever the generator gives, `sample` returns `None` or a pair of positive weight. -/
theorem sampleF_result (hd : c.Dominated) (hw : c.Whole) (hp : c.posWeights.sum ≤ 2 ^ 53)
    (hn : c.negWeights.sum ≤ 2 ^ 53) (hpl : c.posList.length ≤ 2 ^ 23) (hnl : c.negList.length ≤ 2 ^ 23) {k : ℕ}
    (h1 : 2 ^ k > c.maxIters) (h2 : lenBefore k ≤ c.maxIters) (h3 : 0 < c.maxIters)
    {ω : List ℕ} (hl : 3 * lenBefore k ≤ ω.length) (hω : ∀ x ∈ ω, x < 2 ^ 53) :
    ∃ D, c.sampleF reset ω = .ok (D, reset) ∧ c.Valid D := by
  by_cases h : c.posWeights.sum = 0 ∨ c.negWeights.sum = 0
  · refine ⟨none, ?_, valid_none c⟩
    unfold sampleF
    rw [sampleLoopF, if_neg (by rw [pow_zero]; omega), if_pos h]
  · have hr := Ready.of_ne hd h
    obtain ⟨ip, iq, hsel⟩ := exists_selects hr hw hp hn hpl hnl
    exact ⟨_, sampleF_later hr hw hsel h1 h2 hω hl,
      valid_foldlF hd hw (later_valid hsel k 0 ω hω) (valid_none c)⟩

end Cftp

/-- The object that `fit` constructs has whole weights. -/
theorem headCftp_whole {size : ℕ} {rows : List (List ℕ)} (hr : RowsOk size rows) {n : ℕ} {y : List ℤ}
    (hyl : y.length ≤ n) (hsz : (size + 1) * y.length ≤ 2 ^ 53) :
    (headCftp true size rows n y).Whole ∧ (headCftp true size rows n y).posWeights.sum ≤ 2 ^ 53 ∧
      (headCftp true size rows n y).negWeights.sum ≤ 2 ^ 53 := by
  have hwt : ∀ i, weightOf true size rows (posIndices y) i =
      ((if i ∈ posIndices y then (rows.getD i []).length else 1 : ℕ) : ℝ) := by
    intro i
    unfold weightOf
    rw [if_pos rfl]
    split <;> simp
  have hrow : ∀ i, (rows.getD i []).length ≤ size := by
    intro i
    have := (recordAt_ok hr i)
    rw [← this.2]
    have h2 := Finset.card_le_card this.1
    rwa [Finset.card_range] at h2
  have hle : ∀ i, (if i ∈ posIndices y then (rows.getD i []).length else 1) ≤ size + 1 := by
    intro i
    split
    · exact (hrow i).trans (Nat.le_succ _)
    · omega
  have hget : ∀ i, ∃ k : ℕ, k ≤ size + 1 ∧
      ((List.range n).map (weightOf true size rows (posIndices y))).getD i 0 = k := by
    intro i
    by_cases hi : i < n
    · rw [weight_getD hi, hwt]
      exact ⟨_, hle i, rfl⟩
    · rw [List.getD_eq_getElem?_getD, List.getElem?_eq_none (by simpa using hi)]
      exact ⟨0, Nat.zero_le _, by simp⟩
  have hsum : ∀ l : List ℕ, l.length ≤ y.length →
      (l.map fun i => ((List.range n).map (weightOf true size rows (posIndices y))).getD i 0).sum ≤ 2 ^ 53 := by
    intro l hl
    have h1 : (l.map fun i => ((List.range n).map (weightOf true size rows (posIndices y))).getD i 0).sum ≤
        l.length * ((size + 1 : ℕ) : ℝ) := by
      have := List.sum_le_card_nsmul
        (l.map fun i => ((List.range n).map (weightOf true size rows (posIndices y))).getD i 0) ((size + 1 : ℕ) : ℝ)
        (by
          intro x hx
          obtain ⟨i, -, rfl⟩ := List.mem_map.mp hx
          obtain ⟨k, hk, e⟩ := hget i
          rw [e]
          exact_mod_cast hk)
      rwa [List.length_map, nsmul_eq_mul] at this
    refine h1.trans ?_
    have h2 : l.length * (size + 1) ≤ 2 ^ 53 := by
      refine le_trans ?_ hsz
      rw [mul_comm]
      exact Nat.mul_le_mul_left _ hl
    exact_mod_cast h2
  have hlp : (posIndices y).length ≤ y.length := by
    unfold posIndices
    refine (List.length_filter_le _ _).trans ?_
    rw [List.length_range]
  have hln : (negIndices y).length ≤ y.length := by
    unfold negIndices
    refine (List.length_filter_le _ _).trans ?_
    rw [List.length_range]
  refine ⟨⟨fun i => ?_, fun i => ?_, fun p n => ⟨_, rfl⟩, fun p hp q hq => ?_⟩, hsum _ hlp, hsum _ hln⟩
  · obtain ⟨k, -, e⟩ := hget i
    exact ⟨k, e⟩
  · obtain ⟨k, -, e⟩ := hget i
    exact ⟨k, e⟩
  · have hp' := mem_posIndices.mp hp
    have hq' := mem_negIndices.mp hq
    have hnp : q ∉ posIndices y := fun h => by
      have := (mem_posIndices.mp h).2
      omega
    obtain ⟨k, hk, e⟩ := hget p
    simp only [headCftp]
    rw [e, weight_getD (by omega), hwt, if_neg hnp, Nat.cast_one, mul_one]
    have : k ≤ 2 ^ 53 := by
      refine hk.trans (le_trans ?_ hsz)
      exact Nat.le_mul_of_pos_right _ (by omega)
    exact_mod_cast this

theorem choosePattern_bounds (order : Finset ℕ → List ℕ) (rows : List (List ℕ)) (pr : ℕ × ℕ) {g : Py ℕ → ℝ}
    (hg : ∀ x, 0 ≤ g x ∧ g x ≤ 1) :
    0 ≤ (choosePattern order rows pr).expect g ∧ (choosePattern order rows pr).expect g ≤ 1 := by
  unfold choosePattern pyChoiceIdx
  generalize order (recordAt rows pr.1 \ recordAt rows pr.2) = l
  by_cases h : l.length = 0
  · rw [if_pos h]
    exact hg _
  · rw [if_neg h]
    have hl : (0 : ℝ) < l.length := by exact_mod_cast Nat.pos_of_ne_zero h
    simp only [RandR.bind_eq, RandR.bind, RandR.pure_eq, RandR.expect]
    have e : ∀ i : Fin (List.replicate l.length (1 / (l.length : ℝ))).length,
        (List.replicate l.length (1 / (l.length : ℝ)))[i] = 1 / (l.length : ℝ) := fun i => by simp
    simp only [e]
    constructor
    · exact Finset.sum_nonneg fun i _ => mul_nonneg (by positivity) (hg _).1
    · refine (Finset.sum_le_sum fun i _ => mul_le_mul_of_nonneg_left (hg _).2 (by positivity)).trans ?_
      simp only [Finset.sum_const, Finset.card_univ, Fintype.card_fin, List.length_replicate, nsmul_eq_mul, mul_one]
      rw [mul_one_div_cancel hl.ne']

theorem range_filter_length (y : List ℤ) (P : ℤ → Bool) :
    ((List.range y.length).filter fun i => P (y.getD i 0)).length = y.countP P := by
  have e : y = (List.range y.length).map fun i => y.getD i 0 := by
    apply List.ext_getElem
    · simp
    · intro i h1 h2
      simp [List.getD, h1]
  conv_rhs => rw [e, List.countP_map, List.countP_eq_length_filter]
  rfl

theorem posIndices_length {y : List ℤ} (hy : y.toFinset = {0, 1}) : (posIndices y).length = y.count 1 := by
  unfold posIndices
  rw [range_filter_length y fun v => decide (0 < v), List.count]
  apply List.countP_congr
  intro v hv
  rw [← List.mem_toFinset, hy] at hv
  simp only [Finset.mem_insert, Finset.mem_singleton] at hv
  rcases hv with rfl | rfl <;> simp

theorem negIndices_length (y : List ℤ) : (negIndices y).length = y.count 0 := by
  unfold negIndices
  rw [range_filter_length y fun v => decide (v = 0), List.count]
  apply List.countP_congr
  intro v _
  simp

/-- What follows the choice of a pair in `sample_once`. -/
noncomputable def finishIdx (order : Finset ℕ → List ℕ) (rows : List (List ℕ)) (r : Option (ℕ × ℕ) × CftpState) :
    RandR (Option ℕ × CftpState) :=
  match r.1 with
  | none => pure (none, r.2)
  | some pr => (choosePattern order rows pr).bind fun id => pure (some id, r.2)

/-- What follows the choice of a sample index. -/
noncomputable def finishOnce (space : List (Finset ℤ)) (s : HeadSampler) (r : Option ℕ × CftpState) :
    RandR (Option (Finset ℤ) × HeadSampler) :=
  match r.1 with
  | none => pure (none, { s with lists := r.2 })
  | some id => (RandR.lift (pyGet space id)).bind fun T => pure (some T, { s with lists := r.2 })

theorem headSampleOnce_finish {env : HeadEnv} {s : HeadSampler} {c : Cftp} {rows : List (List ℕ)}
    {space : List (Finset ℤ)} (h1 : s.cftp = some c) (h2 : s.newRows = some rows) (h3 : s.space = some space) :
    headSampleOnce env s = ((c.sample s.lists).bind (finishIdx env.order rows)).bind (finishOnce space s) ∧
    ∀ ω, headSampleOnceF env s ω =
      ((RandR.lift (c.sampleF s.lists ω)).bind (finishIdx env.order rows)).bind (finishOnce space s) := by
  cases s
  cases h1
  cases h2
  cases h3
  exact ⟨rfl, fun ω => rfl⟩

theorem finish_bounds {order : Finset ℕ → List ℕ} {rows : List (List ℕ)} {space : List (Finset ℤ)} {s : HeadSampler}
    {f : Py (Option (Finset ℤ) × HeadSampler) → ℝ} (hf : ∀ x, 0 ≤ f x ∧ f x ≤ 1) :
    ∀ x, 0 ≤ RandR.after (RandR.after f (finishOnce space s)) (finishIdx order rows) x ∧
      RandR.after (RandR.after f (finishOnce space s)) (finishIdx order rows) x ≤ 1 := by
  have h1 : ∀ x, 0 ≤ RandR.after f (finishOnce space s) x ∧ RandR.after f (finishOnce space s) x ≤ 1 := by
    rintro (e | ⟨_ | id, st⟩)
    · exact hf _
    · exact hf _
    · show 0 ≤ RandR.expect f ((RandR.lift (pyGet space id)).bind _) ∧
        RandR.expect f ((RandR.lift (pyGet space id)).bind _) ≤ 1
      rcases pyGet space id with e | T <;> exact hf _
  rintro (e | ⟨_ | pr, st⟩)
  · exact h1 (.error e)
  · exact h1 (.ok (none, st))
  · show 0 ≤ RandR.expect _ ((choosePattern order rows pr).bind _) ∧
      RandR.expect _ ((choosePattern order rows pr).bind _) ≤ 1
    rw [RandR.expect_bind]
    refine choosePattern_bounds order rows pr fun x => ?_
    rcases x with e | id
    · exact h1 (.error e)
    · exact h1 (.ok (some id, st))

theorem headProbF_close {env : HeadEnv} {s : HeadSampler} {c : Cftp} {rows : List (List ℕ)}
    {space : List (Finset ℤ)} (h1 : s.cftp = some c) (h2 : s.newRows = some rows) (h3 : s.space = some space)
    (hl : s.lists = reset) (hd : c.Dominated) (hw : c.Whole) (hp : c.posWeights.sum ≤ 2 ^ 53)
    (hn : c.negWeights.sum ≤ 2 ^ 53) (hpl : c.posList.length ≤ 2 ^ 23) (hnl : c.negList.length ≤ 2 ^ 23)
    (hit : c.maxIters = 1024) (r : Py (Option (Finset ℤ) × HeadSampler)) :
    |headProbF env s r - (headSampleOnce env s).prob r| ≤
      1024 * ((c.posList.length * (10 * c.posList.length + 11) + c.negList.length * (10 * c.negList.length + 11) + 2) /
        2 ^ 53) := by
  obtain ⟨F, hF, hF01⟩ : ∃ F : Py (Option (Finset ℤ) × HeadSampler) → ℝ,
      (∀ m : RandR (Option (Finset ℤ) × HeadSampler), m.prob r = m.expect F) ∧ ∀ x, 0 ≤ F x ∧ F x ≤ 1 :=
    ⟨_, fun m => rfl, fun x => by split <;> norm_num⟩
  obtain ⟨e1, e2⟩ := headSampleOnce_finish (env := env) h1 h2 h3
  have hlb : lenBefore 11 = 1024 := by simp [lenBefore]
  have hb := average_sampleF hd hw hp hn hpl hnl (k := 11) (by rw [hit]; norm_num) (by rw [hit, hlb])
    (by rw [hit]; norm_num) (finish_bounds (order := env.order) (rows := rows) (space := space) (s := s)
      (f := F) hF01)
  rw [hlb, show 3 * 1024 = 3072 by norm_num] at hb
  unfold headProbF
  rw [hF, e1, RandR.expect_bind, RandR.expect_bind, hl]
  have e3 : ∀ ω, (headSampleOnceF env s ω).prob r =
      RandR.after (RandR.after F (finishOnce space s)) (finishIdx env.order rows) (c.sampleF reset ω) := by
    intro ω
    rw [hF, e2 ω, RandR.expect_bind, RandR.expect_bind, hl]
    rfl
  simp only [e3]
  refine hb.trans (le_of_eq ?_)
  push_cast
  rfl

/-- **C132** The probability of every result of `sample_once`, in doubles, is close to the exact one. -/
theorem C132_law (env : HeadEnv) (he : env.Good) (X : Cmp) (hX : X.Binary) (hd : X.nMinor < env.depth)
    (s s' : HeadSampler) (hs : HeadReach env X s) (ht : s.tight = true) (y : List ℤ)
    (hf : headFit env s X y = .ok s') (space : List (Finset ℤ)) (hsp : s'.space = some space)
    (hrows : y.length ≤ 2 ^ 23) (hsize : (space.length + 1) * y.length ≤ 2 ^ 53)
    (r : Py (Option (Finset ℤ) × HeadSampler)) :
    |headProbF env s' r - (headSampleOnce env s').prob r| ≤
      1024 * ((y.count 1 * (10 * y.count 1 + 11) + y.count 0 * (10 * y.count 0 + 11) + 2) / 2 ^ 53) := by
  have hi := headInv_of_reach he hX hd hs
  obtain ⟨space', hb, hy, hyl, rfl⟩ := inv_fit he hX hd hi hf
  cases hsp
  have hok := naiveNewRows_ok X space
  obtain ⟨hw, hp, hn⟩ := headCftp_whole hok hyl hsize
  rw [← ht] at hw hp hn
  have hpl := posIndices_length hy
  have hnl := negIndices_length y
  refine le_trans (headProbF_close (c := headCftp s.tight space.length (naiveNewRows X space) X.nMajor y)
    (rows := naiveNewRows X space) (space := space) rfl rfl rfl rfl (headCftp_dominated hok hyl) hw hp hn
    (by show (posIndices y).length ≤ _; rw [hpl]; exact (List.count_le_length).trans hrows)
    (by show (negIndices y).length ≤ _; rw [hnl]; exact (List.count_le_length).trans hrows) rfl r) (le_of_eq ?_)
  have hcl : (headCftp s.tight space.length (naiveNewRows X space) X.nMajor y).posList.length = y.count 1 := hpl
  have hcn : (headCftp s.tight space.length (naiveNewRows X space) X.nMajor y).negList.length = y.count 0 := hnl
  rw [hcl, hcn]

/-- **C132** After a fit with labels `y`, `sample_once` in doubles returns the feature set `T` with probability
proportional to its discriminativity, and `None` with the exact probability of failure, up to a small error. -/
theorem C132_heads (env : HeadEnv) (he : env.Good) (X : Cmp) (hX : X.Binary) (hd : X.nMinor < env.depth)
    (s s' : HeadSampler) (hs : HeadReach env X s) (ht : s.tight = true) (y : List ℤ)
    (hf : headFit env s X y = .ok s') (space : List (Finset ℤ)) (hsp : s'.space = some space)
    (hrows : y.length ≤ 2 ^ 23) (hsize : (space.length + 1) * y.length ≤ 2 ^ 53) :
    ∃ c success, s'.cftp = some c ∧
      success = 1 - (1 - (∑ U ∈ space.toFinset, (separations X y U : ℝ)) /
        ((c.posList.map c.wPos).sum * (c.negList.map c.wNeg).sum)) ^ 1024 ∧
      (∀ T ∈ space, |headProbF env s' (.ok (some T, s')) -
          success * ((separations X y T : ℝ) / ∑ U ∈ space.toFinset, (separations X y U : ℝ))| ≤
        1024 * ((y.count 1 * (10 * y.count 1 + 11) + y.count 0 * (10 * y.count 0 + 11) + 2) / 2 ^ 53)) ∧
      |headProbF env s' (.ok (none, s')) - (1 - success)| ≤
        1024 * ((y.count 1 * (10 * y.count 1 + 11) + y.count 0 * (10 * y.count 0 + 11) + 2) / 2 ^ 53) := by
  obtain ⟨space', c, success, h1, h2, h3, h4, h5⟩ := C58_heads env he X hX hd s s' hs y hf
  rw [hsp] at h1
  cases h1
  refine ⟨c, success, h2, h3, fun T hT => ?_, ?_⟩
  · rw [← h4 T hT]
    exact C132_law env he X hX hd s s' hs ht y hf space hsp hrows hsize _
  · rw [← h5]
    exact C132_law env he X hX hd s s' hs ht y hf space hsp hrows hsize _

/-- **C132** Whatever the generator gives, `sample_once` in doubles returns `None` or a sample that some positive row
contains and some negative row does not. It never raises and leaves the sampler unchanged. -/
theorem C132_outcomes (env : HeadEnv) (he : env.Good) (X : Cmp) (hX : X.Binary) (hd : X.nMinor < env.depth)
    (s s' : HeadSampler) (hs : HeadReach env X s) (ht : s.tight = true) (y : List ℤ)
    (hf : headFit env s X y = .ok s') (space : List (Finset ℤ)) (hsp : s'.space = some space)
    (hrows : y.length ≤ 2 ^ 23) (hsize : (space.length + 1) * y.length ≤ 2 ^ 53)
    (ω : List ℕ) (hl : 3072 ≤ ω.length) (hω : ∀ k ∈ ω, k < 2 ^ 53)
    (x : Py (Option (Finset ℤ) × HeadSampler)) (h : (headSampleOnceF env s' ω).Outcome x) :
    x = .ok (none, s') ∨ ∃ T ∈ space, x = .ok (some T, s') ∧
      ∃ i j, y[i]? = some 1 ∧ y[j]? = some 0 ∧ RowContains X i T ∧ ¬ RowContains X j T := by
  have hi := headInv_of_reach he hX hd hs
  obtain ⟨space', hb, hy, hyl, rfl⟩ := inv_fit he hX hd hi hf
  cases hsp
  have hok := naiveNewRows_ok X space
  have hdom : (headCftp s.tight space.length (naiveNewRows X space) X.nMajor y).Dominated := headCftp_dominated hok hyl
  obtain ⟨hw, hp, hn⟩ := headCftp_whole hok hyl hsize
  rw [← ht] at hw hp hn
  have hpl := posIndices_length hy
  have hnl := negIndices_length y
  have hlb : lenBefore 11 = 1024 := by simp [lenBefore]
  obtain ⟨D, hD, hv⟩ := sampleF_result hdom hw hp hn
    (by show (posIndices y).length ≤ _; rw [hpl]; exact (List.count_le_length).trans hrows)
    (by show (negIndices y).length ≤ _; rw [hnl]; exact (List.count_le_length).trans hrows) (k := 11)
    (by show 2 ^ 11 > 1024; norm_num) (by rw [hlb]; exact le_rfl) (by show 0 < 1024; norm_num)
    (ω := ω) (by rw [hlb]; exact hl) hω
  rw [(headSampleOnce_finish (env := env) rfl rfl rfl).2 ω] at h
  simp only [hD] at h
  rcases D with _ | ⟨p, n⟩
  · left
    exact h
  · right
    obtain ⟨hp1, hn1, hW⟩ := hv p n rfl
    have hp' := mem_posIndices.mp hp1
    have hn' := mem_negIndices.mp hn1
    have hidx : ∀ z, (finishIdx env.order (naiveNewRows X space) (some (p, n), reset)).Outcome z →
        ∃ id ∈ recordAt (naiveNewRows X space) p \ recordAt (naiveNewRows X space) n, z = .ok (some id, reset) := by
      intro z hz
      have hz' : ((choosePattern env.order (naiveNewRows X space) (p, n)).bind fun id =>
          (pure (some id, reset) : RandR (Option ℕ × CftpState))).Outcome z := hz
      rw [RandR.outcome_bind] at hz'
      rcases hz' with ⟨id, hid, e⟩ | ⟨e, hid, -⟩
      · obtain ⟨id', hm, e'⟩ := choosePattern_outcome he.1 hW hid
        cases e'
        exact ⟨id, hm, e⟩
      · obtain ⟨id', hm, e'⟩ := choosePattern_outcome he.1 hW hid
        cases e'
    have hpair : ∀ z, ((RandR.lift (.ok (some (p, n), reset))).bind
        (finishIdx env.order (naiveNewRows X space))).Outcome z →
        ∃ id ∈ recordAt (naiveNewRows X space) p \ recordAt (naiveNewRows X space) n, z = .ok (some id, reset) :=
      fun z hz => hidx z hz
    rw [RandR.outcome_bind] at h
    rcases h with ⟨r, hr, h⟩ | ⟨e, hr, -⟩
    · obtain ⟨id, hm, e⟩ := hpair _ hr
      cases e
      rw [Finset.mem_sdiff, recordAt_naive X space (by omega), recordAt_naive X space (by omega)] at hm
      obtain ⟨h1, h2⟩ := hm
      have h' : ∀ (st : HeadSampler), ((RandR.lift (pyGet space id)).bind fun T =>
          (pure (some T, { st with lists := reset }) : RandR (Option (Finset ℤ) × HeadSampler))).Outcome x →
          x = .ok (some (space.getD id ∅), { st with lists := reset }) := by
        intro st ho
        rw [pyGet_getD h1.1 ∅] at ho
        exact ho
      refine ⟨space.getD id ∅, ?_, h' _ h, p, n, ?_, ?_, h1.2, fun hc => h2 ⟨h1.1, hc⟩⟩
      · rw [getD_lt h1.1]; exact List.getElem_mem _
      · rcases label_values hy hp'.1 with h3 | h3
        · omega
        · rw [getD_lt hp'.1] at h3
          rw [List.getElem?_eq_getElem hp'.1, h3]
      · have h3 := hn'.2
        rw [getD_lt hn'.1] at h3
        rw [List.getElem?_eq_getElem hn'.1, h3]
    · obtain ⟨id, hm, e'⟩ := hpair _ hr
      cases e'

/-- On the example with labels 1, 0, 0 the hypotheses hold: the samples are sets of two features, so that there are
at most four, and an output of the generator is a run of 53-bit numbers. -/
example : ∃ s' space, HeadReach (someEnv 10) headMatrix (HeadSampler.init true (1 / 10) true) ∧
    (HeadSampler.init true (1 / 10) true).tight = true ∧
    headFit (someEnv 10) (HeadSampler.init true (1 / 10) true) headMatrix [1, 0, 0] = .ok s' ∧
    s'.space = some space ∧ (space.length + 1) * [1, 0, 0].length ≤ 2 ^ 53 ∧
    ∃ ω : List ℕ, 3072 ≤ ω.length ∧ ∀ k ∈ ω, k < 2 ^ 53 := by
  obtain ⟨s', h⟩ := (C58_fit (someEnv 10) (someEnv_good 10) headMatrix headMatrix_binary (by decide)
    _ (.init true (1 / 10) true) [1, 0, 0]).1.mpr ⟨by decide, by decide⟩
  obtain ⟨space, hb, -, -, hs'⟩ := inv_fit (someEnv_good 10) headMatrix_binary (by decide)
    (headInv_of_reach (someEnv_good 10) headMatrix_binary (by decide) (.init true (1 / 10) true)) h
  obtain ⟨g, space', hg, hb', hnd, hm⟩ := buildSpaceAndRows_ok (someEnv_good 10)
    (HeadSampler.init true (1 / 10) true) headMatrix_binary (by decide) (by decide)
  rw [hb] at hb'
  cases hb'
  obtain ⟨g', hg', -, -, hn, -⟩ := C48_build_graph headMatrix.flip (Cmp.flip_binary headMatrix_binary)
  rw [hg] at hg'
  cases hg'
  have hsub : space.toFinset ⊆ ({0, 1} : Finset ℤ).powerset := by
    intro T hT
    obtain ⟨U, hU, rfl⟩ := (hm T).mp (List.mem_toFinset.mp hT)
    rw [Finset.mem_powerset]
    intro x hx
    obtain ⟨j, hj, rfl⟩ := Finset.mem_image.mp hx
    have := hU.2.1.1 j hj
    rw [hn, Cmp.flip_nMajor, List.mem_range] at this
    have h2 : j < 2 := this
    interval_cases j <;> simp
  have hc := Finset.card_le_card hsub
  rw [List.toFinset_card_of_nodup hnd] at hc
  have h4 : space.length ≤ 4 := hc
  refine ⟨s', space, .init true (1 / 10) true, rfl, h, by rw [hs'], ?_, List.replicate 3072 0, ?_, ?_⟩
  · have : [1, 0, 0].length = 3 := rfl
    rw [this]
    omega
  · rw [List.length_replicate]
  · intro k hk
    rw [List.eq_of_mem_replicate hk]
    exact Nat.two_pow_pos 53

end Verif
