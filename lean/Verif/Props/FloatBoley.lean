/-
C134: the discriminative pattern sampler of Boley et al. in double precision, and its wide rows.

The weights of this sampler are powers of two less one. The property C59 is about exact numbers. The theorems here are
about the doubles that the program computes with. With rows of at most 511 features rounding changes the
probabilities by little; a row of 1024 features or more makes the sampler useless, because its weight is infinite.
-/
import Verif.Lemmas.FloatBoleyFit
import Verif.Spec.FloatBoley
import Verif.Props.Boley

namespace Verif

open Cftp RandR

theorem boleySampleOnceD_rows {S : Dbl.Order} {order : Finset ℕ → List ℕ} {k : ℕ} {s s' : BoleySamplerD} {ω : List ℕ}
    {r : BoleyResult} (h : (boleySampleOnceD S order k s ω).Outcome (.ok (r, s'))) : s'.rows = s.rows := by
  unfold boleySampleOnceD at h
  cases hc : s.cftp with
  | none => rw [hc] at h; cases h
  | some c =>
    cases hr : s.rows with
    | none => rw [hc, hr] at h; cases h
    | some rows =>
      rw [hc, hr] at h
      simp only at h
      rw [bind_eq, outcome_bind] at h
      rcases h with ⟨a, -, h⟩ | ⟨e, -, h⟩
      · rcases a with ⟨_ | pr, l⟩
        · cases h
          rfl
        · simp only [bind_eq, outcome_bind] at h
          rcases h with ⟨F, -, h⟩ | ⟨e, -, h⟩
          · cases h
            rfl
          · cases h
      · cases h

theorem boleyD_rows_reach {S : Dbl.Order} {order : Finset ℕ → List ℕ} {X : Cmp} {s : BoleySamplerD}
    (h : BoleyReachD S order X s) : boleyRowsD s X = convertMatrixToSetsV2 X := by
  induction h with
  | init => rfl
  | fit s s' y _ hf ih =>
    rw [(boleyFitD_inv (by rw [ih, rowsV2_length]) hf).2.2, ← ih]
    rfl
  | sample s s' k ω r _ ho ih =>
    rw [← ih]
    unfold boleyRowsD
    rw [boleySampleOnceD_rows ho]

/-- The state after a successful fit. -/
theorem boleyD_fitted {S : Dbl.Order} {order : Finset ℕ → List ℕ} {X : Cmp} {s s' : BoleySamplerD}
    (hs : BoleyReachD S order X s) {y : List ℤ} (hf : boleyFitD s X y = .ok s') :
    y.toFinset = {0, 1} ∧ y.length ≤ X.nMajor ∧ s' = {
      rows := some (convertMatrixToSetsV2 X), cftp := some (boleyCftpD (convertMatrixToSetsV2 X) X.nMajor y), lists := reset } := by
  have hrows := boleyD_rows_reach hs
  have h := boleyFitD_inv (by rw [hrows, rowsV2_length]) hf
  rwa [hrows] at h

theorem posIndices_nonempty {y : List ℤ} (hy : y.toFinset = {0, 1}) : posIndices y ≠ [] := by
  intro e
  have h := posIndices_length hy
  rw [e, List.length_nil] at h
  have : (1 : ℤ) ∈ y := by rw [← List.mem_toFinset, hy]; simp
  exact absurd (List.count_pos_iff.mpr this) (by omega)

theorem negIndices_nonempty {y : List ℤ} (hy : y.toFinset = {0, 1}) : negIndices y ≠ [] := by
  intro e
  have h := negIndices_length y
  rw [e, List.length_nil] at h
  have : (0 : ℤ) ∈ y := by rw [← List.mem_toFinset, hy]; simp
  exact absurd (List.count_pos_iff.mpr this) (by omega)

theorem labelled_lt {X : Cmp} {y : List ℤ} (hyl : y.length ≤ X.nMajor) {v : ℤ} {i : ℕ} (hi : i ∈ labelled y v) :
    i < X.nMajor := by
  rw [labelled, Finset.mem_filter, Finset.mem_range] at hi
  omega

theorem card_rowsV2 {X : Cmp} (hX : X.WF) {y : List ℤ} (hy : y.toFinset = {0, 1}) (hyl : y.length ≤ X.nMajor)
    {p : ℕ} (hp : p ∈ posIndices y) :
    p ∈ labelled y 1 ∧ ((convertMatrixToSetsV2 X).getD p ∅).card = rowSize X p := by
  have h : p ∈ labelled y 1 := by rw [← posIndices_labelled hy]; exact List.mem_toFinset.mpr hp
  exact ⟨h, by rw [rowsV2_getD X (labelled_lt hyl h), card_rowSet hX]⟩

/-- The object in doubles proposes as the exact one does, up to a small error. -/
theorem boley_follows (S : Dbl.Order) {rows : List (Finset ℕ)} {n : ℕ} {y : List ℤ} (hy : y.toFinset = {0, 1})
    (hyl : y.length ≤ n) (hsz : ∀ p ∈ posIndices y, (rows.getD p ∅).card ≤ 995) (hrows : y.length ≤ 2 ^ 23)
    (hr : (boleyCftp rows n y).Ready) :
    ∃ ip iq, (boleyCftpD rows n y).Follows S (boleyCftp rows n y) ip iq ∧
      ∑ p ∈ (boleyCftp rows n y).posList.toFinset, |shareOf (2 ^ 53) (fun k => ip k = p) - (boleyCftp rows n y).qP p| ≤
        y.count 1 * (34 * y.count 1 + 63) / 2 ^ 53 ∧
      ∑ q ∈ (boleyCftp rows n y).negList.toFinset, |shareOf (2 ^ 53) (fun k => iq k = q) - (boleyCftp rows n y).qN q| ≤
        y.count 0 * (34 * y.count 0 + 63) / 2 ^ 53 := by
  have hpl := posIndices_length hy
  have hnl := negIndices_length y
  obtain ⟨s1, ip, a1, a2, a3⟩ := selects_double S (posIndices y) (posIndices_nodup y) (boleyCftpD rows n y).wPos
    (fun i => onesD (rows.getD i ∅).card) (boleyCftp rows n y).wPos
    (fun i hi => wPosD_num hyl hi (by have := hsz i hi; omega))
    (fun i hi => ⟨ones_nonneg _, by rw [wPos_exact hyl hi]; exact ones_exact _⟩)
    (fun i hi => by rw [wPos_exact hyl hi]; exact ones_close _) hr.posSum
    (by rw [hpl]; exact List.count_le_length.trans hrows)
    (fun i hi => (ones_le _).trans (two_pow_le (by have := hsz i hi; omega)))
  obtain ⟨s2, iq, b1, b2, b3⟩ := selects_double S (negIndices y) (negIndices_nodup y) (boleyCftpD rows n y).wNeg
    (fun _ => 1) (boleyCftp rows n y).wNeg (fun i hi => wNegD_num hyl hi)
    (fun i hi => ⟨zero_le_one, by rw [wNeg_exact hyl hi]; exact zero_le_one⟩)
    (fun i hi => by rw [wNeg_exact hyl hi]; exact RelClose.refl zero_le_one 2) hr.negSum
    (by rw [hnl]; exact List.count_le_length.trans hrows)
    (fun i hi => one_le_pow₀ (by norm_num))
  rw [hpl] at a3
  rw [hnl] at b3
  exact ⟨ip, iq, ⟨rfl, not_or.mpr ⟨s1, s2⟩, a1, b1, a2, b2⟩, a3, b3⟩

theorem sum_lenBefore : ∑ j ∈ Finset.range 12, (lenBefore j : ℝ) = 2047 := by
  simp only [Finset.sum_range_succ, Finset.sum_range_zero, lenBefore]
  norm_num

/-- If no positive row has a feature, `sample` gives up at once. -/
theorem boley_no_weights (S : Dbl.Order) {rows : List (Finset ℕ)} {n : ℕ} {y : List ℤ} (hy : y.toFinset = {0, 1})
    (hyl : y.length ≤ n) (hsz : ∀ p ∈ posIndices y, (rows.getD p ∅).card ≤ 995)
    (h : (boleyCftp rows n y).posWeights.sum = 0 ∨ (boleyCftp rows n y).negWeights.sum = 0) (lists : CftpState)
    (ω : List ℕ) : (boleyCftpD rows n y).sample S lists ω = .ok (none, lists) := by
  have hneg : (boleyCftp rows n y).negWeights.sum ≠ 0 := by
    have e : (boleyCftp rows n y).negWeights = (negIndices y).map fun _ => (1 : ℝ) :=
      List.map_congr_left fun i hi => wNeg_exact hyl hi
    rw [e, List.map_const', List.sum_replicate, nsmul_eq_mul, mul_one]
    exact_mod_cast fun h0 => negIndices_nonempty hy (List.length_eq_zero_iff.mp h0)
  have hpos := h.resolve_right hneg
  have h0 : ∀ p ∈ posIndices y, (boleyCftpD rows n y).wPos p = .num 0 := by
    intro p hp
    have hz : (boleyCftp rows n y).wPos p = 0 := by
      have hnn : ∀ x ∈ (boleyCftp rows n y).posWeights, 0 ≤ x := by
        intro x hx
        obtain ⟨i, hi, rfl⟩ := List.mem_map.mp hx
        rw [wPos_exact hyl hi]
        exact ones_exact _
      exact le_antisymm ((List.single_le_sum hnn _ (List.mem_map_of_mem hp)).trans hpos.le)
        (hnn _ (List.mem_map_of_mem hp))
    rw [wPos_exact hyl hp] at hz
    rw [wPosD_num hyl hp (by have := hsz p hp; omega)]
    unfold onesD
    rw [hz, fl_zero]
  have e : (boleyCftpD rows n y).posWeights = ((posIndices y).map fun _ => (0 : ℝ)).map Dbl.num := by
    rw [List.map_map]
    exact List.map_congr_left h0
  have hsum : S.sum (boleyCftpD rows n y).posWeights = .num 0 := by
    rw [e]
    have hs0 : ((posIndices y).map fun _ => (0 : ℝ)).sum = 0 := by simp
    obtain ⟨v, hv, hv0, hc⟩ := Dbl.Order.sum_num S ((posIndices y).map fun _ => (0 : ℝ))
      (by simpa using posIndices_nonempty hy) (by simp) (by rw [hs0, zero_mul]; positivity)
    rw [hs0] at hc
    have : v = 0 := le_antisymm (not_lt.mp fun h => lt_irrefl _ (hc.pos_iff.mp h)) hv0
    rw [hv, this]
  unfold CftpD.sample
  rw [CftpD.sampleLoop, if_neg (by show ¬ 2 ^ 0 > 1024; norm_num), if_pos (Or.inl hsum)]

/-- Whatever the generator gives, `sample` returns `None` or a pair that some pattern separates. -/
theorem boley_sample_result (S : Dbl.Order) {rows : List (Finset ℕ)} {n : ℕ} {y : List ℤ} (hy : y.toFinset = {0, 1})
    (hyl : y.length ≤ n) (hsz : ∀ p ∈ posIndices y, (rows.getD p ∅).card ≤ 995) (hrows : y.length ≤ 2 ^ 23)
    {ω : List ℕ} (hω : ∀ x ∈ ω, x < 2 ^ 53) (hl : 3072 ≤ ω.length) :
    ∃ D, (boleyCftpD rows n y).sample S reset ω = .ok (D, reset) ∧ (boleyCftp rows n y).Valid D := by
  by_cases h : (boleyCftp rows n y).posWeights.sum = 0 ∨ (boleyCftp rows n y).negWeights.sum = 0
  · exact ⟨none, boley_no_weights S hy hyl hsz h reset ω, valid_none _⟩
  · have hr := Ready.of_ne (boleyCftp_dominated rows hyl) h
    obtain ⟨ip, iq, hf, -, -⟩ := boley_follows S hy hyl hsz hrows hr
    have hlb : lenBefore 11 = 1024 := by simp [lenBefore]
    refine CftpD.sample_result hf ?_ hω (K := 11) (by show 2 ^ 11 > 1024; norm_num)
      (by rw [hlb]; exact le_rfl) (by rw [hlb]; exact hl)
    intro s hv x hx hpos
    exact rD_pos_weight hyl (fun p hp => by have := hsz p hp; omega) hv hx.1 hx.2.1 hx.2.2.1 hpos

/-- The effect of rounding on any quantity of the result of `sample`. -/
theorem boley_sample_close (S : Dbl.Order) {rows : List (Finset ℕ)} {n : ℕ} {y : List ℤ} (hy : y.toFinset = {0, 1})
    (hyl : y.length ≤ n) (hsz : ∀ p ∈ posIndices y, (rows.getD p ∅).card ≤ 511) (hrows : y.length ≤ 2 ^ 23)
    {f : Py (Option (ℕ × ℕ) × CftpState) → ℝ} (hb : ∀ x, 0 ≤ f x ∧ f x ≤ 1) :
    |averageOver (2 ^ 53) 3072 (fun ω => f ((boleyCftpD rows n y).sample S reset ω)) -
        ((boleyCftp rows n y).sample reset).expect f| ≤
      1024 * ((y.count 1 * (34 * y.count 1 + 63) + y.count 0 * (34 * y.count 0 + 63) + 59) / 2 ^ 53) := by
  have hlb : lenBefore 11 = 1024 := by simp [lenBefore]
  by_cases h : (boleyCftp rows n y).posWeights.sum = 0 ∨ (boleyCftp rows n y).negWeights.sum = 0
  · rw [sample_no_weights h]
    simp only [boley_no_weights S hy hyl (fun p hp => (hsz p hp).trans (by norm_num)) h, averageOver_const (show 0 < 2 ^ 53 by positivity)]
    have : (RandR.expect f (pure (none, reset))) = f (.ok (none, reset)) := rfl
    rw [this, sub_self, abs_zero]
    positivity
  · have hr := Ready.of_ne (boleyCftp_dominated rows hyl) h
    obtain ⟨ip, iq, hf, hP, hN⟩ := boley_follows S hy hyl (fun p hp => (hsz p hp).trans (by norm_num)) hrows hr
    have hmain := CftpD.average_sample hf hr (tracks_boley hyl hsz hf.posOk hf.negOk) hP hN (K := 11)
      (by show 2 ^ 11 > 1024; norm_num) (by rw [hlb]; exact le_rfl) hb
    rw [hlb, sum_lenBefore, show 3 * 1024 = 3072 by norm_num] at hmain
    refine hmain.trans ?_
    rw [← add_div, ← add_div, mul_div_assoc', mul_div_assoc', mul_div_assoc', ← add_div]
    refine div_le_div_of_nonneg_right ?_ (by positivity)
    push_cast
    linarith

/-! ### From pairs to patterns -/

theorem boleyPattern_bounds {order : Finset ℕ → List ℕ} (ho : Traverses order) (rows : List (Finset ℕ)) (k : ℕ)
    (pr : ℕ × ℕ) {g : Py (Option (Finset ℕ)) → ℝ} (hg : ∀ x, 0 ≤ g x ∧ g x ≤ 1) :
    0 ≤ (boleyPattern order rows k pr).expect g ∧ (boleyPattern order rows k pr).expect g ≤ 1 := by
  obtain ⟨p, n⟩ := pr
  by_cases h0 : (rows.getD p ∅ \ rows.getD n ∅).card = 0
  · have e : (boleyPattern order rows k (p, n)).expect g = g (.ok none) := by
      unfold boleyPattern
      rw [bind_eq, expect_bind, expect_drawBernoulli ho]
      simp only [h0, pow_zero, div_one, one_pow, sub_self, zero_div, zero_mul, zero_add, one_mul]
      rfl
    rw [e]
    exact hg _
  · have h := expect_boleyPattern ho rows k p n g
    set W := boleyWeight rows p n with hW
    set q : ℝ := (1 / 2 ^ (rows.getD p ∅ \ rows.getD n ∅).card) ^ k with hq
    have hq0 : 0 ≤ q := by positivity
    have hq1 : q ≤ 1 := pow_le_one₀ (by positivity) (by
      rw [div_le_one (by positivity)]
      exact one_le_pow₀ (by norm_num))
    have hWc : W = ((pairPatterns (rows.getD p ∅) (rows.getD n ∅)).card : ℝ) := by rw [hW, boleyWeight_eq]
    have hWp : 0 < W := by
      rw [hW, boleyWeight]
      have : (1 : ℝ) < 2 ^ (rows.getD p ∅ \ rows.getD n ∅).card := one_lt_pow₀ (by norm_num) h0
      have h2 : (0 : ℝ) < 2 ^ (rows.getD p ∅ ∩ rows.getD n ∅).card := by positivity
      exact mul_pos (by linarith) h2
    have s0 : 0 ≤ ∑ F ∈ pairPatterns (rows.getD p ∅) (rows.getD n ∅), g (.ok (some F)) :=
      Finset.sum_nonneg fun F _ => (hg _).1
    have s1 : ∑ F ∈ pairPatterns (rows.getD p ∅) (rows.getD n ∅), g (.ok (some F)) ≤ W := by
      refine (Finset.sum_le_sum fun F _ => (hg _).2).trans (le_of_eq ?_)
      rw [Finset.sum_const, nsmul_eq_mul, mul_one, hWc]
    obtain ⟨g0, g1⟩ := hg (.ok none)
    constructor
    · refine nonneg_of_mul_nonneg_right ?_ hWp
      rw [h]
      exact add_nonneg (mul_nonneg (by linarith) s0) (mul_nonneg hWp.le (mul_nonneg hq0 g0))
    · refine le_of_mul_le_mul_left ?_ hWp
      rw [h, mul_one]
      have a := mul_le_mul_of_nonneg_left s1 (show 0 ≤ 1 - q by linarith)
      have b := mul_le_mul_of_nonneg_left (mul_le_mul_of_nonneg_left g1 hq0) hWp.le
      nlinarith

/-- What follows the choice of a pair in `sample_once`. -/
noncomputable def finishBoley {σ : Type} (g : CftpState → σ) (order : Finset ℕ → List ℕ) (rows : List (Finset ℕ))
    (rounds : ℕ) (r : Option (ℕ × ℕ) × CftpState) : RandR (BoleyResult × σ) :=
  match r.1 with
  | none => pure (.gaveUp, g r.2)
  | some pr => (boleyPattern order rows rounds pr).bind fun F => pure (.ofPattern F, g r.2)

theorem finishBoley_bounds {σ : Type} (g : CftpState → σ) {order : Finset ℕ → List ℕ} (ho : Traverses order)
    (rows : List (Finset ℕ)) (rounds : ℕ) {f : Py (BoleyResult × σ) → ℝ} (hf : ∀ x, 0 ≤ f x ∧ f x ≤ 1) :
    ∀ x, 0 ≤ after f (finishBoley g order rows rounds) x ∧ after f (finishBoley g order rows rounds) x ≤ 1 := by
  rintro (e | ⟨_ | pr, st⟩)
  · exact hf _
  · exact hf _
  · show 0 ≤ RandR.expect _ ((boleyPattern order rows rounds pr).bind _) ∧
      RandR.expect _ ((boleyPattern order rows rounds pr).bind _) ≤ 1
    rw [RandR.expect_bind]
    refine boleyPattern_bounds ho rows rounds pr fun x => ?_
    rcases x with e | F
    · exact hf (.error e)
    · exact hf (.ok (.ofPattern F, g st))

/-- The probability of a result does not depend on how the state of the sampler is represented. -/
theorem finishBoley_transfer {σ τ : Type} (g : CftpState → σ) (h : CftpState → τ) (order : Finset ℕ → List ℕ)
    (rows : List (Finset ℕ)) (rounds : ℕ) {f : Py (BoleyResult × σ) → ℝ} {f' : Py (BoleyResult × τ) → ℝ}
    (hok : ∀ b, f (.ok (b, g reset)) = f' (.ok (b, h reset))) (herr : ∀ e, f (.error e) = f' (.error e))
    (D : Option (ℕ × ℕ)) :
    (finishBoley g order rows rounds (D, reset)).expect f = (finishBoley h order rows rounds (D, reset)).expect f' := by
  rcases D with _ | pr
  · exact hok _
  · show RandR.expect _ ((boleyPattern order rows rounds pr).bind _) =
      RandR.expect _ ((boleyPattern order rows rounds pr).bind _)
    rw [RandR.expect_bind, RandR.expect_bind]
    congr 1
    funext x
    rcases x with e | F
    · exact herr e
    · exact hok _

/-- The probability of a result in doubles is close to the exact one. -/
theorem boleyProbD_close (S : Dbl.Order) {order : Finset ℕ → List ℕ} (ho : Traverses order) {rows : List (Finset ℕ)}
    {n : ℕ} {y : List ℤ} (hy : y.toFinset = {0, 1}) (hyl : y.length ≤ n)
    (hsz : ∀ p ∈ posIndices y, (rows.getD p ∅).card ≤ 511) (hrows : y.length ≤ 2 ^ 23) {s : BoleySamplerD}
    (hs : s = { rows := some rows, cftp := some (boleyCftpD rows n y), lists := reset }) {t : BoleySampler}
    (ht : t = { rows := some rows, cftp := some (boleyCftp rows n y), lists := reset }) (rounds : ℕ) (b : BoleyResult) :
    |boleyProbD S order rounds s (.ok (b, s)) - (boleySampleOnce order rounds t).prob (.ok (b, t))| ≤
      1024 * ((y.count 1 * (34 * y.count 1 + 63) + y.count 0 * (34 * y.count 0 + 63) + 59) / 2 ^ 53) := by
  obtain ⟨F, hF, hF1, hF0⟩ : ∃ F : Py (BoleyResult × BoleySamplerD) → ℝ,
      (∀ m : RandR (BoleyResult × BoleySamplerD), m.prob (.ok (b, s)) = m.expect F) ∧ F (.ok (b, s)) = 1 ∧
        ∀ x, x ≠ .ok (b, s) → F x = 0 := ⟨_, fun m => rfl, if_pos rfl, fun x hx => if_neg hx⟩
  obtain ⟨G, hG, hG1, hG0, hG01⟩ : ∃ F : Py (BoleyResult × BoleySampler) → ℝ,
      (∀ m : RandR (BoleyResult × BoleySampler), m.prob (.ok (b, t)) = m.expect F) ∧ F (.ok (b, t)) = 1 ∧
        (∀ x, x ≠ .ok (b, t) → F x = 0) ∧ ∀ x, 0 ≤ F x ∧ F x ≤ 1 :=
    ⟨_, fun m => rfl, if_pos rfl, fun x hx => if_neg hx, fun x => by split <;> norm_num⟩
  have e1 : (boleySampleOnce order rounds t).prob (.ok (b, t)) = ((boleyCftp rows n y).sample reset).expect
      (after G (finishBoley (fun l => { t with lists := l }) order rows rounds)) := by
    rw [hG, ← RandR.expect_bind]
    subst ht
    rfl
  have e2 : boleyProbD S order rounds s (.ok (b, s)) = averageOver (2 ^ 53) 3072 fun ω =>
      after G (finishBoley (fun l => { t with lists := l }) order rows rounds) ((boleyCftpD rows n y).sample S reset ω) := by
    refine averageOver_congr fun ω hl hω => ?_
    obtain ⟨D, hD, -⟩ := boley_sample_result S hy hyl (fun p hp => (hsz p hp).trans (by norm_num)) hrows hω hl.ge
    have e3 : boleySampleOnceD S order rounds s ω = (RandR.lift ((boleyCftpD rows n y).sample S reset ω)).bind
        (finishBoley (fun l => { s with lists := l }) order rows rounds) := by
      subst hs
      rfl
    rw [hF, e3, hD]
    show (finishBoley (fun l => { s with lists := l }) order rows rounds (D, reset)).expect F =
      (finishBoley (fun l => { t with lists := l }) order rows rounds (D, reset)).expect G
    refine finishBoley_transfer _ _ order rows rounds (fun c => ?_) (fun e => ?_) D
    · have hs2 : { s with lists := reset } = s := by rw [hs]
      have ht2 : { t with lists := reset } = t := by rw [ht]
      rw [hs2, ht2]
      by_cases hc : c = b
      · rw [hc, hF1, hG1]
      · rw [hF0 _ (by simpa using hc), hG0 _ (by simpa using hc)]
    · rw [hF0 _ (by simp), hG0 _ (by simp)]
  rw [e1, e2]
  exact boley_sample_close S hy hyl hsz hrows (finishBoley_bounds _ ho rows rounds hG01)

/-! ### Theorems -/

/-- **C134** Fitting in doubles. In every reachable state `fit` succeeds exactly when the labels are 0 and 1, both
occur, and there are not more labels than rows; a missing label value is an `AssertionError`, too many labels are a
`KeyError`. However many features a row has, the overflow check of `fit` never fails. -/
theorem C134_fit (S : Dbl.Order) (order : Finset ℕ → List ℕ) (X : Cmp) (s : BoleySamplerD)
    (hs : BoleyReachD S order X s) (y : List ℤ) :
    (y.toFinset = {0, 1} → y.length ≤ X.nMajor → ∃ s', boleyFitD s X y = .ok s') ∧
    (y.toFinset ≠ {0, 1} → boleyFitD s X y = .error .assertionError) ∧
    (y.toFinset = {0, 1} → X.nMajor < y.length → boleyFitD s X y = .error .keyError) := by
  have hlen : (boleyRowsD s X).length = X.nMajor := by rw [boleyD_rows_reach hs, rowsV2_length]
  exact ⟨fun h1 h2 => ⟨_, boleyFitD_of h1 hlen h2⟩, (boleyFitD_cases hlen y).1, (boleyFitD_cases hlen y).2⟩

/-- **C134** Overflow. After a fit in which some row with label 1 has 1024 features or more, `sample_once` always raises
a `ValueError`, whatever the generator gives and whatever earlier calls have left behind. -/
theorem C134_overflow (S : Dbl.Order) (order : Finset ℕ → List ℕ) (X : Cmp) (hX : X.Binary) (s s' : BoleySamplerD)
    (hs : BoleyReachD S order X s) (y : List ℤ) (hf : boleyFitD s X y = .ok s') (i : ℕ) (hi : i ∈ labelled y 1)
    (hw : 1024 ≤ rowSize X i) (lists : CftpState) (rounds : ℕ) (ω : List ℕ) :
    boleySampleOnceD S order rounds { s' with lists := lists } ω = .raise .valueError := by
  obtain ⟨hy, hyl, rfl⟩ := boleyD_fitted hs hf
  set rows := convertMatrixToSetsV2 X with hrows
  have hin : i ∈ posIndices y := by rw [← List.mem_toFinset, posIndices_labelled hy]; exact hi
  have hwD : ∀ p ∈ posIndices y, (boleyCftpD rows X.nMajor y).wPos p = (Dbl.pow2 (rows.getD p ∅).card).sub1 := by
    intro p hp
    have hpn : p < X.nMajor := lt_of_lt_of_le (mem_posIndices.mp hp).1 hyl
    show ((List.range X.nMajor).map (boleyWeightOfD rows (posIndices y))).getD p .nan = _
    rw [boleyWeightD_getD hpn, boleyWeightOfD, if_pos hp]
  have hinf : .inf ∈ (boleyCftpD rows X.nMajor y).posWeights := by
    refine List.mem_map.mpr ⟨i, hin, ?_⟩
    rw [hwD i hin]
    exact Dbl.sub1_pow2_inf (by rw [(card_rowsV2 hX.toWF hy hyl hin).2]; exact hw)
  have hnan : ∀ x ∈ (boleyCftpD rows X.nMajor y).posWeights, x ≠ .nan := by
    intro x hx
    obtain ⟨p, hp, rfl⟩ := List.mem_map.mp hx
    rw [hwD p hp]
    rcases Dbl.sub1_pow2_cases (rows.getD p ∅).card with h | h <;> rw [h] <;> simp
  have hsum : S.sum (boleyCftpD rows X.nMajor y).posWeights = .inf := by
    have hne : (boleyCftpD rows X.nMajor y).posWeights ≠ [] := List.ne_nil_of_mem hinf
    have hp := S.leaves _ hne
    unfold Dbl.Order.sum
    rw [if_neg hne]
    exact (Dbl.Tree.eval_inf _ fun x hx => hnan x (hp.mem_iff.mp hx)).2 (hp.mem_iff.mpr hinf)
  have hsumN : S.sum (boleyCftpD rows X.nMajor y).negWeights ≠ .num 0 := by
    have hne : (boleyCftpD rows X.nMajor y).negWeights ≠ [] := by
      simpa [CftpD.negWeights, boleyCftpD] using negIndices_nonempty hy
    have hp := S.leaves _ hne
    unfold Dbl.Order.sum
    rw [if_neg hne]
    have := Dbl.Tree.eval_pos (S.tree (boleyCftpD rows X.nMajor y).negWeights) (by
      intro x hx
      obtain ⟨q, hq, rfl⟩ := List.mem_map.mp (hp.mem_iff.mp hx)
      exact ⟨1, wNegD_num hyl hq, one_pos⟩)
    rcases this with h | ⟨v, h, hv⟩ <;> rw [h]
    · simp
    · simpa using hv.ne'
  have hch : ∀ ks, choicesD (boleyCftpD rows X.nMajor y).posList ((boleyCftpD rows X.nMajor y).posProba S) ks =
      .error .valueError := by
    intro ks
    unfold choicesD
    rw [Dbl.numbers_nan]
    unfold CftpD.posProba
    rw [hsum]
    exact List.mem_map.mpr ⟨.inf, hinf, rfl⟩
  have hexp : ∀ st om, (boleyCftpD rows X.nMajor y).expandHorizon S (2 ^ 0) st om = .error .valueError := by
    intro st om
    unfold CftpD.expandHorizon
    rw [if_neg (by norm_num)]
    split
    · rfl
    · simp only [hch]
      rfl
  have hsam : (boleyCftpD rows X.nMajor y).sample S lists ω = .error .valueError := by
    unfold CftpD.sample
    rw [CftpD.sampleLoop, if_neg (by show ¬ 2 ^ 0 > 1024; norm_num), if_neg (by rw [hsum]; simpa using hsumN), hexp]
    rfl
  show (RandR.lift ((boleyCftpD rows X.nMajor y).sample S lists ω)).bind _ = _
  rw [hsam]
  rfl

/-- **C134** The law. After a fit in which the rows with label 1 have at most 511 features: within `rounds` rounds of its
retry loop `sample_once` in doubles returns the pattern `F`, returns `None`, and is still drawing with the exact
probabilities of `C59_rounds`, up to a small error. -/
theorem C134_law (S : Dbl.Order) (order : Finset ℕ → List ℕ) (ho : Traverses order) (X : Cmp) (hX : X.Binary)
    (s s' : BoleySamplerD) (hs : BoleyReachD S order X s) (y : List ℤ) (hf : boleyFitD s X y = .ok s')
    (hsz : ∀ i ∈ labelled y 1, rowSize X i ≤ 511) (hrows : y.length ≤ 2 ^ 23) (rounds : ℕ) :
    ∃ success err : ℝ, success = 1 - (1 - (∑ F ∈ itemsets X, (patternSeparations X y F : ℝ)) /
        ((∑ i ∈ labelled y 1, ((2 : ℝ) ^ rowSize X i - 1)) * (labelled y 0).card)) ^ 1024 ∧
      err = 1024 * ((y.count 1 * (34 * y.count 1 + 63) + y.count 0 * (34 * y.count 0 + 63) + 59) / 2 ^ 53) ∧
      (∀ F ∈ itemsets X, |boleyProbD S order rounds s' (.ok (.pattern F, s')) -
        success * ((∑ ij ∈ separatedPairs X y F, (1 - (1 / 2 ^ rowDiff X ij.1 ij.2) ^ rounds)) /
          ∑ F ∈ itemsets X, (patternSeparations X y F : ℝ))| ≤ err) ∧
      |boleyProbD S order rounds s' (.ok (.gaveUp, s')) - (1 - success)| ≤ err ∧
      |boleyProbD S order rounds s' (.ok (.running, s')) -
        success * ((∑ F ∈ itemsets X, ∑ ij ∈ separatedPairs X y F, ((1 : ℝ) / 2 ^ rowDiff X ij.1 ij.2) ^ rounds) /
          ∑ F ∈ itemsets X, (patternSeparations X y F : ℝ))| ≤ err := by
  obtain ⟨hy, hyl, hs'⟩ := boleyD_fitted hs hf
  obtain ⟨t, ht⟩ := (C59_fit order X BoleySampler.init .init y).1 hy hyl
  have ht' := (boleyFit_inv (by rw [boley_rows_reach (order := order) .init, rowsV2_length]) ht).2.2
  rw [boley_rows_reach (order := order) .init] at ht'
  obtain ⟨success, h1, h2, h3, h4⟩ := C59_rounds order ho X hX _ t .init y ht rounds
  have hcl := boleyProbD_close S ho hy hyl (fun p hp => by
    obtain ⟨a, b⟩ := card_rowsV2 hX.toWF hy hyl hp
    rw [b]
    exact hsz p a) hrows hs' ht' rounds
  refine ⟨success, _, h1, rfl, fun F hF => ?_, ?_, ?_⟩
  · rw [← h2 F hF]
    exact hcl _
  · rw [← h3]
    exact hcl _
  · rw [← h4]
    exact hcl _

/-- **C134** Everything `sample_once` in doubles can do after a fit in which the rows with label 1 have at most 995
features, so that products of weights may overflow, whatever the generator gives: return `None`, go on drawing, or return a non-empty pattern that some positive row has and some negative row has not. It never raises
and leaves the sampler unchanged. -/
theorem C134_outcomes (S : Dbl.Order) (order : Finset ℕ → List ℕ) (ho : Traverses order) (X : Cmp) (hX : X.Binary)
    (s s' : BoleySamplerD) (hs : BoleyReachD S order X s) (y : List ℤ) (hf : boleyFitD s X y = .ok s')
    (hsz : ∀ i ∈ labelled y 1, rowSize X i ≤ 995) (hrows : y.length ≤ 2 ^ 23) (rounds : ℕ)
    (ω : List ℕ) (hl : 3072 ≤ ω.length) (hω : ∀ k ∈ ω, k < 2 ^ 53) (x : Py (BoleyResult × BoleySamplerD))
    (h : (boleySampleOnceD S order rounds s' ω).Outcome x) :
    x = .ok (.gaveUp, s') ∨ x = .ok (.running, s') ∨ ∃ F, x = .ok (.pattern F, s') ∧ F ≠ ∅ ∧
      F ∈ itemsets X ∧ 0 < patternSeparations X y F := by
  obtain ⟨hy, hyl, hs'⟩ := boleyD_fitted hs hf
  obtain ⟨D, hD, hv⟩ := boley_sample_result S hy hyl (fun p hp => by
    obtain ⟨a, b⟩ := card_rowsV2 hX.toWF hy hyl hp
    rw [b]
    exact hsz p a) hrows hω hl
  have hls : { s' with lists := reset } = s' := by rw [hs']
  have e3 : boleySampleOnceD S order rounds s' ω =
      (RandR.lift ((boleyCftpD (convertMatrixToSetsV2 X) X.nMajor y).sample S reset ω)).bind
        (finishBoley (fun l => { s' with lists := l }) order (convertMatrixToSetsV2 X) rounds) := by
    subst hs'
    rfl
  rw [e3, hD] at h
  change (finishBoley (fun l => { s' with lists := l }) order (convertMatrixToSetsV2 X) rounds (D, reset)).Outcome x at h
  rcases D with _ | ⟨p, q⟩
  · left
    change x = .ok (.gaveUp, { s' with lists := reset }) at h
    rwa [hls] at h
  · obtain ⟨hp, hq, -⟩ := hv p q rfl
    have hp' : p ∈ labelled y 1 := by
      rw [← posIndices_labelled hy]; exact List.mem_toFinset.mpr hp
    have hq' : q ∈ labelled y 0 := by
      rw [← negIndices_labelled]; exact List.mem_toFinset.mpr hq
    change ((boleyPattern order (convertMatrixToSetsV2 X) rounds (p, q)).bind fun F =>
      pure (.ofPattern F, { s' with lists := reset })).Outcome x at h
    rw [outcome_bind, hls] at h
    rcases h with ⟨r, hr2, h⟩ | ⟨e, hr2, -⟩
    · rcases outcome_boleyPattern ho hr2 with e | ⟨F, hF, e⟩
      · cases e
        exact Or.inr (Or.inl h)
      · cases e
        right; right
        rw [rowsV2_getD X (labelled_lt hyl hp'), rowsV2_getD X (labelled_lt hyl hq')] at hF
        have hF' := mem_pairPatterns.mp hF
        refine ⟨F, h, ?_, ?_, ?_⟩
        · rintro rfl
          exact hF'.2 (Finset.empty_subset _)
        · rw [itemsets, Finset.mem_powerset]
          exact hF'.1.trans (rowSet_subset hX.toWF p)
        · exact Finset.card_pos.mpr ⟨(p, q), mem_separatedPairs.mpr ⟨hp', hq', hF⟩⟩
    · rcases outcome_boleyPattern ho hr2 with e' | ⟨F, hF, e'⟩ <;> cases e'

/-- **C134** The ground truth of wide rows. `get_ground_truth_proba_for_pairs` computes with 64-bit integers: it never
lists a pair whose row with label 1 has 64 features or more, although patterns separate it. -/
theorem C134_ground_truth (order : Finset ℕ → List ℕ) (X : Cmp) (hX : X.Binary) (s s' : BoleySampler)
    (hs : BoleyReach order X s) (y : List ℤ) (hf : boleyFit s X y = .ok s') :
    ∃ rows, s'.rows = some rows ∧ ∀ i j q, 64 ≤ rowSize X i →
      ((i, j), q) ∉ boleyTruthPairs rows (posIndices y) (negIndices y) := by
  have hrows := boley_rows_reach hs
  obtain ⟨hy, hyl, hs'⟩ := boleyFit_inv (by rw [hrows, rowsV2_length]) hf
  rw [hrows] at hs'
  refine ⟨_, by rw [hs'], ?_⟩
  intro i j q hi hm
  unfold boleyTruthPairs counter2probaI64 at hm
  obtain ⟨⟨⟨i', j'⟩, w⟩, he, e⟩ := List.mem_map.mp hm
  cases e
  obtain ⟨he, hpos⟩ := List.mem_filter.mp he
  obtain ⟨⟨p, n⟩, hpr, e⟩ := List.mem_map.mp he
  cases e
  have hp := (List.mem_product.mp hpr).1
  have hw := boleyPairWeight_wide (P := (convertMatrixToSetsV2 X).getD i ∅)
    (by rw [(card_rowsV2 hX.toWF hy hyl hp).2]; exact hi) ((convertMatrixToSetsV2 X).getD j ∅)
  have : (0 : ℤ) < boleyPairWeight ((convertMatrixToSetsV2 X).getD i ∅) ((convertMatrixToSetsV2 X).getD j ∅) := by
    simpa using hpos
  omega

/-! ### Examples -/

/-- Adding from right to left. -/
def rightTreeD : List Dbl → Dbl.Tree
  | [] => .leaf (.num 0)
  | [x] => .leaf x
  | x :: y :: l => .node (.leaf x) (rightTreeD (y :: l))

theorem rightTreeD_leaves : ∀ l, l ≠ [] → (rightTreeD l).leaves = l
  | [x], _ => rfl
  | x :: y :: l, _ => by
    rw [rightTreeD, Dbl.Tree.leaves, rightTreeD_leaves (y :: l) (by simp)]
    rfl

/-- An order of additions. -/
def rightOrderD : Dbl.Order := { tree := rightTreeD, leaves := fun l h => by rw [rightTreeD_leaves l h] }

/-- A row with `n` features and a row with none. -/
def wideMatrix (n : ℕ) : Cmp :=
  { nMajor := 2, nMinor := n, indptr := [0, n, n], indices := List.range n, data := List.replicate n 1 }

theorem wideMatrix_binary (n : ℕ) : (wideMatrix n).Binary where
  len_indptr := rfl
  ptr_zero := rfl
  ptr_mono i hi := by
    have : i < 2 := hi
    interval_cases i
    · exact Nat.zero_le n
    · exact le_rfl
  ptr_last := by simp [wideMatrix, Cmp.ptr]
  len_data := by simp [wideMatrix]
  idx_lt j hj := by simpa [wideMatrix] using hj
  data_one d hd := (List.mem_replicate.mp hd).2
  nodup i hi := by
    have : i < 2 := hi
    interval_cases i
    · simpa [wideMatrix, Cmp.segIdx, Cmp.ptr, pySlice] using List.nodup_range (n := n)
    · simp [wideMatrix, Cmp.segIdx, Cmp.ptr, pySlice]

theorem wideMatrix_size (n : ℕ) : rowSize (wideMatrix n) 0 = n := by
  rw [← card_rowSet (wideMatrix_binary n).toWF]
  have : rowSet (wideMatrix n) 0 = Finset.range n := by
    ext f
    simp [rowSet, wideMatrix, Cmp.segIdx, Cmp.ptr, pySlice]
  rw [this, Finset.card_range]

/-- A fitted sampler that `C134_law` and `C134_outcomes` apply to: rows {0, 1}, {0} and {1} with labels 1, 0, 0. -/
example : ∃ s', boleyFitD BoleySamplerD.init headMatrix [1, 0, 0] = .ok s' ∧
    BoleyReachD rightOrderD (fun S => S.sort (· ≤ ·)) headMatrix s' ∧
    (∀ i ∈ labelled [1, 0, 0] 1, rowSize headMatrix i ≤ 511) := by
  obtain ⟨s', h⟩ := (C134_fit rightOrderD (fun S => S.sort (· ≤ ·)) headMatrix _ .init [1, 0, 0]).1 (by decide) (by decide)
  refine ⟨s', h, .fit _ _ _ .init h, fun i _ => ?_⟩
  have h2 := Finset.card_le_card (rowSet_subset headMatrix_binary.toWF i)
  rw [card_rowSet headMatrix_binary.toWF, Finset.card_range] at h2
  exact h2.trans (by decide)

/-- A fitted sampler that `C134_outcomes` applies to, with a row of 900 features, whose weight has a square that
overflows. -/
example : ∃ s', boleyFitD BoleySamplerD.init (wideMatrix 900) [1, 0] = .ok s' ∧
    BoleyReachD rightOrderD (fun S => S.sort (· ≤ ·)) (wideMatrix 900) s' ∧
    (∀ i ∈ labelled [1, 0] 1, rowSize (wideMatrix 900) i ≤ 995) := by
  obtain ⟨s', h⟩ := (C134_fit rightOrderD (fun S => S.sort (· ≤ ·)) (wideMatrix 900) _ .init [1, 0]).1 (by decide) le_rfl
  refine ⟨s', h, .fit _ _ _ .init h, fun i _ => ?_⟩
  have h2 := Finset.card_le_card (rowSet_subset (wideMatrix_binary 900).toWF i)
  rw [card_rowSet (wideMatrix_binary 900).toWF, Finset.card_range] at h2
  exact h2.trans (by decide)

/-- A fitted sampler that `C134_overflow` applies to, with a row of 2000 features. -/
example : ∃ s', boleyFitD BoleySamplerD.init (wideMatrix 2000) [1, 0] = .ok s' ∧
    BoleyReachD rightOrderD (fun S => S.sort (· ≤ ·)) (wideMatrix 2000) s' ∧
    0 ∈ labelled [1, 0] 1 ∧ 1024 ≤ rowSize (wideMatrix 2000) 0 := by
  obtain ⟨s', h⟩ := (C134_fit rightOrderD (fun S => S.sort (· ≤ ·)) (wideMatrix 2000) _ .init [1, 0]).1 (by decide) le_rfl
  exact ⟨s', h, .fit _ _ _ .init h, by decide, by rw [wideMatrix_size]; norm_num⟩

/-- A fitted sampler that `C134_ground_truth` applies to: the only pair is missing, although the pattern {0} separates
it. -/
example : ∃ s', boleyFit BoleySampler.init (wideMatrix 64) [1, 0] = .ok s' ∧
    64 ≤ rowSize (wideMatrix 64) 0 ∧ 0 < patternSeparations (wideMatrix 64) [1, 0] {0} := by
  obtain ⟨s', h⟩ := (C59_fit (fun S => S.sort (· ≤ ·)) (wideMatrix 64) _ .init [1, 0]).1 (by decide) le_rfl
  refine ⟨s', h, by rw [wideMatrix_size], Finset.card_pos.mpr ⟨(0, 1), ?_⟩⟩
  rw [mem_separatedPairs]
  refine ⟨by decide, by decide, mem_pairPatterns.mpr ⟨?_, ?_⟩⟩ <;> decide

end Verif
