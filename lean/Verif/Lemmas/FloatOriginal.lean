/-
Lemmas on the head sampler with the original proposal in double precision.
-/
import Verif.Lemmas.FloatBoleyFit
import Verif.Lemmas.FloatBoleySelect
import Verif.Spec.FloatOriginal
import Verif.Props.Boley

namespace Verif

open Cftp

/-! ### Rounded square roots -/

/-- The rounded square root. -/
noncomputable def sqD (m : ℕ) : ℝ := fl (Real.sqrt m)

theorem sqD_close (m : ℕ) : RelClose 2 (sqD m) (Real.sqrt m) := RelClose.round (Real.sqrt_nonneg _)

theorem sqD_nonneg (m : ℕ) : 0 ≤ sqD m := fl_nonneg (Real.sqrt_nonneg _)

theorem one_le_sqD {m : ℕ} (h : m ≠ 0) : 1 ≤ sqD m := by
  have h1 : (1 : ℝ) ≤ m := by exact_mod_cast Nat.one_le_iff_ne_zero.mpr h
  have := fl_mono zero_le_one (Real.one_le_sqrt.mpr h1)
  rwa [fl_one] at this

theorem sqD_le {m : ℕ} (h : m ≤ 2 ^ 53) : sqD m ≤ 2 ^ 27 := by
  rw [← fl_two_pow 27]
  refine fl_mono (Real.sqrt_nonneg _) (Real.sqrt_le_iff.mpr ⟨by positivity, ?_⟩)
  have h1 : (m : ℝ) ≤ 2 ^ 53 := by exact_mod_cast h
  rw [← pow_mul]
  exact h1.trans (two_pow_le (by norm_num))

theorem Dbl.sqrt_num {m : ℕ} (h : m ≤ 2 ^ 53) : Dbl.sqrt (m : ℤ) = .num (sqD m) := by
  have h2 := sqD_le h
  unfold Dbl.sqrt
  rw [if_neg (by omega), Int.cast_natCast, fl_nat h]
  exact Dbl.round_num (lt_of_le_of_lt h2 (two_pow_lt (by norm_num)))

/-! ### The object -/

/-- The number under the root in the weight of a record. -/
def rootOf (size : ℕ) (rows : List (List ℕ)) (pos : List ℕ) (i : ℕ) : ℕ :=
  if i ∈ pos then (rows.getD i []).length else size - (rows.getD i []).length

/-- The weight of a record, in closed form. -/
noncomputable def weightOfD (size : ℕ) (rows : List (List ℕ)) (pos : List ℕ) (i : ℕ) : Dbl :=
  if i ∈ pos then Dbl.sqrt (rows.getD i []).length else Dbl.sqrt ((size : ℤ) - (rows.getD i []).length)

/-- The `CFTP` object that `fit` constructs. -/
noncomputable def headCftpD (size : ℕ) (rows : List (List ℕ)) (n : ℕ) (y : List ℤ) : CftpD :=
  { posList := posIndices y, negList := negIndices y,
    wPos := fun i => ((List.range n).map (weightOfD size rows (posIndices y))).getD i .nan,
    wNeg := fun i => ((List.range n).map (weightOfD size rows (posIndices y))).getD i .nan,
    weight := discrimWeightD rows, maxIters := 1024 }

theorem headWeightD_ok {size : ℕ} {rows : List (List ℕ)} {pos : List ℕ} {i : ℕ} (h : i < rows.length) :
    headWeightD size rows pos i = .ok (weightOfD size rows pos i) := by
  unfold headWeightD weightOfD
  rw [pyGet_getD h []]
  by_cases hp : i ∈ pos <;> simp only [if_pos, if_neg, hp, not_false_eq_true] <;> rfl

theorem weightD_getD {size : ℕ} {rows : List (List ℕ)} {n : ℕ} {pos : List ℕ} {i : ℕ} (h : i < n) :
    ((List.range n).map (weightOfD size rows pos)).getD i .nan = weightOfD size rows pos i := by
  rw [getD_lt (by simpa using h)]
  simp

theorem headFitD_of {env : HeadEnv} {s : HeadSamplerD} {X : Cmp} {y : List ℤ} {space : List (Finset ℤ)}
    {rows : List (List ℕ)} (hy : y.toFinset = {0, 1}) (hsr : spaceAndRows env s.parts X = .ok (space, rows))
    (hlen : rows.length = X.nMajor) (hyl : y.length ≤ X.nMajor) :
    headFitD env s X y = .ok { s with
      space := some space, newRows := some rows,
      cftp := some (headCftpD space.length rows X.nMajor y), lists := reset } := by
  unfold headFitD checkLabels checkKeys
  rw [if_pos hy, hsr]
  simp only [bind, Except.bind]
  have hm : (List.range X.nMajor).mapM (headWeightD space.length rows (posIndices y)) =
      .ok ((List.range X.nMajor).map (weightOfD space.length rows (posIndices y))) :=
    mapM_ok_of_forall fun i hi => headWeightD_ok (by rw [hlen]; exact List.mem_range.mp hi)
  rw [hm]
  simp only
  rw [if_pos]
  · rfl
  · intro i hi
    rcases List.mem_append.mp hi with h | h
    · exact lt_of_lt_of_le (mem_posIndices.mp h).1 hyl
    · exact lt_of_lt_of_le (mem_negIndices.mp h).1 hyl

section
variable {size : ℕ} {rows : List (List ℕ)} {n : ℕ} {y : List ℤ}

theorem row_length_le (hr : RowsOk size rows) (i : ℕ) : (rows.getD i []).length ≤ size := by
  have := recordAt_ok hr i
  rw [← this.2]
  have h2 := Finset.card_le_card this.1
  rwa [Finset.card_range] at h2

theorem rootOf_le (hr : RowsOk size rows) (pos : List ℕ) (i : ℕ) : rootOf size rows pos i ≤ size := by
  unfold rootOf
  split
  · exact row_length_le hr i
  · exact Nat.sub_le _ _

theorem weightOfD_num (hr : RowsOk size rows) (hsz : size ≤ 2 ^ 53) (pos : List ℕ) (i : ℕ) :
    weightOfD size rows pos i = .num (sqD (rootOf size rows pos i)) := by
  have hle := row_length_le hr i
  have := Dbl.sqrt_num ((rootOf_le hr pos i).trans hsz)
  rw [← this]
  unfold weightOfD rootOf
  split
  · rfl
  · rw [Nat.cast_sub hle]

theorem weightOf_root (hr : RowsOk size rows) (pos : List ℕ) (i : ℕ) :
    weightOf false size rows pos i = Real.sqrt (rootOf size rows pos i) := by
  have hle := row_length_le hr i
  unfold weightOf rootOf
  rw [if_neg (by simp)]
  split
  · rfl
  · rw [Nat.cast_sub hle]

theorem pos_lt (hyl : y.length ≤ n) {p : ℕ} (hp : p ∈ posIndices y) : p < n :=
  lt_of_lt_of_le (mem_posIndices.mp hp).1 hyl

theorem neg_lt (hyl : y.length ≤ n) {q : ℕ} (hq : q ∈ negIndices y) : q < n :=
  lt_of_lt_of_le (mem_negIndices.mp hq).1 hyl

theorem origD_num (hr : RowsOk size rows) (hsz : size ≤ 2 ^ 53) {i : ℕ} (hi : i < n) :
    (headCftpD size rows n y).wPos i = .num (sqD (rootOf size rows (posIndices y) i)) ∧
      (headCftpD size rows n y).wNeg i = .num (sqD (rootOf size rows (posIndices y) i)) := by
  have h : ((List.range n).map (weightOfD size rows (posIndices y))).getD i .nan =
      .num (sqD (rootOf size rows (posIndices y) i)) := by rw [weightD_getD hi, weightOfD_num hr hsz]
  exact ⟨h, h⟩

theorem orig_exact (hr : RowsOk size rows) {i : ℕ} (hi : i < n) :
    (headCftp false size rows n y).wPos i = Real.sqrt (rootOf size rows (posIndices y) i) ∧
      (headCftp false size rows n y).wNeg i = Real.sqrt (rootOf size rows (posIndices y) i) := by
  have h : ((List.range n).map (weightOf false size rows (posIndices y))).getD i 0 =
      Real.sqrt (rootOf size rows (posIndices y) i) := by rw [weight_getD hi, weightOf_root hr]
  exact ⟨h, h⟩

theorem discrimD_num (hr : RowsOk size rows) (hsz : size ≤ 2 ^ 53) (p q : ℕ) :
    (headCftpD size rows n y).weight p q = .num ((recordAt rows p \ recordAt rows q).card : ℝ) ∧
      (recordAt rows p \ recordAt rows q).card ≤ 2 ^ 53 := by
  have h : (recordAt rows p \ recordAt rows q).card ≤ 2 ^ 53 := by
    refine (Finset.card_le_card Finset.sdiff_subset).trans ?_
    rw [(recordAt_ok hr p).2]
    exact (row_length_le hr p).trans hsz
  refine ⟨?_, h⟩
  show Dbl.round _ = _
  have h1 : ((recordAt rows p \ recordAt rows q).card : ℝ) ≤ 2 ^ 53 := by exact_mod_cast h
  rw [Dbl.round_num (by rw [fl_nat h]; exact lt_of_le_of_lt h1 (two_pow_lt (by norm_num))), fl_nat h]

/-- The product of two rounded roots. -/
noncomputable def sqPairD (a b : ℕ) : ℝ := fl (sqD a * sqD b)

theorem sqPairD_close (a b : ℕ) : RelClose 6 (sqPairD a b) (Real.sqrt a * Real.sqrt b) :=
  (RelClose.round (mul_nonneg (sqD_nonneg a) (sqD_nonneg b))).trans
    ((sqD_close a).mul (sqD_close b) (sqD_nonneg _) (Real.sqrt_nonneg _) (sqD_nonneg _) (Real.sqrt_nonneg _))

theorem sqPairD_nonneg (a b : ℕ) : 0 ≤ sqPairD a b := fl_nonneg (mul_nonneg (sqD_nonneg a) (sqD_nonneg b))

theorem sqPairD_le {a b : ℕ} (ha : a ≤ 2 ^ 53) (hb : b ≤ 2 ^ 53) : sqPairD a b ≤ 2 ^ 54 := by
  rw [← fl_two_pow 54]
  refine fl_mono (mul_nonneg (sqD_nonneg a) (sqD_nonneg b)) ?_
  rw [show (54 : ℕ) = 27 + 27 by norm_num, pow_add]
  exact mul_le_mul (sqD_le ha) (sqD_le hb) (sqD_nonneg _) (by positivity)

theorem one_le_sqPairD {a b : ℕ} (ha : a ≠ 0) (hb : b ≠ 0) : 1 ≤ sqPairD a b := by
  have := fl_mono zero_le_one (one_le_mul_of_one_le_of_one_le (one_le_sqD ha) (one_le_sqD hb))
  rwa [fl_one] at this

theorem origBar_num (hr : RowsOk size rows) (hsz : size ≤ 2 ^ 53) (hyl : y.length ≤ n) {p q : ℕ}
    (hp : p ∈ posIndices y) (hq : q ∈ negIndices y) :
    ((headCftpD size rows n y).wPos p).mul ((headCftpD size rows n y).wNeg q) =
      .num (sqPairD (rootOf size rows (posIndices y) p) (rootOf size rows (posIndices y) q)) := by
  rw [(origD_num hr hsz (pos_lt hyl hp)).1, (origD_num hr hsz (neg_lt hyl hq)).2]
  exact Dbl.round_num (lt_of_le_of_lt (sqPairD_le ((rootOf_le hr _ p).trans hsz) ((rootOf_le hr _ q).trans hsz))
    (two_pow_lt (by norm_num)))

/-- The weights that the chain remembers, as numbers. -/
theorem origChain_num (hr : RowsOk size rows) (hsz : size ≤ 2 ^ 53) (hyl : y.length ≤ n) {s : St}
    (hs : (headCftp false size rows n y).Valid s) :
    ∃ b, ((headCftpD size rows n y).chainOf s).wD = .num ((headCftp false size rows n y).wOf s) ∧
      ((headCftpD size rows n y).chainOf s).wDBar = .num b ∧
      1 ≤ (headCftp false size rows n y).wOf s ∧ (headCftp false size rows n y).wOf s ≤ 2 ^ 54 ∧ 0 ≤ b ∧ b ≤ 2 ^ 54 ∧
      RelClose 6 b ((headCftp false size rows n y).barOf s) ∧ 0 ≤ (headCftp false size rows n y).barOf s := by
  rcases s with _ | ⟨p, q⟩
  · exact ⟨1, rfl, rfl, le_rfl, one_le_pow₀ (by norm_num), zero_le_one, one_le_pow₀ (by norm_num),
      RelClose.refl zero_le_one 6, zero_le_one⟩
  · obtain ⟨hp, hq, hW⟩ := hs p q rfl
    have hp' : p ∈ posIndices y := hp
    have hq' : q ∈ negIndices y := hq
    obtain ⟨e, hle⟩ := discrimD_num (n := n) (y := y) hr hsz p q
    have hbar : (headCftp false size rows n y).barOf (some (p, q)) =
        Real.sqrt (rootOf size rows (posIndices y) p) * Real.sqrt (rootOf size rows (posIndices y) q) := by
      show (headCftp false size rows n y).wPos p * (headCftp false size rows n y).wNeg q = _
      rw [(orig_exact hr (pos_lt hyl hp')).1, (orig_exact hr (neg_lt hyl hq')).2]
    have hW' : 0 < ((recordAt rows p \ recordAt rows q).card : ℝ) := hW
    refine ⟨_, e, origBar_num hr hsz hyl hp' hq', ?_, ?_, sqPairD_nonneg _ _,
      sqPairD_le ((rootOf_le hr _ p).trans hsz) ((rootOf_le hr _ q).trans hsz), ?_, ?_⟩
    · show (1 : ℝ) ≤ ((recordAt rows p \ recordAt rows q).card : ℝ)
      exact_mod_cast Nat.one_le_iff_ne_zero.mpr fun h => by rw [h, Nat.cast_zero] at hW'; exact lt_irrefl _ hW'
    · show ((recordAt rows p \ recordAt rows q).card : ℝ) ≤ 2 ^ 54
      have h1 : ((recordAt rows p \ recordAt rows q).card : ℝ) ≤ 2 ^ 53 := by exact_mod_cast hle
      exact h1.trans (two_pow_le (by norm_num))
    · rw [hbar]; exact sqPairD_close _ _
    · rw [hbar]; positivity

/-- The ratio in doubles is a number close to the exact one. -/
theorem origRatio_close (hr : RowsOk size rows) (hsz : size ≤ 2 ^ 53) (hyl : y.length ≤ n) {s : St}
    (hs : (headCftp false size rows n y).Valid s) {p q : ℕ} (hp : p ∈ posIndices y) (hq : q ∈ negIndices y)
    (hwp : 0 < (headCftp false size rows n y).wPos p) (hwq : 0 < (headCftp false size rows n y).wNeg q) :
    0 ≤ (headCftpD size rows n y).rD s p q ∧ 0 ≤ (headCftp false size rows n y).ratio s p q ∧
      RelClose 18 ((headCftpD size rows n y).rD s p q) ((headCftp false size rows n y).ratio s p q) := by
  obtain ⟨b, e1, e2, ha1, ha2, hb0, hb1, cb, hbar0⟩ := origChain_num hr hsz hyl hs
  set a := (headCftp false size rows n y).wOf s with ha
  obtain ⟨ew, hle⟩ := discrimD_num (n := n) (y := y) hr hsz p q
  have eo := origBar_num hr hsz hyl hp hq
  have ep := (orig_exact (n := n) (y := y) hr (pos_lt hyl hp)).1
  have eq := (orig_exact (n := n) (y := y) hr (neg_lt hyl hq)).2
  have hcp := sqPairD_close (rootOf size rows (posIndices y) p) (rootOf size rows (posIndices y) q)
  have hoU := sqPairD_le ((rootOf_le hr (posIndices y) p).trans hsz) ((rootOf_le hr (posIndices y) q).trans hsz)
  have hop1 : 1 ≤ sqPairD (rootOf size rows (posIndices y) p) (rootOf size rows (posIndices y) q) := by
    refine one_le_sqPairD (fun h => ?_) (fun h => ?_)
    · rw [ep, h, Nat.cast_zero, Real.sqrt_zero] at hwp; exact lt_irrefl _ hwp
    · rw [eq, h, Nat.cast_zero, Real.sqrt_zero] at hwq; exact lt_irrefl _ hwq
  set o := sqPairD (rootOf size rows (posIndices y) p) (rootOf size rows (posIndices y) q) with ho
  have hw0 : (0 : ℝ) ≤ ((recordAt rows p \ recordAt rows q).card : ℝ) := Nat.cast_nonneg _
  have hwU : ((recordAt rows p \ recordAt rows q).card : ℝ) ≤ 2 ^ 54 := by
    have h1 : ((recordAt rows p \ recordAt rows q).card : ℝ) ≤ 2 ^ 53 := by exact_mod_cast hle
    exact h1.trans (two_pow_le (by norm_num))
  have hWe : (headCftp false size rows n y).W p q = ((recordAt rows p \ recordAt rows q).card : ℝ) := rfl
  set w := ((recordAt rows p \ recordAt rows q).card : ℝ) with hwd
  have hprod : ∀ x z : ℝ, 0 ≤ x → x ≤ 2 ^ 54 → 0 ≤ z → z ≤ 2 ^ 54 → fl (x * z) ≤ 2 ^ 108 := by
    intro x z hx0 hx hz0 hz
    rw [← fl_two_pow 108]
    refine fl_mono (mul_nonneg hx0 hz0) ?_
    rw [show (108 : ℕ) = 54 + 54 by norm_num, pow_add]
    exact mul_le_mul hx hz hz0 (by positivity)
  have hlt : ∀ x : ℝ, x ≤ 2 ^ 108 → x < 2 ^ 1024 := fun x hx => lt_of_le_of_lt hx (two_pow_lt (by norm_num))
  have hN := hprod w b hw0 hwU hb0 hb1
  have hDn := hprod o a (by linarith) hoU (by linarith) ha2
  have hD1 : 1 ≤ fl (o * a) := by
    have := fl_mono zero_le_one (one_le_mul_of_one_le_of_one_le hop1 ha1)
    rwa [fl_one] at this
  have hnum0 : 0 ≤ fl (w * b) := fl_nonneg (mul_nonneg hw0 hb0)
  have hq2 : fl (fl (w * b) / fl (o * a)) ≤ 2 ^ 108 := by
    rw [← fl_two_pow 108]
    refine fl_mono (div_nonneg hnum0 (by linarith)) ?_
    exact (div_le_self hnum0 hD1).trans hN
  have hratio : CftpD.ratio ((headCftpD size rows n y).chainOf s) ((headCftpD size rows n y).weight p q)
      (((headCftpD size rows n y).wPos p).mul ((headCftpD size rows n y).wNeg q)) = .num (fl (fl (w * b) / fl (o * a))) := by
    unfold CftpD.ratio
    rw [ew, eo, e1, e2]
    have m1 : Dbl.mul (.num w) (.num b) = .num (fl (w * b)) := Dbl.round_num (hlt _ hN)
    have m2 : Dbl.mul (.num o) (.num a) = .num (fl (o * a)) := Dbl.round_num (hlt _ hDn)
    rw [m1, m2]
    show (if fl (o * a) = 0 then _ else Dbl.round (fl (w * b) / fl (o * a))) = _
    rw [if_neg (by linarith), Dbl.round_num (hlt _ hq2)]
  have hrD : (headCftpD size rows n y).rD s p q = fl (fl (w * b) / fl (o * a)) := by
    unfold CftpD.rD
    rw [hratio]
  have hex : (headCftp false size rows n y).ratio s p q = (w * (headCftp false size rows n y).barOf s) /
      (Real.sqrt (rootOf size rows (posIndices y) p) * Real.sqrt (rootOf size rows (posIndices y) q) * a) := by
    unfold Cftp.ratio
    rw [ep, eq, hWe]
  have hxpos : 0 < Real.sqrt (rootOf size rows (posIndices y) p) * Real.sqrt (rootOf size rows (posIndices y) q) := by
    rw [← ep, ← eq]; exact mul_pos hwp hwq
  have c1 := (RelClose.round (mul_nonneg hw0 hb0)).trans ((RelClose.refl hw0 0).mul cb hw0 hw0 hb0 hbar0)
  have c2 := (RelClose.round (mul_nonneg (by linarith : (0 : ℝ) ≤ o) (by linarith : (0 : ℝ) ≤ a))).trans
    (hcp.mul (RelClose.refl (by linarith : (0 : ℝ) ≤ a) 0) (by linarith) hxpos.le (by linarith) (by linarith))
  have hdpos : 0 < Real.sqrt (rootOf size rows (posIndices y) p) * Real.sqrt (rootOf size rows (posIndices y) q) * a :=
    mul_pos hxpos (by linarith)
  have hnn : 0 ≤ w * (headCftp false size rows n y).barOf s := mul_nonneg hw0 hbar0
  have c3 := (RelClose.round (div_nonneg hnum0 (by linarith : (0 : ℝ) ≤ fl (o * a)))).trans
    (c1.div c2 hnum0 hnn (by linarith) hdpos)
  rw [hrD, hex]
  exact ⟨fl_nonneg (div_nonneg hnum0 (by linarith)), div_nonneg hnn hdpos.le, c3⟩

theorem tracks_orig (hr : RowsOk size rows) (hsz : size ≤ 2 ^ 53) (hyl : y.length ≤ n) {ip iq : ℕ → ℕ}
    (hpos : ∀ k < 2 ^ 53, ip k ∈ posIndices y ∧ 0 < (headCftp false size rows n y).wPos (ip k))
    (hneg : ∀ k < 2 ^ 53, iq k ∈ negIndices y ∧ 0 < (headCftp false size rows n y).wNeg (iq k)) :
    Tracks (headCftpD size rows n y).rD (headCftp false size rows n y).ratio (2 ^ 53) ip iq
      (headCftp false size rows n y).Valid (37 / 2 ^ 53) := by
  constructor
  · intro s hs k hk l hl j hj
    exact valid_stepT (headCftp_dominated hr hyl) hs ⟨(hpos k hk).1, (hneg l hl).1, (hpos k hk).2, (hneg l hl).2,
      show (0 : ℝ) ≤ (j : ℝ) / (2 ^ 53 : ℕ) by positivity⟩
  · intro s hs k hk l hl
    obtain ⟨h1, h2, h3⟩ := origRatio_close hr hsz hyl hs (hpos k hk).1 (hneg l hl).1 (hpos k hk).2 (hneg l hl).2
    refine (share_split (by positivity) h1 h2).trans ?_
    have h4 := rel_min (j := 18) (by norm_num) h1 h2 h3
    have e : (37 : ℝ) / 2 ^ 53 = 2 * (18 : ℕ) / 2 ^ 53 + 1 / ((2 ^ 53 : ℕ) : ℝ) := by
      norm_num
    rw [e]
    exact add_le_add h4 le_rfl

/-- The object in doubles proposes as the exact one does, up to a small error. -/
theorem orig_follows (S : Dbl.Order) (hr : RowsOk size rows) (hsz : size ≤ 2 ^ 53) (hy : y.toFinset = {0, 1})
    (hyl : y.length ≤ n) (hrows : y.length ≤ 2 ^ 23) (hrd : (headCftp false size rows n y).Ready) :
    ∃ ip iq, (headCftpD size rows n y).Follows S (headCftp false size rows n y) ip iq ∧
      ∑ p ∈ (headCftp false size rows n y).posList.toFinset,
        |shareOf (2 ^ 53) (fun k => ip k = p) - (headCftp false size rows n y).qP p| ≤
        y.count 1 * (34 * y.count 1 + 63) / 2 ^ 53 ∧
      ∑ q ∈ (headCftp false size rows n y).negList.toFinset,
        |shareOf (2 ^ 53) (fun k => iq k = q) - (headCftp false size rows n y).qN q| ≤
        y.count 0 * (34 * y.count 0 + 63) / 2 ^ 53 := by
  have hpl := posIndices_length hy
  have hnl := negIndices_length y
  have hbig : ∀ i, sqD (rootOf size rows (posIndices y) i) ≤ 2 ^ 995 := fun i =>
    (sqD_le ((rootOf_le hr (posIndices y) i).trans hsz)).trans (two_pow_le (by norm_num))
  obtain ⟨s1, ip, a1, a2, a3⟩ := selects_double S (posIndices y) (posIndices_nodup y) (headCftpD size rows n y).wPos
    (fun i => sqD (rootOf size rows (posIndices y) i)) (headCftp false size rows n y).wPos
    (fun i hi => (origD_num hr hsz (pos_lt hyl hi)).1)
    (fun i hi => ⟨sqD_nonneg _, by rw [(orig_exact hr (pos_lt hyl hi)).1]; exact Real.sqrt_nonneg _⟩)
    (fun i hi => by rw [(orig_exact hr (pos_lt hyl hi)).1]; exact sqD_close _) hrd.posSum
    (by rw [hpl]; exact List.count_le_length.trans hrows) (fun i _ => hbig i)
  obtain ⟨s2, iq, b1, b2, b3⟩ := selects_double S (negIndices y) (negIndices_nodup y) (headCftpD size rows n y).wNeg
    (fun i => sqD (rootOf size rows (posIndices y) i)) (headCftp false size rows n y).wNeg
    (fun i hi => (origD_num hr hsz (neg_lt hyl hi)).2)
    (fun i hi => ⟨sqD_nonneg _, by rw [(orig_exact hr (neg_lt hyl hi)).2]; exact Real.sqrt_nonneg _⟩)
    (fun i hi => by rw [(orig_exact hr (neg_lt hyl hi)).2]; exact sqD_close _) hrd.negSum
    (by rw [hnl]; exact List.count_le_length.trans hrows) (fun i _ => hbig i)
  rw [hpl] at a3
  rw [hnl] at b3
  exact ⟨ip, iq, ⟨rfl, not_or.mpr ⟨s1, s2⟩, a1, b1, a2, b2⟩, a3, b3⟩

/-- A sum of weights that are all zero. -/
theorem Dbl.Order.sum_zeros (S : Dbl.Order) {l : List Dbl} (h : ∀ x ∈ l, x = .num 0) : S.sum l = .num 0 := by
  by_cases hl : l = []
  · rw [hl]; exact if_pos rfl
  have e : l = (l.map fun _ => (0 : ℝ)).map Dbl.num := by
    rw [List.map_map]
    conv_lhs => rw [← List.map_id l]
    exact List.map_congr_left h
  rw [e]
  have hs0 : (l.map fun _ => (0 : ℝ)).sum = 0 := by simp
  obtain ⟨v, hv, hv0, hc⟩ := Dbl.Order.sum_num S (l.map fun _ => (0 : ℝ)) (by simpa using hl) (by simp)
    (by rw [hs0, zero_mul]; positivity)
  rw [hs0] at hc
  have : v = 0 := le_antisymm (not_lt.mp fun h => lt_irrefl _ (hc.pos_iff.mp h)) hv0
  rw [hv, this]

/-- Without weights `sample` gives up at once. -/
theorem orig_no_weights (S : Dbl.Order) (hr : RowsOk size rows) (hsz : size ≤ 2 ^ 53) (hyl : y.length ≤ n)
    (h : (headCftp false size rows n y).posWeights.sum = 0 ∨ (headCftp false size rows n y).negWeights.sum = 0)
    (lists : CftpState) (ω : List ℕ) : (headCftpD size rows n y).sample S lists ω = .ok (none, lists) := by
  have key : ∀ l : List ℕ, (∀ i ∈ l, i < n) →
      (l.map fun i => Real.sqrt (rootOf size rows (posIndices y) i)).sum = 0 →
      ∀ i ∈ l, sqD (rootOf size rows (posIndices y) i) = 0 := by
    intro l hl h0 i hi
    have hnn : ∀ x ∈ l.map fun i => Real.sqrt (rootOf size rows (posIndices y) i), 0 ≤ x := by
      intro x hx
      obtain ⟨j, -, rfl⟩ := List.mem_map.mp hx
      exact Real.sqrt_nonneg _
    have hz : Real.sqrt (rootOf size rows (posIndices y) i) = 0 :=
      le_antisymm ((List.single_le_sum hnn _ (List.mem_map_of_mem hi)).trans h0.le) (Real.sqrt_nonneg _)
    unfold sqD
    rw [hz, fl_zero]
  have hsum : S.sum (headCftpD size rows n y).posWeights = .num 0 ∨ S.sum (headCftpD size rows n y).negWeights = .num 0 := by
    rcases h with h | h
    · left
      refine Dbl.Order.sum_zeros S fun x hx => ?_
      obtain ⟨i, hi, rfl⟩ := List.mem_map.mp hx
      have e : (headCftp false size rows n y).posWeights =
          (posIndices y).map fun i => Real.sqrt (rootOf size rows (posIndices y) i) :=
        List.map_congr_left fun i hi => (orig_exact hr (pos_lt hyl hi)).1
      rw [e] at h
      rw [(origD_num hr hsz (pos_lt hyl hi)).1, key _ (fun i hi => pos_lt hyl hi) h i hi]
    · right
      refine Dbl.Order.sum_zeros S fun x hx => ?_
      obtain ⟨i, hi, rfl⟩ := List.mem_map.mp hx
      have e : (headCftp false size rows n y).negWeights =
          (negIndices y).map fun i => Real.sqrt (rootOf size rows (posIndices y) i) :=
        List.map_congr_left fun i hi => (orig_exact hr (neg_lt hyl hi)).2
      rw [e] at h
      rw [(origD_num hr hsz (neg_lt hyl hi)).2, key _ (fun i hi => neg_lt hyl hi) h i hi]
  unfold CftpD.sample
  rw [CftpD.sampleLoop, if_neg (by show ¬ 2 ^ 0 > 1024; norm_num), if_pos hsum]

/-- Whatever the generator gives, `sample` returns `None` or a pair that some sample separates. -/
theorem orig_sample_result (S : Dbl.Order) (hr : RowsOk size rows) (hsz : size ≤ 2 ^ 53) (hy : y.toFinset = {0, 1})
    (hyl : y.length ≤ n) (hrows : y.length ≤ 2 ^ 23) {ω : List ℕ} (hω : ∀ x ∈ ω, x < 2 ^ 53) (hl : 3072 ≤ ω.length) :
    ∃ D, (headCftpD size rows n y).sample S reset ω = .ok (D, reset) ∧ (headCftp false size rows n y).Valid D := by
  by_cases h : (headCftp false size rows n y).posWeights.sum = 0 ∨ (headCftp false size rows n y).negWeights.sum = 0
  · exact ⟨none, orig_no_weights S hr hsz hyl h reset ω, valid_none _⟩
  · have hrd := Ready.of_ne (headCftp_dominated hr hyl) h
    obtain ⟨ip, iq, hf, -, -⟩ := orig_follows S hr hsz hy hyl hrows hrd
    have hlb : lenBefore 11 = 1024 := by simp [lenBefore]
    refine CftpD.sample_result hf ?_ hω (K := 11) (by show 2 ^ 11 > 1024; norm_num)
      (by rw [hlb]; exact le_rfl) (by rw [hlb]; exact hl)
    intro s hv x hx hpos
    obtain ⟨-, -, hc⟩ := origRatio_close hr hsz hyl hv hx.1 hx.2.1 hx.2.2.1 hx.2.2.2.1
    have := hc.pos_iff.mp hpos
    by_contra hW
    obtain ⟨-, -, -, hw, -, -, -, -, hb⟩ := origChain_num hr hsz hyl hv
    have hW0 : (headCftp false size rows n y).W x.1 x.2.1 * (headCftp false size rows n y).barOf s ≤ 0 :=
      mul_nonpos_of_nonpos_of_nonneg (not_lt.mp hW) hb
    refine absurd this (not_lt.mpr ?_)
    unfold Cftp.ratio
    exact div_nonpos_of_nonpos_of_nonneg hW0 (mul_nonneg (mul_nonneg hx.2.2.1.le hx.2.2.2.1.le) (by linarith))

theorem sum_lenBefore_eleven : ∑ j ∈ Finset.range 12, (lenBefore j : ℝ) = 2047 := by
  simp only [Finset.sum_range_succ, Finset.sum_range_zero, lenBefore]
  norm_num

/-- The effect of rounding on any quantity of the result of `sample`. -/
theorem orig_sample_close (S : Dbl.Order) (hr : RowsOk size rows) (hsz : size ≤ 2 ^ 53) (hy : y.toFinset = {0, 1})
    (hyl : y.length ≤ n) (hrows : y.length ≤ 2 ^ 23) {f : Py (Option (ℕ × ℕ) × CftpState) → ℝ}
    (hb : ∀ x, 0 ≤ f x ∧ f x ≤ 1) :
    |averageOver (2 ^ 53) 3072 (fun ω => f ((headCftpD size rows n y).sample S reset ω)) -
        ((headCftp false size rows n y).sample reset).expect f| ≤
      1024 * ((y.count 1 * (34 * y.count 1 + 63) + y.count 0 * (34 * y.count 0 + 63) + 75) / 2 ^ 53) := by
  have hlb : lenBefore 11 = 1024 := by simp [lenBefore]
  by_cases h : (headCftp false size rows n y).posWeights.sum = 0 ∨ (headCftp false size rows n y).negWeights.sum = 0
  · rw [sample_no_weights h]
    simp only [orig_no_weights S hr hsz hyl h, averageOver_const (show 0 < 2 ^ 53 by positivity)]
    have : (RandR.expect f (pure (none, reset))) = f (.ok (none, reset)) := rfl
    rw [this, sub_self, abs_zero]
    positivity
  · have hrd := Ready.of_ne (headCftp_dominated hr hyl) h
    obtain ⟨ip, iq, hf, hP, hN⟩ := orig_follows S hr hsz hy hyl hrows hrd
    have hmain := CftpD.average_sample hf hrd (tracks_orig hr hsz hyl hf.posOk hf.negOk) hP hN (K := 11)
      (by show 2 ^ 11 > 1024; norm_num) (by rw [hlb]; exact le_rfl) hb
    rw [hlb, sum_lenBefore_eleven, show 3 * 1024 = 3072 by norm_num] at hmain
    refine hmain.trans ?_
    rw [← add_div, ← add_div, mul_div_assoc', mul_div_assoc', mul_div_assoc', ← add_div]
    refine div_le_div_of_nonneg_right ?_ (by positivity)
    push_cast
    linarith

end

end Verif
