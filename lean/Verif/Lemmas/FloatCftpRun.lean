/-
Lemmas on coupling from the past in double precision: what `sample` does with given outputs of the generator.
-/
import Verif.Lemmas.FloatCftp
import Verif.Lemmas.Head

namespace Verif
namespace Cftp

/-- All weights are whole numbers that doubles represent. -/
structure Whole (c : Cftp) : Prop where
  wPos : ∀ i, ∃ k : ℕ, c.wPos i = k
  wNeg : ∀ i, ∃ k : ℕ, c.wNeg i = k
  W : ∀ p n, ∃ k : ℕ, c.W p n = k
  bar : ∀ p ∈ c.posList, ∀ n ∈ c.negList, c.wPos p * c.wNeg n ≤ 2 ^ 53

variable {c : Cftp}

/-! ### The ratio -/

theorem fl_whole {x : ℝ} (h : ∃ k : ℕ, x = k) (hle : x ≤ 2 ^ 53) : fl x = x := by
  obtain ⟨k, rfl⟩ := h
  exact fl_nat (by exact_mod_cast hle)

theorem rF_eq (hd : c.Dominated) (hw : c.Whole) (s : St) {p n : ℕ} (hp : p ∈ c.posList) (hn : n ∈ c.negList) :
    c.rF s p n = fl (c.ratio s p n) := by
  rcases s with _ | ⟨p', n'⟩
  · have hbar : ∃ k : ℕ, c.wPos p * c.wNeg n = k := by
      obtain ⟨a, ha⟩ := hw.wPos p
      obtain ⟨b, hb⟩ := hw.wNeg n
      exact ⟨a * b, by rw [ha, hb]; push_cast; rfl⟩
    have hb := hw.bar p hp n hn
    have h1 := fl_whole hbar hb
    have h2 := fl_whole (hw.W p n) ((hd.W_le p hp n hn).trans hb)
    show fl (fl (fl (c.W p n) * 1) / fl (fl (c.wPos p * c.wNeg n) * 1)) =
      fl (c.W p n * 1 / ((c.wPos p * c.wNeg n) * 1))
    simp only [mul_one, h1, h2]
  · rfl

theorem ratio_nonneg_of_whole (hw : c.Whole) (s : St) (p n : ℕ) : 0 ≤ c.ratio s p n := by
  have h : ∀ s, 0 ≤ c.wOf s ∧ 0 ≤ c.barOf s := by
    intro s
    rcases s with _ | ⟨p', n'⟩
    · exact ⟨zero_le_one, zero_le_one⟩
    · obtain ⟨a, ha⟩ := hw.wPos p'
      obtain ⟨b, hb⟩ := hw.wNeg n'
      obtain ⟨d, hd⟩ := hw.W p' n'
      simp only [wOf, barOf, ha, hb, hd]
      constructor <;> positivity
  obtain ⟨a, ha⟩ := hw.wPos p
  obtain ⟨b, hb⟩ := hw.wNeg n
  obtain ⟨d, hd⟩ := hw.W p n
  unfold ratio
  rw [ha, hb, hd]
  have h1 := (h s).1
  have h2 := (h s).2
  positivity

theorem share_below {M : ℕ} (hM : 0 < M) {x : ℝ} (hx : 0 ≤ x) :
    |shareOf M (fun k => (k : ℝ) / M < x) - min 1 x| ≤ 1 / M := by
  classical
  have hset : shareOf M (fun k => (k : ℝ) / M < x) =
      (((Finset.range M).filter fun k : ℕ => 0 ≤ (k : ℝ) / M ∧ (k : ℝ) / M < min 1 x).card : ℝ) / M := by
    unfold shareOf
    congr 2
    congr 1
    ext k
    simp only [Finset.mem_filter, Finset.mem_range]
    constructor
    · rintro ⟨h1, h2⟩
      refine ⟨h1, by positivity, lt_min ?_ h2⟩
      rw [div_lt_one (by positivity)]
      exact_mod_cast h1
    · rintro ⟨h1, -, h2⟩
      exact ⟨h1, lt_of_lt_of_le h2 (min_le_right _ _)⟩
  rw [hset]
  have hsh := share_interval M hM (a := 0) (b := min 1 x) le_rfl (le_min zero_le_one hx) (min_le_left _ _)
  rwa [sub_zero] at hsh

/-- The probability of moving, up to rounding. -/
theorem accF_close (hd : c.Dominated) (hw : c.Whole) (s : St) {p n : ℕ} (hp : p ∈ c.posList) (hn : n ∈ c.negList) :
    |c.accF (2 ^ 53) s p n - c.acc s p n| ≤ 2 / 2 ^ 53 := by
  have h0 := ratio_nonneg_of_whole hw s p n
  unfold accF acc
  rw [rF_eq hd hw s hp hn]
  generalize c.ratio s p n = r at h0 ⊢
  have hsh := share_below (M := 2 ^ 53) (by positivity) (fl_nonneg h0)
  rw [max_eq_right (le_min zero_le_one h0)]
  have hmin : |min 1 (fl r) - min 1 r| ≤ 1 / 2 ^ 53 := by
    rcases le_total r 1 with h | h
    · have h1 : fl r ≤ 1 := by
        have := fl_mono h0 h
        rwa [fl_one] at this
      rw [min_eq_right h1, min_eq_right h]
      refine (fl_error r).trans ?_
      rw [abs_of_nonneg h0]
      exact mul_le_of_le_one_right (by positivity) h
    · have h1 : 1 ≤ fl r := by
        have := fl_mono zero_le_one h
        rwa [fl_one] at this
      rw [min_eq_left h1, min_eq_left h, sub_self, abs_zero]
      positivity
  refine (abs_sub_le _ (min 1 (fl r)) (min 1 r)).trans ?_
  have e : (2 : ℝ) / 2 ^ 53 = 1 / ((2 ^ 53 : ℕ) : ℝ) + 1 / 2 ^ 53 := by
    rw [Nat.cast_pow, Nat.cast_ofNat]; ring
  rw [e]
  exact add_le_add hsh hmin

/-! ### Simulation -/

theorem rF_pos_W (hd : c.Dominated) (hw : c.Whole) {s : St} {p n : ℕ} (hp : p ∈ c.posList)
    (hn : n ∈ c.negList) (h : 0 < c.rF s p n) : 0 < c.W p n := by
  apply ratio_pos_W (s := s) hd hp hn
  rw [rF_eq hd hw s hp hn] at h
  refine lt_of_le_of_ne (ratio_nonneg_of_whole hw s p n) fun e => ?_
  rw [← e, fl_zero] at h
  exact lt_irrefl _ h

theorem stepF_chainOf {s : St} (hs : c.Valid s) {d : ℕ × ℕ × ℝ} (hv : c.ValidDraw d) :
    c.stepF (c.chainOf s) d = .ok (c.chainOf (c.stepTF s d)) := by
  obtain ⟨hp, hn, h1, h2, -⟩ := hv
  have hwd := wOf_pos hs
  have hne : c.wPos d.1 * c.wNeg d.2.1 * (c.chainOf s).wD ≠ 0 := by
    simp only [chainOf]
    positivity
  unfold stepF stepTF
  simp only [if_neg hne]
  by_cases h : d.2.2 < c.rF s d.1 d.2.1
  · rw [if_pos h]
    exact if_pos h
  · rw [if_neg h]
    exact if_neg h

theorem valid_stepTF (hd : c.Dominated) (hw : c.Whole) {s : St} (hs : c.Valid s) {d : ℕ × ℕ × ℝ}
    (hv : c.ValidDraw d) : c.Valid (c.stepTF s d) := by
  obtain ⟨hp, hn, h1, h2, hu⟩ := hv
  unfold stepTF
  split
  · rename_i h
    intro p n he
    cases he
    exact ⟨hp, hn, rF_pos_W hd hw hp hn (lt_of_le_of_lt hu h)⟩
  · exact hs

theorem valid_foldlF (hd : c.Dominated) (hw : c.Whole) {ds : List (ℕ × ℕ × ℝ)} (hv : ∀ d ∈ ds, c.ValidDraw d)
    {s : St} (hs : c.Valid s) : c.Valid (ds.foldl c.stepTF s) := by
  induction ds generalizing s with
  | nil => exact hs
  | cons d ds ih =>
    exact ih (fun x hx => hv x (List.mem_cons_of_mem _ hx)) (valid_stepTF hd hw hs (hv d List.mem_cons_self))

theorem runF_chainOf (hd : c.Dominated) (hw : c.Whole) {ds : List (ℕ × ℕ × ℝ)} (hv : ∀ d ∈ ds, c.ValidDraw d)
    {s : St} (hs : c.Valid s) : ds.foldlM c.stepF (c.chainOf s) = .ok (c.chainOf (ds.foldl c.stepTF s)) := by
  induction ds generalizing s with
  | nil => rfl
  | cons d ds ih =>
    have h1 := hv d List.mem_cons_self
    rw [List.foldlM_cons, stepF_chainOf hs h1]
    exact ih (fun x hx => hv x (List.mem_cons_of_mem _ hx)) (valid_stepTF hd hw hs h1)

theorem simulateF_eq (hd : c.Dominated) (hw : c.Whole) {s : CftpState}
    (hv : ∀ d ∈ CftpState.draws s, c.ValidDraw d) :
    c.simulateF s = .ok ((CftpState.draws s).foldl c.stepTF none) := by
  unfold simulateF
  have h := runF_chainOf hd hw hv (valid_none c)
  change List.foldlM c.stepF start _ = _ at h
  rw [h]
  rfl

/-- The undetermined state only moves when every state moves. -/
theorem stepTF_of_none (hd : c.Dominated) (hw : c.Whole) {s : St} (hs : c.Valid s) {d : ℕ × ℕ × ℝ}
    (hv : c.ValidDraw d) (h : c.stepTF none d ≠ none) : c.stepTF s d = c.stepTF none d := by
  unfold stepTF at h ⊢
  by_cases h1 : d.2.2 < c.rF none d.1 d.2.1
  · have hle : c.rF none d.1 d.2.1 ≤ c.rF s d.1 d.2.1 := by
      rw [rF_eq hd hw _ hv.1 hv.2.1, rF_eq hd hw _ hv.1 hv.2.1]
      exact fl_mono (ratio_nonneg_of_whole hw _ _ _) (ratio_none_le hd hs hv.1 hv.2.1)
    rw [if_pos h1, if_pos (lt_of_lt_of_le h1 hle)]
  · exact absurd (if_neg h1) h

theorem foldlF_of_none (hd : c.Dominated) (hw : c.Whole) {ds : List (ℕ × ℕ × ℝ)} (hv : ∀ d ∈ ds, c.ValidDraw d)
    {s : St} (hs : c.Valid s) (h : ds.foldl c.stepTF none ≠ none) :
    ds.foldl c.stepTF s = ds.foldl c.stepTF none := by
  induction ds generalizing s with
  | nil => exact absurd rfl h
  | cons d ds ih =>
    have h1 := hv d List.mem_cons_self
    rw [List.foldl_cons, List.foldl_cons] at *
    by_cases h2 : c.stepTF none d = none
    · rw [h2] at h ⊢
      exact ih (fun x hx => hv x (List.mem_cons_of_mem _ hx)) (valid_stepTF hd hw hs h1) h
    · rw [stepTF_of_none hd hw hs h1 h2]

/-! ### Drawing records -/

/-- `ip` and `iq` are the records that the outputs of the generator select. -/
structure Selects (c : Cftp) (ip iq : ℕ → ℕ) : Prop where
  pos : ∀ k < 2 ^ 53, (do let i ← choiceF c.posProbaF k; pyGet c.posList i) = .ok (ip k)
  neg : ∀ k < 2 ^ 53, (do let i ← choiceF c.negProbaF k; pyGet c.negList i) = .ok (iq k)
  posOk : ∀ k < 2 ^ 53, ip k ∈ c.posList ∧ 0 < c.wPos (ip k)
  negOk : ∀ k < 2 ^ 53, iq k ∈ c.negList ∧ 0 < c.wNeg (iq k)
  posClose : ∑ p ∈ c.posList.toFinset, |shareOf (2 ^ 53) (fun k => ip k = p) - c.qP p| ≤
    c.posList.length * (10 * c.posList.length + 11) / 2 ^ 53
  negClose : ∑ n ∈ c.negList.toFinset, |shareOf (2 ^ 53) (fun k => iq k = n) - c.qN n| ≤
    c.negList.length * (10 * c.negList.length + 11) / 2 ^ 53

theorem shareOf_congr {M : ℕ} {P Q : ℕ → Prop} (h : ∀ k < M, (P k ↔ Q k)) : shareOf M P = shareOf M Q := by
  classical
  unfold shareOf
  congr 2
  congr 1
  ext k
  simp only [Finset.mem_filter, Finset.mem_range]
  exact and_congr_right fun hk => h k hk

theorem shareOf_eq (M : ℕ) (P : ℕ → Prop) [DecidablePred P] :
    (((Finset.range M).filter P).card : ℝ) / M = shareOf M P := by
  unfold shareOf
  congr!

theorem chanceF_share (p : List ℝ) (i : ℕ) :
    chanceF p i = shareOf (2 ^ 53) fun k => choiceF p k = .ok i := by
  classical
  unfold chanceF
  have hc : (2 : ℝ) ^ 53 = ((2 ^ 53 : ℕ) : ℝ) := by rw [Nat.cast_pow, Nat.cast_ofNat]
  rw [hc]
  exact shareOf_eq _ _

theorem selects_one (items : List ℕ) (hnd : items.Nodup) (w : ℕ → ℝ) (hw : ∀ i, ∃ k : ℕ, w i = k)
    (hs0 : 0 < (items.map w).sum) (hs : (items.map w).sum ≤ 2 ^ 53) (hl : items.length ≤ 2 ^ 23) :
    ∃ ip : ℕ → ℕ,
      (∀ k < 2 ^ 53, (do
        let i ← choiceF ((items.map w).map fun x => fl (fl x / fl (items.map w).sum)) k
        pyGet items i) = .ok (ip k)) ∧
      (∀ k < 2 ^ 53, ip k ∈ items ∧ 0 < w (ip k)) ∧
      ∑ p ∈ items.toFinset, |shareOf (2 ^ 53) (fun k => ip k = p) - w p / (items.map w).sum| ≤
        items.length * (10 * items.length + 11) / 2 ^ 53 := by
  classical
  choose g hg using hw
  have hsum : (items.map w).sum = ((items.map g).sum : ℕ) := by
    rw [Nat.cast_list_sum, List.map_map]
    congr 2
    funext i
    exact hg i
  rw [hsum] at hs0 hs ⊢
  have hsN : 0 < (items.map g).sum := by exact_mod_cast hs0
  have hsl : (items.map g).sum ≤ 2 ^ 53 := by exact_mod_cast hs
  have hprobs : ((items.map w).map fun x => fl (fl x / fl ((items.map g).sum : ℕ))) = probsF (items.map g) := by
    unfold probsF
    rw [List.map_map, List.map_map]
    apply List.map_congr_left
    intro x hx
    have hle : g x ≤ (items.map g).sum := List.single_le_sum (fun _ _ => Nat.zero_le _) _ (List.mem_map_of_mem hx)
    simp only [Function.comp, hg]
    rw [fl_nat hsl, fl_nat (hle.trans hsl)]
  rw [hprobs]
  have hlen : (items.map g).length = items.length := by simp
  have hl' : (items.map g).length ≤ 2 ^ 23 := by rw [hlen]; exact hl
  have hsel : ∀ k < 2 ^ 53, ∃ i, choiceF (probsF (items.map g)) k = .ok i ∧ i < items.length ∧
      0 < (items.map g).getD i 0 := by
    intro k hk
    obtain ⟨i, h1, h2, h3⟩ := choiceF_positive (items.map g) hsN hl' k hk
    exact ⟨i, h1, by rw [← hlen]; exact h2, h3⟩
  choose! idx h1 h2 h3 using hsel
  refine ⟨fun k => items.getD (idx k) 0, fun k hk => ?_, fun k hk => ?_, ?_⟩
  · rw [h1 k hk]
    exact pyGet_getD (h2 k hk) 0
  · have hm := h3 k hk
    rw [List.getD_eq_getElem _ _ (by rw [hlen]; exact h2 k hk), List.getElem_map] at hm
    show items.getD (idx k) 0 ∈ items ∧ 0 < w (items.getD (idx k) 0)
    rw [List.getD_eq_getElem _ _ (h2 k hk), hg]
    exact ⟨List.getElem_mem _, by exact_mod_cast hm⟩
  · have hterm : ∀ p ∈ items.toFinset, |shareOf (2 ^ 53) (fun k => items.getD (idx k) 0 = p) -
        w p / ((items.map g).sum : ℕ)| ≤ (10 * items.length + 11) / 2 ^ 53 := by
      intro p hp
      rw [List.mem_toFinset] at hp
      obtain ⟨i, hi, rfl⟩ := List.getElem_of_mem hp
      have he := chanceF_error (items.map g) hsN hl' i (by rw [hlen]; exact hi)
      rw [List.getD_eq_getElem _ _ (by rw [hlen]; exact hi), List.getElem_map] at he
      simp only [hlen] at he
      have hsh : shareOf (2 ^ 53) (fun k => items.getD (idx k) 0 = items[i]) = chanceF (probsF (items.map g)) i := by
        rw [chanceF_share]
        apply shareOf_congr
        intro k hk
        rw [h1 k hk, List.getD_eq_getElem _ _ (h2 k hk), hnd.getElem_inj_iff, Except.ok.injEq]
      rw [hsh, hg]
      exact he
    refine (Finset.sum_le_sum hterm).trans ?_
    rw [Finset.sum_const, List.toFinset_card_of_nodup hnd, nsmul_eq_mul, mul_div_assoc]

theorem exists_selects (hr : c.Ready) (hw : c.Whole) (hp : c.posWeights.sum ≤ 2 ^ 53) (hn : c.negWeights.sum ≤ 2 ^ 53)
    (hpl : c.posList.length ≤ 2 ^ 23) (hnl : c.negList.length ≤ 2 ^ 23) : ∃ ip iq, c.Selects ip iq := by
  obtain ⟨ip, a1, a2, a3⟩ := selects_one c.posList hr.posNodup c.wPos hw.wPos hr.posSum hp hpl
  obtain ⟨iq, b1, b2, b3⟩ := selects_one c.negList hr.negNodup c.wNeg hw.wNeg hr.negSum hn hnl
  exact ⟨ip, iq, a1, b1, a2, b2, a3, b3⟩

theorem choicesF_eq {items : List ℕ} {p : List ℝ} {ip : ℕ → ℕ}
    (h : ∀ k < 2 ^ 53, (do let i ← choiceF p k; pyGet items i) = .ok (ip k)) :
    ∀ ks : List ℕ, (∀ k ∈ ks, k < 2 ^ 53) → choicesF items p ks = .ok (ks.map ip) := by
  intro ks
  unfold choicesF
  induction ks with
  | nil => intro _; rfl
  | cons k ks ih =>
    intro hk
    rw [List.mapM_cons, ih fun x hx => hk x (List.mem_cons_of_mem _ hx), h k (hk k List.mem_cons_self)]
    rfl

/-- The proposals that the next `3 * m` outputs select. -/
noncomputable def blockAt (ip iq : ℕ → ℕ) (m : ℕ) (ω : List ℕ) : List (ℕ × ℕ × ℝ) :=
  blockOf (2 ^ 53) ip iq (ω.take m) ((ω.drop m).take m) (((ω.drop m).drop m).take m)

theorem addDataF_eq {ip iq : ℕ → ℕ} (hsel : c.Selects ip iq) {L m : ℕ} {s : CftpState} (hs : c.GoodState L s)
    (hm : 0 < m) (hL : L ≤ m) {ω : List ℕ} (hω : ∀ k ∈ ω, k < 2 ^ 53) (hlen : 3 * (m - L) ≤ ω.length) :
    ∃ s', c.addDataF m s ω = .ok (s', ((ω.drop (m - L)).drop (m - L)).drop (m - L)) ∧ c.GoodState m s' ∧
      CftpState.draws s' = blockAt ip iq (m - L) ω ++ CftpState.draws s := by
  have hmem : ∀ {l : List ℕ}, (∀ k ∈ l, k ∈ ω) → ∀ k ∈ l, k < 2 ^ 53 := fun h k hk => hω k (h k hk)
  have hP := hmem (l := (ω.drop (m - L)).take (m - L)) fun k hk => List.mem_of_mem_drop (List.mem_of_mem_take hk)
  have hN := hmem (l := ((ω.drop (m - L)).drop (m - L)).take (m - L)) fun k hk =>
    List.mem_of_mem_drop (List.mem_of_mem_drop (List.mem_of_mem_take hk))
  set U := ω.take (m - L) with hU
  set P := (ω.drop (m - L)).take (m - L) with hPd
  set N := ((ω.drop (m - L)).drop (m - L)).take (m - L) with hNd
  have lU : U.length = m - L := by rw [hU, List.length_take]; omega
  have lP : P.length = m - L := by rw [hPd, List.length_take, List.length_drop]; omega
  have lN : N.length = m - L := by rw [hNd, List.length_take, List.length_drop, List.length_drop]; omega
  have hg : c.GoodState m { us := (U.map fun k : ℕ => (k : ℝ) / 2 ^ 53) ++ s.us, ps := P.map ip ++ s.ps,
                            ns := N.map iq ++ s.ns } := by
    refine ⟨by simp [lU, hs.usLen, hL], by simp [lP, hs.psLen, hL], by simp [lN, hs.nsLen, hL], ?_, ?_, ?_⟩
    · intro u h
      rcases List.mem_append.mp h with h | h
      · obtain ⟨k, -, rfl⟩ := List.mem_map.mp h
        positivity
      · exact hs.usOk u h
    · intro p h
      rcases List.mem_append.mp h with h | h
      · obtain ⟨k, hk, rfl⟩ := List.mem_map.mp h
        exact hsel.posOk k (hP k hk)
      · exact hs.psOk p h
    · intro n h
      rcases List.mem_append.mp h with h | h
      · obtain ⟨k, hk, rfl⟩ := List.mem_map.mp h
        exact hsel.negOk k (hN k hk)
      · exact hs.nsOk n h
  refine ⟨_, ?_, hg, ?_⟩
  · unfold addDataF
    rw [if_neg hm.ne', if_neg (by rw [hs.usLen]; omega), hs.usLen]
    simp only [← hU, ← hPd, ← hNd]
    rw [choicesF_eq hsel.pos P hP, choicesF_eq hsel.neg N hN]
    unfold checkLengths
    have hnc : ¬ ((P.map ip ++ s.ps).length ≠ m ∨ (N.map iq ++ s.ns).length ≠ m ∨
        ((U.map fun k : ℕ => (k : ℝ) / 2 ^ 53) ++ s.us).length ≠ m) := by
      rintro (h | h | h)
      · exact h hg.psLen
      · exact h hg.nsLen
      · exact h hg.usLen
    simp only [Bind.bind, Except.bind, if_neg hnc]
    rfl
  · rw [draws_append (by simp [lP, lU]) (by simp [lN, lU])]
    congr 1
    unfold blockAt blockOf CftpState.draws
    rw [← hU, ← hPd, ← hNd, Nat.cast_pow, Nat.cast_ofNat]

/-! ### The loop -/

/-- The proposals of all blocks from the `i`-th on, the latest block first. -/
noncomputable def later (ip iq : ℕ → ℕ) : ℕ → ℕ → List ℕ → List (ℕ × ℕ × ℝ)
  | 0, _, _ => []
  | k + 1, i, ω => later ip iq k (i + 1) (((ω.drop (2 ^ i - lenBefore i)).drop (2 ^ i - lenBefore i)).drop
      (2 ^ i - lenBefore i)) ++ blockAt ip iq (2 ^ i - lenBefore i) ω

/-- The number of proposals in them. -/
def laterCount : ℕ → ℕ → ℕ
  | 0, _ => 0
  | k + 1, i => (2 ^ i - lenBefore i) + laterCount k (i + 1)

theorem lenBefore_succ (i : ℕ) : lenBefore (i + 1) = 2 ^ i := by simp [lenBefore]

theorem laterCount_eq (k : ℕ) : ∀ i, laterCount k i = lenBefore (i + k) - lenBefore i := by
  induction k with
  | zero => intro i; simp [laterCount]
  | succ k ih =>
    intro i
    rw [laterCount, ih, lenBefore_succ, show i + 1 + k = i + (k + 1) by omega]
    have h1 := lenBefore_le i
    have h2 : 2 ^ i ≤ lenBefore (i + (k + 1)) := by
      rw [show i + (k + 1) = (i + k) + 1 by omega, lenBefore_succ]
      exact Nat.pow_le_pow_right (by norm_num) (by omega)
    omega

theorem blockOf_valid {ip iq : ℕ → ℕ} (hsel : c.Selects ip iq) {M : ℕ} {us ps ns : List ℕ}
    (hp : ∀ k ∈ ps, k < 2 ^ 53) (hn : ∀ k ∈ ns, k < 2 ^ 53) :
    ∀ d ∈ blockOf M ip iq us ps ns, c.ValidDraw d := by
  rintro ⟨p, n, u⟩ hd
  unfold blockOf at hd
  have h1 := List.of_mem_zip hd
  have h2 := List.of_mem_zip h1.2
  obtain ⟨k, hk, rfl⟩ := List.mem_map.mp h1.1
  obtain ⟨l, hl, rfl⟩ := List.mem_map.mp h2.1
  obtain ⟨j, -, rfl⟩ := List.mem_map.mp h2.2
  have a := hsel.posOk k (hp k hk)
  have b := hsel.negOk l (hn l hl)
  exact ⟨a.1, b.1, a.2, b.2, by positivity⟩

theorem later_valid {ip iq : ℕ → ℕ} (hsel : c.Selects ip iq) (k : ℕ) :
    ∀ (i : ℕ) (ω : List ℕ), (∀ x ∈ ω, x < 2 ^ 53) → ∀ d ∈ later ip iq k i ω, c.ValidDraw d := by
  induction k with
  | zero => intro i ω _ d hd; cases hd
  | succ k ih =>
    intro i ω hω d hd
    rw [later] at hd
    rcases List.mem_append.mp hd with h | h
    · exact ih (i + 1) _ (fun x hx => hω x (List.mem_of_mem_drop (List.mem_of_mem_drop (List.mem_of_mem_drop hx)))) d h
    · refine blockOf_valid hsel (fun x hx => hω x ?_) (fun x hx => hω x ?_) d h
      · exact List.mem_of_mem_drop (List.mem_of_mem_take hx)
      · exact List.mem_of_mem_drop (List.mem_of_mem_drop (List.mem_of_mem_take hx))

theorem sampleLoopF_eq (hr : c.Ready) (hw : c.Whole) {ip iq : ℕ → ℕ} (hsel : c.Selects ip iq) (k : ℕ) :
    ∀ (i : ℕ) (s : CftpState) (ω : List ℕ), 2 ^ (i + k) > c.maxIters → lenBefore (i + k) ≤ c.maxIters →
      c.GoodState (lenBefore i) s → (CftpState.draws s).foldl c.stepTF none = none → (∀ x ∈ ω, x < 2 ^ 53) →
      3 * laterCount k i ≤ ω.length →
      c.sampleLoopF i s ω = .ok ((later ip iq k i ω ++ CftpState.draws s).foldl c.stepTF none, reset) := by
  induction k with
  | zero =>
    intro i s ω h1 h2 hs hn hω hl
    rw [Nat.add_zero] at h1
    rw [sampleLoopF, if_pos h1]
    simp only [later, List.nil_append, hn]
  | succ k ih =>
    intro i s ω h1 h2 hs hn hω hl
    have hpos : 0 < 2 ^ i := by positivity
    have hLle := lenBefore_le i
    have hle : 2 ^ i ≤ c.maxIters := by
      refine le_trans ?_ h2
      rw [show i + (k + 1) = (i + k) + 1 by omega, lenBefore_succ]
      exact Nat.pow_le_pow_right (by norm_num) (by omega)
    rw [laterCount] at hl
    obtain ⟨s', hadd, hg, hdr⟩ := addDataF_eq hsel hs hpos hLle hω (by omega)
    set m := 2 ^ i - lenBefore i with hm
    have hω' : ∀ x ∈ ((ω.drop m).drop m).drop m, x < 2 ^ 53 := fun x hx =>
      hω x (List.mem_of_mem_drop (List.mem_of_mem_drop (List.mem_of_mem_drop hx)))
    have hl' : 3 * laterCount k (i + 1) ≤ (((ω.drop m).drop m).drop m).length := by
      simp only [List.length_drop]; omega
    have hvd := hg.validDraws
    rw [hdr] at hvd
    have hlater : ∀ st : CftpState, c.GoodState (lenBefore (i + 1)) st →
        (CftpState.draws st).foldl c.stepTF none = none →
        c.sampleLoopF (i + 1) st (((ω.drop m).drop m).drop m) = .ok ((later ip iq k (i + 1)
          (((ω.drop m).drop m).drop m) ++ CftpState.draws st).foldl c.stepTF none, reset) := by
      intro st h3 h4
      exact ih (i + 1) st _ (by rw [show i + 1 + k = i + (k + 1) by omega]; exact h1)
        (by rw [show i + 1 + k = i + (k + 1) by omega]; exact h2) h3 h4 hω' hl'
    have hvl : ∀ d ∈ later ip iq k (i + 1) (((ω.drop m).drop m).drop m), c.ValidDraw d :=
      later_valid hsel k (i + 1) _ hω'
    rw [sampleLoopF, if_neg (by omega),
      if_neg (by rintro (h | h); exacts [hr.posSum.ne' h, hr.negSum.ne' h]), hadd]
    show (do
      let D ← c.simulateF s'
      match D with
      | some pr => .ok (some pr, reset)
      | none => c.sampleLoopF (i + 1) s' (((ω.drop m).drop m).drop m)) = _
    rw [simulateF_eq hr.toDominated hw hg.validDraws, later, List.append_assoc, ← hdr]
    cases hD : (CftpState.draws s').foldl c.stepTF none with
    | none => exact hlater s' (by rw [lenBefore_succ]; exact hg) hD
    | some pr =>
      rw [List.foldl_append, foldlF_of_none hr.toDominated hw hg.validDraws
        (valid_foldlF hr.toDominated hw hvl (valid_none c)) (by rw [hD]; simp), hD]
      rfl

/-- The distribution of what the outputs lead to. -/
theorem average_laterR (r : St → ℕ → ℕ → ℝ) {ip iq : ℕ → ℕ} (hpos : ∀ k < 2 ^ 53, ip k ∈ c.posList)
    (hneg : ∀ k < 2 ^ 53, iq k ∈ c.negList) (k : ℕ) :
    ∀ (i : ℕ) (h : St → ℝ), averageOver (2 ^ 53) (3 * laterCount k i) (fun ω =>
      h ((later ip iq k i ω).foldl (stepR r) none)) = ((c.TR r (2 ^ 53) ip iq)^[laterCount k i] h) none := by
  induction k with
  | zero => intro i h; simp only [laterCount, Nat.mul_zero, averageOver_zero]; rfl
  | succ k ih =>
    intro i h
    rw [laterCount]
    set m := 2 ^ i - lenBefore i with hm
    rw [show 3 * (m + laterCount k (i + 1)) = m + (m + (m + 3 * laterCount k (i + 1))) by ring]
    rw [averageOver_add]
    simp only [averageOver_add]
    have e : averageOver (2 ^ 53) m (fun a => averageOver (2 ^ 53) m fun b => averageOver (2 ^ 53) m fun d =>
        averageOver (2 ^ 53) (3 * laterCount k (i + 1)) fun ω =>
          h ((later ip iq (k + 1) i (a ++ (b ++ (d ++ ω)))).foldl (stepR r) none)) =
        averageOver (2 ^ 53) m (fun a => averageOver (2 ^ 53) m fun b => averageOver (2 ^ 53) m fun d =>
        averageOver (2 ^ 53) (3 * laterCount k (i + 1)) fun ω =>
          h ((blockOf (2 ^ 53) ip iq a b d).foldl (stepR r) ((later ip iq k (i + 1) ω).foldl (stepR r) none))) := by
      refine averageOver_congr fun a ha _ => averageOver_congr fun b hb _ => averageOver_congr fun d hd _ =>
        averageOver_congr fun ω _ _ => ?_
      rw [later, ← hm, List.foldl_append]
      unfold blockAt
      rw [List.drop_left' ha, List.drop_left' hb, List.drop_left' hd, List.take_left' ha, List.take_left' hb,
        List.take_left' hd]
    rw [e]
    have e2 : averageOver (2 ^ 53) m (fun a => averageOver (2 ^ 53) m fun b => averageOver (2 ^ 53) m fun d =>
        averageOver (2 ^ 53) (3 * laterCount k (i + 1)) fun ω =>
          h ((blockOf (2 ^ 53) ip iq a b d).foldl (stepR r) ((later ip iq k (i + 1) ω).foldl (stepR r) none))) =
        averageOver (2 ^ 53) (3 * laterCount k (i + 1)) fun ω =>
          averageOver (2 ^ 53) m (fun a => averageOver (2 ^ 53) m fun b => averageOver (2 ^ 53) m fun d =>
          h ((blockOf (2 ^ 53) ip iq a b d).foldl (stepR r) ((later ip iq k (i + 1) ω).foldl (stepR r) none))) := by
      symm
      rw [averageOver_comm]
      refine averageOver_congr fun a _ _ => ?_
      rw [averageOver_comm]
      refine averageOver_congr fun b _ _ => ?_
      rw [averageOver_comm]
    rw [e2]
    have e3 : ∀ s : St, averageOver (2 ^ 53) m (fun a => averageOver (2 ^ 53) m fun b => averageOver (2 ^ 53) m fun d =>
          h ((blockOf (2 ^ 53) ip iq a b d).foldl (stepR r) s)) = ((c.TR r (2 ^ 53) ip iq)^[m] h) s := fun s =>
      average_blockR r (by positivity) hpos hneg m h s
    simp only [e3]
    rw [ih (i + 1) ((c.TR r (2 ^ 53) ip iq)^[m] h), ← Function.iterate_add_apply, Nat.add_comm]

theorem average_later {ip iq : ℕ → ℕ} (hsel : c.Selects ip iq) (k : ℕ) :
    ∀ (i : ℕ) (h : St → ℝ), averageOver (2 ^ 53) (3 * laterCount k i) (fun ω =>
      h ((later ip iq k i ω).foldl c.stepTF none)) = ((c.TF (2 ^ 53) ip iq)^[laterCount k i] h) none :=
  average_laterR c.rF (fun k hk => (hsel.posOk k hk).1) (fun k hk => (hsel.negOk k hk).1) k

end Cftp
end Verif
