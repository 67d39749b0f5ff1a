/-
Lemmas on coupling from the past: the deterministic simulation.
-/
import Verif.Spec.Cftp
import Verif.Lemmas.RandR
import Mathlib.Tactic.Linarith
import Mathlib.Tactic.Ring
import Mathlib.Tactic.FieldSimp
import Mathlib.Tactic.Positivity

namespace Verif
namespace Cftp

/-- A state of the chain: undetermined or a pair. -/
abbrev St := Option (ℕ × ℕ)

def wOf (c : Cftp) : St → ℝ
  | none => 1
  | some pr => c.W pr.1 pr.2

def barOf (c : Cftp) : St → ℝ
  | none => 1
  | some pr => c.wPos pr.1 * c.wNeg pr.2

def chainOf (c : Cftp) (s : St) : Chain := { D := s, wD := c.wOf s, wDBar := c.barOf s }

noncomputable def ratio (c : Cftp) (s : St) (p n : ℕ) : ℝ :=
  (c.W p n * c.barOf s) / ((c.wPos p * c.wNeg n) * c.wOf s)

open Classical in
/-- One move of the chain as a total function. -/
noncomputable def stepT (c : Cftp) (s : St) (d : ℕ × ℕ × ℝ) : St :=
  if d.2.2 < c.ratio s d.1 d.2.1 then some (d.1, d.2.1) else s

/-- States the chain can be in. -/
def Valid (c : Cftp) (s : St) : Prop :=
  ∀ p n, s = some (p, n) → p ∈ c.posList ∧ n ∈ c.negList ∧ 0 < c.W p n

theorem valid_none (c : Cftp) : c.Valid none := by intro p n h; cases h

variable {c : Cftp}

theorem wOf_pos {s : St} (hs : c.Valid s) : 0 < c.wOf s := by
  rcases s with _ | ⟨p, n⟩
  · exact one_pos
  · exact (hs p n rfl).2.2

theorem wOf_le_barOf (hd : c.Dominated) {s : St} (hs : c.Valid s) : c.wOf s ≤ c.barOf s := by
  rcases s with _ | ⟨p, n⟩
  · exact le_refl _
  · obtain ⟨h1, h2, -⟩ := hs p n rfl
    exact hd.W_le p h1 n h2

theorem barOf_pos (hd : c.Dominated) {s : St} (hs : c.Valid s) : 0 < c.barOf s :=
  lt_of_lt_of_le (wOf_pos hs) (wOf_le_barOf hd hs)

theorem ratio_nonneg (hd : c.Dominated) {s : St} (hs : c.Valid s) {p n : ℕ} (hp : p ∈ c.posList)
    (hn : n ∈ c.negList) : 0 ≤ c.ratio s p n := by
  unfold ratio
  have h1 := hd.W_nonneg p hp n hn
  have h2 := (barOf_pos hd hs).le
  have h3 := (wOf_pos hs).le
  have h4 := hd.wPos_nonneg p hp
  have h5 := hd.wNeg_nonneg n hn
  positivity

theorem ratio_pos_W (hd : c.Dominated) {s : St} {p n : ℕ} (hp : p ∈ c.posList)
    (hn : n ∈ c.negList) (h : 0 < c.ratio s p n) : 0 < c.W p n := by
  rcases (hd.W_nonneg p hp n hn).lt_or_eq with h1 | h1
  · exact h1
  · unfold ratio at h
    rw [← h1] at h
    simp at h

theorem ratio_none_le (hd : c.Dominated) {s : St} (hs : c.Valid s) {p n : ℕ} (hp : p ∈ c.posList)
    (hn : n ∈ c.negList) : c.ratio none p n ≤ c.ratio s p n := by
  unfold ratio
  have h1 := hd.W_nonneg p hp n hn
  have h3 := wOf_pos hs
  have hle := wOf_le_barOf hd hs
  have h4 := mul_nonneg (hd.wPos_nonneg p hp) (hd.wNeg_nonneg n hn)
  have hb := barOf_pos hd hs
  rw [mul_div_mul_comm, mul_div_mul_comm]
  apply mul_le_mul_of_nonneg_left _ (div_nonneg h1 h4)
  simp only [wOf, barOf, div_one]
  exact (one_le_div h3).mpr hle

theorem step_chainOf {s : St} (hs : c.Valid s) {d : ℕ × ℕ × ℝ} (hv : c.ValidDraw d) :
    c.step (c.chainOf s) d = .ok (c.chainOf (c.stepT s d)) := by
  obtain ⟨hp, hn, h1, h2, -⟩ := hv
  have hw := wOf_pos hs
  have hne : c.wPos d.1 * c.wNeg d.2.1 * (c.chainOf s).wD ≠ 0 := by
    simp only [chainOf]
    positivity
  unfold step stepT
  simp only [if_neg hne]
  by_cases h : d.2.2 < c.ratio s d.1 d.2.1
  · rw [if_pos h]
    exact if_pos h
  · rw [if_neg h]
    exact if_neg h

theorem valid_stepT (hd : c.Dominated) {s : St} (hs : c.Valid s) {d : ℕ × ℕ × ℝ} (hv : c.ValidDraw d) :
    c.Valid (c.stepT s d) := by
  obtain ⟨hp, hn, h1, h2, hu⟩ := hv
  unfold stepT
  split
  · rename_i h
    intro p n he
    cases he
    exact ⟨hp, hn, ratio_pos_W hd hp hn (lt_of_le_of_lt hu h)⟩
  · exact hs

theorem valid_foldl (hd : c.Dominated) {ds : List (ℕ × ℕ × ℝ)} (hv : ∀ d ∈ ds, c.ValidDraw d) {s : St}
    (hs : c.Valid s) : c.Valid (ds.foldl c.stepT s) := by
  induction ds generalizing s with
  | nil => exact hs
  | cons d ds ih =>
    exact ih (fun x hx => hv x (List.mem_cons_of_mem _ hx)) (valid_stepT hd hs (hv d List.mem_cons_self))

theorem run_chainOf (hd : c.Dominated) {ds : List (ℕ × ℕ × ℝ)} (hv : ∀ d ∈ ds, c.ValidDraw d) {s : St}
    (hs : c.Valid s) : c.run (c.chainOf s) ds = .ok (c.chainOf (ds.foldl c.stepT s)) := by
  unfold run
  induction ds generalizing s with
  | nil => rfl
  | cons d ds ih =>
    have h1 := hv d List.mem_cons_self
    rw [List.foldlM_cons, step_chainOf hs h1]
    exact ih (fun x hx => hv x (List.mem_cons_of_mem _ hx)) (valid_stepT hd hs h1)

/-- The undetermined state only moves when every state moves. -/
theorem stepT_of_none (hd : c.Dominated) {s : St} (hs : c.Valid s) {d : ℕ × ℕ × ℝ} (hv : c.ValidDraw d)
    (h : c.stepT none d ≠ none) : c.stepT s d = c.stepT none d := by
  unfold stepT at h ⊢
  by_cases h1 : d.2.2 < c.ratio none d.1 d.2.1
  · rw [if_pos h1, if_pos (lt_of_lt_of_le h1 (ratio_none_le hd hs hv.1 hv.2.1))]
  · exact absurd (if_neg h1) h

theorem foldl_of_none (hd : c.Dominated) {ds : List (ℕ × ℕ × ℝ)} (hv : ∀ d ∈ ds, c.ValidDraw d) {s : St}
    (hs : c.Valid s) (h : ds.foldl c.stepT none ≠ none) :
    ds.foldl c.stepT s = ds.foldl c.stepT none := by
  induction ds generalizing s with
  | nil => exact absurd rfl h
  | cons d ds ih =>
    have h1 := hv d List.mem_cons_self
    rw [List.foldl_cons, List.foldl_cons] at *
    by_cases h2 : c.stepT none d = none
    · rw [h2] at h ⊢
      exact ih (fun x hx => hv x (List.mem_cons_of_mem _ hx)) (valid_stepT hd hs h1) h
    · rw [stepT_of_none hd hs h1 h2]

theorem simulate_eq (hd : c.Dominated) {s : CftpState} (hv : ∀ d ∈ CftpState.draws s, c.ValidDraw d) :
    c.simulate s = .ok ((CftpState.draws s).foldl c.stepT none) := by
  unfold simulate
  have h := run_chainOf hd hv (valid_none c)
  change c.run start _ = _ at h
  rw [h]
  rfl

theorem draws_append {u1 u2 : List ℝ} {p1 p2 n1 n2 : List ℕ} (h1 : p1.length = u1.length)
    (h2 : n1.length = u1.length) :
    CftpState.draws { us := u1 ++ u2, ps := p1 ++ p2, ns := n1 ++ n2 } =
      CftpState.draws { us := u1, ps := p1, ns := n1 } ++ CftpState.draws { us := u2, ps := p2, ns := n2 } := by
  unfold CftpState.draws
  simp only
  rw [List.zip_append h2, List.zip_append (by simp [h1, h2])]

/-! ### Outcomes -/

theorem npChoiceR_outcome {p : List ℝ} (hne : p ≠ []) (h0 : ∀ q ∈ p, 0 ≤ q) (h1 : p.sum = 1) {x : Py ℕ} :
    (npChoiceR p).Outcome x ↔ ∃ i, ∃ h : i < p.length, 0 < p[i] ∧ x = .ok i := by
  unfold npChoiceR
  rw [if_pos ⟨hne, h0, h1⟩]
  rfl

theorem drawUniforms_outcome {n : ℕ} {x : Py (List ℝ)} (h : (drawUniforms n).Outcome x) :
    ∃ us, x = .ok us ∧ us.length = n ∧ ∀ u ∈ us, 0 ≤ u ∧ u < 1 := by
  induction n generalizing x with
  | zero => exact ⟨[], h, rfl, by simp⟩
  | succ n ih =>
    rw [drawUniforms, RandR.bind_eq, RandR.outcome_bind] at h
    rcases h with ⟨u, hu, h⟩ | ⟨e, he, -⟩
    · obtain ⟨v, h0, h1, hv⟩ := hu
      obtain rfl : u = v := Except.ok.inj hv
      rw [RandR.bind_eq, RandR.outcome_bind] at h
      rcases h with ⟨us, hus, h⟩ | ⟨e, he, -⟩
      · obtain ⟨us', e', hl, hus'⟩ := ih hus
        cases e'
        refine ⟨u :: us, h, by simp [hl], ?_⟩
        intro w hw
        rcases List.mem_cons.mp hw with rfl | hw
        · exact ⟨h0, h1⟩
        · exact hus' w hw
      · obtain ⟨us', e', -⟩ := ih he
        cases e'
    · obtain ⟨v, -, -, hv⟩ := he
      cases hv

theorem drawChoices_outcome {items : List ℕ} {p : List ℝ} (hne : p ≠ []) (h0 : ∀ q ∈ p, 0 ≤ q)
    (h1 : p.sum = 1) {n : ℕ} {x : Py (List ℕ)} (h : (drawChoices items p n).Outcome x) :
    ∃ xs, x = .ok xs ∧ xs.length = n ∧ ∀ y ∈ xs, ∃ i, ∃ h : i < p.length, 0 < p[i] ∧ y = items.getD i 0 := by
  induction n generalizing x with
  | zero => exact ⟨[], h, rfl, by simp⟩
  | succ n ih =>
    rw [drawChoices, RandR.bind_eq, RandR.outcome_bind] at h
    rcases h with ⟨u, hu, h⟩ | ⟨e, he, -⟩
    · obtain ⟨i, hi, hpi, he⟩ := (npChoiceR_outcome hne h0 h1).mp hu
      obtain rfl : u = i := Except.ok.inj he
      rw [RandR.bind_eq, RandR.outcome_bind] at h
      rcases h with ⟨us, hus, h⟩ | ⟨e, he, -⟩
      · obtain ⟨us', e', hl, hus'⟩ := ih hus
        cases e'
        refine ⟨_, h, by simp [hl], ?_⟩
        intro w hw
        rcases List.mem_cons.mp hw with rfl | hw
        · exact ⟨u, hi, hpi, rfl⟩
        · exact hus' w hw
      · obtain ⟨us', e', -⟩ := ih he
        cases e'
    · obtain ⟨i, hi, hpi, he⟩ := (npChoiceR_outcome hne h0 h1).mp he
      cases he

theorem sum_div_self {l : List ℝ} (h : l.sum ≠ 0) : (l.map (· / l.sum)).sum = 1 := by
  have : ∀ (m : List ℝ) (d : ℝ), (m.map (· / d)).sum = m.sum / d := by
    intro m d
    induction m with
    | nil => simp
    | cons a m ih => simp [ih, add_div]
  rw [this, div_self h]

/-- Conditions under which the two proposal distributions can be drawn from. -/
structure Ready (c : Cftp) : Prop extends c.Dominated where
  posSum : 0 < c.posWeights.sum
  negSum : 0 < c.negWeights.sum

theorem Ready.of_ne (hd : c.Dominated) (h : ¬ (c.posWeights.sum = 0 ∨ c.negWeights.sum = 0)) : c.Ready := by
  refine ⟨hd, lt_of_le_of_ne ?_ (fun e => h (Or.inl e.symm)), lt_of_le_of_ne ?_ (fun e => h (Or.inr e.symm))⟩
  · apply List.sum_nonneg
    intro x hx
    obtain ⟨p, hp, rfl⟩ := List.mem_map.mp hx
    exact hd.wPos_nonneg p hp
  · apply List.sum_nonneg
    intro x hx
    obtain ⟨p, hp, rfl⟩ := List.mem_map.mp hx
    exact hd.wNeg_nonneg p hp

/-- Normalised weights form a distribution. -/
theorem proba_ok {items : List ℕ} {w : ℕ → ℝ} (h0 : ∀ x ∈ items, 0 ≤ w x) (hs : 0 < (items.map w).sum) :
    (items.map w).map (· / (items.map w).sum) ≠ [] ∧
    (∀ q ∈ (items.map w).map (· / (items.map w).sum), 0 ≤ q) ∧
    ((items.map w).map (· / (items.map w).sum)).sum = 1 := by
  refine ⟨?_, ?_, sum_div_self hs.ne'⟩
  · intro he
    have : items = [] := by simpa using he
    rw [this] at hs
    simp at hs
  · intro q hq
    obtain ⟨y, hy, rfl⟩ := List.mem_map.mp hq
    obtain ⟨x, hx, rfl⟩ := List.mem_map.mp hy
    exact div_nonneg (h0 x hx) hs.le

theorem proba_item {items : List ℕ} {w : ℕ → ℝ} (hs : 0 < (items.map w).sum) {i : ℕ}
    (hi : i < ((items.map w).map (· / (items.map w).sum)).length)
    (hp : 0 < ((items.map w).map (· / (items.map w).sum))[i]) :
    items.getD i 0 ∈ items ∧ 0 < w (items.getD i 0) := by
  have hi' : i < items.length := by simpa using hi
  have e : items.getD i 0 = items[i] := by simp [List.getD, hi']
  rw [e]
  refine ⟨List.getElem_mem _, ?_⟩
  simp only [List.getElem_map] at hp
  exact (div_pos_iff_of_pos_right hs).mp hp

/-- A state of the lists with valid draws and equal lengths. -/
structure GoodState (c : Cftp) (L : ℕ) (s : CftpState) : Prop where
  usLen : s.us.length = L
  psLen : s.ps.length = L
  nsLen : s.ns.length = L
  usOk : ∀ u ∈ s.us, 0 ≤ u
  psOk : ∀ p ∈ s.ps, p ∈ c.posList ∧ 0 < c.wPos p
  nsOk : ∀ n ∈ s.ns, n ∈ c.negList ∧ 0 < c.wNeg n

theorem goodState_reset : c.GoodState 0 reset :=
  ⟨rfl, rfl, rfl, by simp [reset], by simp [reset], by simp [reset]⟩

theorem GoodState.validDraws {L : ℕ} {s : CftpState} (h : c.GoodState L s) :
    ∀ d ∈ CftpState.draws s, c.ValidDraw d := by
  rintro ⟨p, n, u⟩ hd
  unfold CftpState.draws at hd
  have h1 := List.of_mem_zip hd
  have h2 := List.of_mem_zip h1.2
  obtain ⟨a, b⟩ := h.psOk p h1.1
  obtain ⟨a', b'⟩ := h.nsOk n h2.1
  exact ⟨a, a', b, b', h.usOk u h2.2⟩

theorem addData_outcome (hr : c.Ready) {L m : ℕ} {s : CftpState} (hs : c.GoodState L s) (hm : 0 < m)
    (hL : L ≤ m) {x : Py CftpState} (h : (c.addData m s).Outcome x) :
    ∃ us ps ns, x = .ok { us := us ++ s.us, ps := ps ++ s.ps, ns := ns ++ s.ns } ∧
      us.length = m - L ∧ ps.length = m - L ∧ ns.length = m - L ∧
      c.GoodState m { us := us ++ s.us, ps := ps ++ s.ps, ns := ns ++ s.ns } := by
  unfold addData at h
  rw [if_neg hm.ne', if_neg (by rw [hs.usLen]; omega), hs.usLen] at h
  have hP := proba_ok hr.wPos_nonneg hr.posSum
  have hN := proba_ok hr.wNeg_nonneg hr.negSum
  simp only [RandR.bind_eq, RandR.outcome_bind] at h
  rcases h with ⟨us, hus, h⟩ | ⟨e, he, -⟩
  · obtain ⟨us', e', hul, hus'⟩ := drawUniforms_outcome hus
    cases e'
    rcases h with ⟨ps, hps, h⟩ | ⟨e, he, -⟩
    · obtain ⟨ps', e', hpl, hps'⟩ := drawChoices_outcome hP.1 hP.2.1 hP.2.2 hps
      cases e'
      rcases h with ⟨ns, hns, h⟩ | ⟨e, he, -⟩
      · obtain ⟨ns', e', hnl, hns'⟩ := drawChoices_outcome hN.1 hN.2.1 hN.2.2 hns
        cases e'
        have l1 : (ps ++ s.ps).length = m := by rw [List.length_append, hpl, hs.psLen]; omega
        have l2 : (ns ++ s.ns).length = m := by rw [List.length_append, hnl, hs.nsLen]; omega
        have l3 : (us ++ s.us).length = m := by rw [List.length_append, hul, hs.usLen]; omega
        refine ⟨us, ps, ns, ?_, hul, hpl, hnl, ⟨l3, l1, l2, ?_, ?_, ?_⟩⟩
        · unfold checkLengths RandR.lift at h
          rw [if_neg (by simp only [l1, l2, l3]; simp)] at h
          exact h
        · intro u hu
          rcases List.mem_append.mp hu with hu | hu
          · exact (hus' u hu).1
          · exact hs.usOk u hu
        · intro p hp
          rcases List.mem_append.mp hp with hp | hp
          · obtain ⟨i, hi, hpi, rfl⟩ := hps' p hp
            exact proba_item hr.posSum hi hpi
          · exact hs.psOk p hp
        · intro p hp
          rcases List.mem_append.mp hp with hp | hp
          · obtain ⟨i, hi, hpi, rfl⟩ := hns' p hp
            exact proba_item hr.negSum hi hpi
          · exact hs.nsOk p hp
      · obtain ⟨_, e', -⟩ := drawChoices_outcome hN.1 hN.2.1 hN.2.2 he
        cases e'
    · obtain ⟨_, e', -⟩ := drawChoices_outcome hP.1 hP.2.1 hP.2.2 he
      cases e'
  · obtain ⟨_, e', -⟩ := drawUniforms_outcome he
    cases e'

/-- Length of the lists before the iteration with counter `i`. -/
def lenBefore (i : ℕ) : ℕ := if i = 0 then 0 else 2 ^ (i - 1)

theorem lenBefore_le (i : ℕ) : lenBefore i ≤ 2 ^ i := by
  unfold lenBefore
  split
  · exact Nat.zero_le _
  · exact Nat.pow_le_pow_right (by norm_num) (by omega)

theorem sampleLoop_outcome (hr : c.Ready) {x : Py (Option (ℕ × ℕ) × CftpState)} (k : ℕ) :
    ∀ (i : ℕ) (s : CftpState), c.maxIters - i ≤ k → c.GoodState (lenBefore i) s →
      (c.sampleLoop i s).Outcome x →
      ∃ D, x = .ok (D, reset) ∧ c.Valid D := by
  induction k with
  | zero =>
    intro i s hk _ h
    have : i < 2 ^ i := Nat.lt_two_pow_self
    rw [sampleLoop, if_pos (by omega)] at h
    exact ⟨none, h, valid_none c⟩
  | succ k ih =>
    intro i s hk hs h
    rw [sampleLoop] at h
    split at h
    · exact ⟨none, h, valid_none c⟩
    · rename_i hle
      rw [if_neg (by rintro (h1 | h1); exacts [hr.posSum.ne' h1, hr.negSum.ne' h1])] at h
      simp only [RandR.bind_eq, RandR.outcome_bind] at h
      have hpos : 0 < 2 ^ i := by positivity
      rcases h with ⟨s', hs', h⟩ | ⟨e, he, -⟩
      · obtain ⟨us, ps, ns, e', -, -, -, hg⟩ := addData_outcome hr hs hpos (lenBefore_le i) hs'
        cases e'
        have hsim := simulate_eq hr.toDominated hg.validDraws
        rcases h with ⟨D, hD, h⟩ | ⟨e, he, -⟩
        · rw [RandR.lift, hsim] at hD
          have hDv : c.Valid D := by
            rw [Except.ok.inj hD]
            exact valid_foldl hr.toDominated hg.validDraws (valid_none c)
          rcases D with _ | pr
          · have : i < 2 ^ i := Nat.lt_two_pow_self
            exact ih (i + 1) _ (by omega) (by simpa [lenBefore] using hg) h
          · exact ⟨some pr, h, hDv⟩
        · rw [RandR.lift, hsim] at he
          cases he
      · obtain ⟨_, _, _, e', -⟩ := addData_outcome hr hs hpos (lenBefore_le i) he
        cases e'

end Cftp
end Verif
