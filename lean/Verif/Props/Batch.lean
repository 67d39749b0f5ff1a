/-
Property C117: batches of the coupling classes, and the law of the number of iterations.
-/
import Verif.Model.Batch
import Verif.Props.HeadDetails
import Verif.Props.Boley
import Verif.Lemmas.Live

namespace Verif

/-- Programs that differ only on impossible results have the same expectation. -/
theorem RandR.expect_congr {α : Type} {m : RandR α} (hm : m.Proper) {f g : Py α → ℝ}
    (h : ∀ x, m.Outcome x → f x = g x) : m.expect f = m.expect g := by
  induction m with
  | done r => exact h r rfl
  | choice p k ih =>
    simp only [RandR.expect]
    refine Finset.sum_congr rfl fun i _ => ?_
    rcases (hm.1 p[i] (List.getElem_mem _)).eq_or_lt with h0 | h0
    · rw [← h0, zero_mul, zero_mul]
    · rw [ih i (hm.2.2 i) fun x hx => h x ⟨i, i.2, h0, hx⟩]
  | unif k ih =>
    simp only [RandR.expect]
    apply intervalIntegral.integral_congr_ae
    have hne : ∀ᵐ u : ℝ, u ≠ 1 := by simp [MeasureTheory.ae_iff]
    filter_upwards [hne] with u hu hmem
    rw [Set.uIoc_of_le (by norm_num), Set.mem_Ioc] at hmem
    exact ih u (hm u) fun x hx => h x ⟨u, hmem.1.le, lt_of_le_of_ne hmem.2 hu, hx⟩

namespace Cftp
variable {c : Cftp}

theorem sampleLoopDetailed_proper (c : Cftp) (k : ℕ) : ∀ (i : ℕ) (h : Option ℕ) (s : CftpState),
    c.maxIters - i ≤ k → (c.sampleLoopDetailed i h s).Proper := by
  have fin : ∀ D h, (finishDetailed D h).Proper := by
    intro D h
    cases h <;> trivial
  induction k with
  | zero =>
    intro i h s hk
    have : i < 2 ^ i := Nat.lt_two_pow_self
    rw [sampleLoopDetailed, if_pos (by omega)]
    exact fin _ _
  | succ k ih =>
    intro i h s hk
    have hi : i < 2 ^ i := Nat.lt_two_pow_self
    rw [sampleLoopDetailed]
    split
    · exact fin _ _
    · split
      · trivial
      · refine RandR.proper_bind (addData_proper _ _ _) fun s' => RandR.proper_bind (RandR.proper_lift _) fun D => ?_
        cases D with
        | none => exact ih (i + 1) _ s' (by omega)
        | some pr => exact fin _ _

theorem sampleDetailed_proper (c : Cftp) (s : CftpState) : (c.sampleDetailed s).Proper :=
  sampleLoopDetailed_proper c _ 0 none s (le_refl _)

/-- One round of the loop, averaged over its fresh draws. -/
theorem expect_detailed_step (hr : c.Ready) {i : ℕ} (h : ¬ 2 ^ i > c.maxIters) {s : CftpState}
    (hs : c.GoodState (lenBefore i) s) {ι : Type} [Fintype ι] (w : ι → ℝ) (φ : ι → St) (F : St → ℝ)
    (f : Py (Detailed × CftpState) → ℝ) (hist : Option ℕ)
    (key : ∀ new s', CftpState.draws s' = new ++ CftpState.draws s → c.GoodState (2 ^ i) s' →
      (match (CftpState.draws s').foldl c.stepT none with
        | some pr => f (.ok (.withDetails (some pr) (2 ^ i), reset))
        | none => (c.sampleLoopDetailed (i + 1) (some (2 ^ i)) s').expect f) =
        ∑ j, w j * F (new.foldl c.stepT (φ j))) :
    (c.sampleLoopDetailed i hist s).expect f = ∑ j, w j * (c.T^[2 ^ i - lenBefore i] F) (φ j) := by
  have hpos : 0 < 2 ^ i := by positivity
  have hLle := lenBefore_le i
  rw [sampleLoopDetailed, if_neg h,
    if_neg (by rintro (h1 | h1); exacts [hr.posSum.ne' h1, hr.negSum.ne' h1])]
  rw [RandR.bind_eq, expect_addData hr hs hpos hLle, ← block]
  refine EU_congr fun us hus hu => EL_congr fun ps hps hp => EL_congr fun ns hns hn => ?_
  have hg := goodState_append hr hs hLle hus hps hns hu hp hn
  have hda := draws_append (u1 := us) (u2 := s.us) (p1 := ps) (p2 := s.ps) (n1 := ns) (n2 := s.ns)
    (by omega) (by omega)
  have hlen : (CftpState.draws { us := us ++ s.us, ps := ps ++ s.ps, ns := ns ++ s.ns }).length = 2 ^ i := by
    have a := hg.usLen; have b := hg.psLen; have d := hg.nsLen
    simp only [CftpState.draws, List.length_zip]
    simp only at a b d
    rw [a, b, d]
    simp
  have hk := key (ps.zip (ns.zip us)) _ hda hg
  rw [← hk, simulate_eq hr.toDominated hg.validDraws]
  simp only [RandR.bind_eq, RandR.lift, RandR.bind, hlen]
  cases (CftpState.draws { us := us ++ s.us, ps := ps ++ s.ps, ns := ns ++ s.ns }).foldl c.stepT none with
  | none => rfl
  | some pr => rfl

/-- The value of a pair found by running the lists from a given state. -/
noncomputable def foundValue (c : Cftp) (g : ℕ × ℕ → ℝ) (s : CftpState) (st : St) : ℝ :=
  match (CftpState.draws s).foldl c.stepT st with
  | some pr => g pr
  | none => 0

theorem foundValue_append {g : ℕ × ℕ → ℝ} {s s' : CftpState} {new : List (ℕ × ℕ × ℝ)}
    (h : CftpState.draws s' = new ++ CftpState.draws s) (st : St) :
    c.foundValue g s' st = c.foundValue g s (new.foldl c.stepT st) := by
  unfold foundValue
  rw [h, List.foldl_append]

section
variable {f : Py (Detailed × CftpState) → ℝ} {g : ℕ × ℕ → ℝ} {j : ℕ}

/-- A quantity that is zero unless the loop ends with a pair in round `j` has expectation zero from a later
round on. -/
theorem expect_detailed_late (hr : c.Ready)
    (h1 : ∀ pr i, i ≠ j → f (.ok (.withDetails (some pr) (2 ^ i), reset)) = 0)
    (h2 : ∀ n, f (.ok (.withDetails none n, reset)) = 0) (k : ℕ) :
    ∀ (i : ℕ) (n : ℕ) (s : CftpState), c.maxIters - i ≤ k → c.GoodState (lenBefore i) s → j < i →
      (c.sampleLoopDetailed i (some n) s).expect f = 0 := by
  induction k with
  | zero =>
    intro i n s hk _ _
    have : i < 2 ^ i := Nat.lt_two_pow_self
    rw [sampleLoopDetailed, if_pos (by omega)]
    exact h2 n
  | succ k ih =>
    intro i n s hk hs hij
    by_cases h : 2 ^ i > c.maxIters
    · rw [sampleLoopDetailed, if_pos h]
      exact h2 n
    · have hi : i < 2 ^ i := Nat.lt_two_pow_self
      rw [expect_detailed_step hr h hs (ι := Fin 0) (fun _ => 0) (fun _ => none) (fun _ => 0) f]
      · simp
      · intro new s' hd hg
        rw [Finset.univ_eq_empty, Finset.sum_empty]
        cases (CftpState.draws s').foldl c.stepT none with
        | some pr => exact h1 pr i (by omega)
        | none => exact ih (i + 1) _ s' (by omega) (by simpa [lenBefore] using hg) (by omega)

/-- The expectation of such a quantity from round `i` on. -/
theorem expect_detailed_round (hr : c.Ready)
    (h0 : ∀ pr, f (.ok (.withDetails (some pr) (2 ^ j), reset)) = g pr)
    (h1 : ∀ pr i, i ≠ j → f (.ok (.withDetails (some pr) (2 ^ i), reset)) = 0)
    (h2 : ∀ n, f (.ok (.withDetails none n, reset)) = 0) (hj : 2 ^ j ≤ c.maxIters) (k : ℕ) :
    ∀ (i : ℕ) (hist : Option ℕ) (s : CftpState), j - i ≤ k → i ≤ j → c.GoodState (lenBefore i) s →
      (CftpState.draws s).foldl c.stepT none = none →
      (c.sampleLoopDetailed i hist s).expect f =
        (c.T^[2 ^ j - lenBefore i] (c.foundValue g s)) none -
          (c.T^[lenBefore j - lenBefore i] (c.foundValue g s)) none := by
  have base : ∀ (hist : Option ℕ) (s : CftpState), c.GoodState (lenBefore j) s →
      (CftpState.draws s).foldl c.stepT none = none →
      (c.sampleLoopDetailed j hist s).expect f =
        (c.T^[2 ^ j - lenBefore j] (c.foundValue g s)) none -
          (c.T^[lenBefore j - lenBefore j] (c.foundValue g s)) none := by
    intro hist s hs hn
    have h3 : c.foundValue g s none = 0 := by unfold foundValue; rw [hn]
    rw [Nat.sub_self, Function.iterate_zero, id, h3, sub_zero,
      expect_detailed_step hr (by omega) hs (ι := Unit) (fun _ => 1) (fun _ => none) (c.foundValue g s) f]
    · simp
    · intro new s' hd hg
      rw [Finset.univ_unique, Finset.sum_singleton, one_mul, ← foundValue_append hd]
      unfold foundValue
      cases (CftpState.draws s').foldl c.stepT none with
      | some pr => exact h0 pr
      | none => exact expect_detailed_late hr h1 h2 _ (j + 1) _ s' (le_refl _) (by simpa [lenBefore] using hg) (by omega)
  induction k with
  | zero =>
    intro i hist s hk hle hs hn
    obtain rfl : i = j := by omega
    exact base hist s hs hn
  | succ k ih =>
    intro i hist s hk hle hs hn
    rcases hle.eq_or_lt with rfl | hlt
    · exact base hist s hs hn
    · have hij : 2 ^ i ≤ lenBefore j := by
        unfold lenBefore
        rw [if_neg (by omega)]
        exact Nat.pow_le_pow_right (by norm_num) (by omega)
      have hjj := lenBefore_le j
      have hLle := lenBefore_le i
      obtain ⟨J, hJ, w, φ, hrep⟩ := T_iter_repr c (2 ^ j - 2 ^ i) none
      obtain ⟨J', hJ', w', φ', hrep'⟩ := T_iter_repr c (lenBefore j - 2 ^ i) none
      rw [expect_detailed_step hr (by omega) hs (ι := J ⊕ J') (Sum.elim w fun a => - w' a) (Sum.elim φ φ')
        (c.foundValue g s) f]
      · simp only [Fintype.sum_sum_type, Sum.elim_inl, Sum.elim_inr, neg_mul, Finset.sum_neg_distrib]
        rw [← hrep, ← hrep', ← Function.iterate_add_apply, ← Function.iterate_add_apply, ← sub_eq_add_neg]
        have e1 : 2 ^ j - 2 ^ i + (2 ^ i - lenBefore i) = 2 ^ j - lenBefore i := by omega
        have e2 : lenBefore j - 2 ^ i + (2 ^ i - lenBefore i) = lenBefore j - lenBefore i := by omega
        rw [e1, e2]
      · intro new s' hd hg
        simp only [Fintype.sum_sum_type, Sum.elim_inl, Sum.elim_inr, neg_mul, Finset.sum_neg_distrib,
          ← foundValue_append hd]
        rw [← hrep, ← hrep', ← sub_eq_add_neg]
        have hlb : lenBefore (i + 1) = 2 ^ i := by simp [lenBefore]
        cases hD : (CftpState.draws s').foldl c.stepT none with
        | none =>
          have := ih (i + 1) (some (2 ^ i)) s' (by omega) (by omega) (hlb.symm ▸ hg) hD
          rw [hlb] at this
          exact this
        | some pr =>
          have hc : ∀ st, c.Valid st → c.foundValue g s' st = g pr := by
            intro st hst
            unfold foundValue
            rw [foldl_of_none hr.toDominated hg.validDraws hst (by rw [hD]; simp), hD]
          rw [T_iter_const hr _ hc none (valid_none c), T_iter_const hr _ hc none (valid_none c), sub_self]
          exact h1 pr i (by omega)

end

theorem sampleLoopDetailed_none (hr : c.Ready) {D : Option (ℕ × ℕ)} {n : ℕ} {st : CftpState} (k : ℕ) :
    ∀ (i : ℕ) (m : ℕ) (s : CftpState), c.maxIters - i ≤ k → c.GoodState (lenBefore i) s →
      lenBefore i ≤ c.maxIters → m = lenBefore i →
      (c.sampleLoopDetailed i (some m) s).Outcome (.ok (.withDetails D n, st)) → D = none → n = c.horizon := by
  have fin : ∀ (i m : ℕ), 2 ^ i > c.maxIters → lenBefore i ≤ c.maxIters → m = lenBefore i →
      (finishDetailed none (some m)).Outcome (.ok (.withDetails D n, st)) → n = c.horizon := by
    intro i m h1 h2 h3 ho
    cases ho
    rw [horizon_eq h1 h2, h3]
  induction k with
  | zero =>
    intro i m s hk _ hle hm ho _
    have : i < 2 ^ i := Nat.lt_two_pow_self
    rw [sampleLoopDetailed, if_pos (by omega)] at ho
    exact fin i m (by omega) hle hm ho
  | succ k ih =>
    intro i m s hk hs hle hm ho hD
    rw [sampleLoopDetailed] at ho
    by_cases hlt : 2 ^ i > c.maxIters
    · rw [if_pos hlt] at ho
      exact fin i m hlt hle hm ho
    · rw [if_neg hlt, if_neg (by rintro (h1 | h1); exacts [hr.posSum.ne' h1, hr.negSum.ne' h1])] at ho
      simp only [RandR.bind_eq, RandR.outcome_bind] at ho
      have hpos : 0 < 2 ^ i := by positivity
      rcases ho with ⟨s', hs', ho⟩ | ⟨e, he, hx⟩
      · obtain ⟨us, ps, ns, e', -, -, -, hg⟩ := addData_outcome hr hs hpos (lenBefore_le i) hs'
        cases e'
        have hlen : (CftpState.draws { us := us ++ s.us, ps := ps ++ s.ps, ns := ns ++ s.ns }).length = 2 ^ i := by
          have a := hg.usLen; have b := hg.psLen; have d := hg.nsLen
          simp only [CftpState.draws, List.length_zip]
          simp only at a b d
          rw [a, b, d]
          simp
        rcases ho with ⟨E, hE, ho⟩ | ⟨e, he, hx⟩
        · rcases E with _ | pr
          · have : i < 2 ^ i := Nat.lt_two_pow_self
            simp only at ho
            exact ih (i + 1) _ _ (by omega) (by simpa [lenBefore] using hg) (by simp [lenBefore]; omega)
              (by rw [hlen]; simp [lenBefore]) ho hD
          · cases ho
            cases hD
        · cases hx
      · cases hx

end Cftp

open Cftp

/-! ### The number of iterations -/

/-- **C117** `CFTP.sample(return_details=True)`: the pair `(p, n)` is returned with `num_iterations` equal to
`2^j` with probability its share of the total true weight, times the probability that the first `2^(j-1)`
proposals (none for `j = 0`) are rejected and not all of the first `2^j`. -/
theorem C117_iterations (c : Cftp) (hd : c.Dominated) (hp : c.posWeights.sum ≠ 0) (hn : c.negWeights.sum ≠ 0)
    (j : ℕ) (hj : 2 ^ j ≤ c.maxIters) (p n : ℕ) (hpl : p ∈ c.posList) (hnl : n ∈ c.negList) :
    (c.sampleDetailed reset).prob (.ok (.withDetails (some (p, n)) (2 ^ j), reset)) =
      (c.W p n / c.totalW) *
        ((1 - c.totalW / c.totalBar) ^ (if j = 0 then 0 else 2 ^ (j - 1)) -
          (1 - c.totalW / c.totalBar) ^ (2 ^ j)) := by
  classical
  have hr : c.Ready := Ready.of_ne hd (by tauto)
  unfold RandR.prob sampleDetailed
  have h := expect_detailed_round hr (j := j) (g := fun pr => if pr = (p, n) then (1 : ℝ) else 0)
    (f := fun x => if x = .ok (.withDetails (some (p, n)) (2 ^ j), reset) then (1 : ℝ) else 0)
    (by intro pr; simp) (by
      intro pr i hi
      have : (2 : ℕ) ^ i ≠ 2 ^ j := fun e => hi (Nat.pow_right_injective (le_refl 2) e)
      simp [this]) (by intro m; simp) hj j 0 none reset (by omega) (by omega)
    (by simpa [lenBefore] using goodState_reset) rfl
  refine Eq.trans (by congr! 3) (h.trans ?_)
  rw [T_iter_none hr, T_iter_none hr]
  have hPi : c.Pi (c.foundValue (fun pr => if pr = (p, n) then (1 : ℝ) else 0) reset) = c.W p n := by
    unfold Pi
    have e : ∀ a b, c.foundValue (fun pr => if pr = (p, n) then (1 : ℝ) else 0) reset (some (a, b)) =
        if (a, b) = (p, n) then 1 else 0 := fun a b => rfl
    simp only [e, Prod.mk.injEq]
    rw [Finset.sum_eq_single p, Finset.sum_eq_single n]
    · simp
    · intro b _ hb
      simp [hb]
    · intro hh
      exact absurd (List.mem_toFinset.mpr hnl) hh
    · intro a _ ha
      simp [ha]
    · intro hh
      exact absurd (List.mem_toFinset.mpr hpl) hh
  have h0 : c.foundValue (fun pr => if pr = (p, n) then (1 : ℝ) else 0) reset none = 0 := rfl
  rw [hPi, h0]
  simp only [lenBefore, if_true, Nat.sub_zero]
  ring

/-- **C117** Giving up: with weights on both sides, `CFTP.sample(return_details=True)` returns `None` with
`num_iterations` equal to the largest power of two not above `max_iters`, and with no other number. -/
theorem C117_giving_up (c : Cftp) (hd : c.Dominated) (hp : c.posWeights.sum ≠ 0) (hn : c.negWeights.sum ≠ 0)
    (hm : 1 ≤ c.maxIters) :
    (c.sampleDetailed reset).prob (.ok (.withDetails none (2 ^ Nat.log 2 c.maxIters), reset)) =
      (1 - c.totalW / c.totalBar) ^ 2 ^ Nat.log 2 c.maxIters ∧
    ∀ k, (c.sampleDetailed reset).Outcome (.ok (.withDetails none k, reset)) → k = 2 ^ Nat.log 2 c.maxIters := by
  classical
  have hr : c.Ready := Ready.of_ne hd (by tauto)
  have hh : c.horizon = 2 ^ Nat.log 2 c.maxIters := by unfold horizon; rw [if_neg (by omega)]
  have key : ∀ D k st, (c.sampleDetailed reset).Outcome (.ok (.withDetails D k, st)) → D = none → k = c.horizon := by
    intro D k st ho hD
    have hs0 : c.GoodState (lenBefore 0) reset := by simpa [lenBefore] using goodState_reset
    unfold sampleDetailed at ho
    have e : c.sampleLoopDetailed 0 none reset = c.sampleLoopDetailed 0 (some 0) reset := by
      have hl : ¬ 2 ^ 0 > c.maxIters := by simp; omega
      rw [sampleLoopDetailed.eq_def c 0 none, sampleLoopDetailed.eq_def c 0 (some 0), if_neg hl, if_neg hl]
    rw [e] at ho
    exact sampleLoopDetailed_none hr _ 0 0 reset (le_refl _) hs0 (by simp [lenBefore]) (by simp [lenBefore]) ho hD
  refine ⟨?_, fun k hk => hh ▸ key _ _ _ hk rfl⟩
  rw [← hh, ← (C55_giving_up c hd).1, ← C74_details_same_draws c hm reset]
  unfold RandR.prob
  rw [RandR.expect_bind]
  refine RandR.expect_congr (sampleDetailed_proper c _) fun x hx => ?_
  obtain ⟨D, j, rfl, hj, -⟩ := (C74_details_outcomes c hd hm x hx).2 hp hn
  cases D with
  | none =>
    have := key _ _ _ hx rfl
    simp [this, RandR.after, Detailed.pair, RandR.pure_eq, RandR.expect]
  | some pr => simp [RandR.after, Detailed.pair, RandR.pure_eq, RandR.expect]

/-! ### Batches -/

theorem prob_cons {α σ δ : Type} {m : RandR (α × σ)} {s : σ}
    (hm : ∀ F G : Py (α × σ) → ℝ, (∀ t, F (.ok (t, s)) = G (.ok (t, s))) → m.expect F = m.expect G)
    {k : α × σ → RandR δ} {t : α} {r : Py δ} {q : ℝ} (h1 : (k (t, s)).prob r = q)
    (h2 : ∀ t', t' ≠ t → (k (t', s)).prob r = 0) : (m.bind k).prob r = m.prob (.ok (t, s)) * q := by
  classical
  unfold RandR.prob
  rw [mul_comm, ← RandR.expect_const_mul, RandR.expect_bind]
  apply hm
  intro t'
  simp only [RandR.after]
  by_cases ht : t' = t
  · subst ht
    rw [if_pos rfl, mul_one]
    exact h1
  · rw [if_neg (by simp [ht]), mul_zero]
    exact h2 t' ht

/-- Prepending a result to the results of a batch. -/
theorem prob_glue {β γ σ : Type} (rest : RandR (β × σ)) (glue : β → γ) (inj : Function.Injective glue)
    (b : β) (s : σ) :
    (rest.bind fun rs => (.done (.ok (glue rs.1, rs.2)) : RandR (γ × σ))).prob (.ok (glue b, s)) =
      rest.prob (.ok (b, s)) := by
  classical
  unfold RandR.prob
  rw [RandR.expect_bind]
  congr 1
  funext x
  rcases x with e | ⟨r1, r2⟩
  · simp [RandR.after]
  · simp only [RandR.after, RandR.expect]
    have : (Except.ok (glue r1, r2) : Py (γ × σ)) = .ok (glue b, s) ↔ (Except.ok (r1, r2) : Py (β × σ)) = .ok (b, s) := by
      simp only [Except.ok.injEq, Prod.mk.injEq, inj.eq_iff]
    by_cases h : (Except.ok (r1, r2) : Py (β × σ)) = .ok (b, s)
    · rw [if_pos (this.mpr h), if_pos h]
    · rw [if_neg (fun e => h (this.mp e)), if_neg h]

/-- A glued result of another shape has probability zero. -/
theorem prob_glue_ne {β γ σ : Type} (rest : RandR (β × σ)) (glue : β → γ) (c : γ) (hc : ∀ b, glue b ≠ c) (s : σ) :
    (rest.bind fun rs => (.done (.ok (glue rs.1, rs.2)) : RandR (γ × σ))).prob (.ok (c, s)) = 0 := by
  classical
  unfold RandR.prob
  rw [RandR.expect_bind]
  have h0 : rest.expect (fun _ => (0 : ℝ)) = 0 := by simpa using RandR.expect_const_mul rest 0 fun _ => 0
  refine Eq.trans ?_ h0
  congr 1
  funext x
  rcases x with e | ⟨r1, r2⟩
  · simp [RandR.after]
  · simp [RandR.after, RandR.expect, hc]

theorem prob_pure_self {α : Type} (a : α) : (pure a : RandR α).prob (.ok a) = 1 := by
  classical
  unfold RandR.prob
  rw [RandR.pure_eq]
  simp [RandR.expect]

theorem prob_pure_ne {α : Type} {a b : α} (h : a ≠ b) : (pure a : RandR α).prob (.ok b) = 0 := by
  classical
  unfold RandR.prob
  rw [RandR.pure_eq]
  simp [RandR.expect, h]

/-- **C117** `sample_k_times(k)` on a coupling object with empty lists: the results are independent draws of
`sample()`, that is, the probability of any list of results is the product of the probabilities of its
entries. -/
theorem C117_pairs_batch (c : Cftp) (hd : c.Dominated) (ts : List (Option (ℕ × ℕ))) :
    (c.sampleKTimes ts.length reset).prob (.ok (ts, reset)) =
      (ts.map fun t => (c.sample reset).prob (.ok (t, reset))).prod := by
  classical
  have congr : ∀ F G : Py (Option (ℕ × ℕ) × CftpState) → ℝ, (∀ t, F (.ok (t, reset)) = G (.ok (t, reset))) →
      (c.sample reset).expect F = (c.sample reset).expect G := by
    intro F G h
    rw [expect_sample' hd F, expect_sample' hd G]
    simp only [h]
  unfold sampleKTimes
  rw [Int.toNat_natCast]
  induction ts with
  | nil => exact prob_pure_self _
  | cons t ts ih =>
    rw [List.map_cons, List.prod_cons, ← ih, List.length_cons, pairCalls, RandR.bind_eq]
    refine prob_cons congr ?_ ?_
    · exact prob_glue _ (t :: ·) List.cons_injective ts reset
    · intro t' ht
      exact prob_glue_ne _ (t' :: ·) (t :: ts) (fun b h => ht (List.cons.inj h).1) reset

/-- **C117** The same with details. -/
theorem C117_details_batch (c : Cftp) (hd : c.Dominated) (hm : 1 ≤ c.maxIters) (ts : List Detailed) :
    (c.sampleKTimesDetailed ts.length reset).prob (.ok (ts, reset)) =
      (ts.map fun t => (c.sampleDetailed reset).prob (.ok (t, reset))).prod := by
  classical
  have congr : ∀ F G : Py (Detailed × CftpState) → ℝ, (∀ t, F (.ok (t, reset)) = G (.ok (t, reset))) →
      (c.sampleDetailed reset).expect F = (c.sampleDetailed reset).expect G := by
    intro F G h
    refine RandR.expect_congr (sampleDetailed_proper c _) fun x hx => ?_
    have ho := C74_details_outcomes c hd hm x hx
    by_cases hz : c.posWeights.sum = 0 ∨ c.negWeights.sum = 0
    · rw [ho.1 hz]
      exact h _
    · obtain ⟨D, j, rfl, -⟩ := ho.2 (by tauto) (by tauto)
      exact h _
  unfold sampleKTimesDetailed
  rw [Int.toNat_natCast]
  induction ts with
  | nil => exact prob_pure_self _
  | cons t ts ih =>
    rw [List.map_cons, List.prod_cons, ← ih, List.length_cons, pairCallsDetailed, RandR.bind_eq]
    refine prob_cons congr ?_ ?_
    · exact prob_glue _ (t :: ·) List.cons_injective ts reset
    · intro t' ht
      exact prob_glue_ne _ (t' :: ·) (t :: ts) (fun b h => ht (List.cons.inj h).1) reset

/-- **C117** A negative number of samples is an empty batch; no result of a batch has another length. -/
theorem C117_batch_length (c : Cftp) (n : ℤ) (s : CftpState) (ts : List (Option (ℕ × ℕ))) (s' : CftpState)
    (h : (c.sampleKTimes n s).Outcome (.ok (ts, s'))) : (ts.length : ℤ) = max n 0 := by
  unfold sampleKTimes at h
  rw [← Int.ofNat_toNat]
  generalize n.toNat = k at h
  induction k generalizing s ts s' with
  | zero =>
    simp only [pairCalls, RandR.pure_eq, RandR.outcome_done, Except.ok.injEq, Prod.mk.injEq] at h
    simp [h.1]
  | succ k ih =>
    simp only [pairCalls, RandR.bind_eq, RandR.outcome_bind, RandR.pure_eq, RandR.outcome_done] at h
    rcases h with ⟨r, -, ⟨rs, hrs, h⟩ | ⟨e, -, h⟩⟩ | ⟨e, -, h⟩
    · simp only [Except.ok.injEq, Prod.mk.injEq] at h
      have := ih r.2 rs.1 rs.2 hrs
      rw [h.1, List.length_cons]
      push_cast
      omega
    · cases h
    · cases h

/-! ### The Boley sampler -/

/-- What `sample_once` returns, as a result of the model. -/
def BoleyResult.ofReturn : Option (Finset ℕ) → BoleyResult
  | none => .gaveUp
  | some F => .pattern F

/-- **C117** `sample_a_pair` of the Boley sampler after any history of fits and samples on the matrix: a row
`i` with label 1 and a row `j` with label 0 are returned with probability proportional to the number of
patterns that separate them, times the probability of not giving up. -/
theorem C117_boley_pair (order : Finset ℕ → List ℕ) (X : Cmp) (hX : X.Binary)
    (s s' : BoleySampler) (hs : BoleyReach order X s) (y : List ℤ) (hf : boleyFit s X y = .ok s')
    (i j : ℕ) (hi : i ∈ labelled y 1) (hj : j ∈ labelled y 0) :
    ∃ success : ℝ, success = 1 - (1 - (∑ F ∈ itemsets X, (patternSeparations X y F : ℝ)) /
        ((∑ i ∈ labelled y 1, ((2 : ℝ) ^ rowSize X i - 1)) * (labelled y 0).card)) ^ 1024 ∧
      (boleySamplePair s').prob (.ok (some (i, j), s')) =
        success * ((((itemsets X).filter fun F => (i, j) ∈ separatedPairs X y F).card : ℝ) /
          ∑ F ∈ itemsets X, (patternSeparations X y F : ℝ)) ∧
      (boleySamplePair s').prob (.ok (none, s')) = 1 - success := by
  classical
  obtain ⟨c, hc, hp, hn, -, -, -, hW, hdom⟩ := C57_boley order X hX s s' hs y hf
  have hrows := boley_rows_reach hs
  obtain ⟨hy, hyl, hs'⟩ := boleyFit_inv (by rw [hrows, rowsV2_length]) hf
  rw [hrows] at hs'
  have hc' : c = boleyCftp (convertMatrixToSetsV2 X) X.nMajor y := by
    rw [hs'] at hc
    exact (Option.some.inj hc).symm
  have hlists : s'.lists = reset := by rw [hs']
  obtain ⟨ht, hb⟩ := boley_totals hX.toWF hy hyl
  rw [← hc'] at ht hb
  have hh : c.horizon = 1024 := by rw [hc']; exact horizon_1024 _ _ _
  have heq : ∀ t, (boleySamplePair s').prob (.ok (t, s')) = (c.sample reset).prob (.ok (t, reset)) := by
    intro t
    unfold boleySamplePair RandR.prob
    rw [hc]
    simp only [hlists, RandR.bind_eq, RandR.expect_bind, RandR.pure_eq]
    rw [expect_sample' hdom, expect_sample' hdom]
    have hst : { s' with cftp := some c, lists := reset } = s' := by rw [hs', hc']
    simp only [RandR.after, RandR.expect, hst, Except.ok.injEq, Prod.mk.injEq, and_true]
  refine ⟨_, rfl, ?_, ?_⟩
  · rw [heq, C55_pairs c hdom i j (List.mem_toFinset.mp (hp ▸ hi)) (List.mem_toFinset.mp (hn ▸ hj)), hh, ht, hb,
      hW i hi j hj]
  · rw [heq, (C55_giving_up c hdom).1, hh, ht, hb, sub_sub_cancel]

/-- **C117** `sample(k)` of the Boley sampler after any history of fits and samples on the matrix: the
patterns are independent draws of `sample_once`. -/
theorem C117_boley_batch (order : Finset ℕ → List ℕ) (ho : Traverses order) (X : Cmp) (hX : X.Binary)
    (s s' : BoleySampler) (hs : BoleyReach order X s) (y : List ℤ) (hf : boleyFit s X y = .ok s')
    (rounds : ℕ) (ts : List (Option (Finset ℕ))) :
    (boleySample order rounds ts.length s').prob (.ok (some ts, s')) =
      (ts.map fun t => (boleySampleOnce order rounds s').prob (.ok (BoleyResult.ofReturn t, s'))).prod := by
  classical
  have hrows := boley_rows_reach hs
  obtain ⟨hy, hyl, hs'⟩ := boleyFit_inv (by rw [hrows, rowsV2_length]) hf
  rw [hrows] at hs'
  have congr : ∀ F G : Py (BoleyResult × BoleySampler) → ℝ, (∀ t, F (.ok (t, s')) = G (.ok (t, s'))) →
      (boleySampleOnce order rounds s').expect F = (boleySampleOnce order rounds s').expect G := by
    intro F G h
    rw [expect_boleySample ho hX.toWF hy hyl hs' rounds F, expect_boleySample ho hX.toWF hy hyl hs' rounds G]
    simp only [h]
  unfold boleySample
  rw [Int.toNat_natCast]
  induction ts with
  | nil => exact prob_pure_self _
  | cons t ts ih =>
    rw [List.map_cons, List.prod_cons, ← ih, List.length_cons, boleyPatterns, RandR.bind_eq]
    have hit : ∀ a : Option (Finset ℕ), Function.Injective (Option.map (a :: ·)) := fun a =>
      Option.map_injective List.cons_injective
    have hne : ∀ a, a ≠ t → ∀ b : Option (List (Option (Finset ℕ))), Option.map (a :: ·) b ≠ some (t :: ts) := by
      intro a ha b h
      cases b with
      | none => cases h
      | some b => exact ha (List.cons.inj (Option.some.inj h)).1
    refine prob_cons congr ?_ ?_
    · cases t with
      | none => exact prob_glue _ (Option.map (none :: ·)) (hit none) (some ts) s'
      | some F => exact prob_glue _ (Option.map (some F :: ·)) (hit (some F)) (some ts) s'
    · intro t' ht
      cases t' with
      | running => exact prob_pure_ne (by simp)
      | gaveUp =>
        refine prob_glue_ne _ (Option.map (none :: ·)) _ (hne none ?_) s'
        rintro rfl
        exact ht rfl
      | pattern G =>
        refine prob_glue_ne _ (Option.map (some G :: ·)) _ (hne (some G) ?_) s'
        rintro rfl
        exact ht rfl

/-- The limit law of one result: `None` with probability `1 - success`, a pattern with probability
proportional to the number of pairs of rows it separates. -/
noncomputable def boleyLaw (X : Cmp) (y : List ℤ) (success : ℝ) : Option (Finset ℕ) → ℝ
  | none => 1 - success
  | some F => success * ((patternSeparations X y F : ℝ) / ∑ F ∈ itemsets X, (patternSeparations X y F : ℝ))

/-- **C117** The law of `sample(k)` of the Boley sampler, as the number of rounds granted to the retry loops
grows: the probability of a list of results tends to the product of the limit laws of its entries. -/
theorem C117_boley_limit (order : Finset ℕ → List ℕ) (ho : Traverses order) (X : Cmp) (hX : X.Binary)
    (s s' : BoleySampler) (hs : BoleyReach order X s) (y : List ℤ) (hf : boleyFit s X y = .ok s')
    (ts : List (Option (Finset ℕ))) (hts : ∀ F, some F ∈ ts → F ∈ itemsets X) :
    ∃ success : ℝ, success = 1 - (1 - (∑ F ∈ itemsets X, (patternSeparations X y F : ℝ)) /
        ((∑ i ∈ labelled y 1, ((2 : ℝ) ^ rowSize X i - 1)) * (labelled y 0).card)) ^ 1024 ∧
      Filter.Tendsto (fun rounds => (boleySample order rounds ts.length s').prob (.ok (some ts, s')))
        Filter.atTop (nhds (ts.map (boleyLaw X y success)).prod) := by
  obtain ⟨success, hsu, h1, h2, -⟩ := C59_patterns order ho X hX s s' hs y hf
  refine ⟨success, hsu, ?_⟩
  simp only [C117_boley_batch order ho X hX s s' hs y hf]
  refine tendsto_list_prod ts fun t ht => ?_
  cases t with
  | none => simpa [boleyLaw, BoleyResult.ofReturn, h2] using tendsto_const_nhds
  | some F => exact h1 F (hts F ht)

/-- **C117** Before the first successful `fit`, `sample_a_pair` and a non-empty batch raise `AttributeError`
and an empty batch is an empty list. -/
theorem C117_boley_unfitted (order : Finset ℕ → List ℕ) (rounds : ℕ) (k : ℤ) :
    boleySamplePair BoleySampler.init = .raise .attributeError ∧
    (0 < k → boleySample order rounds k BoleySampler.init = .raise .attributeError) ∧
    (k ≤ 0 → boleySample order rounds k BoleySampler.init = pure (some [], BoleySampler.init)) := by
  refine ⟨rfl, ?_, ?_⟩
  · intro hk
    obtain ⟨n, rfl⟩ : ∃ n : ℕ, k = n + 1 := ⟨(k - 1).toNat, by omega⟩
    rfl
  · intro hk
    unfold boleySample
    rw [Int.toNat_of_nonpos hk]
    rfl

/-! ### Examples -/

/-- In the example of C55 one third of the proposals is rejected: the pair `(0, 2)` is found in the first
step with probability 1/3, and with exactly two steps with probability 1/9. -/
example : (demo.sampleDetailed reset).prob (.ok (.withDetails (some (0, 2)) 1, reset)) = 1 / 3 ∧
    (demo.sampleDetailed reset).prob (.ok (.withDetails (some (0, 2)) 2, reset)) = 1 / 9 := by
  obtain ⟨h1, -, h2, h3⟩ := demo_weights
  have h := C117_iterations demo demo_dominated demo_ready.posSum.ne' demo_ready.negSum.ne'
  constructor
  · have := h 0 (by decide) 0 2 (by decide) (by decide)
    rw [h1, h2, h3] at this
    exact this.trans (by norm_num)
  · have := h 1 (by decide) 0 2 (by decide) (by decide)
    rw [h1, h2, h3] at this
    exact this.trans (by norm_num)

/-- A batch of two. -/
example : (demo.sampleKTimes 2 reset).prob (.ok ([some (0, 2), none], reset)) =
    (1 - (1 / 3) ^ 1024) * (1 / 2) * (1 / 3) ^ 1024 := by
  have h := C117_pairs_batch demo demo_dominated [some (0, 2), none]
  have hh : demo.horizon = 1024 := by
    have : Nat.log 2 1024 = 10 := by norm_num [Nat.log_eq_iff]
    simp [horizon, demo, this]
  obtain ⟨h1, -, h2, h3⟩ := demo_weights
  refine h.trans ?_
  simp only [List.map_cons, List.map_nil, List.prod_cons, List.prod_nil, mul_one]
  rw [C55_pairs demo demo_dominated 0 2 (by decide) (by decide), (C55_giving_up demo demo_dominated).1, h1, h2, h3, hh]
  norm_num

end Verif
