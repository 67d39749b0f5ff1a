/-
C136: what an interrupted call of the coupling-from-the-past sampler leaves behind.
-/
import Verif.Spec.InterruptCftp
import Verif.Lemmas.Cftp

namespace Verif
namespace Cftp

theorem checkLengths_ok {n : ℕ} {t t' : CftpState} (h : checkLengths n t = .ok t') :
    t' = t ∧ t.us.length = n ∧ t.ps.length = n ∧ t.ns.length = n := by
  unfold checkLengths at h
  split at h
  · cases h
  · rename_i hn
    cases h
    push Not at hn
    exact ⟨rfl, hn.2.2, hn.1, hn.2.1⟩

theorem checkLengths_error {n : ℕ} {t : CftpState} {e : PyErr} (h : checkLengths n t = .error e) :
    e = .valueError ∧ ¬ (t.us.length = n ∧ t.ps.length = n ∧ t.ns.length = n) := by
  unfold checkLengths at h
  split at h
  · rename_i hn
    cases h
    exact ⟨rfl, fun ⟨h1, h2, h3⟩ => by rcases hn with h | h | h <;> contradiction⟩
  · cases h

theorem randR_bind_assoc {α β γ : Type} (m : RandR α) (f : α → RandR β) (g : β → RandR γ) :
    (m.bind f).bind g = m.bind fun a => (f a).bind g := by
  induction m with
  | done r => cases r <;> rfl
  | choice p k ih => simp only [RandR.bind, ih]
  | unif k ih => simp only [RandR.bind, ih]

/-- The end of an iteration, after the draws. -/
noncomputable def afterDraws (c : Cftp) (i : ℕ) (t : CftpState) : RandR (Option (ℕ × ℕ) × CftpState) := do
  let s' ← .lift (checkLengths (2 ^ i) t)
  let D ← .lift (c.simulate s')
  match D with
  | some pr => pure (some pr, reset)
  | none => c.sampleLoop (i + 1) s'

theorem lift_bind_ok {α β : Type} {r : Py α} {a : α} (h : r = .ok a) (k : α → RandR β) :
    (RandR.lift r >>= k) = k a := by
  subst h; rfl

theorem lift_bind_error {α β : Type} {r : Py α} {e : PyErr} (h : r = .error e) (k : α → RandR β) :
    (RandR.lift r >>= k) = .done (.error e) := by
  subst h; rfl

theorem addData_sample_eq (c : Cftp) {i : ℕ} {t : CftpState} (hi : 2 ^ i ≤ c.maxIters)
    (hw : ¬ (c.posWeights.sum = 0 ∨ c.negWeights.sum = 0)) (hl : t.us.length ≤ 2 ^ i)
    (x : Py (Option (ℕ × ℕ) × CftpState)) :
    (c.sampleLoop i t).Outcome x ↔ (drawUniforms (2 ^ i - t.us.length) >>= fun us =>
      drawChoices c.posList c.posProba (2 ^ i - t.us.length) >>= fun ps =>
      drawChoices c.negList c.negProba (2 ^ i - t.us.length) >>= fun ns =>
      c.afterDraws i { us := us ++ t.us, ps := ps ++ t.ps, ns := ns ++ t.ns }).Outcome x := by
  have h0 : (2 : ℕ) ^ i ≠ 0 := by positivity
  rw [sampleLoop, if_neg (by omega), if_neg hw]
  unfold addData
  rw [if_neg h0, if_neg (by omega)]
  simp only [RandR.bind_eq, RandR.outcome_bind, afterDraws, Except.ok.injEq]
  constructor
  · rintro (⟨s', (⟨us, hu, ⟨ps, hp, ⟨ns, hn, h⟩ | ⟨e, he, h⟩⟩ | ⟨e, he, h⟩⟩ | ⟨e, he, h⟩), h2⟩ |
      ⟨e, (⟨us, hu, ⟨ps, hp, ⟨ns, hn, h⟩ | ⟨e', he, h⟩⟩ | ⟨e', he, h⟩⟩ | ⟨e', he, h⟩), h2⟩)
    · exact Or.inl ⟨us, hu, Or.inl ⟨ps, hp, Or.inl ⟨ns, hn, Or.inl ⟨s', h, h2⟩⟩⟩⟩
    · cases h
    · cases h
    · cases h
    · exact Or.inl ⟨us, hu, Or.inl ⟨ps, hp, Or.inl ⟨ns, hn, Or.inr ⟨e, h, h2⟩⟩⟩⟩
    · cases h
      exact Or.inl ⟨us, hu, Or.inl ⟨ps, hp, Or.inr ⟨e, he, h2⟩⟩⟩
    · cases h
      exact Or.inl ⟨us, hu, Or.inr ⟨e, he, h2⟩⟩
    · cases h
      exact Or.inr ⟨e, he, h2⟩
  · rintro (⟨us, hu, ⟨ps, hp, ⟨ns, hn, ⟨s', h, h2⟩ | ⟨e, he, h⟩⟩ | ⟨e, he, h⟩⟩ | ⟨e, he, h⟩⟩ | ⟨e, he, h⟩)
    · exact Or.inl ⟨s', Or.inl ⟨us, hu, Or.inl ⟨ps, hp, Or.inl ⟨ns, hn, h⟩⟩⟩, h2⟩
    · exact Or.inr ⟨e, Or.inl ⟨us, hu, Or.inl ⟨ps, hp, Or.inl ⟨ns, hn, he⟩⟩⟩, h⟩
    · exact Or.inr ⟨e, Or.inl ⟨us, hu, Or.inl ⟨ps, hp, Or.inr ⟨e, he, rfl⟩⟩⟩, h⟩
    · exact Or.inr ⟨e, Or.inl ⟨us, hu, Or.inr ⟨e, he, rfl⟩⟩, h⟩
    · exact Or.inr ⟨e, Or.inr ⟨e, he, rfl⟩, h⟩

/-- Every execution of the rest of the call passes through points. -/
theorem point_of_outcome (c : Cftp) (s : CftpState) : ∀ (m i : ℕ) (t : CftpState), c.maxIters - i ≤ m →
    SamplePoint c s (.head i) t → ∀ x, (c.sampleLoop i t).Outcome x →
    (∀ D t', x = .ok (D, t') → SamplePoint c s .returned t') ∧
    (∀ e, x = .error e → ∃ pc t', SamplePoint c s pc t' ∧ SampleRaises c pc t' e) := by
  intro m
  induction m with
  | zero =>
    intro i t hm hp x hx
    have hlt : i < 2 ^ i := Nat.lt_two_pow_self
    rw [sampleLoop, if_pos (by omega)] at hx
    cases hx
    refine ⟨fun D t' h => ?_, fun e h => by cases h⟩
    cases h
    exact ((hp.giveUp (by omega)).clearUs.clearPs.clearNs)
  | succ m ih =>
    intro i t hm hp x hx
    have hlt : i < 2 ^ i := Nat.lt_two_pow_self
    by_cases hi : 2 ^ i > c.maxIters
    · rw [sampleLoop, if_pos hi] at hx
      cases hx
      refine ⟨fun D t' h => ?_, fun e h => by cases h⟩
      cases h
      exact ((hp.giveUp hi).clearUs.clearPs.clearNs)
    · by_cases hw : c.posWeights.sum = 0 ∨ c.negWeights.sum = 0
      · rw [sampleLoop, if_neg hi, if_pos hw] at hx
        cases hx
        refine ⟨fun D t' h => ?_, fun e h => by cases h⟩
        cases h
        exact hp.noWeight (by omega) hw
      · by_cases hl : t.us.length ≤ 2 ^ i
        · rw [addData_sample_eq c (by omega) hw hl] at hx
          rw [RandR.bind_eq, RandR.outcome_bind] at hx
          rcases hx with ⟨us, hu, hx⟩ | ⟨e, he, -⟩
          swap
          · obtain ⟨us, h, -⟩ := drawUniforms_outcome he
            cases h
          have h1 := hp.uniforms (by omega) hw hl hu
          rw [RandR.bind_eq, RandR.outcome_bind] at hx
          rcases hx with ⟨ps, hps, hx⟩ | ⟨e, he, hx⟩
          swap
          · cases hx
            exact ⟨fun D t' h => by (cases h), fun e' h => by cases h; exact ⟨_, _, h1, .choosePos he⟩⟩
          rw [RandR.bind_eq, RandR.outcome_bind] at hx
          rcases hx with ⟨ns, hns, hx⟩ | ⟨e, he, hx⟩
          swap
          · cases hx
            exact ⟨fun D t' h => by (cases h), fun e' h => by cases h; exact ⟨_, _, h1, .chooseNeg hps he⟩⟩
          have h2 := (h1.positives hps hns).negatives
          simp only at h2
          unfold afterDraws at hx
          rcases hc : checkLengths (2 ^ i) { us := us ++ t.us, ps := ps ++ t.ps, ns := ns ++ t.ns } with e | t'
          · rw [lift_bind_error hc] at hx
            cases hx
            exact ⟨fun D t' h => by (cases h), fun e' h => by cases h; exact ⟨_, _, h2, .lengths hc⟩⟩
          · obtain ⟨rfl, -⟩ := checkLengths_ok hc
            rw [lift_bind_ok hc] at hx
            rcases hsim : c.simulate { us := us ++ t.us, ps := ps ++ t.ps, ns := ns ++ t.ns } with e | D
            · rw [lift_bind_error hsim] at hx
              cases hx
              exact ⟨fun D t' h => by (cases h), fun e' h => by cases h; exact ⟨_, _, h2, .simulation hc hsim⟩⟩
            · rw [lift_bind_ok hsim] at hx
              cases D with
              | some pr =>
                cases hx
                refine ⟨fun D t' h => ?_, fun e h => by cases h⟩
                cases h
                exact ((h2.found hc hsim).clearUs.clearPs.clearNs)
              | none => exact ih (i + 1) _ (by omega) (h2.again hc hsim) x hx
        · rw [sampleLoop, if_neg hi, if_neg hw] at hx
          have hraise : c.addData (2 ^ i) t = .raise .valueError := by
            unfold addData
            rw [if_neg (by positivity), if_pos (by omega)]
          rw [hraise] at hx
          cases hx
          exact ⟨fun D t' h => by (cases h),
            fun e' h => by cases h; exact ⟨_, _, hp, .negative (by omega) hw (by omega)⟩⟩

/-- What can still happen at a point can happen in the call. -/
theorem outcome_of_point (c : Cftp) (s : CftpState) {pc : SamplePc} {t : CftpState}
    (h : SamplePoint c s pc t) :
    match (generalizing := false) pc with
    | .head i => ∀ x, (c.sampleLoop i t).Outcome x → (c.sample s).Outcome x
    | .uniforms i n => ∀ x, (drawChoices c.posList c.posProba n >>= fun ps =>
        drawChoices c.negList c.negProba n >>= fun ns =>
        c.afterDraws i { t with ps := ps ++ t.ps, ns := ns ++ t.ns }).Outcome x → (c.sample s).Outcome x
    | .positives i ns => ∀ x, (c.afterDraws i { t with ns := ns ++ t.ns }).Outcome x → (c.sample s).Outcome x
    | .drawn i => ∀ x, (c.afterDraws i t).Outcome x → (c.sample s).Outcome x
    | .clear => ∃ D, (c.sample s).Outcome (.ok (D, reset))
    | .clearPos => t.us = [] ∧ ∃ D, (c.sample s).Outcome (.ok (D, reset))
    | .clearNeg => t.us = [] ∧ t.ps = [] ∧ ∃ D, (c.sample s).Outcome (.ok (D, reset))
    | .returned => ∃ D, (c.sample s).Outcome (.ok (D, t)) := by
  induction h with
  | start => exact fun x hx => hx
  | giveUp h hi ih =>
    exact ⟨none, ih _ (by rw [sampleLoop, if_pos hi]; rfl)⟩
  | noWeight h hi hw ih =>
    exact ⟨none, ih _ (by rw [sampleLoop, if_neg (by omega), if_pos hw]; rfl)⟩
  | uniforms h hi hw hl hu ih =>
    intro x hx
    apply ih
    rw [addData_sample_eq c hi hw hl, RandR.bind_eq, RandR.outcome_bind]
    exact Or.inl ⟨_, hu, hx⟩
  | positives h hp hn ih =>
    intro x hx
    apply ih
    rw [RandR.bind_eq, RandR.outcome_bind]
    refine Or.inl ⟨_, hp, ?_⟩
    rw [RandR.bind_eq, RandR.outcome_bind]
    exact Or.inl ⟨_, hn, hx⟩
  | negatives h ih => exact ih
  | again h hl hs ih =>
    intro x hx
    apply ih
    unfold afterDraws
    rw [lift_bind_ok hl, lift_bind_ok hs]
    exact hx
  | @found i t pr h hl hs ih =>
    refine ⟨some pr, ih (.ok (some pr, reset)) ?_⟩
    unfold afterDraws
    rw [lift_bind_ok hl, lift_bind_ok hs]
    rfl
  | clearUs h ih => exact ⟨rfl, ih⟩
  | clearPs h ih => exact ⟨ih.1, rfl, ih.2⟩
  | @clearNs t h ih =>
    obtain ⟨h1, h2, D, hD⟩ := ih
    refine ⟨D, ?_⟩
    have : ({ t with ns := [] } : CftpState) = reset := by
      cases t
      simp only at h1 h2
      subst h1 h2
      rfl
    rw [this]
    exact hD

/-! ### C136 -/

/-- **C136.** The points are those of the call: it can return leaving the lists `t` exactly if `t` is met at the
end, and it can raise `e` exactly if a statement at one of the points can. -/
theorem C136_points_of_the_call (c : Cftp) (s : CftpState) :
    (∀ t, SamplePoint c s .returned t ↔ ∃ D, (c.sample s).Outcome (.ok (D, t))) ∧
    ∀ e, (∃ pc t, SamplePoint c s pc t ∧ SampleRaises c pc t e) ↔ (c.sample s).Outcome (.error e) := by
  refine ⟨fun t => ⟨fun h => outcome_of_point c s h, fun ⟨D, h⟩ =>
    (point_of_outcome c s c.maxIters 0 s (by omega) .start _ h).1 D t rfl⟩, fun e => ⟨?_, fun h =>
    (point_of_outcome c s c.maxIters 0 s (by omega) .start _ h).2 e rfl⟩⟩
  rintro ⟨pc, t, hp, hr⟩
  have ho := outcome_of_point c s hp
  cases hr with
  | negative hi hw hl =>
    apply ho
    rw [sampleLoop, if_neg (by omega), if_neg hw]
    unfold addData
    rw [if_neg (by positivity), if_pos hl]
    rfl
  | choosePos hp' =>
    apply ho
    rw [RandR.bind_eq, RandR.outcome_bind]
    exact Or.inr ⟨e, hp', rfl⟩
  | chooseNeg hp' hn =>
    apply ho
    rw [RandR.bind_eq, RandR.outcome_bind]
    refine Or.inl ⟨_, hp', ?_⟩
    rw [RandR.bind_eq, RandR.outcome_bind]
    exact Or.inr ⟨e, hn, rfl⟩
  | lengths hl =>
    apply ho
    unfold afterDraws
    rw [lift_bind_error hl]
    rfl
  | simulation hl hs =>
    apply ho
    unfold afterDraws
    rw [lift_bind_ok hl, lift_bind_error hs]
    rfl

theorem drawChoices_length {items : List ℕ} {p : List ℝ} : ∀ {n : ℕ} {xs : List ℕ},
    (drawChoices items p n).Outcome (.ok xs) → xs.length = n
  | 0, xs, h => by cases h; rfl
  | n + 1, xs, h => by
    rw [drawChoices, RandR.bind_eq, RandR.outcome_bind] at h
    rcases h with ⟨i, -, h⟩ | ⟨e, -, h⟩
    · rw [RandR.bind_eq, RandR.outcome_bind] at h
      rcases h with ⟨ys, hy, h⟩ | ⟨e, -, h⟩
      · cases h
        simp [drawChoices_length hy]
      · cases h
    · cases h

theorem drawChoices_error {items : List ℕ} {p : List ℝ} {e : PyErr} : ∀ {n : ℕ},
    (drawChoices items p n).Outcome (.error e) → e = .valueError
  | 0, h => by cases h
  | n + 1, h => by
    rw [drawChoices, RandR.bind_eq, RandR.outcome_bind] at h
    rcases h with ⟨i, -, h⟩ | ⟨e', he, h⟩
    · rw [RandR.bind_eq, RandR.outcome_bind] at h
      rcases h with ⟨ys, hy, h⟩ | ⟨e', he, h⟩
      · cases h
      · cases h
        exact drawChoices_error he
    · cases h
      unfold npChoiceR at he
      split at he
      · obtain ⟨j, -, -, hj⟩ := he
        cases hj
      · cases he
        rfl

/-- The points a call passes through when the lists are not usable at its start. -/
theorem unusable_points (c : Cftp) {t : CftpState} (hbad : ¬ Usable t) (h1 : 1 ≤ c.maxIters)
    (hw : ¬ (c.posWeights.sum = 0 ∨ c.negWeights.sum = 0)) {pc : SamplePc} {t' : CftpState}
    (h : SamplePoint c t pc t') :
    (pc = .head 0 ∧ t' = t) ∨
    (∃ us : List ℝ, t.us.length ≤ 1 ∧ us.length = 1 - t.us.length ∧ pc = .uniforms 0 (1 - t.us.length) ∧
      t' = { t with us := us ++ t.us }) ∨
    (∃ (us : List ℝ) (ps ns : List ℕ), t.us.length ≤ 1 ∧ us.length = 1 - t.us.length ∧
      ps.length = 1 - t.us.length ∧ ns.length = 1 - t.us.length ∧
      ((pc = .positives 0 ns ∧ t' = { t with us := us ++ t.us, ps := ps ++ t.ps }) ∨
        (pc = .drawn 0 ∧ t' = { us := us ++ t.us, ps := ps ++ t.ps, ns := ns ++ t.ns }))) := by
  have hlen : ∀ (us : List ℝ) (ps ns : List ℕ), t.us.length ≤ 1 → us.length = 1 - t.us.length →
      ps.length = 1 - t.us.length → ns.length = 1 - t.us.length →
      ∀ i, 2 ^ i = 1 → checkLengths (2 ^ i) { us := us ++ t.us, ps := ps ++ t.ps, ns := ns ++ t.ns } ≠
        .ok { us := us ++ t.us, ps := ps ++ t.ps, ns := ns ++ t.ns } := by
    intro us ps ns h0 hu hp hn i hi hc
    obtain ⟨-, g1, g2, g3⟩ := checkLengths_ok hc
    rw [hi] at g1 g2 g3
    simp only [List.length_append] at g1 g2 g3
    exact hbad ⟨h0, by omega, by omega⟩
  induction h with
  | start => exact Or.inl ⟨rfl, rfl⟩
  | giveUp h hi ih =>
    rcases ih with ⟨hh, -⟩ | ⟨us, -, -, hh, -⟩ | ⟨us, ps, ns, -, -, -, -, ⟨hh, -⟩ | ⟨hh, -⟩⟩ <;> cases hh
    simp at hi
    omega
  | noWeight h hi hw' ih => exact absurd hw' hw
  | @uniforms i t1 us h hi hw' hl hu ih =>
    rcases ih with ⟨hh, rfl⟩ | ⟨us, -, -, hh, -⟩ | ⟨us, ps, ns, -, -, -, -, ⟨hh, -⟩ | ⟨hh, -⟩⟩ <;> cases hh
    obtain ⟨us', e, hlen', -⟩ := drawUniforms_outcome hu
    cases e
    exact Or.inr (Or.inl ⟨us, by simpa using hl, by simpa using hlen', by simp, rfl⟩)
  | positives h hp hn ih =>
    rcases ih with ⟨hh, -⟩ | ⟨us, h0, hu, hh, rfl⟩ | ⟨us, ps, ns, -, -, -, -, ⟨hh, -⟩ | ⟨hh, -⟩⟩ <;> cases hh
    exact Or.inr (Or.inr ⟨us, _, _, h0, hu, drawChoices_length hp, drawChoices_length hn, Or.inl ⟨rfl, rfl⟩⟩)
  | negatives h ih =>
    rcases ih with ⟨hh, -⟩ | ⟨us, -, -, hh, -⟩ | ⟨us, ps, ns, h0, hu, hp, hn, ⟨hh, rfl⟩ | ⟨hh, -⟩⟩ <;> cases hh
    exact Or.inr (Or.inr ⟨us, ps, _, h0, hu, hp, hn, Or.inr ⟨rfl, rfl⟩⟩)
  | again h hl hs ih =>
    rcases ih with ⟨hh, -⟩ | ⟨us, -, -, hh, -⟩ | ⟨us, ps, ns, h0, hu, hp, hn, ⟨hh, -⟩ | ⟨hh, rfl⟩⟩ <;> cases hh
    exact absurd hl (hlen us ps ns h0 hu hp hn 0 rfl)
  | found h hl hs ih =>
    rcases ih with ⟨hh, -⟩ | ⟨us, -, -, hh, -⟩ | ⟨us, ps, ns, h0, hu, hp, hn, ⟨hh, -⟩ | ⟨hh, rfl⟩⟩ <;> cases hh
    exact absurd hl (hlen us ps ns h0 hu hp hn 0 rfl)
  | clearUs h ih =>
    rcases ih with ⟨hh, -⟩ | ⟨us, -, -, hh, -⟩ | ⟨us, ps, ns, -, -, -, -, ⟨hh, -⟩ | ⟨hh, -⟩⟩ <;> cases hh
  | clearPs h ih =>
    rcases ih with ⟨hh, -⟩ | ⟨us, -, -, hh, -⟩ | ⟨us, ps, ns, -, -, -, -, ⟨hh, -⟩ | ⟨hh, -⟩⟩ <;> cases hh
  | clearNs h ih =>
    rcases ih with ⟨hh, -⟩ | ⟨us, -, -, hh, -⟩ | ⟨us, ps, ns, -, -, -, -, ⟨hh, -⟩ | ⟨hh, -⟩⟩ <;> cases hh

/-- **C136.** If the lists hold neither nothing nor exactly one complete draw, `sample` raises `ValueError`
whatever is drawn, and so does every call after it, however many: raising does not repair the object. (Unless
there is no weight on one side: then `sample` returns `None` without looking at the lists.) -/
theorem C136_broken (c : Cftp) (hd : c.Dominated) (t : CftpState) (hbad : ¬ Usable t) (h1 : 1 ≤ c.maxIters)
    (hw : ¬ (c.posWeights.sum = 0 ∨ c.negWeights.sum = 0)) :
    ∀ t', RaisedCalls c t t' → ¬ Usable t' ∧ ∀ x, (c.sample t').Outcome x → x = .error .valueError := by
  have hraise : ∀ t, ¬ Usable t → ∀ x, (c.sample t).Outcome x → x = .error .valueError := by
    intro t hbad x hx
    obtain ⟨hok, herr⟩ := point_of_outcome c t c.maxIters 0 t (by omega) .start x hx
    cases x with
    | ok r =>
      rcases unusable_points c hbad h1 hw (hok r.1 r.2 rfl) with
        ⟨hh, -⟩ | ⟨us, -, -, hh, -⟩ | ⟨us, ps, ns, -, -, -, -, ⟨hh, -⟩ | ⟨hh, -⟩⟩ <;> cases hh
    | error e =>
      obtain ⟨pc, t', hp, hr⟩ := herr e rfl
      congr 1
      cases hr with
      | negative => rfl
      | choosePos hp' => exact drawChoices_error hp'
      | chooseNeg _ hn => exact drawChoices_error hn
      | lengths hl => exact (checkLengths_error hl).1
      | simulation hl hs =>
        exfalso
        rcases unusable_points c hbad h1 hw hp with
          ⟨hh, -⟩ | ⟨us, -, -, hh, -⟩ | ⟨us, ps, ns, h0, hu, hp, hn, ⟨hh, -⟩ | ⟨hh, rfl⟩⟩ <;> cases hh
        obtain ⟨-, g1, g2, g3⟩ := checkLengths_ok hl
        simp only [List.length_append, pow_zero] at g1 g2 g3
        exact hbad ⟨h0, by omega, by omega⟩
  have hstay : ∀ t, ¬ Usable t → ∀ pc t' e, SamplePoint c t pc t' → SampleRaises c pc t' e → ¬ Usable t' := by
    intro t hbad pc t' e hp hr
    have hready := Ready.of_ne hd hw
    have hP := proba_ok hready.wPos_nonneg hready.posSum
    have hN := proba_ok hready.wNeg_nonneg hready.negSum
    cases hr with
    | negative hi hw hl =>
      rcases unusable_points c hbad h1 hw hp with
        ⟨hh, rfl⟩ | ⟨us, -, -, hh, -⟩ | ⟨us, ps, ns, h0, hu, hp, hn, ⟨hh, -⟩ | ⟨hh, rfl⟩⟩ <;> cases hh
      exact hbad
    | choosePos hp' =>
      obtain ⟨xs, hx, -⟩ := drawChoices_outcome hP.1 hP.2.1 hP.2.2 hp'
      cases hx
    | chooseNeg _ hn =>
      obtain ⟨xs, hx, -⟩ := drawChoices_outcome hN.1 hN.2.1 hN.2.2 hn
      cases hx
    | lengths hl =>
      rcases unusable_points c hbad h1 hw hp with
        ⟨hh, rfl⟩ | ⟨us, -, -, hh, -⟩ | ⟨us, ps, ns, h0, hu, hp, hn, ⟨hh, -⟩ | ⟨hh, rfl⟩⟩ <;> cases hh
      have := (checkLengths_error hl).2
      rintro ⟨g1, g2, g3⟩
      simp only [List.length_append, pow_zero] at g1 g2 g3 this
      exact this ⟨by omega, by omega, by omega⟩
    | simulation hl hs =>
      rcases unusable_points c hbad h1 hw hp with
        ⟨hh, rfl⟩ | ⟨us, -, -, hh, -⟩ | ⟨us, ps, ns, h0, hu, hp, hn, ⟨hh, -⟩ | ⟨hh, rfl⟩⟩ <;> cases hh
      obtain ⟨-, g1, g2, g3⟩ := checkLengths_ok hl
      simp only [List.length_append, pow_zero] at g1 g2 g3
      exact fun _ => hbad ⟨h0, by omega, by omega⟩
  intro t' h
  induction h with
  | none => exact ⟨hbad, hraise t hbad⟩
  | call h hp hr ih =>
    have := hstay _ ih.1 _ _ _ hp hr
    exact ⟨this, hraise _ this⟩

/-- **C136.** The lengths of the lists at the points of a call that began with empty lists. With `L` draws made in
earlier iterations (`0`, `1`, `2`, `4`, ... when the loop is at its first, second, third, fourth, ... iteration), an
interruption at the head of the loop leaves `L` draws; one during the drawing leaves lists of different lengths; one
after it `2 ^ i` draws. -/
theorem C136_lengths (c : Cftp) (pc : SamplePc) (t : CftpState) (h : SamplePoint c reset pc t) :
    match (generalizing := false) pc with
    | .head i => t.us.length = (if i = 0 then 0 else 2 ^ (i - 1)) ∧ t.ps.length = t.us.length ∧
        t.ns.length = t.us.length
    | .uniforms i n => t.us.length = 2 ^ i ∧ n = 2 ^ i - (if i = 0 then 0 else 2 ^ (i - 1)) ∧
        t.ps.length = (if i = 0 then 0 else 2 ^ (i - 1)) ∧ t.ns.length = t.ps.length
    | .positives i ns => t.us.length = 2 ^ i ∧ t.ps.length = 2 ^ i ∧
        t.ns.length = (if i = 0 then 0 else 2 ^ (i - 1)) ∧ ns.length = 2 ^ i - t.ns.length
    | .drawn i => t.us.length = 2 ^ i ∧ t.ps.length = 2 ^ i ∧ t.ns.length = 2 ^ i
    | .clear => t.ps.length = t.us.length ∧ t.ns.length = t.us.length
    | .clearPos => t.us = [] ∧ t.ns.length = t.ps.length
    | .clearNeg => t.us = [] ∧ t.ps = []
    | .returned => t.ps.length = t.us.length ∧ t.ns.length = t.us.length ∧
        (¬ (c.posWeights.sum = 0 ∨ c.negWeights.sum = 0) → t = reset) := by
  have hle : ∀ i : ℕ, (if i = 0 then 0 else 2 ^ (i - 1)) ≤ 2 ^ i := by
    intro i
    split
    · exact Nat.zero_le _
    · exact Nat.pow_le_pow_right (by norm_num) (by omega)
  induction h with
  | start => simp [reset]
  | giveUp h hi ih => exact ih.2
  | noWeight h hi hw ih => exact ⟨ih.2.1, ih.2.2, fun hc => absurd hw hc⟩
  | @uniforms i t us h hi hw hl hu ih =>
    obtain ⟨us', e, hlen, -⟩ := drawUniforms_outcome hu
    cases e
    obtain ⟨h1, h2, h3⟩ := ih
    have := hle i
    refine ⟨?_, by rw [h1], by rw [← h1]; exact h2, by simp only; omega⟩
    simp only [List.length_append]
    omega
  | @positives i n t ps ns h hp hn ih =>
    obtain ⟨h1, h2, h3, h4⟩ := ih
    have := hle i
    have l1 := drawChoices_length hp
    have l2 := drawChoices_length hn
    refine ⟨h1, ?_, by simp only; omega, by simp only; omega⟩
    simp only [List.length_append]
    omega
  | negatives h ih =>
    obtain ⟨h1, h2, h3, h4⟩ := ih
    rename_i i t ns
    have := hle i
    refine ⟨h1, h2, ?_⟩
    simp only [List.length_append]
    omega
  | @again i t h hl hs ih =>
    obtain ⟨h1, h2, h3⟩ := ih
    simp [h1, h2, h3]
  | found h hl hs ih => exact ⟨ih.2.1.trans ih.1.symm, ih.2.2.trans ih.1.symm⟩
  | clearUs h ih => exact ⟨rfl, ih.2.trans ih.1.symm⟩
  | clearPs h ih => exact ⟨ih.1, rfl⟩
  | @clearNs t h ih =>
    obtain ⟨h1, h2⟩ := ih
    have : ({ t with ns := [] } : CftpState) = reset := by
      cases t
      simp only at h1 h2
      subst h1 h2
      rfl
    rw [this]
    exact ⟨rfl, rfl, fun _ => rfl⟩

/-- While the lists are being emptied, those that are left are not empty. -/
theorem clear_nonempty (c : Cftp) (h1 : 1 ≤ c.maxIters) {pc : SamplePc} {t : CftpState} (h : SamplePoint c reset pc t) :
    match (generalizing := false) pc with
    | .clear => 1 ≤ t.us.length ∧ 1 ≤ t.ps.length ∧ 1 ≤ t.ns.length
    | .clearPos => 1 ≤ t.ps.length ∧ 1 ≤ t.ns.length
    | .clearNeg => 1 ≤ t.ns.length
    | _ => True := by
  induction h with
  | @giveUp i t h hi ih =>
    obtain ⟨e1, e2, e3⟩ := C136_lengths c _ _ h
    have hi0 : i ≠ 0 := by
      rintro rfl
      simp at hi
      omega
    rw [if_neg hi0] at e1
    have : 1 ≤ 2 ^ (i - 1) := Nat.one_le_two_pow
    simp only
    omega
  | @found i t pr h hl hs ih =>
    obtain ⟨e1, e2, e3⟩ := C136_lengths c _ _ h
    have : 1 ≤ 2 ^ i := Nat.one_le_two_pow
    simp only
    omega
  | clearUs h ih => exact ⟨ih.2.1, ih.2.2⟩
  | clearPs h ih => exact ih.2
  | _ => trivial

/-- **C136.** Exactly where an interruption does no harm. The lists hold nothing or one complete draw at the head of the
loop in its first two iterations, after the first complete draw, when the call returns, and just before they are emptied
if only one draw was made. So an interruption inside a group of assignments (the three that extend the lists, the three
that empty them), or anywhere from the third iteration on, leaves lists with which every later call raises
`ValueError`. -/
theorem C136_harmless_points (c : Cftp) (hw : ¬ (c.posWeights.sum = 0 ∨ c.negWeights.sum = 0)) (h1 : 1 ≤ c.maxIters)
    (pc : SamplePc) (t : CftpState) (h : SamplePoint c reset pc t) :
    Usable t ↔ pc = .head 0 ∨ pc = .head 1 ∨ pc = .drawn 0 ∨ pc = .returned ∨ (pc = .clear ∧ t.us.length = 1) := by
  have hl := C136_lengths c pc t h
  have hc := clear_nonempty c h1 h
  have hpow : ∀ i : ℕ, 2 ≤ i → 2 ≤ 2 ^ (i - 1) := fun i hi => by
    calc 2 = 2 ^ 1 := rfl
      _ ≤ 2 ^ (i - 1) := Nat.pow_le_pow_right (by norm_num) (by omega)
  have hlt : ∀ i : ℕ, (if i = 0 then 0 else 2 ^ (i - 1)) < 2 ^ i := by
    intro i
    split
    · positivity
    · exact Nat.pow_lt_pow_right (by norm_num) (by omega)
  unfold Usable
  cases pc with
  | head i =>
    simp only [SamplePc.head.injEq, reduceCtorEq, false_and, or_false] at hl ⊢
    rcases Nat.lt_or_ge i 2 with hi | hi
    · have e : (if i = 0 then 0 else 2 ^ (i - 1)) = i := by interval_cases i <;> rfl
      rw [e] at hl
      omega
    · have := hpow i hi
      rw [if_neg (by omega)] at hl
      omega
  | uniforms i n =>
    simp only [reduceCtorEq, false_and, or_false, iff_false] at hl ⊢
    have := hlt i
    omega
  | positives i ns =>
    simp only [reduceCtorEq, false_and, or_false, iff_false] at hl ⊢
    have := hlt i
    omega
  | drawn i =>
    simp only [SamplePc.drawn.injEq, reduceCtorEq, false_and, or_false, false_or] at hl ⊢
    rcases Nat.eq_zero_or_pos i with rfl | hi
    · simp at hl ⊢
      omega
    · have : 2 ^ 1 ≤ 2 ^ i := Nat.pow_le_pow_right (by norm_num) hi
      omega
  | clear =>
    simp only [reduceCtorEq, false_or, true_and] at hl hc ⊢
    omega
  | clearPos =>
    simp only [reduceCtorEq, false_and, or_false, iff_false] at hl hc ⊢
    rw [hl.1, List.length_nil]
    omega
  | clearNeg =>
    simp only [reduceCtorEq, false_and, or_false, iff_false] at hl hc ⊢
    rw [hl.1, List.length_nil]
    omega
  | returned =>
    simp only [reduceCtorEq, false_and, or_false, false_or, iff_true] at hl ⊢
    rw [hl.2.2 hw]
    simp [reset]

/-- **C136.** So an interruption from the third iteration on, before anything is cleared, breaks the object: from
then on every call of `sample` raises `ValueError`. -/
theorem C136_third_iteration (c : Cftp) (hd : c.Dominated) (hw : ¬ (c.posWeights.sum = 0 ∨ c.negWeights.sum = 0))
    (i : ℕ) (t : CftpState) (h : SamplePoint c reset (.head i) t) (hi : 2 ≤ i) (hmax : 1 ≤ c.maxIters)
    (t' : CftpState) (hc : RaisedCalls c t t') (x : Py (Option (ℕ × ℕ) × CftpState)) :
    (c.sample t').Outcome x → x = .error .valueError := by
  have hlen := C136_lengths c _ t h
  refine (C136_broken c hd t ?_ hmax hw t' hc).2 x
  rintro ⟨h1, -⟩
  rw [hlen.1, if_neg (by omega)] at h1
  have : 2 ^ 1 ≤ 2 ^ (i - 1) := Nat.pow_le_pow_right (by norm_num) (by omega)
  omega

/-- **C136.** An interruption anywhere else breaks the object. -/
theorem C136_harmful_points (c : Cftp) (hd : c.Dominated) (hw : ¬ (c.posWeights.sum = 0 ∨ c.negWeights.sum = 0))
    (h1 : 1 ≤ c.maxIters) (pc : SamplePc) (t : CftpState) (h : SamplePoint c reset pc t)
    (hpc : ¬ (pc = .head 0 ∨ pc = .head 1 ∨ pc = .drawn 0 ∨ pc = .returned ∨ (pc = .clear ∧ t.us.length = 1)))
    (t' : CftpState) (hc : RaisedCalls c t t') (x : Py (Option (ℕ × ℕ) × CftpState)) (hx : (c.sample t').Outcome x) :
    x = .error .valueError :=
  (C136_broken c hd t (fun hu => hpc ((C136_harmless_points c hw h1 pc t h).mp hu)) h1 hw t' hc).2 x hx

/-- **C136.** With one complete draw left over, the next call goes on with it: `sample` on empty lists is the same
program as one draw followed by `sample` with that draw on the lists. -/
theorem C136_one_draw (c : Cftp) (h1 : 1 ≤ c.maxIters) (hw : ¬ (c.posWeights.sum = 0 ∨ c.negWeights.sum = 0)) :
    c.sample reset = (do
      let us ← drawUniforms 1
      let ps ← drawChoices c.posList c.posProba 1
      let ns ← drawChoices c.negList c.negProba 1
      c.sample { us := us, ps := ps, ns := ns }) := by
  have hone : ∀ (u : ℝ) (p n : ℕ), c.sample { us := [u], ps := [p], ns := [n] } =
      (RandR.lift (c.simulate { us := [u], ps := [p], ns := [n] }) >>= fun D =>
        match D with
        | some pr => pure (some pr, reset)
        | none => c.sampleLoop 1 { us := [u], ps := [p], ns := [n] }) := by
    intro u p n
    unfold sample
    rw [sampleLoop, if_neg (by simp; omega), if_neg hw]
    rfl
  unfold sample at hone ⊢
  conv_lhs => rw [sampleLoop, if_neg (by simp; omega), if_neg hw]
  have key : c.addData (2 ^ 0) reset = (do
      let us ← drawUniforms 1
      let ps ← drawChoices c.posList c.posProba 1
      let ns ← drawChoices c.negList c.negProba 1
      .lift (checkLengths 1 { us := us ++ [], ps := ps ++ [], ns := ns ++ [] })) := rfl
  rw [key]
  simp only [drawUniforms, drawChoices, RandR.bind_eq, RandR.pure_eq, RandR.bind]
  congr 1
  funext u
  rw [randR_bind_assoc, randR_bind_assoc, randR_bind_assoc]
  congr 1
  funext i
  simp only [RandR.bind]
  rw [randR_bind_assoc, randR_bind_assoc, randR_bind_assoc]
  congr 1
  funext j
  simp only [RandR.bind]
  rw [hone]
  rfl

end Cftp
end Verif
