/-
C136 for the head sampler, with concrete cases.
-/
import Verif.Props.InterruptCftp
import Verif.Props.Cftp
import Verif.Props.Head
import Verif.Props.Boley

namespace Verif
namespace Cftp

theorem demo_sums : ¬ (demo.posWeights.sum = 0 ∨ demo.negWeights.sum = 0) := by
  simp only [posWeights, negWeights, demo, demoRecords, List.map_cons, List.map_nil, List.sum_cons, List.sum_nil]
  norm_num

/-- An interruption between the two assignments of the first iteration leaves one number and no record. -/
theorem demo_interrupted : SamplePoint demo reset (.uniforms 0 1) { us := [1 / 2], ps := [], ns := [] } := by
  have := SamplePoint.uniforms (c := demo) (s := reset) (i := 0) (us := [1 / 2]) .start (by simp [demo]) demo_sums
    (by simp [reset]) (by
      simp only [reset, List.length_nil, pow_zero, Nat.sub_zero]
      rw [drawUniforms.eq_def]
      simp only []
      rw [RandR.bind_eq, RandR.outcome_bind]
      left
      refine ⟨1 / 2, ⟨1 / 2, by norm_num, by norm_num, rfl⟩, ?_⟩
      rfl)
  simpa [reset] using this

/-- From then on `sample` raises, again and again. -/
example (t' : CftpState) (h : RaisedCalls demo { us := [1 / 2], ps := [], ns := [] } t') :
    ∀ x, (demo.sample t').Outcome x → x = .error .valueError :=
  (C136_broken demo demo_dominated _ (by simp [Usable]) (by simp [demo]) demo_sums t' h).2

/-- The same from the list of the harmful points. -/
example (t' : CftpState) (h : RaisedCalls demo { us := [1 / 2], ps := [], ns := [] } t') :
    ∀ x, (demo.sample t').Outcome x → x = .error .valueError :=
  C136_harmful_points demo demo_dominated demo_sums (by simp [demo]) _ _ demo_interrupted (by simp) t' h

end Cftp

/-- **C136.** A fitted head sampler whose lists hold neither nothing nor one complete draw raises `ValueError` on
every call of `sample_once`, if some sample of the space separates some pair. -/
theorem C136_head_broken (env : HeadEnv) (he : env.Good) (X : Cmp) (hX : X.Binary) (hd : X.nMinor < env.depth)
    (s s' : HeadSampler) (hs : HeadReach env X s) (y : List ℤ) (hf : headFit env s X y = .ok s')
    (hsep : ∃ space, s'.space = some space ∧ ∃ T ∈ space, 0 < separations X y T)
    (t : CftpState) (ht : ¬ Cftp.Usable t) (x : Py (Option (Finset ℤ) × HeadSampler))
    (hx : (headSampleOnce env { s' with lists := t }).Outcome x) : x = .error .valueError := by
  obtain ⟨space, hb, hy, hyl, hs'⟩ := inv_fit he hX hd (headInv_of_reach he hX hd hs) hf
  have hnd : space.Nodup := by
    obtain ⟨g, space', -, hb', hnd, -⟩ := buildSpaceAndRows_ok he s hX (columns_of_build hX hb) hd
    rw [hb'] at hb
    cases hb
    exact hnd
  subst hs'
  obtain ⟨sp, hsp, T, hT, hpos⟩ := hsep
  cases hsp
  set c := headCftp s.tight space.length (naiveNewRows X space) X.nMajor y with hc
  have hdom : c.Dominated := headCftp_dominated (naiveNewRows_ok X space) hyl
  have hZ : 0 < c.totalW := by
    have := (expect_headSampleOnce he hnd hy hyl (s := { s with
      space := some space, newRows := some (naiveNewRows X space), cftp := some c, lists := Cftp.reset })
      (tight := s.tight) rfl rfl rfl rfl (fun _ => 0)).1
    rw [this]
    have h1 : (0 : ℝ) < separations X y T := by exact_mod_cast hpos
    refine lt_of_lt_of_le h1 (Finset.single_le_sum (f := fun T => (separations X y T : ℝ))
      (fun _ _ => by positivity) (List.mem_toFinset.mpr hT))
  have hw : ¬ (c.posWeights.sum = 0 ∨ c.negWeights.sum = 0) := by
    have := Cftp.totalW_le hdom
    unfold Cftp.totalBar at this
    rintro (h | h) <;> rw [h] at this <;> simp at this <;> linarith
  rw [headSampleOnce_fitted (c := c) rfl rfl rfl, RandR.outcome_bind] at hx
  unfold headSampleIdx at hx
  have hc' := (Cftp.C136_broken c hdom t ht (by simp [hc, headCftp]) hw t .none).2
  have hidx : ∀ x, (headSampleIdx env.order c (naiveNewRows X space) t).Outcome x → x = .error .valueError := by
    intro x hx
    unfold headSampleIdx at hx
    rw [RandR.bind_eq, RandR.outcome_bind] at hx
    rcases hx with ⟨r, hr, -⟩ | ⟨e, he', rfl⟩
    · cases hc' _ hr
    · cases hc' _ he'
      rfl
  rcases hx with ⟨r, hr, -⟩ | ⟨e, he', rfl⟩
  · cases hidx _ hr
  · cases hidx _ he'
    rfl

/-- **C136.** Fitting repairs: the result of `fit` does not depend on the lists that an interrupted call left, and the
lists are empty afterwards. -/
theorem C136_fit_repairs (env : HeadEnv) (X : Cmp) (s : HeadSampler) (y : List ℤ) (t : CftpState)
    (s' : HeadSampler) (h : headFit env s X y = .ok s') :
    headFit env { s with lists := t } X y = .ok s' ∧ s'.lists = Cftp.reset := by
  have e : headFit env { s with lists := t } X y = headFit env s X y := rfl
  rw [e]
  refine ⟨h, ?_⟩
  unfold headFit at h
  simp only [bind, Except.bind, pure, Except.pure] at h
  repeat' split at h
  all_goals cases h
  rfl

/-- **C136.** The Boley sampler: the same, if some row with label 1 is not empty. -/
theorem C136_boley_broken (order : Finset ℕ → List ℕ) (X : Cmp) (hX : X.Binary) (s s' : BoleySampler)
    (hs : BoleyReach order X s) (y : List ℤ) (hf : boleyFit s X y = .ok s')
    (hrow : ∃ i, y[i]? = some 1 ∧ 0 < rowSize X i)
    (t : CftpState) (ht : ¬ Cftp.Usable t) (rounds : ℕ) (x : Py (BoleyResult × BoleySampler))
    (hx : (boleySampleOnce order rounds { s' with lists := t }).Outcome x) : x = .error .valueError := by
  obtain ⟨c, h1, h2, h3, h4, h5, h6, -, hdom⟩ := C57_boley order X hX s s' hs y hf
  obtain ⟨hy, hyl, hs'⟩ := boleyFit_inv (by rw [boley_rows_reach hs, rowsV2_length]) hf
  have hsum : ∀ (l : List ℕ) (w : ℕ → ℝ), (∀ i ∈ l, 0 ≤ w i) → (∃ i ∈ l, 0 < w i) → (l.map w).sum ≠ 0 := by
    intro l w h0 ⟨i, hi, hpos⟩
    have := List.single_le_sum (l := l.map w) (by simpa using h0) (w i) (List.mem_map_of_mem hi)
    linarith
  have hw : ¬ (c.posWeights.sum = 0 ∨ c.negWeights.sum = 0) := by
    rintro (h | h)
    · refine hsum _ _ hdom.wPos_nonneg ?_ h
      obtain ⟨i, hi, hsz⟩ := hrow
      have hmem : i ∈ labelled y 1 := by
        refine Finset.mem_filter.mpr ⟨Finset.mem_range.mpr ?_, hi⟩
        exact (List.getElem?_eq_some_iff.mp hi).1
      refine ⟨i, List.mem_toFinset.mp (h2 ▸ hmem), ?_⟩
      rw [h5 i hmem]
      have : (1 : ℝ) < 2 ^ rowSize X i := one_lt_pow₀ (by norm_num) (by omega)
      linarith
    · refine hsum _ _ hdom.wNeg_nonneg ?_ h
      have h0 : (0 : ℤ) ∈ y := by
        rw [← List.mem_toFinset, hy]
        simp
      obtain ⟨j, hj, e⟩ := List.getElem_of_mem h0
      have hmem : j ∈ labelled y 0 :=
        Finset.mem_filter.mpr ⟨Finset.mem_range.mpr hj, by rw [List.getElem?_eq_getElem hj, e]⟩
      refine ⟨j, List.mem_toFinset.mp (h3 ▸ hmem), ?_⟩
      rw [h6 j hmem]
      norm_num
  have hc' := (Cftp.C136_broken c hdom t ht (by omega) hw t .none).2
  have hr : s'.rows = some (boleyRows s X) := by rw [hs']
  unfold boleySampleOnce at hx
  simp only [h1, hr] at hx
  rw [RandR.bind_eq, RandR.outcome_bind] at hx
  rcases hx with ⟨r, hr, -⟩ | ⟨e, he', rfl⟩
  · cases hc' _ hr
  · cases hc' _ he'
    rfl

/-- **C136.** Fitting repairs the Boley sampler too. -/
theorem C136_boley_fit_repairs (X : Cmp) (s : BoleySampler) (y : List ℤ) (t : CftpState) (s' : BoleySampler)
    (h : boleyFit s X y = .ok s') : boleyFit { s with lists := t } X y = .ok s' ∧ s'.lists = Cftp.reset := by
  have e : boleyFit { s with lists := t } X y = boleyFit s X y := rfl
  rw [e]
  refine ⟨h, ?_⟩
  unfold boleyFit at h
  simp only [bind, Except.bind, pure, Except.pure] at h
  repeat' split at h
  all_goals cases h
  rfl

/-- A sampler that can be fitted, with a row as above and lists as an interruption leaves them. -/
example : ∃ s', boleyFit BoleySampler.init headMatrix [1, 0, 0] = .ok s' ∧
    (∃ i, ([1, 0, 0] : List ℤ)[i]? = some 1 ∧ 0 < rowSize headMatrix i) ∧
    ¬ Cftp.Usable { us := [1 / 2, 1 / 4], ps := [0, 0], ns := [1, 2] } := by
  obtain ⟨s', h⟩ := (C59_fit (fun S => S.sort (· ≤ ·)) headMatrix _ .init [1, 0, 0]).1 (by decide) (by decide)
  refine ⟨s', h, ⟨0, rfl, ?_⟩, by simp [Cftp.Usable]⟩
  have hst : headMatrix.Stored 0 0 := by decide
  unfold rowSize
  exact Finset.card_pos.mpr ⟨0, by simp only [Finset.mem_filter]; exact ⟨by decide, hst⟩⟩

end Verif
