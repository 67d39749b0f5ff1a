/-
Lemmas on the Boley sampler in double precision: what `sample` does with given outputs of the generator, and how close
the law of its result is to the exact one.
-/
import Verif.Lemmas.FloatCouple
import Verif.Lemmas.FloatCftpRun
import Verif.Model.FloatBoley
import Verif.Props.FloatCftp

namespace Verif

open Cftp

namespace Cftp

variable {c : Cftp}

theorem later_mem {ip iq : ℕ → ℕ} (k : ℕ) : ∀ (i : ℕ) (ω : List ℕ), (∀ x ∈ ω, x < 2 ^ 53) →
    ∀ d ∈ later ip iq k i ω, ∃ a b j : ℕ, a < 2 ^ 53 ∧ b < 2 ^ 53 ∧ j < 2 ^ 53 ∧ d = (ip a, iq b, (j : ℝ) / 2 ^ 53) := by
  induction k with
  | zero => intro i ω _ d hd; cases hd
  | succ k ih =>
    intro i ω hω d hd
    rw [later] at hd
    rcases List.mem_append.mp hd with h | h
    · exact ih (i + 1) _ (fun x hx => hω x (List.mem_of_mem_drop (List.mem_of_mem_drop (List.mem_of_mem_drop hx)))) d h
    · obtain ⟨p, n, u⟩ := d
      unfold blockAt blockOf at h
      have h1 := List.of_mem_zip h
      have h2 := List.of_mem_zip h1.2
      obtain ⟨a, ha, rfl⟩ := List.mem_map.mp h1.1
      obtain ⟨b, hb, rfl⟩ := List.mem_map.mp h2.1
      obtain ⟨j, hj, rfl⟩ := List.mem_map.mp h2.2
      refine ⟨a, b, j, hω a (List.mem_of_mem_drop (List.mem_of_mem_take ha)),
        hω b (List.mem_of_mem_drop (List.mem_of_mem_drop (List.mem_of_mem_take hb))),
        hω j (List.mem_of_mem_take hj), ?_⟩
      rw [Nat.cast_pow, Nat.cast_ofNat]

theorem later_tail {ip iq : ℕ → ℕ} (j k i : ℕ) (ω : List ℕ) :
    ∃ X, later ip iq (j + k) i ω = X ++ later ip iq j i ω := by
  induction k with
  | zero => exact ⟨[], rfl⟩
  | succ k ih =>
    obtain ⟨X, e⟩ := ih
    refine ⟨blockAt ip iq (2 ^ (i + (j + k)) - lenBefore (i + (j + k))) (ω.drop (3 * laterCount (j + k) i)) ++ X, ?_⟩
    rw [← Nat.add_assoc, later_succ, e, ← List.append_assoc]

end Cftp

namespace CftpD

/-- The variables of the loop in a state of the chain. -/
noncomputable def chainOf (d : CftpD) : St → Chain
  | none => start
  | some (p, n) => { D := some (p, n), wD := d.weight p n, wDBar := (d.wPos p).mul (d.wNeg n) }

/-- What the acceptance test compares with. -/
noncomputable def rD (d : CftpD) (s : St) (p n : ℕ) : ℝ :=
  match ratio (d.chainOf s) (d.weight p n) ((d.wPos p).mul (d.wNeg n)) with
  | .num x => x
  | .inf => 1
  | .nan => 0

theorem chainOf_D (d : CftpD) (s : St) : (d.chainOf s).D = s := by
  rcases s with _ | ⟨p, n⟩ <;> rfl

theorem step_chainOf (d : CftpD) (s : St) {x : ℕ × ℕ × ℝ} (h0 : 0 ≤ x.2.2) (h1 : x.2.2 < 1) :
    d.step (d.chainOf s) x = d.chainOf (stepR d.rD s x) := by
  have key : (ratio (d.chainOf s) (d.weight x.1 x.2.1) ((d.wPos x.1).mul (d.wNeg x.2.1))).Above x.2.2 ↔
      x.2.2 < d.rD s x.1 x.2.1 := by
    unfold rD
    cases ratio (d.chainOf s) (d.weight x.1 x.2.1) ((d.wPos x.1).mul (d.wNeg x.2.1)) with
    | num y => exact Iff.rfl
    | inf => exact ⟨fun _ => h1, fun _ => trivial⟩
    | nan => exact ⟨fun h => h.elim, fun h => absurd h (not_lt.mpr h0)⟩
  unfold step stepR
  by_cases h : x.2.2 < d.rD s x.1 x.2.1
  · rw [if_pos h]
    exact if_pos (key.mpr h)
  · rw [if_neg h]
    exact if_neg fun h' => h (key.mp h')

theorem foldl_chainOf (d : CftpD) : ∀ (ds : List (ℕ × ℕ × ℝ)) (s : St), (∀ x ∈ ds, 0 ≤ x.2.2 ∧ x.2.2 < 1) →
    ds.foldl d.step (d.chainOf s) = d.chainOf (ds.foldl (stepR d.rD) s)
  | [], s, _ => rfl
  | x :: ds, s, h => by
    have hx := h x List.mem_cons_self
    rw [List.foldl_cons, List.foldl_cons, step_chainOf d s hx.1 hx.2]
    exact foldl_chainOf d ds _ fun y hy => h y (List.mem_cons_of_mem _ hy)

theorem simulate_eq (d : CftpD) {s : CftpState} (h : ∀ x ∈ CftpState.draws s, 0 ≤ x.2.2 ∧ x.2.2 < 1) :
    d.simulate s = (CftpState.draws s).foldl (stepR d.rD) none := by
  unfold simulate
  have e := foldl_chainOf d (CftpState.draws s) none h
  change List.foldl d.step start _ = _ at e
  rw [e, chainOf_D]

/-- The rounded object `d` proposes the records that `ip` and `iq` say, and belongs to the exact object `c`. -/
structure Follows (d : CftpD) (S : Dbl.Order) (c : Cftp) (ip iq : ℕ → ℕ) : Prop where
  maxIters : d.maxIters = c.maxIters
  sums : ¬ (S.sum d.posWeights = .num 0 ∨ S.sum d.negWeights = .num 0)
  pos : ∀ ks : List ℕ, (∀ k ∈ ks, k < 2 ^ 53) → choicesD d.posList (d.posProba S) ks = .ok (ks.map ip)
  neg : ∀ ks : List ℕ, (∀ k ∈ ks, k < 2 ^ 53) → choicesD d.negList (d.negProba S) ks = .ok (ks.map iq)
  posOk : ∀ k < 2 ^ 53, ip k ∈ c.posList ∧ 0 < c.wPos (ip k)
  negOk : ∀ k < 2 ^ 53, iq k ∈ c.negList ∧ 0 < c.wNeg (iq k)

variable {d : CftpD} {S : Dbl.Order} {c : Cftp} {ip iq : ℕ → ℕ}

theorem expandHorizon_eq (hf : d.Follows S c ip iq) {L m : ℕ} {s : CftpState} (h1 : s.us.length = L)
    (h2 : s.ps.length = L) (h3 : s.ns.length = L) (hm : 0 < m) (hL : L ≤ m) {ω : List ℕ} (hω : ∀ k ∈ ω, k < 2 ^ 53)
    (hlen : 3 * (m - L) ≤ ω.length) :
    ∃ s', d.expandHorizon S m s ω = .ok (s', ((ω.drop (m - L)).drop (m - L)).drop (m - L)) ∧
      s'.us.length = m ∧ s'.ps.length = m ∧ s'.ns.length = m ∧
      CftpState.draws s' = blockAt ip iq (m - L) ω ++ CftpState.draws s := by
  have hmem : ∀ {l : List ℕ}, (∀ k ∈ l, k ∈ ω) → ∀ k ∈ l, k < 2 ^ 53 := fun h k hk => hω k (h k hk)
  have hP := hmem (l := (ω.drop (m - L)).take (m - L)) fun k hk => List.mem_of_mem_drop (List.mem_of_mem_take hk)
  have hN := hmem (l := ((ω.drop (m - L)).drop (m - L)).take (m - L)) fun k hk =>
    List.mem_of_mem_drop (List.mem_of_mem_drop (List.mem_of_mem_take hk))
  set U := ω.take (m - L) with hU
  set P := (ω.drop (m - L)).take (m - L) with hPd
  set N := ((ω.drop (m - L)).drop (m - L)).take (m - L) with hNd
  have lU : U.length = m - L := by rw [hU, List.length_take]; omega
  have lP : P.length = m - L := by rw [hPd, List.length_take, List.length_drop]; omega
  have lN : N.length = m - L := by rw [hNd, List.length_take, List.length_drop, List.length_drop]; omega
  have e1 : ((U.map fun k : ℕ => (k : ℝ) / 2 ^ 53) ++ s.us).length = m := by simp [lU, h1, hL]
  have e2 : (P.map ip ++ s.ps).length = m := by simp [lP, h2, hL]
  have e3 : (N.map iq ++ s.ns).length = m := by simp [lN, h3, hL]
  refine ⟨{ us := (U.map fun k : ℕ => (k : ℝ) / 2 ^ 53) ++ s.us, ps := P.map ip ++ s.ps, ns := N.map iq ++ s.ns },
    ?_, e1, e2, e3, ?_⟩
  · unfold expandHorizon
    rw [if_neg hm.ne', if_neg (by rw [h1]; omega), h1]
    simp only [← hU, ← hPd, ← hNd]
    rw [hf.pos P hP, hf.neg N hN]
    unfold checkLengths
    have hnc : ¬ ((P.map ip ++ s.ps).length ≠ m ∨ (N.map iq ++ s.ns).length ≠ m ∨
        ((U.map fun k : ℕ => (k : ℝ) / 2 ^ 53) ++ s.us).length ≠ m) := by
      rintro (h | h | h)
      · exact h e2
      · exact h e3
      · exact h e1
    simp only [Bind.bind, Except.bind, if_neg hnc]
    rfl
  · rw [draws_append (by simp [lP, lU]) (by simp [lN, lU])]
    congr 1
    unfold blockAt blockOf CftpState.draws
    rw [← hU, ← hPd, ← hNd, Nat.cast_pow, Nat.cast_ofNat]

theorem later_unit {ω : List ℕ} (hω : ∀ x ∈ ω, x < 2 ^ 53) (k i : ℕ) :
    ∀ x ∈ later ip iq k i ω, 0 ≤ x.2.2 ∧ x.2.2 < 1 := by
  intro x hx
  obtain ⟨a, b, j, -, -, hj, rfl⟩ := later_mem k i ω hω x hx
  refine ⟨show (0 : ℝ) ≤ (j : ℝ) / 2 ^ 53 by positivity, ?_⟩
  show (j : ℝ) / 2 ^ 53 < 1
  rw [div_lt_one (by positivity)]
  exact_mod_cast hj

theorem later_ok (hf : d.Follows S c ip iq) {ω : List ℕ} (hω : ∀ x ∈ ω, x < 2 ^ 53) (k i : ℕ) :
    ∀ x ∈ later ip iq k i ω, c.ValidDraw x := by
  intro x hx
  obtain ⟨a, b, j, ha, hb, hj, rfl⟩ := later_mem k i ω hω x hx
  have h1 := hf.posOk a ha
  have h2 := hf.negOk b hb
  exact ⟨h1.1, h2.1, h1.2, h2.2, show (0 : ℝ) ≤ (j : ℝ) / 2 ^ 53 by positivity⟩

/-- As long as the rounded chain decides as the exact one does, it gives the same result. -/
theorem sampleLoop_eq (hf : d.Follows S c ip iq) (hr : c.Dominated) {ω : List ℕ} (hω : ∀ x ∈ ω, x < 2 ^ 53) {K : ℕ}
    (hag : ∀ j ≤ K, (later ip iq j 0 ω).foldl (stepR d.rD) none = (later ip iq j 0 ω).foldl c.stepT none)
    (h1 : 2 ^ K > c.maxIters) (h2 : lenBefore K ≤ c.maxIters) (hl : 3 * laterCount K 0 ≤ ω.length) (k : ℕ) :
    ∀ (i : ℕ) (s : CftpState), i + k = K → s.us.length = lenBefore i → s.ps.length = lenBefore i →
      s.ns.length = lenBefore i → CftpState.draws s = later ip iq i 0 ω →
      (CftpState.draws s).foldl (stepR d.rD) none = none →
      d.sampleLoop S i s (ω.drop (3 * laterCount i 0)) = .ok ((later ip iq K 0 ω).foldl c.stepT none, reset) := by
  induction k with
  | zero =>
    intro i s hi e1 e2 e3 hd hn
    rw [Nat.add_zero] at hi
    subst hi
    rw [sampleLoop, if_pos (by rw [hf.maxIters]; exact h1)]
    rw [hd, hag i le_rfl] at hn
    rw [hn]
  | succ k ih =>
    intro i s hi e1 e2 e3 hd hn
    have hpos : 0 < 2 ^ i := by positivity
    have hLle := lenBefore_le i
    have hle : 2 ^ i ≤ c.maxIters := by
      refine le_trans ?_ h2
      rw [← hi, show i + (k + 1) = (i + k) + 1 by omega, lenBefore_succ]
      exact Nat.pow_le_pow_right (by norm_num) (by omega)
    have hcount : laterCount (i + 1) 0 = laterCount i 0 + (2 ^ i - lenBefore i) := by
      rw [laterCount_zero, laterCount_zero, lenBefore_succ]
      omega
    have hmono : laterCount (i + 1) 0 ≤ laterCount K 0 := by
      rw [laterCount_zero, laterCount_zero, lenBefore_succ, ← hi, show i + (k + 1) = (i + k) + 1 by omega, lenBefore_succ]
      exact Nat.pow_le_pow_right (by norm_num) (by omega)
    have hω' : ∀ x ∈ ω.drop (3 * laterCount i 0), x < 2 ^ 53 := fun x hx => hω x (List.mem_of_mem_drop hx)
    obtain ⟨s', hadd, g1, g2, g3, hdr⟩ := expandHorizon_eq hf e1 e2 e3 hpos hLle hω'
      (by rw [List.length_drop]; omega)
    have hdr' : CftpState.draws s' = later ip iq (i + 1) 0 ω := by
      rw [hdr, hd, later_succ i 0 ω, Nat.zero_add]
    have hdrop : (((ω.drop (3 * laterCount i 0)).drop (2 ^ i - lenBefore i)).drop (2 ^ i - lenBefore i)).drop
        (2 ^ i - lenBefore i) = ω.drop (3 * laterCount (i + 1) 0) := by
      rw [List.drop_drop, List.drop_drop, List.drop_drop, hcount]
      congr 1
      ring
    rw [hdrop] at hadd
    have hsim : d.simulate s' = (later ip iq (i + 1) 0 ω).foldl (stepR d.rD) none := by
      rw [simulate_eq d (by rw [hdr']; exact later_unit hω _ _), hdr']
    rw [sampleLoop, if_neg (by rw [hf.maxIters]; omega), if_neg hf.sums, hadd]
    show (match d.simulate s' with
      | some pr => (.ok (some pr, reset) : Py (Option (ℕ × ℕ) × CftpState))
      | none => d.sampleLoop S (i + 1) s' (ω.drop (3 * laterCount (i + 1) 0))) = _
    cases hD : d.simulate s' with
    | none =>
      exact ih (i + 1) s' (by omega) (by rw [lenBefore_succ]; exact g1) (by rw [lenBefore_succ]; exact g2)
        (by rw [lenBefore_succ]; exact g3) hdr' (by rw [hdr', ← hsim, hD])
    | some pr =>
      obtain ⟨X, hX⟩ := later_tail (ip := ip) (iq := iq) (i + 1) k 0 ω
      rw [show i + 1 + k = K by omega] at hX
      rw [hD, hag (i + 1) (by omega)] at hsim
      have hv := later_ok hf hω K 0
      rw [hX] at hv
      rw [hX, List.foldl_append, foldl_of_none hr (fun x hx => hv x (List.mem_append_right _ hx))
        (valid_foldl hr (fun x hx => hv x (List.mem_append_left _ hx)) (valid_none c)) (by rw [← hsim]; simp), ← hsim]

theorem sample_eq (hf : d.Follows S c ip iq) (hr : c.Dominated) {ω : List ℕ} (hω : ∀ x ∈ ω, x < 2 ^ 53) {K : ℕ}
    (hag : ∀ j ≤ K, (later ip iq j 0 ω).foldl (stepR d.rD) none = (later ip iq j 0 ω).foldl c.stepT none)
    (h1 : 2 ^ K > c.maxIters) (h2 : lenBefore K ≤ c.maxIters) (hl : 3 * lenBefore K ≤ ω.length) :
    d.sample S reset ω = .ok ((later ip iq K 0 ω).foldl c.stepT none, reset) := by
  have h := sampleLoop_eq hf hr hω hag h1 h2 (by rw [laterCount_zero]; exact hl) K 0 reset (by omega)
    (by simp [lenBefore, reset]) (by simp [lenBefore, reset]) (by simp [lenBefore, reset]) rfl rfl
  exact h

/-! ### The law -/

theorem accR_close (hd : c.Dominated) {M : ℕ} (hM : 0 < M) (s : St) (p n : ℕ) :
    |accR c.ratio M s p n - c.acc s p n| ≤ 1 / M := by
  unfold accR acc
  rcases le_total 0 (c.ratio s p n) with h | h
  · rw [max_eq_right (le_min zero_le_one h)]
    exact share_below hM h
  · have e : shareOf M (fun k => (k : ℝ) / M < c.ratio s p n) = 0 := by
      classical
      unfold shareOf
      rw [Finset.filter_false_of_mem, Finset.card_empty, Nat.cast_zero, zero_div]
      intro k _
      rw [not_lt]
      exact h.trans (by positivity)
    rw [e, max_eq_left ((min_le_right _ _).trans h), sub_zero, abs_zero]
    positivity

theorem average_prefix {m n : ℕ} (h : m ≤ n) {F : List ℕ → ℝ} (hF : ∀ ω ω' : List ℕ, ω.length = m → F (ω ++ ω') = F ω) :
    averageOver (2 ^ 53) n F = averageOver (2 ^ 53) m F := by
  obtain ⟨k, rfl⟩ := Nat.exists_eq_add_of_le h
  rw [averageOver_add]
  refine averageOver_congr fun ω hl _ => ?_
  rw [averageOver_congr fun ω' _ _ => hF ω ω' hl, averageOver_const (by positivity)]

/-- The effect of rounding on any quantity of the result of `sample`. -/
theorem average_sample (hf : d.Follows S c ip iq) (hr : c.Ready) {δ dP dN : ℝ}
    (ht : Tracks d.rD c.ratio (2 ^ 53) ip iq c.Valid δ)
    (hdP : ∑ p ∈ c.posList.toFinset, |shareOf (2 ^ 53) (fun k => ip k = p) - c.qP p| ≤ dP)
    (hdN : ∑ n ∈ c.negList.toFinset, |shareOf (2 ^ 53) (fun k => iq k = n) - c.qN n| ≤ dN) {K : ℕ}
    (h1 : 2 ^ K > c.maxIters) (h2 : lenBefore K ≤ c.maxIters) {f : Py (Option (ℕ × ℕ) × CftpState) → ℝ}
    (hb : ∀ x, 0 ≤ f x ∧ f x ≤ 1) :
    |averageOver (2 ^ 53) (3 * lenBefore K) (fun ω => f (d.sample S reset ω)) - (c.sample reset).expect f| ≤
      (∑ j ∈ Finset.range (K + 1), (lenBefore j : ℝ)) * δ + lenBefore K * (dP + dN + 1 / 2 ^ 53) := by
  have hmono : ∀ j ≤ K, lenBefore j ≤ lenBefore K := by
    intro j hj
    unfold lenBefore
    split
    · exact Nat.zero_le _
    · rw [if_neg (by omega)]
      exact Nat.pow_le_pow_right (by norm_num) (by omega)
  have e1 : |averageOver (2 ^ 53) (3 * lenBefore K) (fun ω => f (d.sample S reset ω)) -
      averageOver (2 ^ 53) (3 * lenBefore K) (fun ω => f (.ok ((later ip iq K 0 ω).foldl (stepR c.ratio) none, reset)))| ≤
      averageOver (2 ^ 53) (3 * lenBefore K) fun ω => ∑ j ∈ Finset.range (K + 1), 1 *
        differ d.rD c.ratio none (later ip iq j 0 ω) := by
    refine averageOver_abs_sub_le fun ω hl hω => ?_
    by_cases hag : ∀ j ≤ K, (later ip iq j 0 ω).foldl (stepR d.rD) none = (later ip iq j 0 ω).foldl c.stepT none
    · rw [sample_eq hf hr.toDominated hω hag h1 h2 hl.ge]
      have : c.stepT = stepR c.ratio := rfl
      rw [this, sub_self, abs_zero]
      exact Finset.sum_nonneg fun j _ => by rw [one_mul]; exact (differ_bounds _ _ _ _).1
    · push Not at hag
      obtain ⟨j, hj, hne⟩ := hag
      have h3 : (1 : ℝ) ≤ ∑ j ∈ Finset.range (K + 1), 1 * differ d.rD c.ratio none (later ip iq j 0 ω) := by
        have h4 : differ d.rD c.ratio none (later ip iq j 0 ω) = 1 := if_neg hne
        refine le_trans (le_of_eq (by rw [h4, one_mul])) (Finset.single_le_sum (a := j) (f := fun j => 1 * differ d.rD c.ratio none (later ip iq j 0 ω))
          (fun j _ => by rw [one_mul]; exact (differ_bounds _ _ _ _).1) (Finset.mem_range.mpr (by omega)))
      refine le_trans ?_ h3
      have a := hb (d.sample S reset ω)
      have b := hb (.ok ((later ip iq K 0 ω).foldl (stepR c.ratio) none, reset))
      rw [abs_le]
      constructor <;> linarith [a.1, a.2, b.1, b.2]
  have e2 : (averageOver (2 ^ 53) (3 * lenBefore K) fun ω => ∑ j ∈ Finset.range (K + 1), 1 *
        differ d.rD c.ratio none (later ip iq j 0 ω)) ≤ (∑ j ∈ Finset.range (K + 1), (lenBefore j : ℝ)) * δ := by
    rw [averageOver_sum, Finset.sum_mul]
    refine Finset.sum_le_sum fun j hj => ?_
    have hj' : j ≤ K := by rw [Finset.mem_range] at hj; omega
    rw [one_mul, average_prefix (m := 3 * laterCount j 0) (by rw [laterCount_zero]; have := hmono j hj'; omega)
      (fun ω ω' hl => by rw [later_append j 0 ω ω' hl.ge])]
    have := average_differ_later ht j 0 none (valid_none c)
    rwa [laterCount_zero] at this ⊢
  have e3 : averageOver (2 ^ 53) (3 * lenBefore K) (fun ω =>
      f (.ok ((later ip iq K 0 ω).foldl (stepR c.ratio) none, reset))) =
      ((c.TR c.ratio (2 ^ 53) ip iq)^[lenBefore K] fun s => f (.ok (s, reset))) none := by
    have h4 := average_laterR (c := c) c.ratio (fun k hk => (hf.posOk k hk).1) (fun k hk => (hf.negOk k hk).1) K 0
      fun s => f (.ok (s, reset))
    rwa [laterCount_zero] at h4
  have e4 : (c.sample reset).expect f = (c.T^[lenBefore K] fun s => f (.ok (s, reset))) none := by
    rw [expect_sample hr, T_iter_none hr, horizon_eq h1 h2]
    rfl
  have e5 := TR_iter_close c.ratio hr hdP hdN (dA := 1 / 2 ^ 53)
    (fun s p _ n _ => by
      have := accR_close hr.toDominated (M := 2 ^ 53) (by positivity) s p n
      rwa [Nat.cast_pow, Nat.cast_ofNat] at this)
    (h := fun s => f (.ok (s, reset))) (fun s => hb _) (by positivity) (fun k hk => (hf.posOk k hk).1)
    (fun k hk => (hf.negOk k hk).1) (lenBefore K) none
  rw [e4]
  rw [e3] at e1
  refine (abs_sub_le _ (((c.TR c.ratio (2 ^ 53) ip iq)^[lenBefore K] fun s => f (.ok (s, reset))) none) _).trans ?_
  exact add_le_add (e1.trans e2) e5

end CftpD
end Verif
