/-
Two chains driven by the same outputs of the generator differ only if they once decide differently. This bounds the
effect of rounding on coupling from the past when the rounded ratios are not monotone, so that the rounded chain
need not coalesce exactly as the exact one does.
-/
import Verif.Lemmas.FloatDraw

namespace Verif

/-! ### Averages -/

theorem averageOver_mono {M n : ℕ} {f g : List ℕ → ℝ}
    (h : ∀ l : List ℕ, l.length = n → (∀ k ∈ l, k < M) → f l ≤ g l) : averageOver M n f ≤ averageOver M n g := by
  unfold averageOver
  refine div_le_div_of_nonneg_right (Finset.sum_le_sum fun ω _ => h _ (by simp) ?_) (by positivity)
  intro k hk
  rw [List.mem_ofFn] at hk
  obtain ⟨i, rfl⟩ := hk
  exact (ω i).2

theorem averageOver_le {M : ℕ} (hM : 0 < M) {n : ℕ} {f : List ℕ → ℝ} {K : ℝ}
    (h : ∀ l : List ℕ, l.length = n → (∀ k ∈ l, k < M) → f l ≤ K) : averageOver M n f ≤ K := by
  rw [← averageOver_const hM n K]
  exact averageOver_mono h

theorem averageOver_plus (M n : ℕ) (f g : List ℕ → ℝ) :
    averageOver M n (fun l => f l + g l) = averageOver M n f + averageOver M n g := by
  have := averageOver_lin M n 1 1 f g
  simpa using this

theorem averageOver_shift {M : ℕ} (hM : 0 < M) (n : ℕ) (a : ℝ) (f : List ℕ → ℝ) :
    averageOver M n (fun l => a + f l) = a + averageOver M n f := by
  rw [averageOver_plus, averageOver_const hM]

theorem averageOver_abs_sub_le {M n : ℕ} {f g e : List ℕ → ℝ}
    (h : ∀ l : List ℕ, l.length = n → (∀ k ∈ l, k < M) → |f l - g l| ≤ e l) :
    |averageOver M n f - averageOver M n g| ≤ averageOver M n e := by
  have h1 := averageOver_mono (M := M) (n := n) (f := f) (g := fun l => g l + e l) fun l a b => by
    have := abs_le.mp (h l a b)
    linarith [this.2]
  have h2 := averageOver_mono (M := M) (n := n) (f := g) (g := fun l => f l + e l) fun l a b => by
    have := abs_le.mp (h l a b)
    linarith [this.1]
  rw [averageOver_plus] at h1 h2
  rw [abs_le]
  constructor <;> linarith

namespace Cftp

variable {c : Cftp}

/-! ### Deciding differently -/

open Classical in
/-- 1 if the chains with acceptance functions `r` and `g` end in different states. -/
noncomputable def differ (r g : St → ℕ → ℕ → ℝ) (s : St) (ds : List (ℕ × ℕ × ℝ)) : ℝ :=
  if ds.foldl (stepR r) s = ds.foldl (stepR g) s then 0 else 1

/-- The two acceptance tests give different answers. -/
def Splits (r g : St → ℕ → ℕ → ℝ) (s : St) (p n : ℕ) (u : ℝ) : Prop := ¬ (u < r s p n ↔ u < g s p n)

theorem differ_bounds (r g : St → ℕ → ℕ → ℝ) (s : St) (ds : List (ℕ × ℕ × ℝ)) :
    0 ≤ differ r g s ds ∧ differ r g s ds ≤ 1 := by
  unfold differ
  split <;> norm_num

theorem differ_nil (r g : St → ℕ → ℕ → ℝ) (s : St) : differ r g s [] = 0 := if_pos rfl

open Classical in
theorem differ_cons (r g : St → ℕ → ℕ → ℝ) (s : St) (d : ℕ × ℕ × ℝ) (ds : List (ℕ × ℕ × ℝ)) :
    differ r g s (d :: ds) ≤ (if Splits r g s d.1 d.2.1 d.2.2 then 1 else 0) + differ r g (stepR g s d) ds := by
  by_cases h : Splits r g s d.1 d.2.1 d.2.2
  · rw [if_pos h]
    have h1 := (differ_bounds r g s (d :: ds)).2
    have h2 := (differ_bounds r g (stepR g s d) ds).1
    linarith
  · rw [if_neg h, zero_add]
    unfold Splits at h
    rw [not_not] at h
    have e : stepR r s d = stepR g s d := by
      unfold stepR
      by_cases hu : d.2.2 < r s d.1 d.2.1
      · rw [if_pos hu, if_pos (h.mp hu)]
      · rw [if_neg hu, if_neg (fun x => hu (h.mpr x))]
    unfold differ
    rw [List.foldl_cons, List.foldl_cons, e]

theorem differ_append (r g : St → ℕ → ℕ → ℝ) (s : St) (as bs : List (ℕ × ℕ × ℝ)) :
    differ r g s (as ++ bs) ≤ differ r g s as + differ r g (as.foldl (stepR g) s) bs := by
  by_cases h : as.foldl (stepR r) s = as.foldl (stepR g) s
  · have h1 := (differ_bounds r g s as).1
    have e : differ r g s (as ++ bs) = differ r g (as.foldl (stepR g) s) bs := by
      unfold differ
      rw [List.foldl_append, List.foldl_append, h]
    linarith
  · have h1 := (differ_bounds r g s (as ++ bs)).2
    have h2 := (differ_bounds r g (as.foldl (stepR g) s) bs).1
    have e : differ r g s as = 1 := if_neg h
    linarith

/-- What the two acceptance functions have to satisfy on the states `V`: the second one stays in `V`, and a uniform
output tells them apart with probability at most `δ`. -/
structure Tracks (r g : St → ℕ → ℕ → ℝ) (M : ℕ) (ip iq : ℕ → ℕ) (V : St → Prop) (δ : ℝ) : Prop where
  stays : ∀ s, V s → ∀ k < M, ∀ l < M, ∀ j < M, V (stepR g s (ip k, iq l, (j : ℝ) / M))
  splits : ∀ s, V s → ∀ k < M, ∀ l < M, shareOf M (fun j => Splits r g s (ip k) (iq l) ((j : ℝ) / M)) ≤ δ

theorem blockOf_stays {r g : St → ℕ → ℕ → ℝ} {M : ℕ} {ip iq : ℕ → ℕ} {V : St → Prop} {δ : ℝ}
    (ht : Tracks r g M ip iq V δ) : ∀ (us ps ns : List ℕ), (∀ k ∈ us, k < M) → (∀ k ∈ ps, k < M) →
    (∀ k ∈ ns, k < M) → ∀ s, V s → V ((blockOf M ip iq us ps ns).foldl (stepR g) s)
  | [], ps, ns, _, _, _, s, hs => by
    unfold blockOf
    simp only [List.map_nil, List.zip_nil_right]
    exact hs
  | u :: us, [], ns, _, _, _, s, hs => hs
  | u :: us, p :: ps, [], _, _, _, s, hs => hs
  | u :: us, p :: ps, n :: ns, h1, h2, h3, s, hs => by
    show V ((blockOf M ip iq us ps ns).foldl (stepR g) (stepR g s (ip p, iq n, (u : ℝ) / M)))
    exact blockOf_stays ht us ps ns (fun k hk => h1 k (List.mem_cons_of_mem _ hk))
      (fun k hk => h2 k (List.mem_cons_of_mem _ hk)) (fun k hk => h3 k (List.mem_cons_of_mem _ hk)) _
      (ht.stays s hs p (h2 p List.mem_cons_self) n (h3 n List.mem_cons_self) u (h1 u List.mem_cons_self))

theorem average_differ_block {r g : St → ℕ → ℕ → ℝ} {M : ℕ} (hM : 0 < M) {ip iq : ℕ → ℕ} {V : St → Prop} {δ : ℝ}
    (ht : Tracks r g M ip iq V δ) (m : ℕ) : ∀ s, V s →
    averageOver M m (fun us => averageOver M m fun ps => averageOver M m fun ns =>
      differ r g s (blockOf M ip iq us ps ns)) ≤ m * δ := by
  classical
  induction m with
  | zero =>
    intro s _
    simp only [averageOver_zero, Nat.cast_zero, zero_mul]
    exact le_of_eq (differ_nil r g s)
  | succ m ih =>
    intro s hs
    have hMr : (0 : ℝ) < M := by exact_mod_cast hM
    simp only [averageOver_succ, averageOver_pull]
    have e : ∀ u p n : Fin M, averageOver M m (fun us => averageOver M m fun ps => averageOver M m fun ns =>
        differ r g s (blockOf M ip iq ((u : ℕ) :: us) ((p : ℕ) :: ps) ((n : ℕ) :: ns))) ≤
        (if Splits r g s (ip p) (iq n) (((u : ℕ) : ℝ) / M) then 1 else 0) + m * δ := by
      intro u p n
      refine le_trans (averageOver_mono (g := fun us => averageOver M m fun ps => averageOver M m fun ns =>
        (if Splits r g s (ip p) (iq n) (((u : ℕ) : ℝ) / M) then 1 else 0) +
          differ r g (stepR g s (ip p, iq n, ((u : ℕ) : ℝ) / M)) (blockOf M ip iq us ps ns)) fun us _ _ =>
        averageOver_mono fun ps _ _ => averageOver_mono fun ns _ _ => ?_) ?_
      · exact differ_cons r g s (ip p, iq n, ((u : ℕ) : ℝ) / M) (blockOf M ip iq us ps ns)
      · simp only [averageOver_shift hM]
        have := ih _ (ht.stays s hs p p.2 n n.2 u u.2)
        linarith
    have h1 : ∀ p n : Fin M, (∑ u : Fin M, ((if Splits r g s (ip p) (iq n) (((u : ℕ) : ℝ) / M) then (1 : ℝ) else 0) +
        m * δ)) / M ≤ (m + 1) * δ := by
      intro p n
      rw [Finset.sum_add_distrib, add_div]
      have h2 := average_test hM (fun u => Splits r g s (ip p) (iq n) ((u : ℝ) / M)) 1 0
      have h3 := ht.splits s hs p p.2 n n.2
      have h4 : (∑ _u : Fin M, (m : ℝ) * δ) / M = m * δ := by
        rw [Finset.sum_const, Finset.card_univ, Fintype.card_fin, nsmul_eq_mul]
        field_simp
      rw [h4]
      have h5 : (∑ u : Fin M, (if Splits r g s (ip p) (iq n) (((u : ℕ) : ℝ) / M) then (1 : ℝ) else 0)) / M ≤ δ := by
        refine le_trans (le_of_eq ?_) h3
        rw [mul_one, mul_zero, add_zero] at h2
        rw [← h2]
      linarith
    have h2 : ∀ x : Fin M → ℝ, (∀ k, x k ≤ (m + 1) * δ) → (∑ k, x k) / M ≤ (m + 1) * δ := by
      intro x hx
      rw [div_le_iff₀ hMr]
      refine (Finset.sum_le_sum fun k _ => hx k).trans (le_of_eq ?_)
      rw [Finset.sum_const, Finset.card_univ, Fintype.card_fin, nsmul_eq_mul]
      ring
    push_cast
    have h3 : (∑ u : Fin M, (∑ p : Fin M, (∑ n : Fin M, averageOver M m (fun us => averageOver M m fun ps =>
        averageOver M m fun ns => differ r g s (blockOf M ip iq ((u : ℕ) :: us) ((p : ℕ) :: ps) ((n : ℕ) :: ns)))) / M) /
          M) / M ≤
        (∑ p : Fin M, (∑ n : Fin M, (∑ u : Fin M, ((if Splits r g s (ip p) (iq n) (((u : ℕ) : ℝ) / M) then (1 : ℝ) else 0) +
        m * δ)) / M) / M) / M := by
      simp only [Finset.sum_div]
      rw [Finset.sum_comm]
      refine Finset.sum_le_sum fun p _ => ?_
      rw [Finset.sum_comm]
      refine Finset.sum_le_sum fun n _ => Finset.sum_le_sum fun u _ => ?_
      exact div_le_div_of_nonneg_right (div_le_div_of_nonneg_right (div_le_div_of_nonneg_right (e u p n) hMr.le)
        hMr.le) hMr.le
    exact h3.trans (h2 _ fun p => h2 _ fun n => h1 p n)

/-! ### Along the doubled horizons -/

theorem later_stays {r g : St → ℕ → ℕ → ℝ} {ip iq : ℕ → ℕ} {V : St → Prop} {δ : ℝ}
    (ht : Tracks r g (2 ^ 53) ip iq V δ) (k : ℕ) : ∀ (i : ℕ) (ω : List ℕ), (∀ x ∈ ω, x < 2 ^ 53) → ∀ s, V s →
    V ((later ip iq k i ω).foldl (stepR g) s) := by
  induction k with
  | zero => intro i ω _ s hs; exact hs
  | succ k ih =>
    intro i ω hω s hs
    rw [later, List.foldl_append]
    unfold blockAt
    refine blockOf_stays ht _ _ _ (fun x hx => hω x (List.mem_of_mem_take hx))
      (fun x hx => hω x (List.mem_of_mem_drop (List.mem_of_mem_take hx)))
      (fun x hx => hω x (List.mem_of_mem_drop (List.mem_of_mem_drop (List.mem_of_mem_take hx)))) _ (ih (i + 1) _ ?_ s hs)
    exact fun x hx => hω x (List.mem_of_mem_drop (List.mem_of_mem_drop (List.mem_of_mem_drop hx)))

theorem average_differ_later {r g : St → ℕ → ℕ → ℝ} {ip iq : ℕ → ℕ} {V : St → Prop} {δ : ℝ}
    (ht : Tracks r g (2 ^ 53) ip iq V δ) (k : ℕ) : ∀ (i : ℕ) (s : St), V s →
    averageOver (2 ^ 53) (3 * laterCount k i) (fun ω => differ r g s (later ip iq k i ω)) ≤ laterCount k i * δ := by
  have hM : 0 < 2 ^ 53 := by positivity
  induction k with
  | zero =>
    intro i s _
    simp only [laterCount, Nat.mul_zero, averageOver_zero, Nat.cast_zero, zero_mul]
    exact le_of_eq (differ_nil r g s)
  | succ k ih =>
    intro i s hs
    rw [laterCount]
    set m := 2 ^ i - lenBefore i with hm
    rw [show 3 * (m + laterCount k (i + 1)) = m + (m + (m + 3 * laterCount k (i + 1))) by ring]
    rw [averageOver_add]
    simp only [averageOver_add]
    have e : averageOver (2 ^ 53) m (fun a => averageOver (2 ^ 53) m fun b => averageOver (2 ^ 53) m fun d =>
        averageOver (2 ^ 53) (3 * laterCount k (i + 1)) fun ω =>
          differ r g s (later ip iq (k + 1) i (a ++ (b ++ (d ++ ω))))) ≤
        averageOver (2 ^ 53) m (fun a => averageOver (2 ^ 53) m fun b => averageOver (2 ^ 53) m fun d =>
        averageOver (2 ^ 53) (3 * laterCount k (i + 1)) fun ω =>
          (differ r g s (later ip iq k (i + 1) ω) +
          differ r g ((later ip iq k (i + 1) ω).foldl (stepR g) s) (blockOf (2 ^ 53) ip iq a b d))) := by
      refine averageOver_mono fun a ha _ => averageOver_mono fun b hb _ => averageOver_mono fun d hd _ =>
        averageOver_mono fun ω _ _ => ?_
      rw [later, ← hm]
      unfold blockAt
      rw [List.drop_left' ha, List.drop_left' hb, List.drop_left' hd, List.take_left' ha, List.take_left' hb,
        List.take_left' hd]
      exact differ_append r g s _ _
    refine e.trans ?_
    have e2 : averageOver (2 ^ 53) m (fun a => averageOver (2 ^ 53) m fun b => averageOver (2 ^ 53) m fun d =>
        averageOver (2 ^ 53) (3 * laterCount k (i + 1)) fun ω =>
          (differ r g s (later ip iq k (i + 1) ω) +
          differ r g ((later ip iq k (i + 1) ω).foldl (stepR g) s) (blockOf (2 ^ 53) ip iq a b d))) =
        averageOver (2 ^ 53) (3 * laterCount k (i + 1)) fun ω =>
          averageOver (2 ^ 53) m (fun a => averageOver (2 ^ 53) m fun b => averageOver (2 ^ 53) m fun d =>
          (differ r g s (later ip iq k (i + 1) ω) +
          differ r g ((later ip iq k (i + 1) ω).foldl (stepR g) s) (blockOf (2 ^ 53) ip iq a b d))) := by
      symm
      rw [averageOver_comm]
      refine averageOver_congr fun a _ _ => ?_
      rw [averageOver_comm]
      refine averageOver_congr fun b _ _ => ?_
      rw [averageOver_comm]
    rw [e2]
    simp only [averageOver_shift hM]
    refine (averageOver_mono (g := fun ω => differ r g s (later ip iq k (i + 1) ω) + m * δ) fun ω _ hω => ?_).trans ?_
    · have := average_differ_block hM ht m _ (later_stays ht k (i + 1) ω hω s hs)
      linarith
    · rw [averageOver_plus, averageOver_const hM]
      have := ih (i + 1) s hs
      rw [Nat.cast_add, add_mul]
      linarith

theorem blockAt_append {ip iq : ℕ → ℕ} {m : ℕ} {ω : List ℕ} (h : 3 * m ≤ ω.length) (ω' : List ℕ) :
    blockAt ip iq m (ω ++ ω') = blockAt ip iq m ω := by
  unfold blockAt
  rw [List.take_append_of_le_length (by omega), List.drop_append_of_le_length (by omega),
    List.take_append_of_le_length (by rw [List.length_drop]; omega),
    List.drop_append_of_le_length (by rw [List.length_drop]; omega),
    List.take_append_of_le_length (by rw [List.length_drop, List.length_drop]; omega)]

theorem later_append {ip iq : ℕ → ℕ} (k : ℕ) : ∀ (i : ℕ) (ω ω' : List ℕ), 3 * laterCount k i ≤ ω.length →
    later ip iq k i (ω ++ ω') = later ip iq k i ω := by
  induction k with
  | zero => intro i ω ω' _; rfl
  | succ k ih =>
    intro i ω ω' h
    rw [laterCount] at h
    rw [later, later, blockAt_append (by omega)]
    congr 1
    rw [List.drop_append_of_le_length (by omega), List.drop_append_of_le_length (by rw [List.length_drop]; omega),
      List.drop_append_of_le_length (by rw [List.length_drop, List.length_drop]; omega)]
    apply ih
    simp only [List.length_drop]
    omega

/-- The blocks from the `i`-th on, one more of them. -/
theorem later_succ {ip iq : ℕ → ℕ} (k : ℕ) : ∀ (i : ℕ) (ω : List ℕ), later ip iq (k + 1) i ω =
    blockAt ip iq (2 ^ (i + k) - lenBefore (i + k)) (ω.drop (3 * laterCount k i)) ++ later ip iq k i ω := by
  induction k with
  | zero =>
    intro i ω
    simp [later, laterCount]
  | succ k ih =>
    intro i ω
    rw [later, ih (i + 1), later, List.append_assoc]
    congr 2
    · rw [show i + 1 + k = i + (k + 1) by omega]
    · rw [List.drop_drop, List.drop_drop, List.drop_drop, laterCount]
      congr 1
      ring

end Cftp
end Verif
