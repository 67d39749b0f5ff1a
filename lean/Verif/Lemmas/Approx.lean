import Verif.Lemmas.Greedy

namespace Verif
open Cmp

theorem areaDist_comm (a b : BRule) : areaDist a b = areaDist b a := by
  rw [areaDist, areaDist, Finset.inter_comm, Finset.union_comm]

theorem areaDist_nonneg (a b : BRule) : 0 ≤ areaDist a b := by
  have h : (area a ∩ area b).card ≤ (area a ∪ area b).card :=
    Finset.card_le_card Finset.inter_subset_union
  have : ((area a ∩ area b).card : ℝ) / ((area a ∪ area b).card : ℝ) ≤ 1 :=
    div_le_one_of_le₀ (by exact_mod_cast h) (by positivity)
  unfold areaDist; linarith

theorem areaDist_le_one (a b : BRule) : areaDist a b ≤ 1 := by
  unfold areaDist
  have : 0 ≤ ((area a ∩ area b).card : ℝ) / ((area a ∪ area b).card : ℝ) := by positivity
  linarith

theorem areaDist_triangle (a b c : BRule) : areaDist a c ≤ areaDist a b + areaDist b c := by
  have hac := areaDist_le_one a c
  by_cases h1 : area a ∩ area b = ∅
  · have : areaDist a b = 1 := by simp [areaDist, h1]
    have := areaDist_nonneg b c
    linarith
  by_cases h2 : area b ∩ area c = ∅
  · have : areaDist b c = 1 := by simp [areaDist, h2]
    have := areaDist_nonneg a b
    linarith
  obtain ⟨x, hx⟩ := Finset.nonempty_iff_ne_empty.mpr h1
  obtain ⟨y, hy⟩ := Finset.nonempty_iff_ne_empty.mpr h2
  rw [Finset.mem_inter] at hx hy
  have := jaccard_triangle_finset (area a) (area b) (area c) ⟨x, by simp [hx.1]⟩ ⟨x, by simp [hx.2]⟩
    ⟨x, by simp [hx.1]⟩
  have h2 := (Rat.cast_le (K := ℝ)).mpr this
  push_cast at h2
  exact h2

theorem distTo_cons (r a : BRule) (l : List BRule) : distTo r (a :: l) = areaDist r a + distTo r l := by
  simp [distTo]

theorem distTo_append (r : BRule) (l l' : List BRule) : distTo r (l ++ l') = distTo r l + distTo r l' := by
  simp [distTo]

theorem diversity_snoc (r : BRule) : ∀ l : List BRule, diversity (l ++ [r]) = diversity l + distTo r l
  | [] => by simp [diversity, distTo]
  | a :: l => by
    rw [List.cons_append, diversity, diversity_snoc r l, diversity, distTo_append, distTo_cons,
      distTo_cons, areaDist_comm r a]
    simp [distTo]; ring

theorem diversity_nonneg : ∀ l : List BRule, 0 ≤ diversity l
  | [] => le_rfl
  | a :: l => by
    rw [diversity]
    have := diversity_nonneg l
    have h2 : 0 ≤ distTo a l := List.sum_nonneg (by
      intro x hx
      obtain ⟨b, -, rfl⟩ := List.mem_map.mp hx
      exact areaDist_nonneg a b)
    linarith

/-- The diversity of a list is at most (length - 1) times the sum of distances to any fixed rule. -/
theorem diversity_le (g : BRule) : ∀ l : List BRule, diversity l ≤ ((l.length : ℝ) - 1) * distTo g l ∨ l = []
  | [] => Or.inr rfl
  | a :: l => by
    left
    have h1 : distTo a l ≤ (l.length : ℝ) * areaDist g a + distTo g l := by
      clear diversity_le
      induction l with
      | nil => simp [distTo]
      | cons b l ih =>
        rw [distTo_cons, distTo_cons]
        have := areaDist_triangle a g b
        rw [areaDist_comm a g] at this
        push_cast [List.length_cons]
        linarith
    rw [diversity, distTo_cons]
    push_cast [List.length_cons]
    rcases diversity_le g l with h | rfl
    · nlinarith
    · simp [diversity, distTo] at h1 ⊢

theorem sum_distTo_comm (O : List BRule) : ∀ G : List BRule,
    (O.map fun o => distTo o G).sum = (G.map fun g => distTo g O).sum
  | [] => by simp [distTo]
  | g :: G => by
    rw [List.map_cons, List.sum_cons, ← sum_distTo_comm O G]
    simp only [distTo_cons]
    rw [List.sum_map_add]
    congr 1
    rw [distTo, show areaDist g = fun o => areaDist o g from funext (areaDist_comm g)]

theorem sum_marginal_ge (O G : List BRule) :
    ((covered O).card : ℝ) - (covered G).card ≤ (O.map fun o => (o.marginalCoverage G : ℝ)).sum := by
  have h : (covered O \ covered G).card ≤ (O.map fun o => o.marginalCoverage G).sum := by
    induction O with
    | nil => simp [covered]
    | cons o O ih =>
      have e : covered (o :: O) = area o ∪ covered O := rfl
      rw [e, Finset.union_sdiff_distrib, List.map_cons, List.sum_cons, marginalCoverage_eq]
      exact (Finset.card_union_le _ _).trans (by omega)
  have h2 : (covered O).card ≤ (covered O \ covered G).card + (covered G).card := by
    rw [← Nat.sub_le_iff_le_add]
    exact Finset.le_card_sdiff _ _
  have h3 : ((covered O).card : ℝ) ≤ ((O.map fun o => o.marginalCoverage G).sum : ℕ) + (covered G).card := by
    exact_mod_cast h2.trans (by omega)
  rw [Nat.cast_list_sum, List.map_map] at h3
  have : (Nat.cast ∘ fun o => o.marginalCoverage G : BRule → ℝ) =
    fun o => (o.marginalCoverage G : ℝ) := rfl
  rw [this] at h3
  linarith

theorem pickLoop_ok {σ ω : Type} {S : Samplers σ ω} {obj : List BRule → BRule → Py ℝ}
    {pool : List BRule} : ∀ {n : ℕ} {sel out : List BRule}, pickLoop S obj pool n sel = .ok out →
      out.length = sel.length + n ∧ out.take sel.length = sel ∧
      ∀ i, sel.length ≤ i → ∀ (hi : i < out.length), GreedyChoice obj (out.take i) pool out[i]
  | 0, sel, out, h => by
    simp only [pickLoop, Except.ok.injEq] at h
    subst h
    exact ⟨rfl, by simp, fun i h1 h2 => by omega⟩
  | n + 1, sel, out, h => by
    rw [pickLoop] at h
    simp only [bind, Except.bind] at h
    split at h
    · simp at h
    rename_i best hb
    obtain ⟨h1, h2, h3⟩ := pickLoop_ok h
    rw [List.length_append, List.length_singleton] at h1 h2 h3
    have htake : out.take sel.length = sel := by
      have := congrArg (List.take sel.length) h2
      rw [List.take_take, Nat.min_eq_left (by omega)] at this
      simpa using this
    refine ⟨by omega, htake, ?_⟩
    intro i hi1 hi2
    by_cases hie : i = sel.length
    · subst hie
      have hg : out[sel.length] = best := by
        have := congrArg (fun l => l[sel.length]?) h2
        simp only [List.getElem?_take] at this
        rw [if_pos (by omega), List.getElem?_eq_getElem hi2] at this
        simpa using this
      rw [hg, htake]
      exact selectBest_ok hb
    · exact h3 i (by omega) hi2

/-- The greedy exchange argument on an abstract sequence of picks, each within `slack` of the best. -/
theorem greedy_approx_slack (slack : ℝ) (pool G O : List BRule) (k : ℕ) (hk : G.length = k) (hO : O.length = k)
    (hOp : ∀ o ∈ O, o ∈ pool) (lambd κ : ℝ) (hl : 0 ≤ lambd) (hκ : 0 ≤ κ) (kl : BRule → ℝ)
    (hkl : ∀ o ∈ O, κ ≤ kl o)
    (hgr : ∀ i (hi : i < G.length), ∀ c ∈ pool,
      kl c * c.marginalCoverage (G.take i) + lambd * distTo c (G.take i) ≤
        kl G[i] * (G[i]).marginalCoverage (G.take i) + lambd * distTo G[i] (G.take i) + slack) :
    κ * (covered O).card + lambd * diversity O / 2 ≤
      (∑ i ∈ Finset.range k, if h : i < G.length then kl G[i] * (G[i]).marginalCoverage (G.take i) else 0)
      + κ * (covered G).card + lambd * diversity G + k * slack := by
  set V : ℕ → ℝ := fun i => if h : i < G.length then
    kl G[i] * (G[i]).marginalCoverage (G.take i) else 0 with hV
  set D : ℕ → ℝ := fun i => if h : i < G.length then distTo G[i] (G.take i) else 0 with hD
  have hdiv : ∀ n ≤ G.length, ∑ i ∈ Finset.range n, D i = diversity (G.take n) := by
    intro n
    induction n with
    | zero => intro _; simp [diversity]
    | succ n ih =>
      intro hn
      rw [Finset.sum_range_succ, ih (by omega), List.take_add_one,
        List.getElem?_eq_getElem (by omega), Option.toList_some, diversity_snoc]
      simp [hD, show n < G.length by omega]
  rcases Nat.eq_zero_or_pos k with rfl | hkpos
  · rw [List.length_eq_zero_iff] at hk hO
    subst hk; subst hO
    simp [covered, diversity]
  have hkr : (0 : ℝ) < k := by exact_mod_cast hkpos
  set c : ℝ := diversity O / ((k : ℝ) - 1) with hc
  have hge : ∀ g, c ≤ distTo g O := by
    intro g
    rcases diversity_le g O with h | h
    · rw [hO] at h
      rcases Nat.lt_or_ge 1 k with h1 | h1
      · have : (0 : ℝ) < (k : ℝ) - 1 := by
          have : (1 : ℝ) < k := by exact_mod_cast h1
          linarith
        rw [hc, div_le_iff₀ this]
        linarith
      · have : k = 1 := by omega
        rw [hc, this]
        simp only [Nat.cast_one, sub_self, div_zero]
        exact List.sum_nonneg (by
          intro x hx
          obtain ⟨b, -, rfl⟩ := List.mem_map.mp hx
          exact areaDist_nonneg g b)
    · rw [h] at hO; simp at hO; omega
  have hck : c * ((k : ℝ) * ((k : ℝ) - 1) / 2) = k * diversity O / 2 := by
    rcases Nat.lt_or_ge 1 k with h1 | h1
    · have : (k : ℝ) - 1 ≠ 0 := by
        have : (1 : ℝ) < k := by exact_mod_cast h1
        linarith
      rw [hc]; field_simp
    · have h1k : k = 1 := by omega
      have : diversity O = 0 := by
        rw [h1k] at hO
        obtain ⟨o, rfl⟩ := List.length_eq_one_iff.mp hO
        simp [diversity, distTo]
      rw [this, hc, this]; simp
  have hstep : ∀ i ∈ Finset.range k, κ * ((covered O).card - (covered G).card) + lambd * (i * c) ≤
      k * (V i + lambd * D i + slack) := by
    intro i hi
    have hi' : i < G.length := by rw [hk]; exact Finset.mem_range.mp hi
    have hVi : V i = kl G[i] * (G[i]).marginalCoverage (G.take i) := by simp [hV, hi']
    have hDi : D i = distTo G[i] (G.take i) := by simp [hD, hi']
    have hsum : (O.map fun o => κ * (o.marginalCoverage (G.take i) : ℝ) +
        lambd * distTo o (G.take i)).sum ≤ (O.map fun _ => V i + lambd * D i + slack).sum := by
      apply List.sum_le_sum
      intro o ho
      rw [hVi, hDi]
      refine le_trans ?_ (hgr i hi' o (hOp o ho))
      have := mul_le_mul_of_nonneg_right (hkl o ho)
        (Nat.cast_nonneg (α := ℝ) (o.marginalCoverage (G.take i)))
      linarith
    rw [List.map_const', List.sum_replicate, hO, nsmul_eq_mul, List.sum_map_add] at hsum
    have e1 : (O.map fun o => κ * (o.marginalCoverage (G.take i) : ℝ)).sum =
        κ * (O.map fun o => (o.marginalCoverage (G.take i) : ℝ)).sum := List.sum_map_mul_left ..
    have e2 : (O.map fun o => lambd * distTo o (G.take i)).sum =
        lambd * (O.map fun o => distTo o (G.take i)).sum := List.sum_map_mul_left ..
    rw [e1, e2, sum_distTo_comm] at hsum
    have hm := sum_marginal_ge O (G.take i)
    have hmono : ((covered (G.take i)).card : ℝ) ≤ (covered G).card := by
      have : (covered (G.take i)).card ≤ (covered G).card := by
        apply Finset.card_le_card
        intro x hx
        rw [mem_covered] at hx ⊢
        obtain ⟨r, hr, hxr⟩ := hx
        exact ⟨r, List.mem_of_mem_take hr, hxr⟩
      exact_mod_cast this
    have hd : (i : ℝ) * c ≤ ((G.take i).map fun g => distTo g O).sum := by
      have := List.sum_le_sum (l := G.take i) (f := fun _ => c) (g := fun g => distTo g O)
        (fun g _ => hge g)
      rw [List.map_const', List.sum_replicate, List.length_take, Nat.min_eq_left hi'.le,
        nsmul_eq_mul] at this
      exact this
    have h1 : κ * ((covered O).card - (covered G).card : ℝ) ≤
        κ * (O.map fun o => (o.marginalCoverage (G.take i) : ℝ)).sum :=
      mul_le_mul_of_nonneg_left (by linarith) hκ
    have h2 := mul_le_mul_of_nonneg_left hd hl
    linarith
  have hall := Finset.sum_le_sum hstep
  rw [Finset.sum_add_distrib, Finset.sum_const, Finset.card_range, nsmul_eq_mul, ← Finset.mul_sum,
    ← Finset.mul_sum, ← Finset.sum_mul, Finset.sum_add_distrib, Finset.sum_add_distrib, ← Finset.mul_sum,
    Finset.sum_const, Finset.card_range, nsmul_eq_mul] at hall
  have hgauss : (∑ i ∈ Finset.range k, (i : ℝ)) = (k : ℝ) * ((k : ℝ) - 1) / 2 := by
    have := Finset.sum_range_id_mul_two k
    have h2 : ((∑ i ∈ Finset.range k, i : ℕ) : ℝ) * 2 = (k : ℝ) * ((k - 1 : ℕ) : ℝ) := by
      exact_mod_cast this
    rw [Nat.cast_sub hkpos] at h2
    push_cast at h2
    linarith
  have hDs := hdiv k (by omega)
  rw [← hk, List.take_length, hk] at hDs
  rw [hgauss, hDs, mul_comm ((k : ℝ) * _ / 2) c, hck] at hall
  have : k * (κ * ((covered O).card - (covered G).card) + lambd * diversity O / 2) ≤
      k * (∑ i ∈ Finset.range k, V i + lambd * diversity G + k * slack) := by
    linarith
  have := le_of_mul_le_mul_left this hkr
  linarith

/-- The greedy exchange argument on an abstract sequence of best picks. -/
theorem greedy_approx (pool G O : List BRule) (k : ℕ) (hk : G.length = k) (hO : O.length = k)
    (hOp : ∀ o ∈ O, o ∈ pool) (lambd κ : ℝ) (hl : 0 ≤ lambd) (hκ : 0 ≤ κ) (kl : BRule → ℝ)
    (hkl : ∀ o ∈ O, κ ≤ kl o)
    (hgr : ∀ i (hi : i < G.length), ∀ c ∈ pool,
      kl c * c.marginalCoverage (G.take i) + lambd * distTo c (G.take i) ≤
        kl G[i] * (G[i]).marginalCoverage (G.take i) + lambd * distTo G[i] (G.take i)) :
    κ * (covered O).card + lambd * diversity O / 2 ≤
      (∑ i ∈ Finset.range k, if h : i < G.length then kl G[i] * (G[i]).marginalCoverage (G.take i) else 0)
      + κ * (covered G).card + lambd * diversity G := by
  have := greedy_approx_slack 0 pool G O k hk hO hOp lambd κ hl hκ kl hkl
    (fun i hi c hc => by rw [add_zero]; exact hgr i hi c hc)
  rwa [mul_zero, add_zero] at this

end Verif
