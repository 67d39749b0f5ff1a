/-
Lemmas on printed numbers.
-/
import Verif.Model.Printing
import Verif.Spec.Printing
import Verif.Lemmas.Float
import Verif.Lemmas.FloatGraph

namespace Verif

theorem digitsValue_eq (s : List Char) : digitsValue s = Nat.ofDigitChars 10 s 0 := Nat.ofDigitChars_eq_foldl.symm

theorem toDigits_head : ∀ n : ℕ, (Nat.toDigits 10 n).head? = some '0' → n = 0 := by
  intro n
  induction n using Nat.strong_induction_on with
  | _ n ih =>
    intro h
    by_cases hn : n < 10
    · rw [Nat.toDigits_of_lt_base hn] at h
      simpa using h
    · rw [Nat.toDigits_of_base_le (by norm_num) (by omega)] at h
      rw [List.head?_append_of_ne_nil _ Nat.toDigits_ne_nil] at h
      have := ih (n / 10) (by omega) h
      omega

theorem decimal_natText (n : ℕ) : Decimal (natText n) n where
  nonempty := Nat.toDigits_ne_nil
  digits := fun _ hc => Nat.isDigit_of_mem_toDigits (by norm_num) (by norm_num) hc
  leading := fun h => by
    have := toDigits_head n h
    subst this
    rfl
  value := by rw [digitsValue_eq]; exact Nat.ofDigitChars_ten_toDigits

theorem decimal2_digits (k : ℕ) :
    Decimal2 (natText (k / 100) ++ ['.', Nat.digitChar (k % 100 / 10), Nat.digitChar (k % 10)]) k := by
  refine ⟨natText (k / 100), [Nat.digitChar (k % 100 / 10), Nat.digitChar (k % 10)], rfl, decimal_natText _, rfl, ?_, ?_⟩
  · intro c hc
    simp only [List.mem_cons, List.not_mem_nil, or_false] at hc
    rcases hc with rfl | rfl
    · rw [Nat.isDigit_digitChar]; simp; omega
    · rw [Nat.isDigit_digitChar]; simp; omega
  · rw [digitsValue_eq, Nat.ofDigitChars_cons_digitChar_of_lt_ten (by omega),
      Nat.ofDigitChars_cons_digitChar_of_lt_ten (by omega), Nat.ofDigitChars_nil]
    omega

/-- The printed decimals are nearest to the exact quotient, not only to its double. -/
theorem nearest2_ratio {a b : ℕ} (hab : a ≤ b) (hb : 0 < b) (hB : b < 2 ^ 45) :
    Nearest2 (roundEven (100 * fl ((a : ℝ) / b))).toNat ((a : ℝ) / b) := by
  have hb' : (0 : ℝ) < b := by exact_mod_cast hb
  have hq0 : (0 : ℝ) ≤ (a : ℝ) / b := by positivity
  have hq1 : (a : ℝ) / b ≤ 1 := by rw [div_le_one hb']; exact_mod_cast hab
  have hf0 := fl_nonneg hq0
  have hk0 : 0 ≤ roundEven (100 * fl ((a : ℝ) / b)) := by
    have := roundEven_mono (x := ((0 : ℤ) : ℝ)) (y := 100 * fl ((a : ℝ) / b)) (by push_cast; positivity)
    rwa [roundEven_int] at this
  have he := roundEven_error (100 * fl ((a : ℝ) / b))
  have hfe := fl_error ((a : ℝ) / b)
  rw [abs_of_nonneg hq0] at hfe
  have hfe' : |fl ((a : ℝ) / b) - (a : ℝ) / b| ≤ 1 / 2 ^ 53 :=
    le_trans hfe (by nlinarith [hq1, show (0 : ℝ) < 1 / 2 ^ 53 by positivity])
  obtain ⟨k, hk⟩ : ∃ k : ℕ, roundEven (100 * fl ((a : ℝ) / b)) = (k : ℤ) := ⟨_, (Int.toNat_of_nonneg hk0).symm⟩
  unfold Nearest2
  rw [hk] at he ⊢
  simp only [Int.toNat_natCast]
  push_cast at he
  generalize fl ((a : ℝ) / b) = f at *
  have hB' : (b : ℝ) < 2 ^ 45 := by exact_mod_cast hB
  have hsmall : (1 : ℝ) / 2 ^ 53 < 1 / (200 * b) := by
    apply one_div_lt_one_div_of_lt (by positivity)
    nlinarith
  rw [abs_le] at he hfe' ⊢
  have hcell : ∀ j : ℤ, (0 : ℝ) < (a : ℝ) / b - j / 200 → 1 / (200 * (b : ℝ)) ≤ (a : ℝ) / b - j / 200 := by
    intro j hj
    have e : (a : ℝ) / b - j / 200 = ((200 * a - j * b : ℤ) : ℝ) / (200 * b) := by
      push_cast; field_simp
    rw [e] at hj ⊢
    have hp : (0 : ℝ) < ((200 * a - j * b : ℤ) : ℝ) := by
      by_contra hcon
      exact absurd hj (not_lt.mpr (div_nonpos_of_nonpos_of_nonneg (not_lt.mp hcon) (by positivity)))
    have : (1 : ℤ) ≤ 200 * a - j * b := by exact_mod_cast hp
    apply div_le_div_of_nonneg_right _ (by positivity)
    exact_mod_cast this
  have hcell' : ∀ j : ℤ, (0 : ℝ) < j / 200 - (a : ℝ) / b → 1 / (200 * (b : ℝ)) ≤ j / 200 - (a : ℝ) / b := by
    intro j hj
    have e : (j : ℝ) / 200 - (a : ℝ) / b = ((j * b - 200 * a : ℤ) : ℝ) / (200 * b) := by
      push_cast; field_simp
    rw [e] at hj ⊢
    have hp : (0 : ℝ) < ((j * b - 200 * a : ℤ) : ℝ) := by
      by_contra hcon
      exact absurd hj (not_lt.mpr (div_nonpos_of_nonpos_of_nonneg (not_lt.mp hcon) (by positivity)))
    have : (1 : ℤ) ≤ j * b - 200 * a := by exact_mod_cast hp
    apply div_le_div_of_nonneg_right _ (by positivity)
    exact_mod_cast this
  constructor
  · by_contra hcon
    have h1 := hcell (2 * k + 1) (by push_cast; linarith)
    push_cast at h1
    linarith
  · by_contra hcon
    have h1 := hcell' (2 * k - 1) (by push_cast; linarith)
    push_cast at h1
    linarith

theorem fixed2_ratio {a b : ℕ} (hab : a ≤ b) (hb : 0 < b) (hB : b < 2 ^ 45) :
    ∃ k, Decimal2 (fixed2 (fl ((a : ℝ) / b))) k ∧ Nearest2 k ((a : ℝ) / b) :=
  ⟨_, decimal2_digits _, nearest2_ratio hab hb hB⟩

/-! ### Reading back -/

theorem digits_append_inj {t t' : List Char} (ht : ∀ c, t.head? = some c → c.isDigit = false)
    (ht' : ∀ c, t'.head? = some c → c.isDigit = false) : ∀ {a a' : List Char}, (∀ c ∈ a, c.isDigit = true) →
    (∀ c ∈ a', c.isDigit = true) → a ++ t = a' ++ t' → a = a' ∧ t = t'
  | [], [], _, _, h => ⟨rfl, h⟩
  | [], c :: a', _, h', h => by
    have h1 : t.head? = some c := by rw [← List.nil_append t, h]; rfl
    have := ht c h1
    rw [h' c (by simp)] at this
    simp at this
  | c :: a, [], h', _, h => by
    have h1 : t'.head? = some c := by rw [← List.nil_append t', ← h]; rfl
    have := ht' c h1
    rw [h' c (by simp)] at this
    simp at this
  | c :: a, c' :: a', h1, h2, h => by
    simp only [List.cons_append, List.cons.injEq] at h
    obtain ⟨rfl, h⟩ := h
    obtain ⟨rfl, h3⟩ := digits_append_inj ht ht' (fun x hx => h1 x (by simp [hx])) (fun x hx => h2 x (by simp [hx])) h
    exact ⟨rfl, h3⟩

theorem Decimal.inj {s : List Char} {m n : ℕ} (h : Decimal s m) (h' : Decimal s n) : m = n :=
  h.value.symm.trans h'.value

theorem decimal_append_inj {a a' t t' : List Char} {m n : ℕ} (h : Decimal a m) (h' : Decimal a' n)
    (ht : ∀ c, t.head? = some c → c.isDigit = false) (ht' : ∀ c, t'.head? = some c → c.isDigit = false)
    (he : a ++ t = a' ++ t') : m = n ∧ t = t' := by
  obtain ⟨rfl, h2⟩ := digits_append_inj ht ht' h.digits h'.digits he
  exact ⟨h.inj h', h2⟩

theorem decimal2_append_inj {a a' t t' : List Char} {m n : ℕ} (h : Decimal2 a m) (h' : Decimal2 a' n)
    (he : a ++ t = a' ++ t') : m = n ∧ t = t' := by
  obtain ⟨w, f, rfl, hw, hf, -, hv⟩ := h
  obtain ⟨w', f', rfl, hw', hf', -, hv'⟩ := h'
  simp only [List.append_assoc, List.cons_append] at he
  obtain ⟨h1, h2⟩ := decimal_append_inj hw hw' (by simp) (by simp) he
  simp only [List.cons.injEq, true_and] at h2
  obtain ⟨rfl, h3⟩ := List.append_inj h2 (hf.trans hf'.symm)
  rw [hv] at hv'
  exact ⟨by omega, h3⟩

end Verif
