/-
Specification vocabulary for printed texts.
-/
import Mathlib.Data.Real.Basic

namespace Verif

/-- The number denoted by a list of decimal digits. -/
def digitsValue (s : List Char) : ℕ := s.foldl (fun a c => 10 * a + (c.toNat - '0'.toNat)) 0

/-- `s` is the number `n` written in decimal, without leading zeros. -/
structure Decimal (s : List Char) (n : ℕ) : Prop where
  nonempty : s ≠ []
  digits : ∀ c ∈ s, c.isDigit = true
  leading : s.head? = some '0' → s = ['0']
  value : digitsValue s = n

/-- `s` is the number `k / 100` written with exactly two decimals. -/
def Decimal2 (s : List Char) (k : ℕ) : Prop :=
  ∃ a f : List Char, s = a ++ '.' :: f ∧ Decimal a (k / 100) ∧ f.length = 2 ∧ (∀ c ∈ f, c.isDigit = true) ∧
    digitsValue f = k % 100

/-- `k / 100` is a nearest number with two decimals to `x`. -/
def Nearest2 (k : ℕ) (x : ℝ) : Prop := |(k : ℝ) / 100 - x| ≤ 1 / 200

/-- The text of a rule's summary showing the numbers of head and tail items, the support, the area, and the
two rates `p / 100` and `q / 100`. -/
def SummaryText (s : List Char) (H L supp area p q : ℕ) : Prop :=
  ∃ a b c d e f : List Char, Decimal a H ∧ Decimal b L ∧ Decimal c supp ∧ Decimal d area ∧ Decimal2 e p ∧
    Decimal2 f q ∧
    s = "Rule(|H|=".toList ++ a ++ ", |L|=".toList ++ b ++ ", |supp|=".toList ++ c ++ ", area=".toList ++ d ++
      ", p=".toList ++ e ++ ", q=".toList ++ f ++ ")".toList

/-- The line for an edge from the label called `x`, on `m` examples, to the label called `y`, on `n`
examples, showing the weight `k / 100`. -/
def EdgeText (s x : List Char) (m : ℕ) (y : List Char) (n k : ℕ) : Prop :=
  ∃ a b c : List Char, Decimal a m ∧ Decimal b n ∧ Decimal2 c k ∧
    s = x ++ " (".toList ++ a ++ ") -> ".toList ++ y ++ " (".toList ++ b ++ "): ".toList ++ c

/-- The names of labels `0, ..., n - 1`: those given, or the numbers of the labels if no names are given. -/
def LabelNames (names : Option (List (List Char))) (n : ℕ) (name : ℕ → List Char) : Prop :=
  (names = none → ∀ u < n, name u = (toString u).toList) ∧ ∀ l, names = some l → ∀ u < n, l[u]? = some (name u)

end Verif
