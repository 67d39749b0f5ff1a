/-
Random programs. A modelled function that calls `numpy.random` or `random` becomes a `Rand` value: a
tree whose inner nodes are draws from a finite distribution and whose leaves are the values returned
or the exceptions raised. Two readings are given: the outcomes that have positive probability, and the
expectation of a quantity over the outcome.

Simplification: the pseudo-random generator and its seeds are replaced by exact draws from the
distribution the code asks for, and floating-point probabilities by rationals.
-/
import Verif.Py

namespace Verif

/-- A random program returning `α` or raising. -/
inductive Rand (α : Type) : Type
  | done (r : Py α) : Rand α
  | choice (p : List ℚ) (k : ℕ → Rand α) : Rand α

namespace Rand

/-- Sequential composition; an exception ends the program. -/
def bind {α β : Type} : Rand α → (α → Rand β) → Rand β
  | done (.ok a), f => f a
  | done (.error e), _ => done (.error e)
  | choice p k, f => choice p fun i => (k i).bind f

instance : Monad Rand where
  pure a := done (.ok a)
  bind := bind

/-- `raise e`. -/
def raise {α : Type} (e : PyErr) : Rand α := done (.error e)

/-- A deterministic computation inside a random program. -/
def lift {α : Type} (r : Py α) : Rand α := done r

/-- The result `r` can occur: every draw leading to it has positive probability. -/
def Outcome {α : Type} : Rand α → Py α → Prop
  | done r, x => x = r
  | choice p k, x => ∃ i, ∃ h : i < p.length, 0 < p[i] ∧ (k i).Outcome x

/-- Expected value of a quantity of the result. -/
def expect {α : Type} (f : Py α → ℚ) : Rand α → ℚ
  | done r => f r
  | choice p k => ∑ i : Fin p.length, p[i] * (k i).expect f

/-- Probability that the program ends with the given result. -/
def prob {α : Type} [DecidableEq α] (m : Rand α) (r : Py α) : ℚ :=
  m.expect fun x => if x = r then 1 else 0

/-- Every draw of the program is from a probability distribution. -/
def Proper {α : Type} : Rand α → Prop
  | done _ => True
  | choice p k => (∀ q ∈ p, 0 ≤ q) ∧ p.sum = 1 ∧ ∀ i, (k i).Proper

end Rand

/-- `numpy.random.choice(numpy.arange(len(p)), p=p)`: draws index `i` with probability `p[i]`;
`ValueError` if `p` is empty, has a negative entry or does not sum to one (numpy allows a small
rounding error in the sum, which exact arithmetic does not need). -/
def npChoice (p : List ℚ) : Rand ℕ :=
  if p ≠ [] ∧ (∀ q ∈ p, 0 ≤ q) ∧ p.sum = 1 then .choice p fun i => .done (.ok i)
  else .raise .valueError

/-- A uniform draw from `0 .. n-1` (`numpy.random.choice(n)`, `random.choice` on `n` items);
`ValueError` when there is nothing to draw from. -/
def uniformIdx (n : ℕ) : Rand ℕ :=
  if n = 0 then .raise .valueError else .choice (List.replicate n (1 / (n : ℚ))) fun i => .done (.ok i)

/-- `numpy.random.rand() < q`, `numpy.random.binomial(1, q)`: true with probability `q` clamped to
`[0, 1]`. -/
def bernoulli (q : ℚ) : Rand Bool :=
  .choice [max 0 (min 1 q), 1 - max 0 (min 1 q)] fun i => .done (.ok (i == 0))

end Verif
