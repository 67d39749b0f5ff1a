/-
The two generators of synthetic data of `corset/utils_data.py`: rules are drawn, then examples they cover,
then noise is added; a test set is made from the same rules.

Simplifications: sizes are natural numbers; the quotient and the products with the noise proportion, 0.4 and
0.3 are exact; a Python list made from a set lists its elements without repetition, in an order that is not
that of Python.
-/
import Verif.Model.Data

namespace Verif

namespace Synthetic

/-- A rule: attributes of the head, labels of the tail. -/
abbrev GenRule := List ℕ × List ℕ

/-- A matrix as the list of its rows. -/
abbrev Matrix := List (List ℤ)

/-- `np.zeros((n, m))` (`corset/utils_data.py:84, 86, 179-180, 242, 244, 317-318`). -/
def zeros (n m : ℕ) : Matrix := List.replicate n (List.replicate m 0)

/-- `M[r][c] = v` (`corset/utils_data.py:128, 130, 192, 194, 267, 269, 328, 330`). -/
def setCell (M : Matrix) (r c : ℕ) (v : ℤ) : Py Matrix :=
  if h : r < M.length then
    if c < M[r].length then .ok (M.set r (M[r].set c v)) else .error .indexError
  else .error .indexError

/-- `M[r][c]` (`corset/utils_data.py:156, 167, 217, 228, 294, 305, 353, 364`). -/
def getCell (M : Matrix) (r c : ℕ) : Py ℤ :=
  if h : r < M.length then
    if h' : c < M[r].length then .ok M[r][c] else .error .indexError
  else .error .indexError

/-- `random.choices(population, weights=w, k=k)` on the population `0 .. len(w)-1`
(`corset/utils_data.py:104-105`): `IndexError` for an empty population. -/
def choices (w : List ℚ) : ℕ → Rand (List ℕ)
  | 0 => if w = [] then .raise .indexError else pure []
  | k + 1 =>
    if w = [] then .raise .indexError
    else do
      let i ← npChoice (w.map (· / w.sum))
      let is ← choices w k
      return i :: is

/-- `random.choices([x for x in range(2, n)], weights=[1/x ...], k=1)[0]`
(`corset/utils_data.py:101-102`). -/
def drawSize (n : ℕ) : Rand ℕ := do
  let l ← choices ((List.range (n - 2)).map fun x : ℕ => 1 / ((x : ℚ) + 2)) 1
  let i ← Rand.lift (pyGet l 0)
  return i + 2

/-- `random.sample(population, k)` (`corset/utils_data.py:120, 186, 253-254, 261, 324`): `k` elements without
replacement; `ValueError` if there are fewer. -/
def sample : List ℕ → ℕ → Rand (List ℕ)
  | _, 0 => pure []
  | xs, k + 1 => do
    let i ← uniformIdx xs.length
    let x ← Rand.lift (pyGet xs (i : ℤ))
    let rest ← sample (xs.eraseIdx i) k
    return x :: rest

/-- `np.random.randint(low=lo, high=hi)` (`corset/utils_data.py:251-252`). -/
def randint (lo hi : ℕ) : Rand ℕ := do
  let i ← uniformIdx (hi - lo)
  return lo + i

/-- A rule of the generator with the word "diverse" in its name (`corset/utils_data.py:98-116`). The weights
are made anew for every rule; halving them afterwards changes lists that are not used again, and is left
out. -/
def drawDiverseRule (nf nl : ℕ) : Rand GenRule := do
  let headSize ← drawSize nf
  let labelSize ← drawSize nl
  let head ← choices (List.replicate nf 1) headSize
  let tail ← choices (List.replicate nl 1) labelSize
  return (head.dedup, tail.dedup)

/-- A rule of the other generator (`corset/utils_data.py:251-256`). -/
def drawRule (nf nl : ℕ) : Rand GenRule := do
  let headSize ← randint 2 nf
  let labelSize ← randint 1 nl
  let head ← sample (List.range nf) headSize
  let tail ← sample (List.range nl) labelSize
  return (head, tail)

/-- The assignments `M[example][c] = 1` for one rule (`corset/utils_data.py:126-130, 190-194, 265-269,
326-330`). The code runs through features and labels of an example together; as they go to two matrices the
order does not matter. -/
def mark (M : Matrix) (covered cols : List ℕ) : Py Matrix :=
  covered.foldlM (fun M e => cols.foldlM (fun M c => setCell M e c 1) M) M

/-- The number of cells to be swapped (`corset/utils_data.py:141-142, 205-206, 279-280, 341-342`). -/
def swaps (n m : ℕ) (noise : ℚ) : ℕ := (pyInt ((n * m : ℕ) * noise)).toNat

/-- The noise loop (`corset/utils_data.py:145-156, 159-167, 209-217, 220-228, 283-294, 297-305, 345-353,
356-364`) on a matrix with `n` rows and `m` columns. -/
def addNoise (n m : ℕ) : ℕ → Matrix → Rand Matrix
  | 0, M => pure M
  | k + 1, M => do
    let r ← uniformIdx n
    let c ← uniformIdx m
    let v ← Rand.lift (getCell M r c)
    let M ← Rand.lift (setCell M r c (1 - v))
    addNoise n m k M

/-- The loop over the rules of the diverse generator (`corset/utils_data.py:90-130`): `n` examples, `R` rules in
total, `k` of them to be drawn, `left` the examples not covered yet. -/
def diverseLoop (n nf nl R : ℕ) : ℕ → Matrix → Matrix → List ℕ → List GenRule →
    Rand (Matrix × Matrix × List GenRule)
  | 0, F, L, _, rules => pure (F, L, rules)
  | k + 1, F, L, left, rules => do
    let rule ← drawDiverseRule nf nl
    let size ← uniformIdx (n / R)
    let covered ← sample left size
    let F ← Rand.lift (mark F covered rule.1)
    let L ← Rand.lift (mark L covered rule.2)
    diverseLoop n nf nl R k F L (left.filter (· ∉ covered)) (rules ++ [rule])

/-- The test loop of the diverse generator (`corset/utils_data.py:182-194`), with `t` test examples. -/
def diverseTest (t R : ℕ) : List GenRule → Matrix → Matrix → List ℕ → Rand (Matrix × Matrix)
  | [], F, L, _ => pure (F, L)
  | rule :: rules, F, L, left => do
    let size ← uniformIdx (t / R)
    let covered ← sample left size
    let left := left.filter (· ∉ covered)
    let F ← Rand.lift (mark F covered rule.1)
    let L ← Rand.lift (mark L covered rule.2)
    diverseTest t R rules F L left

/-- What a generator returns: training and test matrices and the rules. -/
structure Generated where
  F : Matrix
  L : Matrix
  Ftest : Matrix
  Ltest : Matrix
  rules : List GenRule

/-- `generate_synthetic_dataset_from_diverse_generating_rules` (`corset/utils_data.py:78-231`). -/
def diverse (n nf nl R : ℕ) (noise : ℚ) : Rand Generated := do
  let (F, L, rules) ← diverseLoop n nf nl R R (zeros n nf) (zeros n nl) (List.range n) []
  let F ← addNoise n nf (swaps n nf noise) F
  let L ← addNoise n nl (swaps n nl noise) L
  let t := (pyInt (n * (2 / 5 : ℚ))).toNat
  let (F', L') ← diverseTest t R rules (zeros n nf) (zeros n nl) (List.range t)
  let F' ← addNoise n nf (swaps n nf noise) F'
  let L' ← addNoise n nl (swaps n nl noise) L'
  return { F := F, L := L, Ftest := F', Ltest := L', rules := rules }

/-- The loop over the rules of the other generator (`corset/utils_data.py:248-305`). Examples can be covered
again, and the noise is drawn in every round on copies of the clean matrices; `noisy` holds the copies of
the last round, `none` before the first. -/
def plainLoop (n nf nl R : ℕ) (noise : ℚ) : ℕ → Matrix → Matrix → Option (Matrix × Matrix) → List GenRule →
    Rand (Option (Matrix × Matrix) × List GenRule)
  | 0, _, _, noisy, rules => pure (noisy, rules)
  | k + 1, F, L, _, rules => do
    let rule ← drawRule nf nl
    let size ← uniformIdx (n / R)
    let covered ← sample (List.range n) size
    let F ← Rand.lift (mark F covered rule.1)
    let L ← Rand.lift (mark L covered rule.2)
    let F' ← addNoise n nf (swaps n nf noise) F
    let L' ← addNoise n nl (swaps n nl noise) L
    plainLoop n nf nl R noise k F L (some (F', L')) (rules ++ [rule])

/-- The test loop of the other generator (`corset/utils_data.py:320-330`). -/
def plainTest (t R : ℕ) : List GenRule → Matrix → Matrix → Rand (Matrix × Matrix)
  | [], F, L => pure (F, L)
  | rule :: rules, F, L => do
    let size ← uniformIdx (t / R)
    let covered ← sample (List.range t) size
    let F ← Rand.lift (mark F covered rule.1)
    let L ← Rand.lift (mark L covered rule.2)
    plainTest t R rules F L

/-- `generate_synthetic_dataset_from_generating_rules` (`corset/utils_data.py:235-367`). -/
def plain (n nf nl R : ℕ) (noise : ℚ) : Rand Generated := do
  let (noisy, rules) ← plainLoop n nf nl R noise R (zeros n nf) (zeros n nl) none []
  let t := (pyInt (n * (3 / 10 : ℚ))).toNat
  let (F', L') ← plainTest t R rules (zeros n nf) (zeros n nl)
  let F' ← addNoise n nf (swaps n nf noise) F'
  let L' ← addNoise n nl (swaps n nl noise) L'
  match noisy with
  | none => Rand.raise .unboundLocalError
  | some (F, L) => return { F := F, L := L, Ftest := F', Ltest := L', rules := rules }

end Synthetic

end Verif
