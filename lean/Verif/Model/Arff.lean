/-
The ARFF readers of `corset/utils_data.py`. A file is the list of its lines, each with its line break, as
returned by `readlines()`.
-/
import Verif.Model.Quantile

namespace Verif

namespace Arff

/-- A line or a piece of one. -/
abbrev Text := List Char

/-- `text.split(c)` for a separator of one character. -/
def splitChar (c : Char) : Text → List Text
  | [] => [[]]
  | x :: xs =>
    if x = c then [] :: splitChar c xs
    else match splitChar c xs with
      | [] => [[x]]
      | y :: ys => (x :: y) :: ys

/-- The digits of a number, the most significant first, after the value read so far. -/
def digits : ℕ → Text → Option ℕ
  | acc, [] => some acc
  | acc, c :: cs => if c.isDigit then digits (10 * acc + (c.toNat - '0'.toNat)) cs else none

/-- `text.strip()` for blanks and line breaks. -/
def strip (t : Text) : Text :=
  ((t.dropWhile Char.isWhitespace).reverse.dropWhile Char.isWhitespace).reverse

/-- `int(text)`. Simplification: underscores between digits and digits outside ASCII are not accepted. -/
def parseInt (t : Text) : Py ℤ :=
  match strip t with
  | [] => .error .valueError
  | '-' :: c :: cs => match digits 0 (c :: cs) with
    | some n => .ok (-(n : ℤ))
    | none => .error .valueError
  | '+' :: c :: cs => match digits 0 (c :: cs) with
    | some n => .ok (n : ℤ)
    | none => .error .valueError
  | cs => match digits 0 cs with
    | some n => .ok (n : ℤ)
    | none => .error .valueError

/-- `xs[:b]`. -/
def sliceTo {α : Type} (xs : List α) (b : ℤ) : List α :=
  if 0 ≤ b then xs.take b.toNat else xs.take ((xs.length : ℤ) + b).toNat

/-- `xs[a:]`. -/
def sliceFrom {α : Type} (xs : List α) (a : ℤ) : List α :=
  if 0 ≤ a then xs.drop a.toNat else xs.drop ((xs.length : ℤ) + a).toNat

/-- `line[1:-1]`. -/
def inner (line : Text) : Text := (line.drop 1).dropLast

/-- The loop over the attribute declarations (`corset/utils_data.py:496-499`), from the given line on: their
names. `IndexError` when the file ends inside. -/
def attributeNames : List Text → Py (List Text)
  | [] => .error .indexError
  | line :: rest => do
    let kind ← pyGet (splitChar ' ' line) 0
    if kind = "@attribute".toList then
      let name ← pyGet (splitChar ' ' line) 1
      let names ← attributeNames rest
      return name :: names
    else return []

/-- `A[row][int(a)] = 1` for one entry `a b` (`corset/utils_data.py:513-517`). -/
def setEntry (n : ℕ) (row : List ℕ) (el : Text) : Py (List ℕ) :=
  match splitChar ' ' el with
  | [a, _] => do
    let k ← parseInt a
    match pyIndex n k with
    | some j => .ok (row.set j 1)
    | none => .error .indexError
  | _ => .error .valueError

/-- One data line of a sparse file (`corset/utils_data.py:511-517`). -/
def sparseRow (n : ℕ) (line : Text) : Py (List ℕ) :=
  (splitChar ',' (inner line)).foldlM (setEntry n) (List.replicate n 0)

/-- `read_data_arff_sparse` (`corset/utils_data.py:490-527`): features, labels and label names.
`numpy.zeros` raises `ValueError` when the file ends before the data. -/
def readSparse (lines : List Text) (nLabels : ℤ) : Py (List (List ℕ) × List (List ℕ) × List Text) := do
  let names ← attributeNames (lines.drop 2)
  let labelNames := sliceFrom names (-nLabels)
  if lines.length < names.length + 4 then .error .valueError
  else do
    let A ← (lines.drop (names.length + 4)).mapM (sparseRow names.length)
    let split := (names.length : ℤ) - nLabels
    return (A.map fun r => sliceTo r split, A.map fun r => sliceFrom r split, labelNames)

/-- The loop over the attribute declarations of a dense file (`corset/utils_data.py:548-554`): for each its
name and whether its type is `numeric`. -/
def denseAttributes : List Text → Py (List (Text × Bool))
  | [] => .error .indexError
  | line :: rest => do
    let kind ← pyGet (splitChar ' ' line) 0
    if kind = "@attribute".toList then
      let type ← pyGet (splitChar ' ' line) 2
      let name ← pyGet (splitChar ' ' line) 1
      let as ← denseAttributes rest
      return (name, decide (type = "numeric\n".toList)) :: as
    else return []

/-- One data line of a dense file (`corset/utils_data.py:570-576`): the texts between the commas, the empty
text as 0. A line with a single value is broadcast by numpy. `parse` is `float` followed by rounding to
`float16`. -/
def denseRow (parse : Text → Py ℚ) (n : ℕ) (line : Text) : Py (List ℚ) := do
  let vs ← (splitChar ',' (inner line)).mapM fun t => if t = [] then .ok 0 else parse t
  if vs.length = n then .ok vs
  else if vs.length = 1 then .ok (List.replicate n (vs.headD 0))
  else .error .valueError

/-- Column `i` of a matrix given by its rows. -/
def column (D : List (List ℚ)) (i : ℕ) : List ℚ := D.map fun r => r.getD i 0

/-- The loop over the numeric columns (`corset/utils_data.py:594-602, 713-723`); `IndexError` for a column that
is not among the `w` features. `bin` treats one column. -/
def binariseAll (bin : List ℚ → ℚ → Py (List ℚ)) (sparsity : ℚ) (w : ℕ) : List ℕ → List (List ℚ) → Py (List (List ℚ))
  | [], D => .ok D
  | i :: is, D =>
    if w ≤ i then .error .indexError
    else do
      let col ← bin (column D i) sparsity
      binariseAll bin sparsity w is ((List.range D.length).map fun r => (D.getD r []).set i (col.getD r 0))

/-- `numpy.unique`. -/
def unique (col : List ℚ) : List ℚ := (Quantile.sorted col).dedup

/-- `astype('int')`: truncation. -/
def truncate (v : ℚ) : ℤ := if 0 ≤ v then ⌊v⌋ else -⌊-v⌋

/-- The last part of `read_data_arff_dense` (`corset/utils_data.py:605-631`): a column that is neither numeric
nor has at most two values is replaced by one column for each value, at the end. `pandas.get_dummies` orders
these by value. -/
def dummies (numeric : List ℕ) (w : ℕ) (D : List (List ℚ)) : List (List ℤ) :=
  let notBinary := (List.range w).filter fun x => x ∉ numeric ∧ 2 < (unique (column D x)).length
  let kept := (List.range w).filter fun x => x ∉ notBinary
  D.map fun r => (kept.map fun x => truncate (r.getD x 0)) ++
    notBinary.flatMap fun x => (unique (column D x)).map fun v => if r.getD x 0 = v then 1 else 0

/-- `read_data_arff_dense` (`corset/utils_data.py:543-631`): features, labels and label names. -/
def readDense (parse : Text → Py ℚ) (lines : List Text) (nLabels : ℤ) (sparsity : ℚ) :
    Py (List (List ℤ) × List (List ℤ) × List Text) := do
  let attrs ← denseAttributes (lines.drop 2)
  let labelNames := sliceFrom (attrs.map Prod.fst) (-nLabels)
  let n := attrs.length
  if lines.length < n + 4 then .error .valueError
  else do
    let A ← (lines.drop (n + 4)).mapM (denseRow parse n)
    let split := (n : ℤ) - nLabels
    let w := (sliceTo (List.range n) split).length
    let numeric := (List.range n).filter fun i => (attrs.getD i ([], false)).2
    let D ← binariseAll Quantile.binarise sparsity w numeric (A.map fun r => sliceTo r split)
    return (dummies numeric w D, (A.map fun r => sliceFrom r split).map (·.map truncate), labelNames)

end Arff

end Verif
