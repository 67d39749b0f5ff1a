/-
Specification vocabulary for the file helpers.
-/
import Verif.Model.Files

namespace Verif.Files

/-- A file system as an operating system keeps it: the root is a directory, whatever has a node below it is a
directory, and the working directory is one. -/
structure Sound (fs : Fs) : Prop where
  root : fs.node [] = some .dir
  parent : ∀ l n, fs.node (l ++ [n]) ≠ none → fs.node l = some .dir
  cwd : fs.node fs.cwd = some .dir

/-- No file is in the way: every ancestor of the location, and the location itself, is a directory or does not
exist. -/
def Clear (fs : Fs) (l : Loc) : Prop := ∀ q, q <+: l → ∀ c, fs.node q ≠ some (.file c)

/-- `fs'` has what `fs` has, and beyond that only directories at locations satisfying `P`. -/
def OnlyAdds (fs fs' : Fs) (P : Loc → Prop) : Prop :=
  fs'.cwd = fs.cwd ∧ (∀ l n, fs.node l = some n → fs'.node l = some n) ∧
    ∀ l n, fs'.node l = some n → fs.node l = some n ∨ (n = .dir ∧ P l)

/-- The two file systems differ at most at the location. -/
def SameExcept (fs fs' : Fs) (l : Loc) : Prop := fs'.cwd = fs.cwd ∧ ∀ q, q ≠ l → fs'.node q = fs.node q

end Verif.Files
