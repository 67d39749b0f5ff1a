/-
The file helpers of `corset/utils.py`: directories, saving and loading.

The file system maps locations (the names from the root down) to directories and files. Paths are lists of
names, relative to the working directory or absolute. Not modelled: `.` and `..`, repeated and trailing
slashes, symbolic links, permissions, a full disk, deletion by other programs.
-/
import Mathlib.Data.List.Basic
import Mathlib.Logic.Function.Basic

namespace Verif.Files

/-- The `OSError`s that occur, the `TypeError` of `json`, and the errors of `pickle` on a damaged file. -/
inductive FileErr
  | fileExists | fileNotFound | notADirectory | isADirectory | typeError | unpickling
  deriving DecidableEq

/-- The names from the root to a node. -/
abbrev Loc := List String

/-- A directory, or a file with its content. -/
inductive Node
  | dir
  | file (content : List Char)
  deriving DecidableEq

/-- The file system and the working directory of the process. -/
structure Fs where
  node : Loc → Option Node
  cwd : Loc

/-- A path; the empty string is the relative path with no names. -/
structure Path where
  abs : Bool
  comps : List String
  deriving DecidableEq

namespace Path

/-- `os.path.dirname`. -/
def dirname (p : Path) : Path := { p with comps := p.comps.dropLast }

/-- The path of the first `k` names: what repeated `os.path.split` in `os.makedirs` arrives at. -/
def first (p : Path) (k : ℕ) : Path := { p with comps := p.comps.take k }

/-- The empty string. -/
def Empty (p : Path) : Prop := p.abs = false ∧ p.comps = []

instance (p : Path) : Decidable p.Empty := inferInstanceAs (Decidable (_ ∧ _))

end Path

namespace Fs

/-- The location a path names. -/
def loc (fs : Fs) (p : Path) : Loc := if p.abs then p.comps else fs.cwd ++ p.comps

/-- `os.path.exists`: false for the empty string. -/
def pathExists (fs : Fs) (p : Path) : Bool := !decide p.Empty && (fs.node (fs.loc p)).isSome

/-- Some proper ancestor of the location is a file. -/
def blocked (fs : Fs) (l : Loc) : Bool :=
  l.dropLast.inits.any fun q => match fs.node q with
    | some (.file _) => true
    | _ => false

/-- A node is put at a location. -/
def put (fs : Fs) (l : Loc) (n : Node) : Fs := { fs with node := Function.update fs.node l (some n) }

/-- `os.mkdir`. -/
def mkdir (fs : Fs) (p : Path) : Except FileErr Fs :=
  if p.Empty then .error .fileNotFound
  else if (fs.node (fs.loc p)).isSome then .error .fileExists
  else if fs.blocked (fs.loc p) then .error .notADirectory
  else if fs.node (fs.loc p).dropLast = some .dir then .ok (fs.put (fs.loc p) .dir)
  else .error .fileNotFound

end Fs

/-! ### `makedir`, one system call at a time -/

/-- Where a process is in `makedir`. -/
inductive Pc
  /-- before `os.path.exists(d)`, `corset/utils.py:36` -/
  | check
  /-- in `os.makedirs`, `corset/utils.py:37`, of the first `k` names, before it looks whether the parent
  exists -/
  | descend (k : ℕ)
  /-- in `os.makedirs` of the first `k` names, before `os.mkdir` -/
  | create (k : ℕ)
  /-- returned or raised -/
  | done (r : Except FileErr Unit)

/-- A process in `makedir`; `target` is `d` after line 34. -/
structure Proc where
  target : Path
  pc : Pc

/-- Line 33-34 of `makedir`, `corset/utils.py:32-37`. -/
def begin (d : Path) (usedir : Bool) : Proc := { target := if usedir then d.dirname else d, pc := .check }

/-- The next system call of a process. `os.makedirs` ignores `FileExistsError` from the creation of a
parent, not from the last creation. -/
def step (fs : Fs) (p : Proc) : Fs × Proc :=
  match p.pc with
  | .check => if fs.pathExists p.target then (fs, { p with pc := .done (.ok ()) })
      else (fs, { p with pc := .descend p.target.comps.length })
  | .descend k => if k = 0 ∨ (k = 1 ∧ p.target.abs = false) then (fs, { p with pc := .create k })
      else if fs.pathExists (p.target.first (k - 1)) then (fs, { p with pc := .create k })
      else (fs, { p with pc := .descend (k - 1) })
  | .create k => match fs.mkdir (p.target.first k) with
      | .ok fs' => if p.target.comps.length ≤ k then (fs', { p with pc := .done (.ok ()) })
          else (fs', { p with pc := .create (k + 1) })
      | .error .fileExists => if p.target.comps.length ≤ k then (fs, { p with pc := .done (.error .fileExists) })
          else (fs, { p with pc := .create (k + 1) })
      | .error e => (fs, { p with pc := .done (.error e) })
  | .done _ => (fs, p)

/-- A process running alone for a number of system calls. -/
def alone : ℕ → Fs → Proc → Fs × Proc
  | 0, fs, p => (fs, p)
  | n + 1, fs, p => alone n (step fs p).1 (step fs p).2

/-- `makedir(d, usedir)`, `corset/utils.py:32-37`, with no other process around: what it leaves and the result
(`none` if it were still running). -/
def makedir (fs : Fs) (d : Path) (usedir : Bool) : Fs × Option (Except FileErr Unit) :=
  let p := begin d usedir
  let r := alone (2 * p.target.comps.length + 3) fs p
  (r.1, match r.2.pc with
    | .done e => some e
    | _ => none)

/-- Several processes on one file system, all with the same working directory. -/
structure System where
  fs : Fs
  procs : List Proc

/-- The scheduler lets process `i` do its next system call. -/
def System.stepAt (s : System) (i : ℕ) : System :=
  match s.procs[i]? with
  | none => s
  | some p => { fs := (step s.fs p).1, procs := s.procs.set i (step s.fs p).2 }

/-- A schedule. -/
def System.run (s : System) (schedule : List ℕ) : System := schedule.foldl System.stepAt s

/-! ### Saving and loading -/

/-- `open(path, 'w')` and `open(path, 'wb')`: creates the file or empties it. -/
def openWrite (fs : Fs) (p : Path) : Except FileErr Fs :=
  if p.Empty then .error .fileNotFound
  else match fs.node (fs.loc p) with
  | some .dir => .error .isADirectory
  | some (.file _) => .ok (fs.put (fs.loc p) (.file []))
  | none => if fs.blocked (fs.loc p) then .error .notADirectory
      else if fs.node (fs.loc p).dropLast = some .dir then .ok (fs.put (fs.loc p) (.file []))
      else .error .fileNotFound

/-- `open(path, 'rb')` and reading everything. -/
def readAll (fs : Fs) (p : Path) : Except FileErr (List Char) :=
  if p.Empty then .error .fileNotFound
  else match fs.node (fs.loc p) with
  | some .dir => .error .isADirectory
  | some (.file c) => .ok c
  | none => if fs.blocked (fs.loc p) then .error .notADirectory else .error .fileNotFound

/-- The states a save goes through, one per system call: the given one, the emptied file, and the file after
each piece that reaches the disk. How the buffers cut the text into pieces is arbitrary. A crash leaves one of
these states. -/
def saveStates (fs : Fs) (p : Path) (pieces : List (List Char)) : List Fs :=
  match openWrite fs p with
  | .error _ => [fs]
  | .ok fs1 => fs :: pieces.inits.map fun done => fs1.put (fs.loc p) (.file done.flatten)

/-- `save_file(string, path)`, `corset/utils.py:43-45`. -/
def saveFile (fs : Fs) (p : Path) (string : List Char) : Fs × Except FileErr Unit :=
  match openWrite fs p with
  | .error e => (fs, .error e)
  | .ok fs1 => (fs1.put (fs.loc p) (.file string), .ok ())

/-- `save_json(obj, path)`, `corset/utils.py:51-53`. `json.dump` writes the chunks of its encoder one by one;
`chunks` are those produced before the encoder ends or, if `bad`, meets a value it cannot encode. The `with`
block closes the file, so that what was written stays. -/
def saveJson (fs : Fs) (p : Path) (chunks : List (List Char)) (bad : Bool) : Fs × Except FileErr Unit :=
  match openWrite fs p with
  | .error e => (fs, .error e)
  | .ok fs1 => (fs1.put (fs.loc p) (.file chunks.flatten), if bad then .error .typeError else .ok ())

/-- `save_pickle(obj, path)`, `corset/utils.py:40-41`, for an object that can be pickled as `code`. The file is
opened before the object is encoded and closed when its last reference is dropped, at the end of the
statement. -/
def savePickle {α : Type} (code : α → List Char) (fs : Fs) (obj : α) (p : Path) : Fs × Except FileErr Unit :=
  saveFile fs p (code obj)

/-- `load_pickle(path)`, `corset/utils.py:47-48`; `decode` gives nothing on a text that is no complete pickle. -/
def loadPickle {α : Type} (decode : List Char → Option α) (fs : Fs) (p : Path) : Except FileErr α :=
  match readAll fs p with
  | .error e => .error e
  | .ok c => match decode c with
    | some a => .ok a
    | none => .error .unpickling

/-- `makedir(output_path, usedir=True); save_json(test_perf, output_path)`,
`scripts/tune_and_eval.py:160-162`. -/
def saveResults (fs : Fs) (p : Path) (chunks : List (List Char)) (bad : Bool) : Fs × Except FileErr Unit :=
  match makedir fs p true with
  | (fs1, some (.ok ())) => saveJson fs1 p chunks bad
  | (fs1, some (.error e)) => (fs1, .error e)
  | (fs1, none) => (fs1, .error .fileNotFound)

/-- `tempfile.mkdtemp(prefix=prefix, suffix=suffix, dir=dir)`: `names` are the candidate names, `prefix` and
`suffix` included, in the order in which they are tried. `dir` names an existing directory. -/
def mkdtemp (fs : Fs) (dir : Path) : List String → Fs × Except FileErr Path
  | [] => (fs, .error .fileExists)
  | n :: names =>
    match fs.mkdir { dir with comps := dir.comps ++ [n] } with
    | .ok fs' => (fs', .ok { dir with comps := dir.comps ++ [n] })
    | .error .fileExists => mkdtemp fs dir names
    | .error e => (fs, .error e)

/-- `get_tempdir(prefix, suffix, dir)`, `corset/utils.py:26-29`; `tmp` is the directory `tempfile` uses when
`dir` is `None`. -/
def getTempdir (fs : Fs) (tmp : Path) (dir : Option Path) (names : List String) : Fs × Except FileErr Path :=
  match dir with
  | none => mkdtemp fs tmp names
  | some d =>
    match makedir fs d false with
    | (fs1, some (.ok ())) => mkdtemp fs1 d names
    | (fs1, some (.error e)) => (fs1, .error e)
    | (fs1, none) => (fs1, .error .fileNotFound)

end Verif.Files
