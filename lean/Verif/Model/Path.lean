import Verif.Model.GoMap

/-! # Paths and a file system

`path.Join` and `path.Clean` of the Go library for a rooted first argument, and the calls of package `os` on a
tree of files and directories without symbolic links. -/

namespace Verif.Path

/-- A cleaned rooted path: its components. -/
abbrev Path := List Bytes

/-- Split at `/` (47). -/
def split : Bytes → List Bytes
  | [] => [[]]
  | c :: r =>
    if c = 47 then [] :: split r
    else
      match split r with
      | [] => [[c]]
      | w :: ws => (c :: w) :: ws

/-- One component of `path.Clean`: empty and `.` vanish, `..` removes the last component (at the root
nothing). -/
def push (p : Path) (c : Bytes) : Path :=
  if c = [] ∨ c = [46] then p
  else if c = [46, 46] then p.dropLast
  else p ++ [c]

/-- `path.Join(p, name)` -/
def join (p : Path) (name : Bytes) : Path := (split name).foldl push p

/-- An entry of the file system. -/
inductive Node where
  | dir
  | file (data : Bytes)
  deriving DecidableEq, Repr

/-- The entries; the root itself is not listed. -/
abbrev FS := GoMap Path Node

/-- The path is a directory. -/
def isDir (fs : FS) (p : Path) : Bool := p = [] || fs.get p = some .dir

/-- `os.Stat` succeeds. -/
def exist (fs : FS) (p : Path) : Bool := p = [] || (fs.get p).isSome

/-- `os.MkdirAll` of the components `cs` below `p`. It stops with an error at a file. -/
def mkdirAll (fs : FS) (p : Path) : List Bytes → FS
  | [] => fs
  | c :: cs =>
    match fs.get (p ++ [c]) with
    | some (.file _) => fs
    | some .dir => mkdirAll fs (p ++ [c]) cs
    | none => mkdirAll (fs.set (p ++ [c]) .dir) (p ++ [c]) cs

/-- `os.Create`: a new file, or an existing one truncated, which then gets the contents `data`. `none`: it is
a directory, or its directory does not exist. -/
def create (fs : FS) (p : Path) (data : Bytes) : Option FS :=
  if p ≠ [] ∧ isDir fs p.dropLast ∧ fs.get p ≠ some .dir then some (fs.set p (.file data)) else none

/-- The contents of a file. -/
def read (fs : FS) (p : Path) : Option Bytes :=
  match fs.get p with
  | some (.file x) => some x
  | _ => none

/-- `os.Rename` of a file; an existing file at the destination is replaced. -/
def rename (fs : FS) (p q : Path) : Option FS :=
  match read fs p with
  | none => none
  | some x => if q ≠ [] ∧ isDir fs q.dropLast ∧ fs.get q ≠ some .dir then some ((fs.del p).set q (.file x)) else none

end Verif.Path
