import Verif.Model.GoMap

/-! # inidb/inidb.go, with the parser of vaughan0/go-ini

Strings are lists of characters (invalid UTF-8 is not modelled). All methods hold the lock for their
whole body, so a call is one step; a crash during `Save` is modelled separately, at the granularity
of single file-system operations and single written characters. -/

namespace Verif.IniDB

open Verif

/-- Go `string`, as characters. -/
abbrev Str := List Char

/-- `ini.Section` -/
abbrev Section := GoMap Str Str

/-- `ini.File`: the tables. -/
abbrev Tables := GoMap Str Section

/-! ## go-ini (dependency) -/

/-- `unicode.IsSpace` -/
def isSpace (c : Char) : Bool :=
  let n := c.toNat
  n == 9 || n == 10 || n == 11 || n == 12 || n == 13 || n == 32 || n == 0x85 || n == 0xa0 ||
    n == 0x1680 || (0x2000 ≤ n && n ≤ 0x200a) || n == 0x2028 || n == 0x2029 || n == 0x202f ||
    n == 0x205f || n == 0x3000

/-- `strings.TrimSpace` -/
def trim (s : Str) : Str := ((s.dropWhile isSpace).reverse.dropWhile isSpace).reverse

/-- Repeated `ReadString('\n')`: the lines without their newline, the last one being what follows the
last newline. -/
def lines : Str → List Str
  | [] => [[]]
  | c :: s =>
    if c = '\n' then [] :: lines s
    else match lines s with
      | [] => [[c]]
      | l :: ls => (c :: l) :: ls

/-- `File.Section(name)` makes sure that the table exists. -/
def touch (f : Tables) (name : Str) : Tables :=
  match f.get name with
  | some _ => f
  | none => f.set name []

/-- `file.Section(section)[key] = val` -/
def put (f : Tables) (name key val : Str) : Tables :=
  match f.get name with
  | some s => f.set name (s.set key val)
  | none => f.set name [(key, val)]

/-- What a line is. -/
inductive Line where
  | skip
  | assign (key val : Str)
  | header (name : Str)
  | bad
  deriving DecidableEq, Repr

/-- Classification of a line: blank and comment lines are skipped, then the regular expression
`^([^=]+)=(.*)$` is tried, then `^\[(.*)\]$`. -/
def classify (raw : Str) : Line :=
  let l := trim raw
  match l with
  | [] => .skip
  | c :: rest =>
    if c = ';' ∨ c = '#' then .skip
    else match l.takeWhile (· ≠ '='), l.dropWhile (· ≠ '=') with
      | k :: ks, _ :: v => .assign (trim (k :: ks)) (trim v)
      | _, _ =>
        if c = '[' ∧ rest.getLast? = some ']' then .header (trim rest.dropLast) else .bad

/-- `parseFile`; `none` is `ErrSyntax`. -/
def parseLines : List Str → (cur : Str) → Tables → Option Tables
  | [], _, f => some f
  | l :: ls, cur, f =>
    match classify l with
    | .skip => parseLines ls cur f
    | .assign k v => parseLines ls cur (put f cur k v)
    | .header n => parseLines ls n (touch f n)
    | .bad => none

/-- `ini.LoadFile` on existing contents. -/
def parse (text : Str) : Option Tables := parseLines (lines text) [] []

/-! ## The database in memory -/

/-- `INIDB`, /repo/inidb/inidb.go:35-42; `base` is the name of the file within its directory. -/
structure DB where
  base : Str
  depth : Int
  dirty : Bool
  created : Bool
  tables : Tables
  deriving Repr

/-- `Get`, /repo/inidb/inidb.go:180-190; `none` is `ErrNotFound`. -/
def get (i : DB) (table key : Str) : Option Str :=
  match i.tables.get table with
  | some s => s.get key
  | none => none

/-- `Set`, /repo/inidb/inidb.go:194-206; `false` is `ErrNotFound`. -/
def set (i : DB) (table key value : Str) : Bool × DB :=
  match i.tables.get table with
  | none => (false, i)
  | some s => (true, { i with tables := i.tables.set table (s.set key value), dirty := true })

/-- `Del`, /repo/inidb/inidb.go:209-222. -/
def del (i : DB) (table key : Str) : Bool × DB :=
  match i.tables.get table with
  | none => (false, i)
  | some s => (true, { i with tables := i.tables.set table (s.del key), dirty := true })

/-- `NewTable`, /repo/inidb/inidb.go:225-230. -/
def newTable (i : DB) (table : Str) : DB := { i with tables := touch i.tables table }

/-- `DelTable`, /repo/inidb/inidb.go:233-246. -/
def delTable (i : DB) (table : Str) : Bool × DB :=
  match i.tables.get table with
  | none => (false, i)
  | some _ => (true, { i with tables := i.tables.del table, dirty := true })

/-- `Records`, /repo/inidb/inidb.go:249-259. Reading a nil map gives no records. -/
def records (i : DB) (table : Str) : GoMap Str Str := (i.tables.get table).getD []

/-- `Tables`, /repo/inidb/inidb.go:262-273. -/
def tableNames (i : DB) : List Str := i.tables.keys

/-! ## Files -/

/-- Contents of the directory. -/
abbrev Dir := GoMap Str Str

/-- Single file-system operations. `append` adds one character to a file. -/
inductive FsOp where
  | create (n : Str)
  | append (n : Str) (c : Char)
  | rename (a b : Str)
  | remove (n : Str)
  deriving DecidableEq, Repr

/-- Effect of one operation; `none` if it fails. -/
def FsOp.exec (d : Dir) : FsOp → Option Dir
  | .create n => some (d.set n [])
  | .append n c => some (d.set n ((d.get n).getD [] ++ [c]))
  | .rename a b =>
    match d.get a with
    | none => none
    | some t => some ((d.del a).set b t)
  | .remove n => some (d.del n)

/-- Run operations until one fails; the flag tells whether all succeeded. -/
def runFs : Dir → List FsOp → Dir × Bool
  | d, [] => (d, true)
  | d, op :: ops =>
    match op.exec d with
    | none => (d, false)
    | some d' => runFs d' ops

/-- The comment line, /repo/inidb/inidb.go:26. -/
def auto : Str := "# This file is autogenerated, DO NOT EDIT!".toList

/-- One table as written by `Save`, /repo/inidb/inidb.go:112-118. -/
def tableText (t : Str × List (Str × Str)) : Str :=
  (if t.1 ≠ [] then '[' :: t.1 ++ [']', '\n'] else []) ++
    t.2.flatMap (fun r => r.1 ++ [' ', '=', ' '] ++ r.2 ++ ['\n']) ++ ['\n']

/-- The text written by `Save`, /repo/inidb/inidb.go:110-119, when Go walks the tables and their
records in the given order. -/
def text (order : List (Str × List (Str × Str))) : Str := auto ++ ['\n'] ++ order.flatMap tableText

/-- `order` is a possible order in which Go walks the tables and, within each, its records. -/
def IsOrder (m : Tables) (order : List (Str × List (Str × Str))) : Prop :=
  (order.map Prod.fst).Perm m.keys ∧
    ∀ t ∈ order, ∃ s, m.get t.1 = some s ∧ t.2.Perm s

/-- Go string comparison (bytewise on UTF-8 is by code point). -/
def leStr : Str → Str → Bool
  | [], _ => true
  | _ :: _, [] => false
  | a :: s, b :: t => if a.toNat < b.toNat then true else if a = b then leStr s t else false

/-- Insertion into a sorted list of names. -/
def insertStr (a : Str) : List Str → List Str
  | [] => [a]
  | b :: l => if leStr a b then a :: b :: l else b :: insertStr a l

/-- Names sorted as `ioutil.ReadDir` returns them. -/
def sortStr : List Str → List Str
  | [] => []
  | a :: l => insertStr a (sortStr l)

/-- `ioutil.ReadDir` filtered by prefix, /repo/inidb/inidb.go:150-164: sorted by name. -/
def pruneCandidates (d : Dir) (base : Str) : List Str :=
  (sortStr d.keys).filter fun n => (base ++ ['.']).isPrefixOf n

/-- Names deleted by `prune`, /repo/inidb/inidb.go:145-176. -/
def pruneList (d : Dir) (base : Str) (depth : Int) : List Str :=
  if depth < 0 then []
  else
    let pl := pruneCandidates d base
    if (pl.length : Int) - depth < 0 then [] else pl.take (pl.length - depth.toNat)

/-- Name of the backup file, /repo/inidb/inidb.go:124-126; `stamp` is the formatted time. -/
def backupName (base stamp : Str) : Str := base ++ ['.'] ++ stamp

/-- The writing part of `Save`, /repo/inidb/inidb.go:104-120. -/
def writeOps (tmp : Str) (txt : Str) : List FsOp := .create tmp :: txt.map (FsOp.append tmp)

/-- The renaming part of `Save`, /repo/inidb/inidb.go:122-138. -/
def renameOps (i : DB) (tmp stamp : Str) : List FsOp :=
  (if i.created then [] else [.rename i.base (backupName i.base stamp)]) ++ [.rename tmp i.base]

/-- All file operations of a `Save` of a dirty database up to pruning. -/
def mainOps (i : DB) (tmp stamp : Str) (order : List (Str × List (Str × Str))) : List FsOp :=
  writeOps tmp (text order) ++ renameOps i tmp stamp

/-- All file operations that `Save` attempts, in order, /repo/inidb/inidb.go:96-143. `tmp` is the name
chosen by `ioutil.TempFile`. Failing to create or write the temporary file is not modelled. Nothing
follows a failed rename. -/
def saveOps (i : DB) (d : Dir) (tmp stamp : Str) (order : List (Str × List (Str × Str))) : List FsOp :=
  if i.dirty then
    let r := runFs d (mainOps i tmp stamp order)
    mainOps i tmp stamp order ++
      (if r.2 then (pruneList r.1 i.base i.depth).map FsOp.remove else [])
  else []

/-- `Save`, /repo/inidb/inidb.go:96-143: success flag, database and directory afterwards. -/
def save (i : DB) (d : Dir) (tmp stamp : Str) (order : List (Str × List (Str × Str))) :
    Bool × DB × Dir :=
  let r := runFs d (saveOps i d tmp stamp order)
  (r.2, { i with dirty := if r.2 then false else i.dirty }, r.1)

/-- What is on disk if the process dies after `n` file operations of `Save`. -/
def crash (i : DB) (d : Dir) (tmp stamp : Str) (order : List (Str × List (Str × Str))) (n : Nat) : Dir :=
  (runFs d ((saveOps i d tmp stamp order).take n)).1

/-- Result of `New`. -/
inductive Opened where
  /-- an existing file was read -/
  | opened (i : DB)
  /-- the file did not exist and was created (`ErrCreated`) -/
  | created (i : DB) (d : Dir)
  | error
  deriving Repr

/-- `New`, /repo/inidb/inidb.go:50-85, the directory existing already. -/
def new (base : Str) (create : Bool) (depth : Int) (d : Dir) (tmp : Str) : Opened :=
  match d.get base with
  | some t =>
    match parse t with
    | none => .error
    | some f =>
      .opened { base := base, depth := depth, dirty := false, created := false, tables := touch f [] }
  | none =>
    if create then
      let i : DB := { base := base, depth := depth, dirty := true, created := true, tables := [([], [])] }
      let r := save i d tmp [] [([], [])]
      if r.1 then .created r.2.1 r.2.2 else .error
    else .error

/-! ## Time stamps -/

/-- Decimal digit. -/
def digit (n : Nat) : Char := Char.ofNat (48 + n % 10)

/-- `w` decimal digits of `n`, most significant first. -/
def digits : Nat → Nat → Str
  | 0, _ => []
  | w + 1, n => digits w (n / 10) ++ [digit n]

/-- Calendar time as printed: year, month, day, hour, minute, second, nanosecond. -/
structure Stamp where
  year : Nat
  month : Nat
  day : Nat
  hour : Nat
  min : Nat
  sec : Nat
  ns : Nat
  deriving DecidableEq, Repr

/-- `time.Now().Format("20060102.150405.000000000")`, /repo/inidb/inidb.go:126. -/
def Stamp.format (s : Stamp) : Str :=
  digits 4 s.year ++ digits 2 s.month ++ digits 2 s.day ++ ['.'] ++ digits 2 s.hour ++ digits 2 s.min ++
    digits 2 s.sec ++ ['.'] ++ digits 9 s.ns

end Verif.IniDB
