import Verif.Model.IniDB

/-! # File names that are times

The server names the file of a message after the time at which it was stored (`Deliver`,
/repo/zkserver/account/account.go:315-358), and announces messages in the order of these names (`Online`,
account.go:397-500; `ioutil.ReadDir` sorts by name).  `inidb` names backups after the time at which they were made
(/repo/inidb/inidb.go:122-132) and removes those whose names come first (inidb.go:145-176).  In both cases it is
the time in the local time zone that is printed, without the zone.

Simplifications.
* A scan of the directory is one step: a message that is stored during it is found by the next.
* The calendar is that of the standard library: Gregorian, without leap seconds; moments before 1970 do not appear. -/

namespace Verif.Clock

open Verif.IniDB

def leap (y : Nat) : Bool := y % 4 == 0 && (y % 100 != 0 || y % 400 == 0)

def monthLen (y m : Nat) : Nat :=
  if m = 2 then if leap y then 29 else 28
  else if m = 4 ∨ m = 6 ∨ m = 9 ∨ m = 11 then 30
  else 31

structure Date where
  y : Nat
  m : Nat
  d : Nat
  deriving DecidableEq, Repr

/-- The day after. -/
def Date.next (a : Date) : Date :=
  if a.d < monthLen a.y a.m then { a with d := a.d + 1 }
  else if a.m < 12 then ⟨a.y, a.m + 1, 1⟩
  else ⟨a.y + 1, 1, 1⟩

/-- The date of a day, counted from the first of January 1970. -/
def date : Nat → Date
  | 0 => ⟨1970, 1, 1⟩
  | n + 1 => (date n).next

/-- What clock and calendar on the wall show, from the nanoseconds since 1970 began on that wall. -/
def wall (t : Nat) : Stamp :=
  let sec := t / 1000000000
  let min := sec / 60
  let hour := min / 60
  let day := date (hour / 24)
  ⟨day.y, day.m, day.d, hour % 24, min % 60, sec % 60, t % 1000000000⟩

/-- `Format("20060102150405.000000000")`, account.go:318. -/
def messageName (s : Stamp) : Str :=
  digits 4 s.year ++ digits 2 s.month ++ digits 2 s.day ++ digits 2 s.hour ++ digits 2 s.min ++ digits 2 s.sec ++ ['.'] ++
    digits 9 s.ns

/-- `time.Now()`: nanoseconds since 1970 in UTC, and how far the local time is ahead of it. -/
structure Reading where
  utc : Nat
  ahead : Int
  deriving DecidableEq, Repr

def Reading.shows (r : Reading) : Nat := (r.utc + r.ahead).toNat

/-- A file in the cache directory: its name, the message, and when it was stored. -/
structure File where
  name : Str
  msg : Nat
  stored : Reading
  deriving DecidableEq, Repr

structure State where
  /-- messages so far; they are numbered as they are stored -/
  next : Nat := 0
  /-- the cache directory -/
  files : List File := []
  /-- `processed` -/
  seen : List Str := []
  /-- what was announced to the session -/
  told : List Nat := []
  deriving DecidableEq, Repr

inductive Ev
  | store (r : Reading)
  /-- the goroutine of `Online` reads the directory and announces what was not announced -/
  | scan
  /-- the recipient acknowledges a message that was announced -/
  | ack (m : Nat)
  /-- the recipient logs in -/
  | login
  deriving DecidableEq, Repr

/-- Insertion into a sorted list of files. -/
def insert (f : File) : List File → List File
  | [] => [f]
  | g :: l => if leStr f.name g.name then f :: g :: l else g :: insert f l

/-- `ioutil.ReadDir`: sorted by name. -/
def readDir : List File → List File
  | [] => []
  | f :: l => insert f (readDir l)

/-- `Deliver`, account.go:315-358: a name that is taken is an error. -/
def State.store (s : State) (r : Reading) : State :=
  let name := messageName (wall r.shows)
  if s.files.any (fun f => f.name = name) then s
  else { s with next := s.next + 1, files := s.files ++ [⟨name, s.next, r⟩] }

/-- One round of the goroutine of `Online`, account.go:439-499. -/
def State.scan (s : State) : State :=
  let new := (readDir s.files).filter (fun f => f.name ∉ s.seen)
  { s with seen := s.seen ++ new.map (·.name), told := s.told ++ new.map (·.msg) }

/-- `Delete`, account.go:360-379. -/
def State.ack (s : State) (m : Nat) : State :=
  { s with
    files := s.files.filter (fun f => f.msg ≠ m),
    seen := s.seen.filter (fun n => !(s.files.any fun f => f.msg = m && f.name = n)) }

def step (s : State) : Ev → State
  | .store r => s.store r
  | .scan => s.scan
  | .ack m => s.ack m
  | .login => { s with seen := [], told := [] }

def run : State → List Ev → State
  | s, [] => s
  | s, e :: es => run (step s e) es

/-! ## Backups -/

/-- A backup: its name without that of the database, and the version that it holds. -/
abbrev Backup := Str × Nat

def insertB (b : Backup) : List Backup → List Backup
  | [] => [b]
  | c :: l => if leStr b.1 c.1 then b :: c :: l else c :: insertB b l

def sortB : List Backup → List Backup
  | [] => []
  | b :: l => insertB b (sortB l)

/-- `Save`, inidb.go:122-176: the version in the file becomes a backup, which replaces one of the same name, and the first
by name are removed until `depth` are left. -/
def save (depth : Nat) (l : List Backup) (r : Reading) (version : Nat) : List Backup :=
  let name := (wall r.shows).format
  let all := sortB (l.filter (fun b => b.1 ≠ name) ++ [(name, version)])
  all.drop (all.length - depth)

/-- Versions `v`, `v + 1`, ... are saved in turn. -/
def saves (depth : Nat) : List Backup → Nat → List Reading → List Backup
  | l, _, [] => l
  | l, v, r :: rs => saves depth (save depth l r v) (v + 1) rs

end Verif.Clock
