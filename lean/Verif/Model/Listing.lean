import Verif.Model.GoMap

/-! # The users directory of the server, used by many connections at a time

`Find`, `Create` and `Push` of /repo/zkserver/account/account.go (124-234) as goroutines that take their steps one by
one, with `Disable` and `Enable` (248-290) in between, and with the two renames of `Save` (/repo/inidb/inidb.go:94-143)
as two steps.  `Accounts` has the same functions as one step each.

`Find` is called for each lookup of a client (/repo/zkserver/account.go:82-101) and at the beginning of each `Create`;
`Push` is called at each login (/repo/zkserver/zkserver.go:394-400) if the server has a directory.  `Find`, `Disable` and
`Enable` hold the lock while they look at the disk, `Create` and `Push` do not.

Simplifications.
* Of a directory of an account only user.ini is kept, and of that the identity and whether it is listed.
* Disk operations succeed if what they name is there.  Names of temporary and backup files do not collide.
* `ReadDir` gives names in order, so that those with a dot, of disabled accounts, come first; among themselves both
  kinds are in any order here.
* The first directory is read under the same lock as the list is; here others may act in between. -/

namespace Verif.Listing

/-- What is needed of a public identity. -/
structure Pub where
  id : Bytes
  nick : Bytes
  key : Nat
  deriving DecidableEq, Repr

/-- user.ini. -/
structure User where
  ident : Option Pub
  listed : Bool
  deriving DecidableEq, Repr

/-- The name of a directory: with a dot if the account is disabled (account.go:105-113). -/
structure Name where
  dot : Bool
  id : Bytes
  deriving DecidableEq, Repr

/-- What became of a call. -/
inductive Res
  /-- `Find` has found it. -/
  | found (p : Pub)
  /-- `Find`: "user not found". -/
  | notFound
  /-- `Find`, `Create` or `Push`: another error. -/
  | failed
  /-- `Create`: the nick is in use, or the account exists. -/
  | refused
  /-- `Create`: no error. -/
  | created
  /-- `Push`: no error. -/
  | pushed
  deriving DecidableEq, Repr

/-- Where a goroutine is. -/
inductive Pc
  | idle
  /-- In `Find`, with the directories that are left; within `Create` if there is an identity. -/
  | walk (nick : Bytes) (rest : List Name) (reg : Option Pub)
  /-- `Create` after `Find` (account.go:129-137). -/
  | stat (p : Pub)
  /-- `Create` makes the directory (inidb.go:52-58). -/
  | mk (p : Pub)
  /-- `Create` loads user.ini, or makes an empty one (inidb.go:64-78). -/
  | load (p : Pub)
  /-- `Push` loads user.ini (account.go:171-179). -/
  | push (id : Bytes)
  /-- `Save` is about to rename user.ini to the backup (inidb.go:123-132); within `Create` or `Push`. -/
  | back (id : Bytes) (u : User) (reg : Bool)
  /-- `Save` is about to rename the new file to user.ini (inidb.go:134-138). -/
  | put (id : Bytes) (u : User) (reg : Bool)
  /-- `Create` makes the directory of messages (account.go:162-165). -/
  | cache (id : Bytes)
  | fin (r : Res)
  deriving DecidableEq, Repr

structure State where
  /-- The directories; `none` if there is no user.ini. -/
  dirs : GoMap Name (Option User) := []
  threads : Nat → Pc := fun _ => .idle

/-- Goroutine `t` is at `pc`. -/
def State.goto (s : State) (t : Nat) (pc : Pc) : State :=
  { s with threads := fun x => if x = t then pc else s.threads x }

/-- `Find` ends with an error, which `Create` takes for a nick that is not in use (account.go:125-128). -/
def orElse (reg : Option Pub) (r : Res) : Pc :=
  match reg with
  | none => .fin r
  | some p => .stat p

/-- The next directory in `Find` (account.go:200-229). -/
def visit (f : Option (Option User)) (nick : Bytes) (rest : List Name) (reg : Option Pub) : Pc :=
  match f with
  | some (some u) =>
    if u.listed then
      match u.ident with
      | none => orElse reg .failed
      | some q =>
        if q.nick = nick then
          match reg with
          | none => .fin (.found q)
          | some _ => .fin .refused
        else .walk nick rest reg
    else .walk nick rest reg
  | _ => orElse reg .failed

/-- The next step of goroutine `t`. -/
def go (s : State) (t : Nat) : Option State :=
  match s.threads t with
  | .idle => none
  | .fin _ => none
  | .walk _ [] reg => some (s.goto t (orElse reg .notFound))
  | .walk nick (n :: rest) reg => some (s.goto t (visit (s.dirs.get n) nick rest reg))
  | .stat p => some (s.goto t (if (s.dirs.get ⟨false, p.id⟩).isSome then .fin .refused else .mk p))
  | .mk p =>
    match s.dirs.get ⟨false, p.id⟩ with
    | some _ => some (s.goto t (.load p))
    | none => some ({ s with dirs := s.dirs.set ⟨false, p.id⟩ none }.goto t (.load p))
  | .load p =>
    match s.dirs.get ⟨false, p.id⟩ with
    | none => some (s.goto t (.fin .failed))
    | some none =>
      some ({ s with dirs := s.dirs.set ⟨false, p.id⟩ (some ⟨none, false⟩) }.goto t (.put p.id ⟨some p, false⟩ true))
    | some (some u) => some (s.goto t (.back p.id { u with ident := some p } true))
  | .push id =>
    match s.dirs.get ⟨false, id⟩ with
    | some (some u) => some (s.goto t (.back id { u with listed := true } false))
    | _ => some (s.goto t (.fin .failed))
  | .back id u reg =>
    match s.dirs.get ⟨false, id⟩ with
    | some (some _) => some ({ s with dirs := s.dirs.set ⟨false, id⟩ none }.goto t (.put id u reg))
    | _ => some (s.goto t (.fin .failed))
  | .put id u reg =>
    match s.dirs.get ⟨false, id⟩ with
    | some _ =>
      some ({ s with dirs := s.dirs.set ⟨false, id⟩ (some u) }.goto t (if reg then .cache id else .fin .pushed))
    | none => some (s.goto t (.fin .failed))
  | .cache id =>
    some (s.goto t (.fin (if (s.dirs.get ⟨false, id⟩).isSome then .created else .failed)))

/-- The names in the users directory, as `ReadDir` gives them. -/
def Listed (s : State) (order : List Name) : Prop :=
  order.Perm (s.dirs.map Prod.fst) ∧ order.Pairwise fun a b => b.dot = true → a.dot = true

instance (s : State) (order : List Name) : Decidable (Listed s order) := inferInstanceAs (Decidable (_ ∧ _))

inductive Ev
  /-- A goroutine begins `Find`, or, with an identity, `Create` of it. -/
  | find (t : Nat) (nick : Bytes) (order : List Name)
  | create (t : Nat) (p : Pub) (order : List Name)
  /-- A goroutine begins `Push`. -/
  | push (t : Nat) (id : Bytes)
  /-- A goroutine takes its next step. -/
  | go (t : Nat)
  /-- `Disable` (account.go:248-268) and `Enable` (270-290). -/
  | disable (id : Bytes)
  | enable (id : Bytes)
  /-- The server dies and is started again. -/
  | crash
  deriving DecidableEq, Repr

def step (s : State) : Ev → Option State
  | .find t nick order =>
    if s.threads t = .idle ∧ Listed s order then some (s.goto t (.walk nick order none)) else none
  | .create t p order =>
    if s.threads t = .idle ∧ Listed s order then some (s.goto t (.walk p.nick order (some p))) else none
  | .push t id => if s.threads t = .idle then some (s.goto t (.push id)) else none
  | .go t => go s t
  | .disable id =>
    match s.dirs.get ⟨true, id⟩, s.dirs.get ⟨false, id⟩ with
    | none, some f => some { s with dirs := (s.dirs.del ⟨false, id⟩).set ⟨true, id⟩ f }
    | _, _ => some s
  | .enable id =>
    match s.dirs.get ⟨true, id⟩, s.dirs.get ⟨false, id⟩ with
    | some f, none => some { s with dirs := (s.dirs.del ⟨true, id⟩).set ⟨false, id⟩ f }
    | _, _ => some s
  | .crash => some { s with threads := fun _ => .idle }

def run : State → List Ev → Option State
  | s, [] => some s
  | s, e :: es => (step s e).bind fun s' => run s' es

end Verif.Listing
