import Verif.Model.GoMap

/-! # One file of records, used by many connections at a time

The server opens rendezvous.ini for each rendezvous and each pull (/repo/zkserver/rendezvous.go:56-218) and
pendingaccounts.ini for each registration with a token (/repo/zkserver/pending.go:40-80), and zkservertoken opens the
latter too.  Each opens the file with `inidb.New(…, true, 10)` (/repo/inidb/inidb.go:44-81), works on its copy, and may
save it (94-143).  There is no lock.  Here the steps that others can see are taken one by one: reading the file, making
an empty one if there is none, and the two renames of `Save`.  (`Policy` and `Rendezvous` have what each request does in
detail, and take opening and saving for one step each.)

Simplifications.
* Only the records of the table "" are kept.
* The key of a new record is given with the request (the server draws it once it has the records, and draws again, up to
  25 times, if it is in use), and so are the keys that have expired.  Whether a token that is taken has expired is left
  out.  (`Rendezvous`, `Tokens` and `Policy` have these.)
* Disk operations succeed if what they name is there; names of temporary and backup files do not collide; backups are
  not pruned. -/

namespace Verif.SharedDB

abbrev DB := GoMap Bytes Bytes

/-- What a request does. -/
inductive Op
  /-- `handleRendezvousPull`: look a record up. -/
  | get (k : Bytes)
  /-- `handleRendezvous`, zkservertoken: add a record under a key that is not in use. -/
  | add (k v : Bytes)
  /-- `validToken`: take a record, and remove others that have expired.  It ends if the file had to be made
  (pending.go:43-47). -/
  | take (k : Bytes) (old : List Bytes)
  deriving DecidableEq, Repr

inductive Res
  | got (v : Option Bytes)
  | added
  | taken (v : Bytes)
  | failed
  deriving DecidableEq, Repr

/-- Where a goroutine is. -/
inductive Pc
  | idle
  /-- `New` is about to read the file (inidb.go:64). -/
  | load (op : Op)
  /-- `New` has found that there is no file, and is about to rename an empty one to it (inidb.go:66-73). -/
  | fresh (op : Op)
  /-- `New` has returned; `created` is set if it made the file, and stays so. -/
  | have_ (op : Op) (db : DB) (created : Bool)
  /-- `Save` is about to rename the file to the backup (inidb.go:123-132). -/
  | back (db : DB) (r : Res)
  /-- `Save` is about to rename the new file (inidb.go:134-138). -/
  | put (db : DB) (r : Res)
  | fin (r : Res)
  deriving DecidableEq, Repr

structure State where
  file : Option DB := none
  backups : List DB := []
  threads : Nat → Pc := fun _ => .idle

def State.goto (s : State) (t : Nat) (pc : Pc) : State :=
  { s with threads := fun x => if x = t then pc else s.threads x }

/-- `Save` of what a request has changed: without a backup if this `INIDB` has made the file (inidb.go:123). -/
def save (db : DB) (created : Bool) (r : Res) : Pc := if created then .put db r else .back db r

/-- The request on its copy of the records: rendezvous.go:86-113, 149-210, pending.go:18-39, 49-79. -/
def work (op : Op) (db : DB) (created : Bool) : Pc :=
  match op with
  | .get k => .fin (.got (db.get k))
  | .add k v => if (db.get k).isSome then .fin .failed else save (db.set k v) created .added
  | .take k old =>
    match db.get k with
    | none =>
      if old.all fun x => (db.get x).isNone then .fin .failed
      else save (old.foldl (fun d x => d.del x) db) created .failed
    | some v => save (old.foldl (fun d x => d.del x) (db.del k)) created (.taken v)

/-- The next step of goroutine `t`.  When the first rename of `Save` fails, the second is not tried, and the error is
logged only: the answer was given before (rendezvous.go:148-154, 213-216) or is given nonetheless (pending.go:33-37). -/
def go (s : State) (t : Nat) : Option State :=
  match s.threads t with
  | .idle => none
  | .fin _ => none
  | .load op =>
    match s.file with
    | some db => some (s.goto t (.have_ op db false))
    | none => some (s.goto t (.fresh op))
  | .fresh op =>
    some ({ s with file := some [] }.goto t
      (match op with
      | .take _ _ => .fin .failed
      | op => .have_ op [] true))
  | .have_ op db created => some (s.goto t (work op db created))
  | .back db r =>
    match s.file with
    | some old => some ({ s with file := none, backups := old :: s.backups }.goto t (.put db r))
    | none => some (s.goto t (.fin r))
  | .put db r => some ({ s with file := some db }.goto t (.fin r))

inductive Ev
  | start (t : Nat) (op : Op)
  | go (t : Nat)
  | crash
  deriving DecidableEq, Repr

def step (s : State) : Ev → Option State
  | .start t op => if s.threads t = .idle then some (s.goto t (.load op)) else none
  | .go t => go s t
  | .crash => some { s with threads := fun _ => .idle }

def run : State → List Ev → Option State
  | s, [] => some s
  | s, e :: es => (step s e).bind fun s' => run s' es

end Verif.SharedDB
