import Verif.Model.GoMap

/-! # The files of invitations, used by the user and by what arrives at the same time

The commands of the user run one after the other, and so do the handlers of what arrives; but a command and a handler
run at the same time. /repo/zkclient/groupinvites.go opens invites.ini or joins.ini for each of them, works on a copy,
and saves it. Here the steps that the other one can see are taken one by one, as in `SharedDB`: reading the file, making
an empty one, and the two renames of `Save` (/repo/inidb/inidb.go:44-81, 94-143). `gcInvite` holds the lock of the
client for reading (/repo/zkclient/groupchat.go:133-134), `gcJoin` (182-183) and `handleGroupJoin`
(/repo/zkclient/push.go:768-769) hold it for writing, `handleGroupInvite` (721-757) and the lists
(/repo/zkclient/groupinvites.go:60-84) do not hold it.

Simplifications.
* A record is a token under a group and an identity; `Invites` has the files byte by byte.
* Tokens are given with the command; the one who sent an invitation is given with `/gc join` (if two have sent the same
  token the order of a map decides, `Invites.Finds`).
* Disk operations succeed if what they name is there; names of temporary and backup files do not collide; backups are not
  pruned.
* The messages that are sent, the groups themselves and waiting for the scheduler are left out (`Groups`, `GroupFiles`,
  `Locks`). -/

namespace Verif.ClientDB

/-- The group and the identity. -/
abbrev Key := Bytes × Bytes

abbrev DB := GoMap Key Nat

/-- Where invitations are kept: those the user has made, and those the user got. -/
inductive File
  | invites
  | joins
  deriving DecidableEq, Repr

/-- The two goroutines. -/
inductive Tid
  | user
  | net
  deriving DecidableEq, Repr

def Tid.other : Tid → Tid
  | .user => .net
  | .net => .user

/-- What they do with the files. -/
inductive Op
  /-- `gcInvite`, `inviteDBAdd`: /repo/zkclient/groupchat.go:123-171 -/
  | invite (k : Key) (token : Nat)
  /-- `gcJoin`: /repo/zkclient/groupchat.go:172-221 -/
  | join (k : Key) (token : Nat)
  /-- `handleGroupInvite`, `joinDBAdd`: /repo/zkclient/push.go:721-762 -/
  | invited (k : Key) (token : Nat)
  /-- `handleGroupJoin`, `delInvite`: /repo/zkclient/push.go:764-833 -/
  | joined (k : Key) (token : Nat)
  deriving DecidableEq, Repr

/-- Who does it. -/
def Op.tid : Op → Tid
  | .invite .. | .join .. => .user
  | .invited .. | .joined .. => .net

def Op.file : Op → File
  | .invite .. | .joined .. => .invites
  | .join .. | .invited .. => .joins

/-- Whether a missing file is made: /repo/zkclient/groupinvites.go:140, 210, 245, 284, 329. -/
def Op.create : Op → Bool
  | .invite .. | .invited .. => true
  | .join .. | .joined .. => false

/-- How the lock of the client is held. -/
inductive Mode
  | none
  | shared
  | exclusive
  deriving DecidableEq, Repr

def Op.mode : Op → Mode
  | .invite .. => .shared
  | .join .. | .joined .. => .exclusive
  | .invited .. => .none

/-- Whether a `sync.RWMutex` can be held in both ways at the same time. -/
def Mode.with : Mode → Mode → Bool
  | .none, _ | _, .none | .shared, .shared => true
  | _, _ => false

inductive Res
  | ok
  | failed
  /-- `gcJoin` has sent its message but not removed the record: "could not delete join from db" -/
  | kept
  deriving DecidableEq, Repr

/-- Where a goroutine is. -/
inductive Pc
  | idle
  /-- `New` is about to read the file, inidb.go:64. -/
  | load (op : Op)
  /-- `New` has found no file, and is about to rename an empty one to it, inidb.go:66-73. -/
  | fresh (op : Op)
  /-- `New` has returned; `created`: it has made the file. -/
  | opened (op : Op) (db : DB) (created : Bool)
  /-- `gcJoin` has found the invitation, and `delJoin` is about to open the file once more, groupchat.go:192-214. -/
  | again (op : Op)
  | reopened (op : Op) (db : DB)
  /-- `Save` is about to rename the file to the backup, inidb.go:123-132. -/
  | back (op : Op) (db : DB) (r : Res)
  /-- `Save` is about to rename the new file, inidb.go:134-138. -/
  | put (op : Op) (db : DB) (r : Res)
  deriving DecidableEq, Repr

def Pc.op : Pc → Option Op
  | .idle => none
  | .load op | .fresh op | .opened op .. | .again op | .reopened op _ | .back op .. | .put op .. => some op

/-- The files, where the goroutines are, what was done and with which result, and what the lists have shown. -/
structure State where
  file : File → Option DB
  pc : Tid → Pc
  log : List (Op × Res)
  shown : List (File × DB)

def init : State := ⟨fun _ => none, fun _ => .idle, [], []⟩

def State.goto (s : State) (t : Tid) (pc : Pc) : State := { s with pc := fun x => if x = t then pc else s.pc x }

def State.write (s : State) (f : File) (d : Option DB) : State :=
  { s with file := fun x => if x = f then d else s.file x }

/-- The function has returned. -/
def State.finish (s : State) (t : Tid) (op : Op) (r : Res) : State :=
  { s.goto t .idle with log := s.log ++ [(op, r)] }

/-- The records of a group. -/
def ofGroup (db : DB) (g : Bytes) : DB := db.filter fun r => r.1.1 = g

/-- `Save`, if something was changed: without a backup if this `INIDB` has made the file. -/
def save (s : State) (t : Tid) (op : Op) (db : DB) (created : Bool) : State :=
  s.goto t (if created then .put op db .ok else .back op db .ok)

/-- What is done with the copy: groupinvites.go:145-188, 215-231, 250-279, 335-360. -/
def work (s : State) (t : Tid) (op : Op) (db : DB) (created : Bool) : State :=
  match op with
  | .invite k v | .invited k v =>
    if (db.get k).isSome then s.finish t op .failed else save s t op (db.set k v) created
  | .joined k v => if db.get k = some v then save s t op (db.del k) created else s.finish t op .failed
  | .join k v => if db.get k = some v then s.goto t (.again op) else s.finish t op .failed

/-- `delJoin` with its copy, groupinvites.go:290-321: the table of the group goes if it has one record, and this one
has the token. -/
def workAgain (s : State) (t : Tid) (op : Op) (db : DB) : State :=
  match op with
  | .join k v =>
    match ofGroup db k.1 with
    | [(_, v')] => if v' = v then save s t op (db.filter fun r => r.1.1 ≠ k.1) false else s.finish t op .kept
    | _ => s.finish t op .kept
  | _ => s

/-- The next step of a goroutine. -/
def go (s : State) (t : Tid) : Option State :=
  match s.pc t with
  | .idle => none
  | .load op =>
    match s.file op.file with
    | some db => some (s.goto t (.opened op db false))
    | none => some (if op.create then s.goto t (.fresh op) else s.finish t op .failed)
  | .fresh op => some ((s.write op.file (some [])).goto t (.opened op [] true))
  | .opened op db created => some (work s t op db created)
  | .again op =>
    match s.file op.file with
    | some db => some (s.goto t (.reopened op db))
    | none => some (s.finish t op .kept)
  | .reopened op db => some (workAgain s t op db)
  | .back op db r =>
    match s.file op.file with
    | some _ => some ((s.write op.file none).goto t (.put op db r))
    | none => some (s.finish t op (match op with | .join .. => .kept | _ => .failed))
  | .put op db r => some ((s.write op.file (some db)).finish t op r)

/-- How the lock is held by a goroutine. -/
def held (pc : Pc) : Mode :=
  match pc.op with
  | none => .none
  | some op => op.mode

inductive Ev
  /-- A command is given or something arrives; it goes on when it has the lock. -/
  | start (op : Op)
  | go (t : Tid)
  /-- `/list invites` and `/list joins`: groupinvites.go:60-116 -/
  | list (f : File)
  | crash
  deriving DecidableEq, Repr

def step (s : State) : Ev → Option State
  | .start op =>
    if s.pc op.tid = .idle ∧ op.mode.with (held (s.pc op.tid.other)) then some (s.goto op.tid (.load op)) else none
  | .go t => go s t
  | .list f => if s.pc .user = .idle then some { s with shown := s.shown ++ [(f, (s.file f).getD [])] } else none
  | .crash => some { s with pc := fun _ => .idle }

def run : State → List Ev → Option State
  | s, [] => some s
  | s, e :: es => (step s e).bind fun s' => run s' es

end Verif.ClientDB
