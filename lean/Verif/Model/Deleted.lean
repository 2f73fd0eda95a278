/-! # What is left of entries that were deleted: inidb, zkserver/pending.go, zkclient/groupinvites.go

The tables from which entries are deleted when they were used: tokens for accounts on the server, and invitations that were made and
received on the client. Each call opens its table, changes it, and saves it.

* An entry is a number: its section, key and value.
* All goes well (C29, C156), and calls for one table do not overlap (C113, C121).
* Tokens that have expired, which validToken deletes with the same save (pending.go:16-39), are deleted one by one.
* What a file system keeps of files that were removed is left out. -/

namespace Verif.Deleted

/-- The tables, and their backups, the newest first. -/
structure Disk where
  table : Nat → Option (List Nat)
  backups : Nat → List (List Nat)

/-- What happens. -/
inductive Ev
  /-- an entry is added: tools/zkservertoken/zkservertoken.go:59-96, `inviteDBAdd` and `joinDBAdd`,
  zkclient/groupinvites.go:126-242 -/
  | set (t e : Nat)
  /-- an entry is used and deleted: `validToken`, zkserver/pending.go:41-79, `delJoin` and `delInvite`,
  zkclient/groupinvites.go:282-363 -/
  | del (t e : Nat)
  deriving DecidableEq, Repr

/-- The depth with which all these tables are opened. -/
def depth : Nat := 10

/-- `Save`, inidb/inidb.go:96-145, of a table that was there when it was opened, and `prune`. -/
def Disk.save (d : Disk) (t : Nat) (old new : List Nat) : Disk :=
  { table := fun i => if i = t then some new else d.table i
    backups := fun i => if i = t then (old :: d.backups t).take depth else d.backups i }

/-- One event. Who creates a table makes no backup; deleting what is not there is an error. -/
def step (d : Disk) : Ev → Disk
  | .set t e =>
    match d.table t with
    | none => { d with table := fun i => if i = t then some [e] else d.table i }
    | some l => d.save t l (e :: l.filter (· ≠ e))
  | .del t e =>
    match d.table t with
    | none => d
    | some l => if e ∈ l then d.save t l (l.filter (· ≠ e)) else d

def run (d : Disk) (evs : List Ev) : Disk := evs.foldl step d

def init : Disk := ⟨fun _ => none, fun _ => []⟩

/-- Somebody who gets the disk finds the entry in a file of the table. -/
def Found (d : Disk) (t e : Nat) : Prop := (∃ l, d.table t = some l ∧ e ∈ l) ∨ ∃ b ∈ d.backups t, e ∈ b

end Verif.Deleted
