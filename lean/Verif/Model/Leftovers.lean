/-! # States of ratchets that are left on the disk: zkclient/identity.go, reset.go, addressbook.go

The directory of each contact, as the states of the ratchet that can be found in it. C57 and C63 are about the state that is loaded
again; this is about all the others, for whoever gets the disk.

* A state is a number. What a file system keeps of files that were replaced or removed is left out.
* A temporary file of which a part was written is taken to hold the state: its keys come first, ratchet/disk/disk.go:7-25.
* Calls for one contact do not overlap, since `ratchetMtx` is held. A client that dies is an event whose later steps do not come. -/

namespace Verif.Leftovers

/-- How far `updateRatchet` comes. -/
inductive Fate
  /-- no temporary file could be made -/
  | notMade
  /-- the temporary file was written, at least in part, and not renamed: an error, or the client died -/
  | left
  | done
  deriving DecidableEq, Repr

/-- What is on the disk: the ratchets, the half ones, and the temporary files, for each contact. -/
structure Disk where
  full : Nat → Option Nat
  half : Nat → Option Nat
  temp : Nat → List Nat

/-- What happens. -/
inductive Ev
  /-- `updateRatchet`, zkclient/identity.go:131-172 -/
  | update (id : Nat) (half : Bool) (v : Nat) (fate : Fate)
  /-- `removeRatchet` of the half one, zkclient/identity.go:58-70, called after the full one was saved, zkclient/push.go:113-126 -/
  | removeHalf (id : Nat) (ok : Bool)
  /-- `handleResetRatchet`, zkclient/reset.go:52-72, and `reset`, zkclient/zkclient.go:1804-1824: both are removed; errors are ignored -/
  | reset (id : Nat) (okHalf okFull : Bool)
  /-- `addressBookDel`, zkclient/addressbook.go:22-55: the directory is removed -/
  | delete (id : Nat) (ok : Bool)
  deriving DecidableEq, Repr

/-- A map changed at one place. -/
def upd {β : Type} (f : Nat → β) (id : Nat) (v : β) : Nat → β := fun i => if i = id then v else f i

/-- One event. -/
def step (d : Disk) : Ev → Disk
  | .update _ _ _ .notMade => d
  | .update id _ v .left => { d with temp := upd d.temp id (v :: d.temp id) }
  | .update id false v .done => { d with full := upd d.full id (some v) }
  | .update id true v .done => { d with half := upd d.half id (some v) }
  | .removeHalf id ok => if ok then { d with half := upd d.half id none } else d
  | .reset id okHalf okFull =>
    { d with half := if okHalf then upd d.half id none else d.half, full := if okFull then upd d.full id none else d.full }
  | .delete id ok =>
    if ok then { full := upd d.full id none, half := upd d.half id none, temp := upd d.temp id [] } else d

def init : Disk := ⟨fun _ => none, fun _ => none, fun _ => []⟩

def run (d : Disk) (evs : List Ev) : Disk := evs.foldl step d

/-- What somebody who gets the disk finds of a contact. -/
def found (d : Disk) (id : Nat) : List Nat := (d.full id).toList ++ (d.half id).toList ++ d.temp id

end Verif.Leftovers
