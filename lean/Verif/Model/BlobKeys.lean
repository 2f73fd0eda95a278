import Verif.Model.GoMap

/-! # The keys of pending key exchanges: zkclient/blobkeys.go, zkclient/push.go 64-73 and 176-185

`blobkeys.ini` holds the keys under which answers to key exchanges may come, by the second in which they are meant to
expire. Two goroutines of the client use it without a lock: that of the user interface (kxwindow.go:141,
acceptclientfingerprint.go:189) and that of the network (push.go:65 and :177, zkclient.go:1102). Each opens the file for
every use.

Simplifications.

* The file is represented by its records; C28 is about the text of it. Keys are numbers.
* A call is made of those steps that touch the file itself: reading it, and the renames of `Save`. Writing a temporary
  file does not touch it. The disk does not fail.
* Backups are not represented, as the client never reads them. -/

namespace Verif.BlobKeys

open Verif

/-- Records: key by time of expiry. -/
abbrev Recs := GoMap Nat Nat

/-- What a goroutine is about: `save k` is `saveKey`, `read` is the opening of the file by `step2IDKX` and `step3IDKX`. -/
inductive Task
  | save (k : Nat)
  | read
  deriving DecidableEq, Repr

/-- How far a goroutine got. -/
inductive Pc
  | idle
  /-- in `inidb.New`, where the file was found missing, /repo/inidb/inidb.go:71-78 -/
  | missing (t : Task)
  /-- `New` has returned; `created` is the field of `INIDB`. -/
  | opened (t : Task) (c : Recs) (created : Bool)
  /-- in `Save`, after the first rename, /repo/inidb/inidb.go:119-129 -/
  | moved (k : Nat) (c : Recs)
  deriving DecidableEq, Repr

/-- The file (`none`: there is none), and the two goroutines: `true` is the user interface. -/
structure State where
  file : Option Recs
  pc : Bool → Pc
  /-- record: the keys for which `saveKey` has returned without an error -/
  saved : List Nat
  /-- record: when what was tried on a message, latest first -/
  seen : List (Nat × Recs)

/-- Nothing has been saved. -/
def init : State := ⟨none, fun _ => .idle, [], []⟩

/-- Seven days, /repo/zkclient/blobkeys.go:21. -/
def expiration : Nat := 604800

/-- What can happen: a call starts; a goroutine goes one step on, at some time; the client is killed and started
again. -/
inductive Ev
  | call (g : Bool) (t : Task)
  | go (g : Bool) (now : Nat)
  | crash
  deriving DecidableEq, Repr

def State.put (s : State) (g : Bool) (p : Pc) : State :=
  { s with pc := fun h => if h = g then p else s.pc h }

/-- One step.

* `call`: the file is read, /repo/inidb/inidb.go:68-70.
* `missing`: an empty file is put in its place, whatever is there by now: `created` suppresses the backup, :71-78 and
  :115.
* `opened` and to be read: the records are used, /repo/zkclient/push.go:73.
* `opened` and to be saved: the loop of `saveKey` goes round until the second is free (/repo/zkclient/blobkeys.go:64-80),
  so a step at a time that is taken does nothing; then `Save` is called by `pruneKey`. If the file was created, it is
  replaced. If not, it is first renamed; if that fails, for want of a file, this is printed and `saveKey` returns nil
  all the same (:46-51, :82).
* `moved`: the new file is put in place. -/
def step (s : State) : Ev → State
  | .call g t =>
    if s.pc g = .idle then
      match s.file with
      | none => s.put g (.missing t)
      | some c => s.put g (.opened t c false)
    else s
  | .go g now =>
    match s.pc g with
    | .idle => s
    | .missing t => { s with file := some [] }.put g (.opened t [] true)
    | .opened .read c _ => { s with seen := (now, c) :: s.seen }.put g .idle
    | .opened (.save k) c created =>
      if (c.get (now + expiration)).isSome then s
      else if created then { s with file := some (c.set (now + expiration) k), saved := k :: s.saved }.put g .idle
      else
        match s.file with
        | none => { s with saved := k :: s.saved }.put g .idle
        | some _ => { s with file := none }.put g (.moved k (c.set (now + expiration) k))
    | .moved k c => { s with file := some c, saved := k :: s.saved }.put g .idle
  | .crash => { s with pc := fun _ => .idle }

/-- States after events out of those allowed. -/
inductive Runs (ok : State → Ev → Prop) : State → State → Prop
  | refl {s} : Runs ok s s
  | step {s t} {e : Ev} : Runs ok s t → ok t e → Runs ok s (step t e)

end Verif.BlobKeys
