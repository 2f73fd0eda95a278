import Verif.Model.GoMap

/-!
# zkclient/identity.go: the files of a contact

The directory inbound/<identity> of a contact, with the system calls of `updateRatchet` (identity.go:131-170),
`saveIdentity` (192-218) and `handleResetRatchet` (reset.go:52-72) as separate steps, so that the client or the
whole machine can stop between any two of them.

Simplifications.

* Calls that fail make the function return early, which leaves the same disk as stopping before the call, so
  only the failure of `Sync`, whose result is dropped (identity.go:160), appears.
* A write that is interrupted in the middle is a write of fewer bytes: the pieces in which the data is written
  are arbitrary.
* `Verif.Model.Xdr` models the encoding; contents are byte strings here.
-/

namespace Verif.Store

/-- A file: its contents as seen by programs, and whether the disk is known to hold them. -/
structure Inode where
  data : Bytes
  synced : Bool
  deriving DecidableEq, Repr

/-- The directory, the earlier states of it that the disk may still hold (nothing ever syncs the directory), and
the files. -/
structure Disk where
  dir : GoMap Bytes Nat
  past : List (GoMap Bytes Nat)
  nodes : GoMap Nat Inode
  deriving DecidableEq, Repr

/-- System calls. -/
inductive Op where
  /-- A new file. -/
  | create (name : Bytes) (ino : Nat)
  /-- `O_CREATE|O_TRUNC`: an existing file is emptied; otherwise a new file. -/
  | trunc (name : Bytes) (ino : Nat)
  /-- Appends to an open file. -/
  | write (ino : Nat) (piece : Bytes)
  /-- `fsync`, which may fail. -/
  | sync (ino : Nat) (ok : Bool)
  | rename (src dst : Bytes)
  | remove (name : Bytes)
  deriving DecidableEq, Repr

/-- Changing the directory keeps the old one among those the disk may hold. -/
def Disk.setDir (d : Disk) (dir : GoMap Bytes Nat) : Disk := { d with dir := dir, past := d.dir :: d.past }

/-- The effect of a call. -/
def Disk.op (d : Disk) : Op → Disk
  | .create name ino => { d with nodes := d.nodes.set ino ⟨[], false⟩ }.setDir (d.dir.set name ino)
  | .trunc name ino =>
    match d.dir.get name with
    | some i => { d with nodes := d.nodes.set i ⟨[], false⟩ }
    | none => { d with nodes := d.nodes.set ino ⟨[], false⟩ }.setDir (d.dir.set name ino)
  | .write ino piece =>
    match d.nodes.get ino with
    | some n => { d with nodes := d.nodes.set ino ⟨n.data ++ piece, false⟩ }
    | none => d
  | .sync ino ok =>
    match d.nodes.get ino with
    | some n => if ok then { d with nodes := d.nodes.set ino ⟨n.data, true⟩ } else d
    | none => d
  | .rename src dst =>
    match d.dir.get src with
    | some i => d.setDir ((d.dir.del src).set dst i)
    | none => d
  | .remove name => d.setDir (d.dir.del name)

/-- Several calls. -/
def Disk.run (d : Disk) (ops : List Op) : Disk := ops.foldl Disk.op d

/-- `updateRatchet` (identity.go:148-167): `TempFile` makes a new name by appending `suffix` to the final name
`rf`, `xdr.Marshal` writes the state in pieces, `Sync`, `Rename`. -/
def updateRatchet (rf suffix : Bytes) (ino : Nat) (pieces : List Bytes) (ok : Bool) : List Op :=
  [.create (rf ++ suffix) ino] ++ pieces.map (.write ino) ++ [.sync ino ok, .rename (rf ++ suffix) rf]

/-- `ratchet.xdr` (identity.go:24). -/
def ratchetFile : Bytes := [114, 97, 116, 99, 104, 101, 116, 46, 120, 100, 114]

/-- `halfratchet.xdr` (identity.go:25). -/
def halfFile : Bytes := [104, 97, 108, 102] ++ ratchetFile

/-- `publicidentity.xdr` (identity.go:26). -/
def identityFile : Bytes := [112, 117, 98, 108, 105, 99, 105, 100, 101, 110, 116, 105, 116, 121, 46, 120, 100, 114]

/-- The current contents of a file. -/
def Disk.look (d : Disk) (name : Bytes) : Option Bytes :=
  match d.dir.get name with
  | some i => (d.nodes.get i).map (·.data)
  | none => none

/-- `identityExists` (identity.go:31-49). -/
def identityExists (d : Disk) : Bool :=
  (d.look identityFile).isSome && ((d.look ratchetFile).isSome || (d.look halfFile).isSome)

/-- `saveIdentity` (identity.go:192-218): refused if the identity exists, otherwise `ioutil.WriteFile`. -/
def saveIdentity (d : Disk) (ino : Nat) (pieces : List Bytes) : List Op :=
  if identityExists d then []
  else
    match d.dir.get identityFile with
    | some i => .trunc identityFile i :: pieces.map (.write i)
    | none => .trunc identityFile ino :: pieces.map (.write ino)

/-- `handleResetRatchet` (reset.go:52-72) up to and including `saveIdentity` of `step1IDKX`
(zkclient.go:1097): the ratchets are removed, then the identity is stored again. -/
def reset (d : Disk) (ino : Nat) (pieces : List Bytes) : List Op :=
  [.remove halfFile, .remove ratchetFile] ++
    saveIdentity (d.run [.remove halfFile, .remove ratchetFile]) ino pieces

/-- A file after the machine lost power: the directory is the current or an earlier one; of a file that was not
synced any leading part may be there. -/
def Disk.Survives (d : Disk) (name : Bytes) (c : Option Bytes) : Prop :=
  ∃ D ∈ d.dir :: d.past,
    match D.get name with
    | none => c = none
    | some i =>
      match d.nodes.get i with
      | none => c = none
      | some n => if n.synced then c = some n.data else ∃ k, c = some (n.data.take k)

end Verif.Store
