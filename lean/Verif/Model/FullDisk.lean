/-! # A disk that is full: inidb, zkclient, zkserver/account

Everything that client and server write while they run, when any write may come to less than it was asked for. Crashes and power
failures are in C29, C57, C142 and others; here the program goes on, and says whether it succeeded.

* Files are lists of anything, bytes or characters. How much of a write finds room is part of the event, so that it holds for any
  disk, also one on which others make and free room.
* A write that came to less is an error to whoever looks at it (os.File.Write). Errors that appear only when a file is synced or
  closed are left out; the code does not look at them.
* Temporary files that are left behind are not kept track of; ioutil.TempFile never reuses a name.
* That ratchets are removed or renamed (C57) is left out. -/

namespace Verif.FullDisk

/-- What is stored. -/
inductive Obj
  /-- a table of inidb -/
  | table (t : Nat)
  /-- the ratchet of a contact, or the half one -/
  | ratchet (id : Nat) (half : Bool)
  | group (n : Nat)
  | identity (id : Nat)
  /-- a message in the cache of a user on the server -/
  | message (n : Nat)
  /-- the history, the log of a conversation, or that of the program -/
  | log (n : Nat)
  deriving DecidableEq, Repr

variable {α : Type}

/-- The disk; the backups of each table, the newest first. -/
structure Disk (α : Type) where
  file : Obj → Option (List α)
  backups : Nat → List (List α)

/-- Several writes whose results nobody looks at: of each, what finds room. When the list ends there is room for everything. -/
def loose : List (List α) → List Nat → List α
  | [], _ => []
  | p :: ps, [] => p ++ loose ps []
  | p :: ps, n :: ns => p.take n ++ loose ps ns

/-- Several writes up to the first that comes to less, and whether none did. -/
def strict : List (List α) → List Nat → List α × Bool
  | [], _ => ([], true)
  | p :: ps, [] => (p ++ (strict ps []).1, (strict ps []).2)
  | p :: ps, n :: ns => if p.length ≤ n then (p ++ (strict ps ns).1, (strict ps ns).2) else (p.take n, false)

/-- What happens. `tmp`, `opened`: the file could be made or opened; `ren`: it could be renamed. -/
inductive Ev (α : Type)
  /-- `INIDB.Save` of a table that was changed, inidb/inidb.go:96-145; `created`: it was created by the same `INIDB`; `aside`: the
  original could be renamed -/
  | table (t : Nat) (created : Bool) (parts : List (List α)) (room : List Nat) (tmp aside ren : Bool)
  /-- `updateRatchet`, zkclient/identity.go:131-172 -/
  | ratchet (id : Nat) (half : Bool) (parts : List (List α)) (room : List Nat) (tmp ren : Bool)
  /-- `_gcSaveDisk`, zkclient/groupchat.go:64-84 -/
  | group (n : Nat) (data : List α) (room : Nat) (opened : Bool)
  /-- `saveIdentity`, zkclient/identity.go:192-218 -/
  | identity (id : Nat) (data : List α) (room : Nat) (opened : Bool)
  /-- `Deliver`, zkserver/account/account.go:312-362 -/
  | message (n : Nat) (data : List α) (room : Nat) (opened : Bool)
  /-- `log` in debug/debug.go:70-91, zkclient/zkclient.go:228-239, and `appendHistory`, zkclient/mainwindow.go:330-351 -/
  | log (n : Nat) (line : List α) (room : Nat) (opened : Bool)

/-- The file is replaced. -/
def Disk.put (d : Disk α) (o : Obj) (c : Option (List α)) : Disk α := { d with file := fun o' => if o' = o then c else d.file o' }

/-- ioutil.WriteFile: the file is emptied and then written. -/
def Disk.writeFile (d : Disk α) (o : Obj) (data : List α) (room : Nat) (opened : Bool) : Disk α × Bool :=
  if opened then (d.put o (some (data.take room)), decide (data.length ≤ room)) else (d, false)

/-- How many backups of a table are kept: the depth with which the code opens its tables, e.g. zkserver/account/account.go:139. -/
def depth : Nat := 10

/-- A backup is made, and `prune`, inidb/inidb.go:146-177, keeps the newest ones; it runs when the new file is in place. -/
def Disk.backup (d : Disk α) (t : Nat) (old : List α) (prune : Bool) : Disk α :=
  { d with backups := fun t' => if t' = t then (if prune then (old :: d.backups t).take depth else old :: d.backups t) else d.backups t' }

/-- The disk afterwards, and whether success is reported. Of logs nothing is reported, which is taken as success. -/
def step (d : Disk α) : Ev α → Disk α × Bool
  | .table t created parts room tmp aside ren =>
    if !tmp then (d, false)
    else if created then
      if ren then (d.put (.table t) (some (loose parts room)), true) else (d, false)
    else
      match d.file (.table t), aside with
      | some old, true =>
        if ren then ((d.backup t old true).put (.table t) (some (loose parts room)), true)
        else ((d.backup t old false).put (.table t) none, false)
      | _, _ => (d, false)
  | .ratchet id half parts room tmp ren =>
    if !tmp then (d, false)
    else if !(strict parts room).2 then (d, false)
    else if ren then (d.put (.ratchet id half) (some (strict parts room).1), true)
    else (d, false)
  | .group n data room opened => d.writeFile (.group n) data room opened
  | .identity id data room opened =>
    -- identityExists, zkclient/identity.go:31-49
    if (d.file (.identity id)).isSome && ((d.file (.ratchet id false)).isSome || (d.file (.ratchet id true)).isSome) then (d, false)
    else d.writeFile (.identity id) data room opened
  | .message n data room opened =>
    if (d.file (.message n)).isSome then (d, false) else d.writeFile (.message n) data room opened
  | .log n line room opened =>
    if opened then (d.put (.log n) (some ((d.file (.log n)).getD [] ++ line.take room)), true) else (d, true)

/-- The disk after several events. -/
def run (d : Disk α) (evs : List (Ev α)) : Disk α := evs.foldl (fun d e => (step d e).1) d

/-- What was reported of each. -/
def reports (d : Disk α) : List (Ev α) → List Bool
  | [] => []
  | e :: es => (step d e).2 :: reports (step d e).1 es

end Verif.FullDisk
