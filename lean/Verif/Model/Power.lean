import Verif.Model.IniDB
import Verif.Model.StoredMessage

/-! # What is on the disk after the machine lost power

The files that programs write without `Sync`: databases (/repo/inidb/inidb.go:96-176), messages stored by the server
(/repo/zkserver/account/account.go:310-379), and files that are written in place (`ioutil.WriteFile`, for example
/repo/zkclient/groupchat.go:64-84). The system writes them to the disk when it likes to (`flush`).

Simplifications: a directory, whose states reach the disk in their order; of a file that was not written back any leading part
may be there (C63 has the same disk for files that are synced). A file cut within a character is not modelled. -/

namespace Verif.Power

open Verif

variable {ν α : Type} [DecidableEq ν]

/-- A file: its contents as programs see them, and whether the disk has them. -/
structure Node (α : Type) where
  data : List α
  safe : Bool

/-- The directory; the earlier states of it that the disk may still have; the files by number; the next number. -/
structure Disk (ν α : Type) where
  dir : GoMap ν Nat
  past : List (GoMap ν Nat)
  nodes : Nat → Node α
  next : Nat

inductive Op (ν α : Type) where
  /-- a new file -/
  | create (n : ν)
  /-- a file is emptied, `O_TRUNC` -/
  | trunc (n : ν)
  /-- more is written to a file -/
  | append (n : ν) (p : List α)
  | rename (a b : ν)
  | remove (n : ν)
  /-- the system has written everything to the disk -/
  | flush

def Disk.setDir (d : Disk ν α) (dir : GoMap ν Nat) : Disk ν α := { d with dir := dir, past := d.dir :: d.past }

def Disk.setNode (d : Disk ν α) (i : Nat) (x : Node α) : Disk ν α := { d with nodes := fun j => if j = i then x else d.nodes j }

/-- A new file with some contents. -/
def Disk.make (d : Disk ν α) (n : ν) (p : List α) : Disk ν α :=
  { (d.setNode d.next ⟨p, false⟩).setDir (d.dir.set n d.next) with next := d.next + 1 }

/-- The effect of a call; `none`: it fails. A file that is written to is there; if not it would be made. -/
def Disk.exec (d : Disk ν α) : Op ν α → Option (Disk ν α)
  | .create n => some (d.make n [])
  | .trunc n =>
    match d.dir.get n with
    | some i => some (d.setNode i ⟨[], false⟩)
    | none => some (d.make n [])
  | .append n p =>
    match d.dir.get n with
    | some i => some (d.setNode i ⟨(d.nodes i).data ++ p, false⟩)
    | none => some (d.make n p)
  | .rename a b =>
    match d.dir.get a with
    | some i => some (d.setDir ((d.dir.del a).set b i))
    | none => none
  | .remove n => some (d.setDir (d.dir.del n))
  | .flush => some { d with past := [], nodes := fun i => { d.nodes i with safe := true } }

/-- Calls until one fails; the flag tells whether all succeeded. -/
def run : Disk ν α → List (Op ν α) → Disk ν α × Bool
  | d, [] => (d, true)
  | d, o :: os =>
    match d.exec o with
    | none => (d, false)
    | some d' => run d' os

/-- What programs see. -/
def Disk.visible (d : Disk ν α) : GoMap ν (List α) := d.dir.map fun p => (p.1, (d.nodes p.2).data)

/-- What is left of a file of which `k` leading elements were written to the disk. -/
def Node.left (x : Node α) (k : Nat) : List α := if x.safe then x.data else x.data.take k

/-- What may be found after the machine lost power: one of the states of the directory, with what was written of each file. -/
def Disk.Found (d : Disk ν α) (f : GoMap ν (List α)) : Prop :=
  ∃ D ∈ d.dir :: d.past, ∃ cut : Nat → Nat, ∀ n, f.get n = (D.get n).map fun i => (d.nodes i).left (cut i)

/-- The calls of a database, `Verif.IniDB.saveOps`, on this disk. -/
def ofFs : IniDB.FsOp → Op IniDB.Str Char
  | .create n => .create n
  | .append n c => .append n [c]
  | .rename a b => .rename a b
  | .remove n => .remove n

/-- `Save`, /repo/inidb/inidb.go:96-143. -/
def save (i : IniDB.DB) (d : Disk IniDB.Str Char) (tmp stamp : IniDB.Str)
    (order : List (IniDB.Str × List (IniDB.Str × IniDB.Str))) : List (Op IniDB.Str Char) :=
  (IniDB.saveOps i d.visible tmp stamp order).map ofFs

/-- `Deliver`, /repo/zkserver/account/account.go:336-347: `ioutil.WriteFile` of a name that is not there yet. -/
def deliver (name : Bytes) (m : Stored.DiskMessage) : List (Op Bytes UInt8) := [.create name, .append name (Stored.marshal m)]

/-- `Delete`, /repo/zkserver/account/account.go:365-373. -/
def delete (name : Bytes) : List (Op Bytes UInt8) := [.remove name]

/-- `ioutil.WriteFile` of a file that may be there, /repo/zkclient/groupchat.go:83. -/
def rewrite (name : ν) (p : List α) : List (Op ν α) := [.trunc name, .append name p]

end Verif.Power
