import Verif.Model.Welcome

/-! # The table of properties that all sessions share

`welcome`, /repo/zkserver/zkserver.go:161-215, begins with `properties := rpc.SupportedServerProperties`.  This copies the slice,
not the array behind it (/repo/rpc/rpc.go:223-234), so that all connections that log in write their values to the same places
and marshal what is there then, without a lock.  `Welcome` has the same function for one connection.

Simplifications.
* A string in the table is two words, a pointer and a length, that are loaded and stored one after the other, in any order.
  Loads and stores of words happen one at a time.  A pointer is the number of the login that made the string.
* Keys are never written, so what is marshalled of them is left out. -/

namespace Verif.SharedProps

open Verif

/-- The header of a string. -/
structure Header where
  ptr : Nat
  len : Nat
  deriving DecidableEq, Repr

/-- Where a login is in `welcome`. -/
inductive Pc
  | idle
  /-- in the loop of lines 169-186, at a place; `half`: the pointer (`true`) or the length is stored -/
  | store (k : Nat) (half : Option Bool)
  /-- in `xdr.Marshal`, line 202, at a place, with what is loaded of it -/
  | load (k : Nat) (ptr len : Option Nat)
  | done
  deriving DecidableEq, Repr

structure State where
  table : Nat → Header
  pc : Nat → Pc
  /-- what a login has marshalled, first to last -/
  out : Nat → List Header

/-- How many properties there are. -/
def places : Nat := 7

/-- Nobody has logged in; `val` says which string each login puts at a place, login 0 are the defaults. -/
def init (val : Nat → Nat → Bytes) : State where
  table k := ⟨0, (val 0 k).length⟩
  pc _ := .idle
  out _ := []

def upd {α} (f : Nat → α) (i : Nat) (a : α) : Nat → α := fun j => if j = i then a else f j

/-- The pointer is stored. -/
def State.putPtr (s : State) (g k : Nat) : State := { s with table := upd s.table k ⟨g, (s.table k).len⟩ }

/-- The length is stored. -/
def State.putLen (s : State) (k n : Nat) : State := { s with table := upd s.table k ⟨(s.table k).ptr, n⟩ }

def State.goto (s : State) (g : Nat) (p : Pc) : State := { s with pc := upd s.pc g p }

/-- The next load or store of login `g`; `b`: the pointer comes first. -/
def step (val : Nat → Nat → Bytes) (s : State) (g : Nat) (b : Bool) : State :=
  match s.pc g with
  | .idle => s.goto g (.store 0 none)
  | .store k none =>
    if k = places then s.goto g (.load 0 none none)
    else if b then (s.putPtr g k).goto g (.store k (some true))
    else (s.putLen k (val g k).length).goto g (.store k (some false))
  | .store k (some true) => (s.putLen k (val g k).length).goto g (.store (k + 1) none)
  | .store k (some false) => (s.putPtr g k).goto g (.store (k + 1) none)
  | .load k none none =>
    if k = places then s.goto g .done
    else if b then s.goto g (.load k (some (s.table k).ptr) none)
    else s.goto g (.load k none (some (s.table k).len))
  | .load k (some p) none =>
    { s.goto g (.load (k + 1) none none) with out := upd s.out g (s.out g ++ [⟨p, (s.table k).len⟩]) }
  | .load k none (some n) =>
    { s.goto g (.load (k + 1) none none) with out := upd s.out g (s.out g ++ [⟨(s.table k).ptr, n⟩]) }
  | .load _ (some _) (some _) => s
  | .done => s

/-- A run: which login takes a step, and which half it does first.  The numbers of logins begin with 1. -/
def run (val : Nat → Nat → Bytes) (s : State) : List (Nat × Bool) → State
  | [] => s
  | (g, b) :: es => run val (step val s (g + 1) b) es

/-- The bytes that a header stands for; `none`: it reaches beyond the end of the string. -/
def text (val : Nat → Nat → Bytes) (k : Nat) (h : Header) : Option Bytes :=
  if h.len ≤ (val h.ptr k).length then some ((val h.ptr k).take h.len) else none

/-- The values of a login: the settings, its time and what the file of the message of the day held. -/
def valOf (s : Welcome.Settings) (now : Nat → Int) (motd : Nat → Bytes) (g k : Nat) : Bytes :=
  (((Welcome.properties s (now g) (motd g))[k]?).map (·.2.1)).getD []

end Verif.SharedProps
