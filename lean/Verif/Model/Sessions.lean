import Verif.Model.GoMap

/-! # Sessions of the server: zkserver/zkserver.go

Who is online, as the account package sees it (`Account.online`), and the table of sessions (`ZKS.sessions`),
as several connections come and go. Each locked section is one step. Of a running session only the reader,
the writer and the queue between them are represented: enough to see whether the reader can block. The
messages themselves are in `Verif.Tags`, `Verif.Delivery` and `Verif.Accounts`. -/

namespace Verif.Sessions

open Verif

abbrev Id := Bytes

/-- Where the goroutine of a connection is, /repo/zkserver/zkserver.go:672-709 and 336-588. -/
inductive Pc where
  /-- `preSession` has found the account enabled, line 686 -/
  | checked
  /-- `Online` has answered `ErrAlreadyOnline`, line 355 -/
  | conflict
  /-- `Online` has succeeded, line 384 -/
  | onlined
  /-- the session is in the table, line 389 -/
  | registered
  /-- in the loop, line 421 -/
  | running
  /-- in the loop, waiting for room in the queue of the writer, e.g. line 472 -/
  | blocked
  /-- in the deferred function, line 407 -/
  | quitting
  /-- `Offline` has returned, line 411 -/
  | offed
  /-- `handleSession` has returned -/
  | ended
  /-- `handleSession` has returned because of a failed `Push`, before the deferred function was set up, line 398 -/
  | leaked
  deriving DecidableEq, Repr

/-- A connection. -/
structure Conn where
  id : Id
  pc : Pc
  /-- the connection has been closed, by whichever side -/
  closed : Bool
  /-- `sessionWriter` is running -/
  writer : Bool
  /-- messages in `sc.writer`, a channel of capacity 32 -/
  queue : Nat
  deriving DecidableEq, Repr

/-- The connections by number; whose notification channel `Account.online` contains for an identity; which
session the table contains for it; the accounts that are disabled. -/
structure State where
  conns : GoMap Nat Conn
  online : GoMap Id Nat
  table : GoMap Id Nat
  disabled : List Id
  deriving DecidableEq, Repr

def init : State := ⟨[], [], [], []⟩

def State.put (s : State) (c : Nat) (k : Conn) : State := { s with conns := s.conns.set c k }

/-- Close a connection, if there is one of that number. -/
def State.close (s : State) (c : Nat) : State :=
  match s.conns.get c with
  | none => s
  | some k => s.put c { k with closed := true }

inductive Ev where
  /-- a client connects, and passes the checks of `preSession`, lines 673-690: the account is enabled and not disabled -/
  | connect (c : Nat) (id : Id)
  /-- `z.account.Online`, line 355 and /repo/zkserver/account/account.go:404-424 -/
  | goOnline (c : Nat)
  /-- the conflict is dealt with, lines 362-383 -/
  | knock (c : Nat)
  /-- `z.sessions[rids] = &sc`, lines 387-389 -/
  | register (c : Nat)
  /-- `z.account.Push`, if the server has a directory, lines 394-400 -/
  | push (c : Nat) (ok : Bool)
  /-- the reader handles a message that is answered -/
  | request (c : Nat)
  /-- a blocked reader finds room in the queue -/
  | unblock (c : Nat)
  /-- the writer takes a message out of the queue and writes it -/
  | drain (c : Nat)
  /-- the writer fails, and closes the connection, lines 215-253 -/
  | writerDies (c : Nat)
  /-- the reader fails and `handleSession` returns: the connection was closed, there was nothing to read for
  15 seconds, or a message was bad -/
  | leave (c : Nat)
  /-- `z.account.Offline`, line 411 and /repo/zkserver/account/account.go:385-399 -/
  | offline (c : Nat)
  /-- `delete(z.sessions, rids)`, lines 414-416 -/
  | unregister (c : Nat)
  /-- the client goes away -/
  | hangup (c : Nat)
  /-- the administrator disables an account, `handleIdentityDisable`, line 759 -/
  | disable (id : Id)
  /-- after that its session is disconnected, lines 761-768 -/
  | kick (id : Id)
  /-- the administrator enables an account, line 782 -/
  | enable (id : Id)
  deriving DecidableEq, Repr

/-- A step of a connection that is at `pc`. -/
def State.at (s : State) (c : Nat) (pc : Pc) (f : Conn → State) : Option State :=
  match s.conns.get c with
  | none => none
  | some k => if k.pc = pc then some (f k) else none

/-- A step. `none`: can not happen. -/
def step (s : State) : Ev → Option State
  | .connect c id =>
    if (s.conns.get c).isSome ∨ id ∈ s.disabled then none
    else some (s.put c ⟨id, .checked, false, false, 0⟩)
  | .goOnline c => s.at c .checked fun k =>
    if (s.online.get k.id).isSome then s.put c { k with pc := .conflict }
    else { s.put c { k with pc := .onlined } with online := s.online.set k.id c }
  | .knock c => s.at c .conflict fun k =>
    match s.table.get k.id with
    | some o => { (s.close o).put c { k with pc := .ended } with table := s.table.del k.id }
    | none => s.put c { k with pc := .ended }
  | .register c => s.at c .onlined fun k =>
    { s.put c { k with pc := .registered } with table := s.table.set k.id c }
  | .push c ok => s.at c .registered fun k =>
    if ok then s.put c { k with pc := .running, writer := true } else s.put c { k with pc := .leaked }
  | .request c => s.at c .running fun k =>
    if k.queue < 32 then s.put c { k with queue := k.queue + 1 } else s.put c { k with pc := .blocked }
  | .unblock c =>
    match s.conns.get c with
    | none => none
    | some k =>
      if k.pc = .blocked ∧ k.queue < 32 then some (s.put c { k with pc := .running, queue := k.queue + 1 })
      else none
  | .drain c =>
    match s.conns.get c with
    | none => none
    | some k => if k.writer ∧ 0 < k.queue then some (s.put c { k with queue := k.queue - 1 }) else none
  | .writerDies c =>
    match s.conns.get c with
    | none => none
    | some k => if k.writer then some (s.put c { k with writer := false, closed := true }) else none
  | .leave c => s.at c .running fun k => s.put c { k with pc := .quitting }
  | .offline c => s.at c .quitting fun k =>
    { s.put c { k with pc := .offed } with online := s.online.del k.id }
  | .unregister c => s.at c .offed fun k =>
    { s.put c { k with pc := .ended } with table := s.table.del k.id }
  | .hangup c =>
    match s.conns.get c with
    | none => none
    | some _ => some (s.close c)
  | .disable id => some { s with disabled := id :: s.disabled }
  | .kick id =>
    match s.table.get id with
    | some o => some (s.close o)
    | none => some s
  | .enable id => some { s with disabled := s.disabled.filter (· ≠ id) }

/-- Executions in which every step satisfies `G`. -/
inductive Run (G : State → Ev → Prop) : State → List Ev → State → Prop
  | nil (s) : Run G s [] s
  | cons {s e s' es s''} : G s e → step s e = some s' → Run G s' es s'' → Run G s (e :: es) s''

/-- States that can occur. -/
def Reach (G : State → Ev → Prop) (s : State) : Prop := ∃ es, Run G init es s

end Verif.Sessions
