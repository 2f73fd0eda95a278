import Verif.Model.StoredMessage
import Verif.Model.GoMap
import Mathlib.Data.List.Sort

/-! # Delivery of stored messages: zkserver/account/account.go

`Deliver`, `Delete`, `Online`, `Offline` and the delivery goroutine, for one account. Other accounts have
their own directory and their own entry in the `online` map and do not appear. The steps are the parts
that run under the mutex and the single channel operations and file accesses between them; any
interleaving of steps is allowed. The directory of the account exists throughout. -/

namespace Verif.Delivery

open Verif Verif.Stored

/-- File names: `time.Now().Format("20060102150405.000000000")`, which sorts like the time. -/
abbrev Name := Nat

/-- `Notification`, /repo/zkserver/account/account.go:73-81: a message, the error of a failed open, or the
error of a failed unmarshal. -/
inductive Note where
  | msg (n : Name) (m : DiskMessage)
  | missing (n : Name)
  | bad (n : Name)
  deriving DecidableEq, Repr

/-- The file a notification is about. -/
def Note.name : Note → Name
  | .msg n _ => n
  | .missing n => n
  | .bad n => n

/-- Where the delivery goroutine stands. -/
inductive Pc where
  /-- before `dn.work <- struct{}{}`, /repo/zkserver/account/account.go:429 -/
  | start
  /-- at the select, line 432 -/
  | idle
  /-- before `ReadDir`, line 440 -/
  | scan
  /-- at the loop head, line 448, with the rest of the listing -/
  | loop (rest : List Name)
  /-- before `os.Open`, line 459 -/
  | opening (n : Name) (rest : List Name)
  /-- in `send`, lines 505-511 -/
  | sending (note : Note) (rest : List Name)
  | done
  deriving DecidableEq, Repr

/-- What happened to one login, for stating properties: what was put on the `ntfn` channel, and the files
deleted while it was the current login. -/
inductive Entry where
  | ann (note : Note)
  | del (n : Name)
  deriving DecidableEq, Repr

/-- `diskNotification`, /repo/zkserver/account/account.go:47-52, with its goroutine. -/
structure Login where
  /-- The channel of capacity 1 is full. -/
  work : Bool
  /-- The quit channel is closed. -/
  quit : Bool
  processed : List Name
  pc : Pc
  /-- Ghost. -/
  log : List Entry
  deriving DecidableEq, Repr

/-- The account: the cache directory; calls of `Deliver` that have checked the file name but not written
yet; all logins since the server started, and which is in the `online` map. Ghosts: names used so far, and
messages delivered so far. -/
structure State where
  store : GoMap Name Bytes
  pend : List (Name × DiskMessage)
  logins : List Login
  online : Option Nat
  used : List Name
  delivered : List (Name × DiskMessage)
  deriving DecidableEq, Repr

/-- An account without messages. -/
def init : State := ⟨[], [], [], none, [], []⟩

/-- Steps of the delivery goroutine. -/
inductive Act where
  /-- first send on `work` -/
  | start
  /-- receive from `work` -/
  | take
  /-- receive from `quit` at the select -/
  | leave
  /-- `ReadDir` -/
  | list
  /-- loop head and check of `processed` -/
  | check
  /-- open, unmarshal -/
  | open_
  /-- the notification is received by the session -/
  | send
  /-- `send` finds `quit` closed -/
  | drop
  deriving DecidableEq, Repr

/-- Steps. -/
inductive Ev where
  /-- `Deliver` up to the lock, with the name and the message (with its time) -/
  | begin (n : Name) (m : DiskMessage)
  /-- the rest of `Deliver` -/
  | commit (n : Name) (m : DiskMessage)
  /-- `Delete` -/
  | delete (n : Name)
  | online
  | offline
  /-- the server stops and starts again -/
  | restart
  /-- the server dies after `k` bytes of a message have been written, and starts again -/
  | torn (n : Name) (m : DiskMessage) (k : Nat)
  /-- the goroutine of login `i` -/
  | go (i : Nat) (a : Act)
  deriving DecidableEq, Repr

/-- `ioutil.ReadDir`: sorted by name. -/
def listing (store : GoMap Name Bytes) : List Name := store.keys.insertionSort (· ≤ ·)

/-- What is announced about file `n`, /repo/zkserver/account/account.go:458-498. -/
def readNote (store : GoMap Name Bytes) (n : Name) : Note :=
  match store.get n with
  | none => .missing n
  | some f =>
    match unmarshal f with
    | none => .bad n
    | some m => .msg n m

/-- A step of the goroutine started by `Online`, /repo/zkserver/account/account.go:427-500; `none`: it can
not happen now. -/
def stepLogin (store : GoMap Name Bytes) (l : Login) : Act → Option Login
  -- line 429: blocks while the channel is full
  | .start => if l.pc = .start ∧ l.work = false then some { l with work := true, pc := .idle } else none
  -- lines 432-437
  | .take => if l.pc = .idle ∧ l.work = true then some { l with work := false, pc := .scan } else none
  | .leave => if l.pc = .idle ∧ l.quit = true then some { l with pc := .done } else none
  -- lines 439-446
  | .list => if l.pc = .scan then some { l with pc := .loop (listing store) } else none
  -- lines 448-456
  | .check =>
    match l.pc with
    | .loop [] => some { l with pc := .idle }
    | .loop (n :: rest) =>
      if n ∈ l.processed then some { l with pc := .loop rest }
      else some { l with pc := .opening n rest, processed := n :: l.processed }
    | _ => none
  -- lines 458-487
  | .open_ =>
    match l.pc with
    | .opening n rest => some { l with pc := .sending (readNote store n) rest }
    | _ => none
  -- lines 489-498, 505-511
  | .send =>
    match l.pc with
    | .sending note rest => some { l with pc := .loop rest, log := l.log ++ [.ann note] }
    | _ => none
  | .drop =>
    match l.pc with
    | .sending _ rest => if l.quit = true then some { l with pc := .loop rest } else none
    | _ => none

/-- Change the login in the `online` map, if there is one. -/
def State.onOnline (s : State) (f : Login → Login) : State :=
  match s.online with
  | none => s
  | some i => { s with logins := s.logins.modify i f }

/-- One step; `none`: it can not happen now. -/
def step (s : State) : Ev → Option State
  -- /repo/zkserver/account/account.go:313-340; an existing name is an error
  | .begin n m =>
    if (s.store.get n).isSome then none
    else some { s with pend := (n, m) :: s.pend, used := n :: s.used }
  -- lines 342-361; the non-blocking send leaves a full channel full
  | .commit n m =>
    if (n, m) ∈ s.pend then
      let s := { s with
        store := s.store.set n (marshal m), pend := s.pend.erase (n, m), delivered := (n, m) :: s.delivered }
      some (s.onOnline fun l => { l with work := true })
    else none
  -- lines 364-381; a missing file is an error
  | .delete n =>
    if (s.store.get n).isSome then
      let s := { s with store := s.store.del n }
      some (s.onOnline fun l => { l with processed := l.processed.filter (· ≠ n), log := l.log ++ [.del n] })
    else none
  -- lines 404-425
  | .online =>
    if s.online.isSome then none
    else some { s with
      logins := s.logins ++ [⟨false, false, [], .start, []⟩], online := some s.logins.length }
  -- lines 385-399
  | .offline =>
    let s := s.onOnline fun l => { l with quit := true }
    some { s with online := none }
  | .restart => some { s with pend := [], logins := [], online := none }
  | .torn n m k =>
    if (n, m) ∈ s.pend then
      some { s with store := s.store.set n ((marshal m).take k), pend := [], logins := [], online := none }
    else none
  | .go i a =>
    match s.logins[i]? with
    | none => none
    | some l => (stepLogin s.store l a).map fun l' => { s with logins := s.logins.set i l' }

/-- Executions in which every step satisfies `G`. -/
inductive Run (G : State → Ev → Prop) : State → List Ev → State → Prop
  | nil (s) : Run G s [] s
  | cons {s e s' es s''} : G s e → step s e = some s' → Run G s' es s'' → Run G s (e :: es) s''

/-- States reached from the beginning. -/
def Reach (G : State → Ev → Prop) (s : State) : Prop := ∃ es, Run G init es s

end Verif.Delivery
