import Mathlib.Tactic.ByContra

/-! # The end of a session: /repo/zkserver/zkserver.go:217-420, /repo/zkserver/account/account.go:375-511

The four goroutines of a session of the server (the reader `handleSession`, `sessionWriter`, `sessionNtfn`, and the one
`Account.Online` starts), the channels between them, and the connection, which anybody may close at any time.  Messages have
no contents here; how many there are is all that counts.  Locks are in `Verif.Locks`. -/

namespace Verif.Ends

/-- `handleSession` -/
inductive R
  /-- in `kx.Read`, zkserver.go:435 -/
  | read
  /-- at `sc.writer <-`, e.g. 472 -/
  | send
  /-- at `sc.tagStack.Push`, 553; tagstack.go:64 -/
  | push
  /-- `sc.quit` was closed, 409 -/
  | quit
  /-- after `Offline`, 411 -/
  | offline
  /-- returned; `preSession` has closed the connection, 596 -/
  | done
  deriving DecidableEq, Repr

/-- `sessionWriter`, zkserver.go:217-258 -/
inductive W
  | select
  /-- in `writeMessage` -/
  | write
  | done
  deriving DecidableEq, Repr

/-- `sessionNtfn`, zkserver.go:260-331 -/
inductive N
  | select
  /-- in `sc.tagStack.Pop`, 290; tagstack.go:82 -/
  | pop
  /-- at `sc.writer <- &r`, 329 -/
  | send
  | done
  deriving DecidableEq, Repr

/-- The goroutine of `Account.Online`, account.go:426-500 -/
inductive A
  /-- at `dn.work <- struct{}{}`, 429 -/
  | init
  /-- 431-436 -/
  | select
  /-- In the loop over the files, 448; `k`: files found that still have to be announced. -/
  | scan (k : Nat)
  /-- In `dn.send`, 505-511. -/
  | send (k : Nat)
  | done
  deriving DecidableEq, Repr

structure State where
  r : R
  w : W
  n : N
  a : A
  /-- the connection is closed -/
  closed : Bool
  /-- `sc.quit` is closed -/
  quit : Bool
  /-- `dn.quit` is closed -/
  off : Bool
  /-- messages in `sc.writer` -/
  wq : Nat
  /-- messages in `sc.ntfn` -/
  nq : Nat
  /-- free tags -/
  tags : Nat
  /-- there is a token in `dn.work` -/
  work : Bool
  /-- files not yet announced -/
  todo : Nat
  deriving DecidableEq, Repr

/-- After the goroutines were started, 343-404; `d` is `tagDepth`, and `todo` messages are waiting. -/
def init (d todo : Nat) : State := ⟨.read, .select, .select, .init, false, false, false, 0, 0, d, false, todo⟩

inductive Ev
  /-- The reader gets a request. -/
  | request
  /-- The reader gets an acknowledgement. -/
  | ack
  /-- Reading fails or the message is bad: the deferred function is run up to `close(sc.quit)`, 407-409.  -/
  | fail
  /-- The reader's message goes into the queue. -/
  | rSend
  /-- The reader's tag goes back. -/
  | rPush
  /-- `Offline`, account.go:385-399 -/
  | rOffline
  /-- The reader returns and the connection is closed. -/
  | rDone
  /-- The writer sees `sc.quit` closed. -/
  | wQuit
  | wTake
  | wOk
  | wFail
  /-- The notifier sees `sc.quit` closed. -/
  | nQuit
  | nTake
  /-- The notifier takes a notification of an error, 281-284. -/
  | nError
  | nPop
  /-- The tag is in use, 297-303. -/
  | nDup
  | nSend
  | aInit
  /-- The goroutine of the account sees `dn.quit` closed at 432. -/
  | aQuit
  /-- It reads the directory, 438-445. -/
  | aWork
  /-- The directory can not be read. -/
  | aError
  | aNext
  | aEnd
  | aSend
  /-- It sees `dn.quit` closed at 508. -/
  | aSkip
  /-- The connection is closed, by the client, by the network, by a second login or by the administrator. -/
  | hangup
  /-- A message for this user is stored, account.go:335-361. -/
  | deliver
  deriving DecidableEq, Repr

/-- What may happen without anybody outside doing anything. -/
def Ev.inner : Ev → Bool
  | .hangup | .deliver => false
  | _ => true

/-- One step; `none`: not now. -/
def step (d : Nat) (s : State) : Ev → Option State
  | .request => if s.r = .read ∧ ¬ s.closed then some { s with r := .send } else none
  | .ack => if s.r = .read ∧ ¬ s.closed then some { s with r := .push } else none
  | .fail => if s.r = .read then some { s with r := .quit, quit := true } else none
  | .rSend => if s.r = .send ∧ s.wq < d then some { s with r := .read, wq := s.wq + 1 } else none
  | .rPush => if s.r = .push ∧ s.tags < d then some { s with r := .read, tags := s.tags + 1 } else none
  | .rOffline => if s.r = .quit then some { s with r := .offline, off := true } else none
  | .rDone => if s.r = .offline then some { s with r := .done, closed := true } else none
  | .wQuit => if s.w = .select ∧ s.quit then some { s with w := .done, closed := true } else none
  | .wTake => if s.w = .select ∧ 0 < s.wq then some { s with w := .write, wq := s.wq - 1 } else none
  | .wOk => if s.w = .write ∧ ¬ s.closed then some { s with w := .select } else none
  | .wFail => if s.w = .write then some { s with w := .done, closed := true } else none
  | .nQuit => if s.n = .select ∧ s.quit then some { s with n := .done, closed := true } else none
  | .nTake => if s.n = .select ∧ 0 < s.nq then some { s with n := .pop, nq := s.nq - 1 } else none
  | .nError => if s.n = .select ∧ 0 < s.nq then some { s with n := .done, nq := s.nq - 1, closed := true } else none
  | .nPop => if s.n = .pop ∧ 0 < s.tags then some { s with n := .send, tags := s.tags - 1 } else none
  | .nDup => if s.n = .pop ∧ 0 < s.tags then some { s with n := .done, tags := s.tags - 1, closed := true } else none
  | .nSend => if s.n = .send ∧ s.wq < d then some { s with n := .select, wq := s.wq + 1 } else none
  | .aInit => if s.a = .init ∧ ¬ s.work then some { s with a := .select, work := true } else none
  | .aQuit => if s.a = .select ∧ s.off then some { s with a := .done } else none
  | .aWork => if s.a = .select ∧ s.work then some { s with a := .scan s.todo, work := false } else none
  | .aError => if s.a = .select ∧ s.work then some { s with a := .send 0, work := false } else none
  | .aNext =>
    match s.a with
    | .scan (k + 1) => some { s with a := .send k, todo := s.todo - 1 }
    | _ => none
  | .aEnd => if s.a = .scan 0 then some { s with a := .select } else none
  | .aSend =>
    match s.a with
    | .send k => if s.nq < d then some { s with a := .scan k, nq := s.nq + 1 } else none
    | _ => none
  | .aSkip =>
    match s.a with
    | .send k => if s.off then some { s with a := .scan k } else none
    | _ => none
  | .hangup => some { s with closed := true }
  | .deliver => some { s with todo := s.todo + 1, work := if s.off then s.work else true }

def exec (d : Nat) (s : State) : List Ev → Option State
  | [] => some s
  | e :: es => (step d s e).bind fun s' => exec d s' es

end Verif.Ends
