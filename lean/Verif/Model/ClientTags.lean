import Verif.Model.TagStack

/-!
# zkclient: tags of the client's requests

The pool of tags, the table of callbacks, the requests that hold a tag and the replies of the server
(zkclient/zkclient.go:939-941, 1186-1598, 1694-1840 and zkclient/msg.go:437-519).

Simplifications.

* A request is its tag and, if it was sent by `cacheCRPC`, a number that stands for the entry stored in the
  table of callbacks (`cb`, zkclient.go:595-598).  An entry without a function is not distinguished from one with
  a function.
* Contents, ratchets and clocks are left out.  Whether a write succeeds, when the heartbeat fires and when the
  connection drops is chosen by the run.
* The scheduler's queues are a list from which any element may be written next (`Verif.Model.Scheduler` has the
  order).
* `flight` is not part of the program: it records the requests written on the current connection that have not
  been answered.
-/

namespace Verif.ClientTags

open Verif.TagStack (Stack)

/-- The largest tag depth a client accepts (zkclient.go:670, 904-906; see `Verif.Welcome`). -/
def maxDepth : Nat := 32

/-- The client, as far as tags are concerned. -/
structure State where
  /-- `z.tagStack` (zkclient.go:633). -/
  stack : Stack
  /-- `z.tagCallback` (zkclient.go:634). -/
  cbs : List (Option Nat)
  /-- Tags taken by a function that has neither scheduled nor returned them yet. -/
  held : List Nat
  /-- Tags of the scheduled requests that have not been written. -/
  queued : List Nat
  /-- The request `cacheCRPC` is about to write, between lines 466 and 489 of msg.go.  The scheduler's single
  goroutine is the only caller (msg.go:157). -/
  sending : Option (Nat × Nat)
  /-- Requests written on this connection and not answered: tag, and entry for those of `cacheCRPC`. -/
  flight : List (Nat × Option Nat)
  /-- `retry` of the heartbeat (zkclient.go:1228). -/
  retry : Nat
  /-- Entries whose callback has been run, oldest first. -/
  ran : List Nat
  /-- `z.online`. -/
  online : Bool
  /-- A run-time panic has ended the program. -/
  crashed : Bool
  deriving DecidableEq, Repr

/-- The end of `welcomePhase` (zkclient.go:940-943): new pool, new table, online.  The heartbeat starts with two
tries (1228).  What other goroutines hold and what is queued stays. -/
def connect (s : State) (depth : Nat) : State :=
  { s with stack := TagStack.new depth, cbs := List.replicate depth none, flight := [], retry := 2,
           online := true }

/-- A client that has never been connected. -/
def start : State :=
  { stack := TagStack.new 0, cbs := [], held := [], queued := [], sending := none, flight := [], retry := 2,
    ran := [], online := false, crashed := false }

/-- `z.tagStack.Pop()` in `cache` (zkclient.go:1558), `rendezvous` (1581), `fetch` (1700), `find` (1746) and
`reset` (1793).  If the pool is empty the function returns an error and nothing changes. -/
def take (s : State) : State :=
  match s.stack.pop with
  | (.ok t, st) => { s with stack := st, held := s.held ++ [t] }
  | (.err _, _) => s
  | (.panic, _) => { s with crashed := true }

/-- `schedulePRPC` with a tag taken before (zkclient.go:1563, 1586, 1705, 1751, 1828). -/
def queue (s : State) (t : Nat) : State := { s with held := s.held.erase t, queued := s.queued ++ [t] }

/-- `reset` fails and returns its tag, ignoring errors (zkclient.go:1797-1801). -/
def giveBack (s : State) (t : Nat) : State := { s with held := s.held.erase t, stack := (s.stack.push t).2 }

/-- `cacheCRPC` up to the write (msg.go:466-476).  The table is indexed without a check. -/
def crpc (s : State) (k : Nat) : State :=
  match s.stack.pop with
  | (.ok t, st) =>
    if t < s.cbs.length then { s with stack := st, cbs := s.cbs.set t (some k), sending := some (t, k) }
    else { s with stack := st, crashed := true }
  | (.err _, _) => s
  | (.panic, _) => { s with crashed := true }

/-- `writeMessage` in `cacheCRPC` succeeds (msg.go:490). -/
def crpcWritten (s : State) (t k : Nat) : State :=
  { s with sending := none, flight := s.flight ++ [(t, some k)] }

/-- `writeMessage` in `cacheCRPC` fails (msg.go:495-508): the entry is cleared and the tag returned. -/
def crpcFailed (s : State) (t : Nat) : State :=
  if t < s.cbs.length then
    { s with sending := none, cbs := s.cbs.set t none, stack := (s.stack.push t).2 }
  else { s with sending := none, crashed := true }

/-- The scheduler writes a queued request (msg.go:176-187). -/
def write (s : State) (t : Nat) : State :=
  { s with queued := s.queued.erase t, flight := s.flight ++ [(t, none)] }

/-- The heartbeat sends a ping (zkclient.go:1254-1277).  `Pop` returns 0 with an error when the pool is empty
(tagstack.go:99); the first failure in a row only decreases `retry`, and the ping is sent with that 0. -/
def ping (s : State) : State :=
  match s.stack.pop with
  | (.ok t, st) => { s with stack := st, queued := s.queued ++ [t], retry := 2 }
  | (.err _, _) =>
    if s.retry - 1 = 0 then { s with online := false } else { s with queued := s.queued ++ [0], retry := 2 }
  | (.panic, _) => { s with crashed := true }

/-- The first request with tag `t` is no longer in flight. -/
def answered (s : State) (t : Nat) : List (Nat × Option Nat) := s.flight.eraseP (fun r => r.1 == t)

/-- A `Pong`, `RendezvousReply`, `RendezvousPullReply`, `IdentityFindReply` or `ProxyReply` with tag `t`
(zkclient.go:1326, 1353, 1374, 1497, 1523): the tag is pushed, an overflow ends the connection. -/
def reply (s : State) (t : Nat) : State :=
  match s.stack.push t with
  | (.ok _, st) => { s with stack := st, flight := answered s t }
  | (_, _) => { s with flight := answered s t, online := false }

/-- An `Acknowledge` with tag `t` (zkclient.go:1441-1477). -/
def ack (s : State) (t : Nat) : State :=
  if t > s.cbs.length then { s with online := false }
  else
    match s.cbs[t]? with
    | none => { s with crashed := true }
    | some c =>
      match s.stack.push t with
      | (.ok _, st) =>
        { s with stack := st, cbs := s.cbs.set t none, flight := answered s t, ran := s.ran ++ c.toList }
      | (_, _) => { s with cbs := s.cbs.set t none, flight := answered s t, online := false }

/-- What can happen. -/
inductive Ev where
  | connect (depth : Nat)
  | drop
  | take
  | queue (t : Nat)
  | giveBack (t : Nat)
  | crpc (k : Nat)
  | crpcWritten
  | crpcFailed
  | write (t : Nat)
  | ping
  | reply (t : Nat)
  | ack (t : Nat)
  deriving DecidableEq, Repr

/-- One event; `none` if it cannot happen now. -/
def step (s : State) (e : Ev) : Option State :=
  if s.crashed then none
  else
    match e with
    | .connect d => if s.online = false ∧ d ≤ maxDepth then some (connect s d) else none
    | .drop => if s.online then some { s with online := false } else none
    | .take => if s.online then some (take s) else none
    | .queue t => if t ∈ s.held then some (queue s t) else none
    | .giveBack t => if t ∈ s.held then some (giveBack s t) else none
    | .crpc k => if s.online ∧ s.sending = none then some (crpc s k) else none
    | .crpcWritten =>
      match s.sending with
      | some (t, k) => if s.online then some (crpcWritten s t k) else none
      | none => none
    | .crpcFailed =>
      match s.sending with
      | some (t, _) => some (crpcFailed s t)
      | none => none
    | .write t => if s.online ∧ t ∈ s.queued then some (write s t) else none
    | .ping => if s.online then some (ping s) else none
    | .reply t => if s.online then some (reply s t) else none
    | .ack t => if s.online then some (ack s t) else none

/-- A run in which every event satisfies `G` in the state it happens in. -/
inductive Run (G : State → Ev → Prop) : State → List Ev → State → Prop
  | nil (s) : Run G s [] s
  | cons {s e s' es s''} : G s e → step s e = some s' → Run G s' es s'' → Run G s (e :: es) s''

end Verif.ClientTags
