/-! # The heartbeat of a session

The client sends pings so that either side notices when the connection is dead: the client's ticker
(/repo/zkclient/zkclient.go:1216-1280) and its handling of the pong (1317-1339), what `writeMessage` does to the
ticker (1844-1878), the goroutine that writes what is queued (msg.go:120-194), and the read deadline of the server
(zkserver/zkserver.go:421-445, 466-477).

Time is counted in milliseconds.  One session is modelled, from the moment both sides have begun to read.

Simplifications.
* Reading the clock, locking `z.write` and what follows it are one event.
* The ticker is on time: the tick goroutine runs each second.  (Go's ticker drops ticks when its reader is late.)
* Contents are left out; a message has a size.  The goroutine that writes takes a message, gives its bytes to the
  connection, and when the last byte is given away `kx.Write` returns.  The order in the queues is left open (C44).
* A message that was taken is no longer counted as queued.  (It leaves the slice after it was written; a message whose
  writing fails because the session ended stays for the next session.)
* The server handles a message at once, and so does the client: the deadline of the server's next read begins when
  a message has arrived, and a pong may come as soon as the ping has arrived. -/

namespace Verif.Heartbeat

/-- The times that the code has as constants. -/
structure Times where
  /-- The period of the ticker (zkclient.go:1230). -/
  every : Nat
  /-- `lastDuration` (zkclient.go:2057). -/
  last : Nat
  /-- The read deadline of the server (zkserver.go:432). -/
  deadline : Nat
  deriving DecidableEq, Repr

/-- Their values: 1, 5 and 15 seconds. -/
def times : Times := ⟨1000, 5000, 15000⟩

/-- What the goroutine that writes takes. -/
inductive Src
  /-- A ping out of the queue. -/
  | ping
  /-- Another message that got its tag before it was queued (`schedulePRPC`): a request, an acknowledgement. -/
  | queued
  /-- A message to a contact, which gets its tag now (`cacheCRPC`, msg.go:466-469). -/
  | crpc
  deriving DecidableEq, Repr

structure State where
  now : Nat
  /-- When the session began. -/
  born : Nat
  /-- When the ticker fired last; at first, when it was made. -/
  ticked : Nat
  /-- `lastTick`: the time up to which nothing needs to be done. -/
  lastTick : Nat
  /-- `pingInProgress`. -/
  waiting : Bool := false
  /-- When the last ping was scheduled. -/
  pingAt : Nat := 0
  /-- Tags in the client's pool. -/
  free : Nat
  /-- Pings in the queue. -/
  pings : Nat := 0
  /-- Other messages in the queue that have a tag. -/
  others : Nat := 0
  /-- What is being written, and how many of its bytes are left. -/
  writer : Option (Src × Nat) := none
  /-- Written and not arrived, oldest first: is it a ping, and when was it written. -/
  up : List (Bool × Nat) := []
  /-- Pings that arrived at the server and whose pong has not been handled. -/
  answered : Nat := 0
  /-- When the last message was written; at first, when the session began. -/
  lastWrite : Nat
  /-- When the last message that arrived was written; at first, when the session began. -/
  prevUp : Nat
  /-- When the server began to wait for the next message. -/
  srvRead : Nat
  /-- The client has not closed the connection. -/
  isOpen : Bool := true
  deriving DecidableEq, Repr

/-- A session begins at `t`.  `lastTick` is left from before (it is not set when a session begins; 0 in a new
process); no ping is in progress (zkclient.go:1222-1224); messages may be queued, and among them pings that the last
session did not get to write. -/
def start (t last free others pings : Nat) : State where
  now := t
  born := t
  ticked := t
  lastTick := last
  free := free
  others := others
  pings := pings
  lastWrite := t
  prevUp := t
  srvRead := t

inductive Ev
  /-- Time passes. -/
  | pass (d : Nat)
  /-- The ticker fires. -/
  | tick
  /-- The goroutine that writes takes a message of that many bytes. -/
  | take (k : Src) (size : Nat)
  /-- The connection takes bytes. -/
  | sent (n : Nat)
  /-- The message is written. -/
  | done
  /-- A message that got a tag is queued. -/
  | request
  /-- A message arrives at the server. -/
  | arrive
  /-- A pong arrives at the client. -/
  | pong
  /-- Another reply arrives at the client and its tag goes back to the pool. -/
  | reply
  /-- A message for the client arrives, and its acknowledgement is queued. -/
  | push
  deriving DecidableEq, Repr

/-- The ticker fires (zkclient.go:1237-1278).  With a ping in progress the connection is closed if `lastTick` is over;
without, a ping is scheduled if `lastTick` is over.  When there is no tag the ping is sent with tag 0: `retry` is 2
before each ping, since 1277 sets it again also after a failed `Pop`, so that 1257-1265 is never reached. -/
def tick (c : Times) (s : State) : State :=
  let s := { s with ticked := s.now }
  if s.waiting then
    if s.lastTick < s.now then { s with isOpen := false } else s
  else if s.lastTick < s.now then
    { s with waiting := true, lastTick := s.now + c.last, pingAt := s.now, pings := s.pings + 1,
             free := s.free - 1 }
  else s

/-- A message is taken by the goroutine that writes (msg.go:145-181). -/
def take (s : State) (k : Src) (size : Nat) : Option State :=
  match s.writer, k with
  | some _, _ => none
  | none, .ping => if 0 < s.pings then some { s with pings := s.pings - 1, writer := some (k, size) } else none
  | none, .queued => if 0 < s.others then some { s with others := s.others - 1, writer := some (k, size) } else none
  | none, .crpc => if 0 < s.free then some { s with free := s.free - 1, writer := some (k, size) } else none

/-- `kx.Write` has returned, and `writeMessage` moves the ticker (zkclient.go:1849-1853). -/
def done (c : Times) (s : State) : Option State :=
  match s.writer with
  | some (k, 0) =>
    some { s with writer := none, lastTick := s.now + c.last, lastWrite := s.now,
                  up := s.up ++ [(decide (k = .ping), s.now)] }
  | _ => none

/-- The next message has arrived at the server, which answers a ping and sets the deadline again
(zkserver.go:432, 466-477). -/
def arrive (s : State) : Option State :=
  match s.up with
  | [] => none
  | (p, t) :: r =>
    some { s with up := r, prevUp := t, srvRead := s.now, answered := if p then s.answered + 1 else s.answered }

/-- A pong is handled (zkclient.go:1317-1339). -/
def pong (c : Times) (s : State) : Option State :=
  if 0 < s.answered then
    some { s with answered := s.answered - 1, free := s.free + 1, lastTick := s.now + c.last, waiting := false }
  else none

/-- One event of a session that is open. -/
def step (c : Times) (s : State) (e : Ev) : Option State :=
  if s.isOpen then
    match e with
    | .pass d => if s.now + d ≤ s.ticked + c.every then some { s with now := s.now + d } else none
    | .tick => if s.now = s.ticked + c.every then some (tick c s) else none
    | .take k size => take s k size
    | .sent n =>
      match s.writer with
      | some (k, left) => if n ≤ left then some { s with writer := some (k, left - n) } else none
      | none => none
    | .done => done c s
    | .request => if 0 < s.free then some { s with free := s.free - 1, others := s.others + 1 } else none
    | .arrive => arrive s
    | .pong => pong c s
    | .reply => some { s with free := s.free + 1 }
    | .push => some { s with others := s.others + 1 }
  else none

def run (c : Times) : State → List Ev → Option State
  | s, [] => some s
  | s, e :: es => (step c s e).bind fun s' => run c s' es

end Verif.Heartbeat
