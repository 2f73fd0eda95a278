/-! # Who waits for whom: one session between a client and the server

Five goroutines work on one session: in the client the one that sends (/repo/zkclient/msg.go:120-194, 437-519)
and the one that reads (zkclient.go:1284-1598), in the server the one that reads (zkserver/zkserver.go:421-588),
the one that announces messages (zkserver.go:258-331) and the one that writes (zkserver.go:217-256).  Each can
wait: for room in the connection, for room in the server's channel `sc.writer`, or for the client's `ratchetMtx`,
which is held from the encryption of a message until it was written (msg.go:443-444) and is needed for each
message that arrives (push.go:453).

Simplifications.
* Contents are left out: a message is of one of five kinds.
* The connection holds up to `up` messages towards the server and up to `down` towards the client.  (It holds
  bytes; how many messages that is depends on their size.)
* Errors, the loss of the connection, the heartbeat and the read deadline are left out: what is asked is whether
  the session keeps going by itself.
* The client's queues in front of the sending goroutine are unbounded (slices); which message is next is left
  open.  A message needs a tag; acknowledgements carry the tag of what they acknowledge.  A message for which there
  is no tag stays in the queue (`Pop` of the client's stack fails, msg.go:466-469); that nothing is retried then
  until something else is queued is stated with the queue itself (C44) and left out here. -/

namespace Verif.Flow

/-- Towards the server. -/
inductive Up
  /-- `Cache`: has a tag of the client, wants a reply. -/
  | cache
  /-- `Ping`, or another request that is sent without `ratchetMtx` (zkclient.go:1271-1276). -/
  | ping
  /-- `Acknowledge` of a `Push`: gives a tag of the server back. -/
  | ack
  deriving DecidableEq, Repr

/-- Towards the client. -/
inductive Down
  /-- The reply to a request: gives a tag of the client back. -/
  | ack
  /-- `Push`: has a tag of the server, wants an acknowledgement. -/
  | push
  deriving DecidableEq, Repr

/-- The sizes: number of tags of either side, which is also the capacity of `sc.writer` (zkserver.go:345-351); how
many messages the connection holds in each direction. -/
structure Sizes where
  tags : Nat
  up : Nat
  down : Nat
  deriving DecidableEq, Repr

structure State where
  /-- Tags in the client's pool. -/
  cfree : Nat
  /-- Tags in the server's pool. -/
  sfree : Nat
  /-- Acknowledgements in the client's queue. -/
  acks : Nat := 0
  /-- What the sending goroutine of the client is writing.  With `cache` it holds `ratchetMtx`. -/
  snd : Option Up := none
  /-- On the way to the server. -/
  up : List Up := []
  /-- The reading goroutine of the server has handled a request and is about to put the reply into `sc.writer`. -/
  reply : Bool := false
  /-- The announcing goroutine of the server has a tag and is about to put a `Push` into `sc.writer`. -/
  ntfn : Bool := false
  /-- `sc.writer`. -/
  chan : List Down := []
  /-- What the writing goroutine of the server is writing. -/
  wr : Option Down := none
  /-- On the way to the client. -/
  down : List Down := []
  /-- The reading goroutine of the client has a `Push` and needs `ratchetMtx`. -/
  got : Bool := false
  deriving DecidableEq, Repr

/-- A new session: all tags in their pools. -/
def start (z : Sizes) : State := { cfree := z.tags, sfree := z.tags }

inductive Move
  /-- The client begins to send a message: takes `ratchetMtx` and a tag. -/
  | send
  /-- The client begins to send a request that needs no `ratchetMtx`: takes a tag. -/
  | ping
  /-- The server begins to announce a message: takes a tag. -/
  | announce
  /-- The client begins to send an acknowledgement. -/
  | sendAck
  /-- The client's write succeeds. -/
  | wrote
  /-- The server reads a message. -/
  | read
  /-- The server's reading goroutine puts a reply into `sc.writer`. -/
  | replied
  /-- The server's announcing goroutine puts a `Push` into `sc.writer`. -/
  | announced
  /-- The server's writing goroutine takes from `sc.writer`. -/
  | take
  /-- The server's write succeeds. -/
  | swrote
  /-- The client reads a message. -/
  | cread
  /-- The client handles a `Push` and queues the acknowledgement. -/
  | handle
  deriving DecidableEq, Repr

/-- Moves that no user brings about. -/
def Move.inner : Move → Bool
  | .send | .ping | .announce => false
  | _ => true

/-- One move; `none` if the goroutine has nothing to do or has to wait. -/
def step (z : Sizes) (s : State) : Move → Option State
  | .send =>
    if s.snd = none ∧ 0 < s.cfree then some { s with snd := some .cache, cfree := s.cfree - 1 } else none
  | .ping =>
    if s.snd = none ∧ 0 < s.cfree then some { s with snd := some .ping, cfree := s.cfree - 1 } else none
  | .announce =>
    if s.ntfn = false ∧ 0 < s.sfree then some { s with ntfn := true, sfree := s.sfree - 1 } else none
  | .sendAck =>
    if s.snd = none ∧ 0 < s.acks then some { s with snd := some .ack, acks := s.acks - 1 } else none
  | .wrote =>
    match s.snd with
    | some x => if s.up.length < z.up then some { s with snd := none, up := s.up ++ [x] } else none
    | none => none
  | .read =>
    match s.reply, s.up with
    | false, .cache :: r => some { s with reply := true, up := r }
    | false, .ping :: r => some { s with reply := true, up := r }
    | false, .ack :: r => some { s with sfree := s.sfree + 1, up := r }
    | _, _ => none
  | .replied =>
    if s.reply = true ∧ s.chan.length < z.tags then some { s with reply := false, chan := s.chan ++ [.ack] } else none
  | .announced =>
    if s.ntfn = true ∧ s.chan.length < z.tags then some { s with ntfn := false, chan := s.chan ++ [.push] } else none
  | .take =>
    match s.wr, s.chan with
    | none, x :: r => some { s with wr := some x, chan := r }
    | _, _ => none
  | .swrote =>
    match s.wr with
    | some x => if s.down.length < z.down then some { s with wr := none, down := s.down ++ [x] } else none
    | none => none
  | .cread =>
    match s.got, s.down with
    | false, .ack :: r => some { s with cfree := s.cfree + 1, down := r }
    | false, .push :: r => some { s with got := true, down := r }
    | _, _ => none
  | .handle =>
    if s.got = true ∧ s.snd ≠ some .cache then some { s with got := false, acks := s.acks + 1 } else none

/-- A sequence of moves, each of which is possible. -/
def exec (z : Sizes) (s : State) : List Move → Option State
  | [] => some s
  | m :: ms => (step z s m).bind (fun s' => exec z s' ms)

end Verif.Flow
