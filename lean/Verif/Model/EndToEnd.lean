/-! # A message on its way from one user to another, over connections that break

What one user writes to another goes from the queue of the client (/repo/zkclient/msg.go:45-190, 437-519) over a connection
to the server, which stores it (/repo/zkserver/cache.go:17-66, /repo/zkserver/account/account.go:313-358) and announces
it to the session of the other user, if there is one (account.go:397-511, /repo/zkserver/zkserver.go:260-331).  That
client decrypts and shows it and puts the acknowledgement into its queue (/repo/zkclient/zkclient.go:1383-1431), with the
tag under which the message came; the server deletes the message that it has under that tag (zkserver.go:516-562).

A connection can break at any time, with whatever is on it.  The queue of a client outlives its connections.

Simplifications.
* One sender, one recipient, messages only: no pings, no other contacts.  The ratchet of the recipient takes each message
  once, in any order, and refuses it from then on (C09, C11).
* The server stores in the order of arrival and announces the oldest that was not announced to the session.  `Delivery`
  has the goroutine that does so.
* Writing to a connection does not block, and what the server writes is on the connection.
* Both ends notice at once that a connection is gone. -/

namespace Verif.EndToEnd

/-- `tagDepth`, /repo/zkserver/zkserver.go:48. -/
def depth : Nat := 32

/-- `sessionContext` of the recipient, and the connection. -/
structure Sess where
  /-- `tagStack`, a channel that holds `depth` tags -/
  free : List Nat
  /-- `tagMessage` -/
  tagMsg : Nat → Option Nat
  /-- `processed` -/
  ann : List Nat
  /-- the tag with which the reader waits in `tagStack.Push`, since the channel is full -/
  blocked : Option Nat
  /-- on the way to the recipient: tag and message -/
  down : List (Nat × Nat)
  /-- acknowledgements on the way to the server -/
  up : List Nat

/-- `handleSession`, zkserver.go:343-352. -/
def Sess.new : Sess := ⟨List.range depth, fun _ => none, [], none, [], []⟩

structure State where
  /-- messages written by the user so far; they are numbered -/
  typed : Nat
  /-- the queue of the sender -/
  out : List Nat
  /-- on the way to the server -/
  awire : List Nat
  /-- the sender has a connection -/
  alinked : Bool
  /-- all that the server ever stored -/
  arrived : List Nat
  /-- the recipient's cache directory -/
  store : List Nat
  sess : Option Sess
  /-- the recipient has a connection -/
  linked : Bool
  /-- the queue of the recipient: tags to acknowledge -/
  queue : List Nat
  /-- what the ratchet of the recipient has decrypted -/
  taken : List Nat
  /-- what the recipient has seen -/
  shown : List Nat

def start : State := ⟨0, [], [], false, [], [], none, false, [], [], []⟩

inductive Ev
  /-- the sender writes a message -/
  | type
  | aconnect
  /-- the sender's connection breaks -/
  | abreak
  /-- the sender quits and starts again -/
  | aquit
  /-- the next message is written to the connection -/
  | asend
  /-- the server stores what has come -/
  | arrive
  | connect
  | breaks
  /-- the recipient quits and starts again -/
  | quit
  /-- `sessionNtfn`, zkserver.go:260-331: takes a tag, which frees the reader if it waits to put one back; a tag that is
  in use, or a connection that is gone, ends the session -/
  | push
  /-- `handlePush` -/
  | recv
  /-- the recipient is killed in `handlePush`, after the ratchet is saved and before the message is shown -/
  | killed
  /-- the next acknowledgement is written to the connection -/
  | write
  /-- the server reads an acknowledgement -/
  | ack
  /-- the server is restarted -/
  | restart
  deriving DecidableEq, Repr

/-- The recipient's connection is gone.  The session ends when its reader finds out, which it does not while it waits in
`tagStack.Push`. -/
def State.cut (s : State) : State :=
  { s with
    linked := false,
    sess :=
      match s.sess with
      | none => none
      | some x => if x.blocked = none then none else some { x with down := [], up := [] } }

/-- The ratchet takes a message, once. -/
def State.take (s : State) (m : Nat) : State := if m ∈ s.taken then s else { s with taken := s.taken ++ [m] }

def step (s : State) : Ev → Option State
  | .type => some { s with typed := s.typed + 1, out := s.out ++ [s.typed] }
  | .aconnect => if s.alinked then none else some { s with alinked := true }
  | .abreak => if s.alinked then some { s with alinked := false, awire := [] } else none
  | .aquit => some { s with alinked := false, awire := [], out := [] }
  | .asend =>
    match s.alinked, s.out with
    | true, m :: r => some { s with out := r, awire := s.awire ++ [m] }
    | _, _ => none
  | .arrive =>
    match s.awire with
    | m :: r => some { s with awire := r, arrived := s.arrived ++ [m], store := s.store ++ [m] }
    | [] => none
  | .connect =>
    if s.linked then none
    else
      match s.sess with
      | none => some { s with sess := some Sess.new, linked := true }
      | some _ => some s
  | .breaks => if s.linked then some s.cut else none
  | .quit => some { s.cut with queue := [] }
  | .push =>
    match s.sess with
    | none => none
    | some x =>
      match x.free, s.store.find? (fun m => decide (m ∉ x.ann)) with
      | t :: f, some m =>
        if (x.tagMsg t).isSome ∨ s.linked = false then some { s with sess := none, linked := false }
        else
          some { s with
            sess := some { x with
              free := f ++ x.blocked.toList,
              tagMsg := fun u => if u = t then some m else x.tagMsg u,
              ann := x.ann ++ [m],
              blocked := none,
              down := x.down ++ [(t, m)] } }
      | _, _ => none
  | .recv =>
    match s.linked, s.sess with
    | true, some x =>
      match x.down with
      | (t, m) :: r =>
        some { s.take m with
          sess := some { x with down := r },
          queue := s.queue ++ [t],
          shown := if m ∈ s.taken then s.shown else s.shown ++ [m] }
      | [] => none
    | _, _ => none
  | .killed =>
    match s.linked, s.sess with
    | true, some x =>
      match x.down with
      | (_, m) :: _ => some { (s.take m).cut with queue := [] }
      | [] => none
    | _, _ => none
  | .write =>
    match s.linked, s.sess, s.queue with
    | true, some x, t :: q => some { s with sess := some { x with up := x.up ++ [t] }, queue := q }
    | _, _, _ => none
  | .ack =>
    match s.sess with
    | none => none
    | some x =>
      match x.blocked, x.up with
      | none, t :: r =>
        some { s with
          store := match x.tagMsg t with | some m => s.store.filter (fun m' => m' ≠ m) | none => s.store,
          sess := some { x with
            tagMsg := fun u => if u = t then none else x.tagMsg u,
            up := r,
            free := if x.free.length < depth then x.free ++ [t] else x.free,
            blocked := if x.free.length < depth then none else some t } }
      | _, _ => none
  | .restart => some { s with alinked := false, awire := [], sess := none, linked := false }

def run : State → List Ev → Option State
  | s, [] => some s
  | s, e :: es => (step s e).bind fun s' => run s' es

end Verif.EndToEnd
