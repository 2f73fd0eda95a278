import Verif.Model.Observer

/-! # How long messages may be on the way

What a client writes to the server and what the server writes to a client goes through `KX.Write`,
/repo/session/kx.go:417-429, which refuses what is too long. Modelled: the check; the frames of `Cache` and `Proxy`, which
clients write, and of `Push`, which the server writes; what a server has for one account, with the sessions of that account;
and the queues of a client that writes.

Left out: other commands; tags, which C33 and C34 are about (here the recipient acknowledges before they run out); the order
of the files of an account, which is the order of arrival unless clocks are set back (C118). -/

namespace Verif.Sizes

open Verif Xdr Crpc Observer

/-- `PropMaxMsgSizeDefault`, /repo/rpc/rpc.go:168-169: both sides have it, since no setting changes it (C88). -/
def maxMsgSize : Nat := 256 * 1024 + 1024

/-- `KX.Write`, lines 418-424: the box is 16 bytes longer than what is in it. The reader, lines 400-411, has the same
limit. -/
def fits (max : Nat) (data : Bytes) : Bool := !decide (max < data.length + 16)

/-- "push", /repo/rpc/rpc.go:59. -/
def cmdPush : Bytes := ascii ['p', 'u', 's', 'h']

/-- "proxy", /repo/rpc/rpc.go:61. -/
def cmdProxy : Bytes := ascii ['p', 'r', 'o', 'x', 'y']

/-- A message that the server has for an account. `proxy`: it came with `Proxy`, and is marked `Cleartext`. -/
structure Stored where
  sender : { b : Bytes // b.length = 32 }
  received : Int
  clear : Bool
  payload : Bytes

/-- What a client writes so that the server has it, /repo/zkclient/msg.go:437-519, /repo/zkclient/zkclient.go:1843-1877. -/
def upFrame (clear : Bool) (time : Int) (tag : Nat) (to_ : { b : Bytes // b.length = 32 }) (payload : Bytes) : Bytes :=
  enc Xdr.message (if clear then cmdProxy else cmdCache, time, clear, tag) ++ enc Xdr.cache (to_, payload)

/-- What the server writes to the recipient: `sessionNtfn`, /repo/zkserver/zkserver.go:307-323, and `writeMessage`, lines
101-120, which has no time stamp. -/
def downFrame (tag : Nat) (m : Stored) : Bytes :=
  enc Xdr.message (cmdPush, 0, m.clear, tag) ++ enc Xdr.push (m.sender, m.received, m.payload)

/-! ## The account -/

/-- What the server has for one account. `box`: the files, with numbers, in the order in which they came. `online`: there is
a session. `taken`: what `sessionNtfn` has gone through in this session. `written`: what has been written to the recipient,
over all sessions, the newest first. `count`: how many there have been. -/
structure Account where
  box : List (Nat × Stored)
  online : Bool
  taken : List Nat
  written : List (Nat × Stored)
  count : Nat

/-- An account that is new. -/
def Account.new : Account := ⟨[], false, [], [], 0⟩

/-- `deliver`: the server reads a `Cache` or `Proxy` for this account. `login` and `drop`: a session begins, or ends for a
reason that has nothing to do with messages, such as the server being started again. `push tag`: the next message is
written. `ack k`: the recipient acknowledges. -/
inductive Ev where
  | deliver (m : Stored)
  | login
  | drop
  | push (tag : Nat)
  | ack (k : Nat)

/-- The next message of a session: the first file that it has not gone through, /repo/zkserver/account/account.go:404-497. -/
def next (a : Account) : Option (Nat × Stored) := a.box.find? fun p => !a.taken.contains p.1

/-- One step. A message that cannot be written ends the session, /repo/zkserver/zkserver.go:245-251; the file stays, since
only an acknowledgement removes it, lines 535-545. -/
def step (max : Nat) (a : Account) : Ev → Account
  | .deliver m => { a with box := a.box ++ [(a.count, m)], count := a.count + 1 }
  | .login => if a.online then a else { a with online := true, taken := [] }
  | .drop => { a with online := false }
  | .push tag =>
    if a.online then
      match next a with
      | none => a
      | some p =>
        if fits max (downFrame tag p.2) then { a with taken := p.1 :: a.taken, written := p :: a.written }
        else { a with online := false }
    else a
  | .ack k => if a.online && a.taken.contains k then { a with box := a.box.filter fun p => p.1 ≠ k } else a

/-- Several steps. -/
def run (max : Nat) (a : Account) (es : List Ev) : Account := es.foldl (step max) a

/-! ## The queues of the client -/

/-- The queues of `scheduler` and what was written, /repo/zkclient/msg.go:45-195. An entry is the frame that
`writeMessage` builds for it: that it is built anew for each attempt does not change how long it is, up to the compression,
which depends on the payload only. -/
structure Queues where
  hi : List Bytes
  lo : List Bytes
  sent : List Bytes

/-- Something is queued, or the loop of lines 134-192 makes one turn; `online` tells if there is a connection. -/
inductive QEv where
  | hi (frame : Bytes)
  | lo (frame : Bytes)
  | turn (online : Bool)

/-- One step: what cannot be written stays where it is ("rescheduled", lines 157-165 and 173-180). -/
def qstep (max : Nat) (q : Queues) : QEv → Queues
  | .hi f => { q with hi := q.hi ++ [f] }
  | .lo f => { q with lo := q.lo ++ [f] }
  | .turn online =>
    match q.hi with
    | f :: r => if online && fits max f then { q with hi := r, sent := q.sent ++ [f] } else q
    | [] =>
      match q.lo with
      | f :: r => if online && fits max f then { q with lo := r, sent := q.sent ++ [f] } else q
      | [] => q

/-- Several steps. -/
def qrun (max : Nat) (q : Queues) (es : List QEv) : Queues := es.foldl (qstep max) q

/-! ## The setting for files -/

/-- `maxchunksize` and the largest message, as told in the welcome: what a client accepts,
/repo/zkclient/zkclient.go:929-931. -/
def accepts (max chunk : Nat) : Bool := !decide (max < chunk)

end Verif.Sizes
