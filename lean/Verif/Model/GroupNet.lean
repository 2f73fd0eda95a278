import Verif.Model.Groups

/-! # Groups of many clients

Any number of clients, each of which is that of `Verif.Groups` (/repo/zkclient/groupchat.go, groupinvites.go,
push.go:721-1296), and what is on its way between them.

Simplifications.
* Messages from one client to another arrive in the order in which they were handed to the scheduler
  (/repo/zkclient/msg.go:50-251, zkserver/account/account.go:385-511; `Scheduler`, `Delivery` and `Flow` have to what
  extent they do).  `lose` is for messages that do not arrive: to a contact without a ratchet (msg.go:445-455), or
  when the acknowledgement comes to nothing.
* Nobody writes to themself: there is no ratchet for that. -/

namespace Verif.GroupNet

open Verif.Groups

structure Net where
  clients : Id → State
  /-- What is on its way from the first to the second, oldest first. -/
  wire : Id → Id → List Msg

/-- At first nobody has a group. -/
def start (nick : Id → Bytes) : Net := ⟨fun i => init i (nick i), fun _ _ => []⟩

/-- What of `out` goes to `y`. -/
def sentTo (out : List (Id × Msg)) (y : Id) : List Msg := (out.filter fun p => p.1 = y).map (·.2)

inductive NEv
  | cmd (i : Id) (c : Cmd) (flt : Fault)
  /-- A message of client `i`'s `n`-th kick was acknowledged by the server (groupchat.go:302-362). -/
  | ack (i : Id) (n : Nat)
  | meet (i j : Id)
  | tick (i : Id) (d : Nat)
  /-- The oldest message from `a` to `m` is handled by `m`. -/
  | deliver (a m : Id) (flt : Fault)
  /-- It never arrives. -/
  | lose (a m : Id)
  deriving DecidableEq, Repr

/-- Client `i` takes a step, and what it sends goes onto the wires. -/
def act (upper : Bytes → Bytes) (net : Net) (i : Id) (e : Ev) : Option Net :=
  match step upper { net.clients i with out := [] } e with
  | .panic => none
  | .ok s =>
    some { clients := fun x => if x = i then s else net.clients x
           wire := fun x y => if x = i then net.wire x y ++ sentTo s.out y else net.wire x y }

/-- The oldest message from `a` to `m` is taken off the wire. -/
def pop (net : Net) (a m : Id) : Net :=
  { net with wire := fun x y => if x = a ∧ y = m then (net.wire x y).tail else net.wire x y }

def nstep (upper : Bytes → Bytes) (net : Net) : NEv → Option Net
  | .cmd i c flt => act upper net i (.cmd c flt)
  | .ack i n => act upper net i (.ack n)
  | .meet i j => act upper net i (.meet j)
  | .tick i d => act upper net i (.tick d)
  | .deliver a m flt =>
    if a = m then none
    else
      match net.wire a m with
      | [] => none
      | x :: _ => act upper (pop net a m) m (.recv a x flt)
  | .lose a m => some (pop net a m)

def nrun (upper : Bytes → Bytes) : Net → List NEv → Option Net
  | net, [] => some net
  | net, e :: es => (nstep upper net e).bind fun net' => nrun upper net' es

end Verif.GroupNet
