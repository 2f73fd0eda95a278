/-! # The steps within an exchange of PINs: acceptclientfingerprint.go 122-208, push.go 54-281, identity.go

`A` has made a PIN, which `B` has fetched. `B` says yes to the fingerprint of `A`. Each client saves several files and
queues a message, in some order, and may be killed in between. The server keeps a message until it is acknowledged, and
delivers it again after the client has connected again.

Simplifications.

* The server has no directory, and does not fail. Writing one file is one step and does not fail.
* A key exchange is a number; a ratchet is made of two, that of the offer and that of the answer, and two ratchets fit if
  they are made of the same. (`C10`; completing a half ratchet with an answer to another offer gives no error but a
  ratchet that does not fit.)
* The blob key is that of one PIN; `A` has it.
* Being connected is not represented: a message that was queued is sent at some later time, or is lost when the client
  is killed. -/

namespace Verif.Handshake

/-- What is in the queue of `A`. -/
inductive OutA
  /-- `KX`, which answers the offer `n` -/
  | kx (n m : Nat)
  /-- acknowledgement of the oldest message -/
  | ack
  deriving DecidableEq, Repr

/-- What is in the queue of `B`. -/
inductive OutB
  /-- `IdentityKX` -/
  | offer (n : Nat)
  | ack
  deriving DecidableEq, Repr

/-- Where `A` is in `step2IDKX`. -/
inductive PcA
  | idle
  /-- before `saveIdentity`, /repo/zkclient/push.go:232 -/
  | got (n : Nat)
  /-- before `updateRatchet`, :238 -/
  | saved (n : Nat)
  /-- before `cache`, :263 -/
  | full (n m : Nat)
  /-- before `addressBookAdd`, :269 -/
  | queued
  deriving DecidableEq, Repr

structure A where
  /-- publicidentity.xdr of `B` -/
  known : Bool := false
  /-- ratchet.xdr -/
  full : Option (Nat × Nat) := none
  book : Bool := false
  pc : PcA := .idle
  out : List OutA := []
  /-- what the server keeps for `A` -/
  inbox : List Nat := []
  /-- how many of these it has delivered -/
  seen : Nat := 0
  deriving DecidableEq, Repr

/-- Where the window of `B` is. -/
inductive Ui
  | idle
  /-- before `saveIdentity`, /repo/zkclient/acceptclientfingerprint.go:180 -/
  | queued (n : Nat)
  /-- before `saveKey`, :189 -/
  | saved (n : Nat)
  /-- before `updateRatchet`, :197 -/
  | key (n : Nat)
  deriving DecidableEq, Repr

/-- Where `B` is in `step3IDKX`. -/
inductive PcB
  | idle
  /-- before `updateRatchet`, /repo/zkclient/push.go:114 -/
  | got (m : Nat)
  /-- before `removeRatchet`, :121 -/
  | saved
  /-- before `addressBookAdd`, :139 -/
  | removed
  deriving DecidableEq, Repr

structure B where
  known : Bool := false
  /-- the key is in blobkeys.ini -/
  key : Bool := false
  /-- halfratchet.xdr -/
  half : Option Nat := none
  full : Option (Nat × Nat) := none
  book : Bool := false
  ui : Ui := .idle
  pc : PcB := .idle
  out : List OutB := []
  inbox : List (Nat × Nat) := []
  seen : Nat := 0
  deriving DecidableEq, Repr

structure State where
  a : A := {}
  b : B := {}
  /-- for random numbers -/
  next : Nat := 0
  deriving DecidableEq, Repr

/-- `identityExists`, /repo/zkclient/identity.go:31-49. `A` never has a half ratchet. -/
def A.exists_ (a : A) : Bool := a.known && a.full.isSome

def B.exists_ (b : B) : Bool := b.known && (b.half.isSome || b.full.isSome)

inductive Ev
  /-- `B` fetches the PIN and says yes -/
  | yes
  /-- the window goes on -/
  | ui
  /-- `B` types /reset, without a ratchet: only the half ratchet is removed, /repo/zkclient/zkclient.go:1768-1790 -/
  | reset
  | sendB
  | recvB
  /-- the handler of messages goes on -/
  | netB
  | crashB
  | sendA
  | recvA
  | netA
  | crashA
  deriving DecidableEq, Repr

/-- The window: /repo/zkclient/kxacceptwindow.go:149-166 refuses an identity that exists. -/
def stepUi (b : B) : B :=
  match b.ui with
  | .idle => b
  | .queued n => if b.exists_ then { b with ui := .idle } else { b with known := true, ui := .saved n }
  | .saved n => { b with key := true, ui := .key n }
  | .key n => { b with half := some n, ui := .idle }

/-- `handlePush` at `B`, /repo/zkclient/push.go:432-447: without a half ratchet the answer is taken for an offer, and is no
such; with a ratchet it is taken for a message, and is none. Whatever fails is acknowledged,
/repo/zkclient/zkclient.go:1395-1431. -/
def recvB (b : B) : B :=
  if b.pc = .idle then
    match b.inbox[b.seen]? with
    | none => b
    | some (_, m) =>
      let b := { b with seen := b.seen + 1 }
      if b.exists_ = true ∧ b.full = none ∧ b.key = true then { b with pc := .got m } else { b with out := b.out ++ [.ack] }
  else b

/-- `step3IDKX`. -/
def netB (b : B) : B :=
  match b.pc with
  | .idle => b
  | .got m =>
    match b.half with
    | none => { b with pc := .idle, out := b.out ++ [.ack] }
    | some n => { b with full := some (n, m), pc := .saved }
  | .saved => { b with half := none, pc := .removed }
  | .removed => { b with book := true, pc := .idle, out := b.out ++ [.ack] }

/-- The client is killed and started again: `loadIdentities` lists whoever has a publicidentity.xdr,
/repo/zkclient/addressbook.go:108-138. -/
def crashB (b : B) : B := { b with ui := .idle, pc := .idle, out := [], seen := 0, book := b.known }

/-- `handlePush` at `A`: with a ratchet an offer is taken for a message, and is none. -/
def recvA (a : A) : A :=
  if a.pc = .idle then
    match a.inbox[a.seen]? with
    | none => a
    | some n =>
      let a := { a with seen := a.seen + 1 }
      if a.exists_ = false then { a with pc := .got n } else { a with out := a.out ++ [.ack] }
  else a

/-- `step2IDKX`; `r` is random. -/
def netA (a : A) (r : Nat) : A :=
  match a.pc with
  | .idle => a
  | .got n => { a with known := true, pc := .saved n }
  | .saved n => { a with full := some (n, r), pc := .full n r }
  | .full n m => { a with out := a.out ++ [.kx n m], pc := .queued }
  | .queued => { a with book := true, pc := .idle, out := a.out ++ [.ack] }

def crashA (a : A) : A := { a with pc := .idle, out := [], seen := 0, book := a.known }

/-- One event. -/
def step (s : State) : Ev → State
  | .yes =>
    if s.b.ui = .idle ∧ s.b.exists_ = false then
      { s with b := { s.b with ui := .queued s.next, out := s.b.out ++ [.offer s.next] }, next := s.next + 1 }
    else s
  | .ui => { s with b := stepUi s.b }
  | .reset =>
    if s.b.ui = .idle ∧ s.b.book = true ∧ s.b.full = none then { s with b := { s.b with half := none } } else s
  | .sendB =>
    match s.b.out with
    | [] => s
    | .offer n :: rest => { s with b := { s.b with out := rest }, a := { s.a with inbox := s.a.inbox ++ [n] } }
    | .ack :: rest => { s with b := { s.b with out := rest, inbox := s.b.inbox.tail, seen := s.b.seen - 1 } }
  | .recvB => { s with b := recvB s.b }
  | .netB => { s with b := netB s.b }
  | .crashB => { s with b := crashB s.b }
  | .sendA =>
    match s.a.out with
    | [] => s
    | .kx n m :: rest => { s with a := { s.a with out := rest }, b := { s.b with inbox := s.b.inbox ++ [(n, m)] } }
    | .ack :: rest => { s with a := { s.a with out := rest, inbox := s.a.inbox.tail, seen := s.a.seen - 1 } }
  | .recvA => { s with a := recvA s.a }
  | .netA => { s with a := netA s.a s.next, next := s.next + 1 }
  | .crashA => { s with a := crashA s.a }

/-- States after events out of those allowed. -/
inductive Runs (ok : State → Ev → Prop) : State → State → Prop
  | refl {s} : Runs ok s s
  | tail {s t} (e : Ev) : Runs ok s t → ok t e → Runs ok s (step t e)

end Verif.Handshake
