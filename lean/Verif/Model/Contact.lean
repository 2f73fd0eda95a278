import Verif.Model.RatchetConv

/-!
# Two clients make contact through the directory: zkclient.go, push.go, reset.go, identity.go, msg.go

Two clients of one server that supports the directory. Either can look the other up, which starts the key exchange of
two messages, reset the ratchet, send messages and delete the other; what is sent is delivered by the server.

Simplifications.

* Everything is about the files and the address book entry that one client keeps about the other.
* The server delivers what is sent from one to the other once and in the order sent; both are online and have free
  tags; disk writes succeed; nicks do not collide. The directory finds everybody.
* `sntrup4591761` and secretbox are ideal, as in Verif.Model.Ratchet: what was not encapsulated to a key does not
  decapsulate, and what was not sealed under a key does not open.
* A ratchet that was stored is loaded unchanged; C16 is about that.
* What decrypts counts as shown; decoding it is the subject of C26.
-/

namespace Verif.Contact

open Verif Verif.Ratchet

/-- What travels from one client to the other by way of the server. -/
inductive Item
  /-- `IdentityKX`: the blob key encapsulated to `pk` with randomness `r`, and the sealed key exchange,
  /repo/zkclient/zkclient.go:1053-1092. -/
  | idkx (pk r : Nat) (x : KeyExchange)
  /-- `KX`: the answer sealed under the blob key, /repo/zkclient/push.go:365-385. -/
  | kx (k : Key) (x : KeyExchange)
  /-- the cleartext proxy command, /repo/zkclient/zkclient.go:1778-1840 -/
  | reset
  /-- a message for the ratchet. `msg` records what was encrypted; nothing reads it. -/
  | data (ct : Ct) (msg : Bytes)
  deriving DecidableEq, Repr

/-- What one client keeps about the other. -/
structure Side where
  /-- publicidentity.xdr exists -/
  known : Bool := false
  /-- the other is in the address book -/
  inBook : Bool := false
  /-- `pendingIdentities` has the nick of the other -/
  pending : Bool := false
  /-- the file of blob keys; nothing is ever removed from it -/
  keys : List Key := []
  /-- halfratchet.xdr -/
  half : Option Ratchet := none
  /-- ratchet.xdr -/
  full : Option Ratchet := none
  /-- deletions for which the reply of the server is outstanding -/
  dels : Nat := 0
  /-- record: messages encrypted and sent -/
  sent : List Bytes := []
  /-- record: messages decrypted -/
  shown : List Bytes := []
  /-- record: number of resets carried out -/
  resets : Nat := 0
  deriving DecidableEq, Repr

/-- Both clients, and what is on the way to each. -/
structure State where
  side : Bool → Side
  q : Bool → List Item

/-- Nothing has happened. -/
def init : State := ⟨fun _ => {}, fun _ => []⟩

/-- Random values for a key exchange: of the blob key, of the KEM in the ratchet, and the private DH value. -/
structure Rand where
  blob : Nat
  kem : Nat
  priv : Nat
  deriving DecidableEq, Repr

/-- `identityExists`, /repo/zkclient/identity.go:31-49. -/
def Side.exists_ (S : Side) : Bool := S.known && (S.half.isSome || S.full.isSome)

/-- `step1IDKX`, /repo/zkclient/zkclient.go:1053-1115: the message is sent first, and then nothing is saved if the
identity exists. `mine` and `theirs` are the KEM key pairs of the two clients. -/
def step1 (mine theirs : Nat) (S : Side) (rd : Rand) : Side × List Item :=
  match fillKeyExchange (new mine theirs rd.priv) rd.kem with
  | (.ok x, r) =>
    let out := [Item.idkx theirs rd.blob x]
    if S.exists_ then (S, out)
    else ({ S with known := true, keys := S.keys ++ [.kem theirs rd.blob], half := some r }, out)
  | _ => (S, [])

/-- `step2IDKX2`, /repo/zkclient/push.go:293-397. -/
def step2 (mine theirs : Nat) (S : Side) (rd : Rand) : Item → Side × List Item
  | .idkx pk r x =>
    if pk = mine then
      match fillKeyExchange (new mine theirs rd.priv) rd.kem with
      | (.ok y, h) =>
        match completeKeyExchange h x false with
        | (.ok _, f) => ({ S with known := true, full := some f, inBook := true }, [.kx (.kem pk r) y])
        | _ => (S, [])
      | _ => (S, [])
    else (S, [])
  | _ => (S, [])

/-- `step3IDKX`, /repo/zkclient/push.go:54-160. Every blob key is tried, and whichever opens the message, the half
ratchet at hand is completed. -/
def step3 (S : Side) : Item → Side
  | .kx k x =>
    if k ∈ S.keys then
      match S.half with
      | none => S
      | some h =>
        match completeKeyExchange h x true with
        | (.ok _, f) => { S with full := some f, half := none, inBook := true }
        | _ => S
    else S
  | _ => S

/-- What `Decrypt` of the ratchet makes of it. -/
def Item.asCt : Item → Ct
  | .data ct _ => ct
  | _ => .mk 0 (.junk 0) (.junk 0)

/-- The rest of `handlePush`, /repo/zkclient/push.go:446-475. -/
def open_ (S : Side) (f : Ratchet) (now : Int) (it : Item) : Side :=
  match decrypt f now it.asCt with
  | (.ok m, f') => { S with full := some f', shown := S.shown ++ [m] }
  | _ => S

/-- `handlePush`, /repo/zkclient/push.go:400-475, and `handleResetRatchet`, /repo/zkclient/reset.go:52-71. The message
is acknowledged in any case and gone, /repo/zkclient/zkclient.go:1394-1430. -/
def handle (mine theirs : Nat) (S : Side) (now : Int) (rd : Rand) (it : Item) : Side × List Item :=
  if it = .reset then
    if S.known then step1 mine theirs { S with half := none, full := none } rd else (S, [])
  else if S.exists_ = false then step2 mine theirs S rd it
  else
    match S.full with
    | none => (step3 S it, [])
    | some f => (open_ S f now it, [])

/-- What can happen. -/
inductive Ev
  /-- `find`, /repo/zkclient/zkclient.go:1717-1765 -/
  | find (w : Bool)
  /-- the reply of the directory, /repo/zkclient/zkclient.go:1480-1512 -/
  | found (w : Bool) (rd : Rand)
  /-- `cacheCRPC`, /repo/zkclient/msg.go:437-519 -/
  | send (w : Bool) (priv hn mn : Nat) (msg : Bytes)
  /-- `reset`, /repo/zkclient/zkclient.go:1768-1840 -/
  | reset (w : Bool)
  /-- `addressBookDel`, /repo/zkclient/addressbook.go:23-56: the other is told first -/
  | del (w : Bool) (priv hn mn : Nat) (msg : Bytes)
  /-- the reply to that, upon which everything is removed; /repo/zkclient/zkclient.go:1474-1477 -/
  | delDone (w : Bool)
  /-- the server delivers the next message -/
  | recv (w : Bool) (now : Int) (rd : Rand)

/-- `cacheCRPC`, /repo/zkclient/msg.go:437-519. Without a ratchet the message is dropped (:448-457). -/
def cacheCRPC (S : Side) (priv hn mn : Nat) (msg : Bytes) : Option (Side × Item) :=
  match S.full with
  | none => none
  | some f =>
    match encrypt f priv hn mn msg with
    | (.ok ct, f') => some ({ S with full := some f', sent := S.sent ++ [msg] }, .data ct msg)
    | _ => none

/-- Replace one side, and append to what is on the way to the other. -/
def State.put (s : State) (w : Bool) (S : Side) (out : List Item) : State :=
  ⟨upd s.side w S, upd s.q (!w) (s.q (!w) ++ out)⟩

/-- One event; `K` are the KEM key pairs of the clients. A command that is refused changes nothing. -/
def step (K : Bool → Nat) (s : State) : Ev → State
  | .find w =>
    let S := s.side w
    if S.inBook || S.pending then s else s.put w { S with pending := true } []
  | .found w rd =>
    let S := s.side w
    if S.pending then
      let (S, out) := step1 (K w) (K !w) { S with pending := false } rd
      s.put w S out
    else s
  | .send w priv hn mn msg =>
    match cacheCRPC (s.side w) priv hn mn msg with
    | some (S, it) => s.put w S [it]
    | none => s
  | .reset w =>
    let S := s.side w
    if S.inBook then
      let S := { S with half := none }
      if S.full.isSome then s.put w { S with full := none, resets := S.resets + 1 } [.reset]
      else s.put w S []
    else s
  | .del w priv hn mn msg =>
    if (s.side w).inBook then
      match cacheCRPC (s.side w) priv hn mn msg with
      | some (S, it) => s.put w { S with dels := S.dels + 1 } [it]
      | none => s
    else s
  | .delDone w =>
    let S := s.side w
    if S.dels = 0 then s
    else s.put w { S with dels := S.dels - 1, known := false, inBook := false, half := none, full := none } []
  | .recv w now rd =>
    match s.q w with
    | [] => s
    | it :: rest =>
      let (S, out) := handle (K w) (K !w) (s.side w) now rd it
      State.put ⟨s.side, upd s.q w rest⟩ w S out

/-- Any sequence of events out of those allowed. -/
inductive Runs (K : Bool → Nat) (ok : State → Ev → Prop) : State → State → Prop
  | refl {s} : Runs K ok s s
  | tail {s t} (e : Ev) : Runs K ok s t → ok t e → Runs K ok s (step K t e)

/-- Is an attempt at contact unfinished? A lookup or the answer to a key exchange is awaited, or some message other
than an encrypted one is on its way. -/
def Busy (s : State) : Prop :=
  ∃ w, (s.side w).pending = true ∨ (s.side w).half.isSome ∨
    ∃ it ∈ s.q w, match it with
      | .data _ _ => False
      | _ => True

/-- Events of users who do not start an attempt at contact while another one is unfinished, and who do not delete each
other. -/
def Polite (s : State) : Ev → Prop
  | .find _ => ¬ Busy s
  | .reset _ => ¬ Busy s
  | .del _ _ _ _ _ => False
  | _ => True

/-- States that polite users get into. -/
def Reach (K : Bool → Nat) (s : State) : Prop := Runs K Polite init s

/-- The messages that are on the way to a client. -/
def onTheWay (s : State) (w : Bool) : List Bytes :=
  (s.q w).filterMap fun
    | .data _ m => some m
    | _ => none

end Verif.Contact
