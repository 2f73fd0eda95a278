import Verif.Model.Contact

/-! # Two clients make contact through a PIN: kxwindow.go, kxacceptwindow.go, acceptclientfingerprint.go, push.go, reset.go

Without a directory, one user seals the own identity under a key made from a password and leaves it with the server,
which answers with a PIN. The other fetches it with the PIN, opens it with the password, is asked about the fingerprint,
and answers with a key exchange sealed under the same key.

Simplifications, besides those of Verif.Model.Contact (the server delivers once and in order; both are online; disk
writes succeed; cryptography is ideal):

* A PIN, the password that goes with it, and the key made from that and the salt are one number. The server keeps what it
  was given, and pulling does not remove it (C41).
* A payload that is sealed under a blob key and opened as something else than it was made as does not pass: an
  `IdentityKX` read as a `KX` (push.go:89-94) has other bytes where the ciphertext for the KEM should be, and a `KX` is
  too short for an `IdentityKX`. An offer of the directory kind starts with a KEM ciphertext, so no blob key opens it.
* What the two windows do is one step each; C87 is about the steps within. -/

namespace Verif.PinContact

open Verif Verif.Ratchet

/-- What travels from one client to the other by way of the server. -/
inductive Item
  /-- `IdentityKX` sealed under the key of a PIN, /repo/zkclient/acceptclientfingerprint.go:143-172 -/
  | idkx (k : Nat) (x : KeyExchange)
  /-- `IdentityKX` of the directory kind, /repo/zkclient/zkclient.go:1053-1095; a reset brings it about -/
  | idkxDir (pk r : Nat) (x : KeyExchange)
  /-- `KX`, sealed under the blob key, /repo/zkclient/push.go:247-268 and :365-385 -/
  | kx (k : Key) (x : KeyExchange)
  /-- the cleartext proxy command, /repo/zkclient/zkclient.go:1778-1840 -/
  | reset
  /-- a message for the ratchet. `msg` records what was encrypted; nothing reads it. -/
  | data (ct : Ct) (msg : Bytes)
  deriving DecidableEq, Repr

/-- What one client keeps about the other. -/
structure Side where
  /-- publicidentity.xdr exists -/
  known : Bool := false
  /-- the other is in the address book -/
  inBook : Bool := false
  /-- the blob keys; that of PIN `n` is `.rnd n` -/
  keys : List Key := []
  /-- the window that asks about the fingerprint of the other is open, for this PIN -/
  asking : Option Nat := none
  /-- halfratchet.xdr -/
  half : Option Ratchet := none
  /-- ratchet.xdr -/
  full : Option Ratchet := none
  /-- deletions for which the reply of the server is outstanding -/
  dels : Nat := 0
  /-- record: messages encrypted and sent -/
  sent : List Bytes := []
  /-- record: messages decrypted -/
  shown : List Bytes := []
  deriving DecidableEq, Repr

/-- Both clients, what is on the way to each, and the PINs each has left with the server. -/
structure State where
  side : Bool → Side
  q : Bool → List Item
  pins : Bool → List Nat

/-- Nothing has happened. -/
def init : State := ⟨fun _ => {}, fun _ => [], fun _ => []⟩

/-- `identityExists`, /repo/zkclient/identity.go:31-49. -/
def Side.exists_ (S : Side) : Bool := S.known && (S.half.isSome || S.full.isSome)

/-- `step1IDKX`, /repo/zkclient/zkclient.go:1053-1115. -/
def step1 (mine theirs : Nat) (S : Side) (rd : Contact.Rand) : Side × List Item :=
  match fillKeyExchange (new mine theirs rd.priv) rd.kem with
  | (.ok x, r) =>
    let out := [Item.idkxDir theirs rd.blob x]
    if S.exists_ then (S, out)
    else ({ S with known := true, keys := S.keys ++ [.kem theirs rd.blob], half := some r }, out)
  | _ => (S, [])

/-- "yes" to the fingerprint, /repo/zkclient/acceptclientfingerprint.go:122-208. The offer is sent first. `newIdentity` is
always true: /repo/zkclient/kxacceptwindow.go:149-166 sets it to false only if there is a ratchet and there is none. So
the identity is saved, which fails if it exists by now, /repo/zkclient/identity.go:192-196. -/
def yes (mine theirs : Nat) (S : Side) (k : Nat) (rd : Contact.Rand) : Side × List Item :=
  match fillKeyExchange (new mine theirs rd.priv) rd.kem with
  | (.ok x, r) =>
    let out := [Item.idkx k x]
    if S.exists_ then (S, out)
    else ({ S with known := true, keys := S.keys ++ [.rnd k], half := some r, asking := none }, out)
  | _ => (S, [])

/-- Common to `step2IDKX` and `step2IDKX2`: /repo/zkclient/push.go:211-281 and :331-396, with the blob key `bk`. The caller
has seen that the identity does not exist, so `saveIdentity` succeeds. -/
def answer (mine theirs : Nat) (S : Side) (rd : Contact.Rand) (bk : Key) (x : KeyExchange) : Side × List Item :=
  match fillKeyExchange (new mine theirs rd.priv) rd.kem with
  | (.ok y, h) =>
    match completeKeyExchange h x false with
    | (.ok _, f) => ({ S with known := true, full := some f, inBook := true }, [.kx bk y])
    | _ => (S, [])
  | _ => (S, [])

/-- `step2IDKX` and `step2IDKX2`, /repo/zkclient/push.go:162-397. Which of them is called depends on whether the server
has a directory, :435-439. -/
def step2 (dir : Bool) (mine theirs : Nat) (S : Side) (rd : Contact.Rand) : Item → Side × List Item
  | .idkx k x => if dir = false ∧ .rnd k ∈ S.keys then answer mine theirs S rd (.rnd k) x else (S, [])
  | .idkxDir pk r x => if dir = true ∧ pk = mine then answer mine theirs S rd (.kem pk r) x else (S, [])
  | _ => (S, [])

/-- `step3IDKX`, /repo/zkclient/push.go:54-160. -/
def step3 (S : Side) : Item → Side
  | .kx k x =>
    if k ∈ S.keys then
      match S.half with
      | none => S
      | some h =>
        match completeKeyExchange h x true with
        | (.ok _, f) => { S with full := some f, half := none, inBook := true }
        | _ => S
    else S
  | _ => S

/-- What `Decrypt` of the ratchet makes of it. -/
def Item.asCt : Item → Ct
  | .data ct _ => ct
  | _ => .mk 0 (.junk 0) (.junk 0)

/-- The rest of `handlePush`, /repo/zkclient/push.go:446-475. -/
def open_ (S : Side) (f : Ratchet) (now : Int) (it : Item) : Side :=
  match decrypt f now it.asCt with
  | (.ok m, f') => { S with full := some f', shown := S.shown ++ [m] }
  | _ => S

/-- `handlePush`, /repo/zkclient/push.go:400-475, and `handleResetRatchet`, /repo/zkclient/reset.go:52-71, which offers the
directory kind of key exchange whether there is a directory or not. -/
def handle (dir : Bool) (mine theirs : Nat) (S : Side) (now : Int) (rd : Contact.Rand) (it : Item) : Side × List Item :=
  if it = .reset then
    if S.known then step1 mine theirs { S with half := none, full := none } rd else (S, [])
  else if S.exists_ = false then step2 dir mine theirs S rd it
  else
    match S.full with
    | none => (step3 S it, [])
    | some f => (open_ S f now it, [])

/-- What can happen. -/
inductive Ev
  /-- the window that makes a PIN, /repo/zkclient/kxwindow.go:94-163 -/
  | pin (w : Bool) (k : Nat)
  /-- `/fetch` with the PIN and then the password, /repo/zkclient/kxacceptwindow.go:111-176 -/
  | fetch (w : Bool) (k : Nat)
  /-- "yes" to the fingerprint -/
  | yes (w : Bool) (rd : Contact.Rand)
  /-- anything else, /repo/zkclient/acceptclientfingerprint.go:113-120 -/
  | no (w : Bool)
  /-- `cacheCRPC`, /repo/zkclient/msg.go:437-519 -/
  | send (w : Bool) (priv hn mn : Nat) (msg : Bytes)
  /-- `reset`, /repo/zkclient/zkclient.go:1768-1840 -/
  | reset (w : Bool)
  /-- `addressBookDel`, /repo/zkclient/addressbook.go:23-56 -/
  | del (w : Bool) (priv hn mn : Nat) (msg : Bytes)
  /-- the reply to that, /repo/zkclient/zkclient.go:1474-1477 -/
  | delDone (w : Bool)
  /-- the server delivers the next message -/
  | recv (w : Bool) (now : Int) (rd : Contact.Rand)

/-- `cacheCRPC`, /repo/zkclient/msg.go:437-519. Without a ratchet the message is dropped (:448-457). -/
def cacheCRPC (S : Side) (priv hn mn : Nat) (msg : Bytes) : Option (Side × Item) :=
  match S.full with
  | none => none
  | some f =>
    match encrypt f priv hn mn msg with
    | (.ok ct, f') => some ({ S with full := some f', sent := S.sent ++ [msg] }, .data ct msg)
    | _ => none

/-- Replace one side, and append to what is on the way to the other. -/
def State.put (s : State) (w : Bool) (S : Side) (out : List Item) : State :=
  ⟨upd s.side w S, upd s.q (!w) (s.q (!w) ++ out), s.pins⟩

/-- One event; `K` are the KEM key pairs of the clients, `dir` is whether the server has a directory. A command that is
refused changes nothing. -/
def step (dir : Bool) (K : Bool → Nat) (s : State) : Ev → State
  | .pin w k =>
    { s.put w { s.side w with keys := (s.side w).keys ++ [.rnd k] } [] with pins := upd s.pins w (s.pins w ++ [k]) }
  | .fetch w k =>
    if k ∈ s.pins (!w) ∧ (s.side w).exists_ = false then s.put w { s.side w with asking := some k } [] else s
  | .yes w rd =>
    match (s.side w).asking with
    | none => s
    | some k =>
      let (S, out) := yes (K w) (K !w) (s.side w) k rd
      s.put w S out
  | .no w => s.put w { s.side w with asking := none } []
  | .send w priv hn mn msg =>
    match cacheCRPC (s.side w) priv hn mn msg with
    | some (S, it) => s.put w S [it]
    | none => s
  | .reset w =>
    let S := s.side w
    if S.inBook then
      let S := { S with half := none }
      if S.full.isSome then s.put w { S with full := none } [.reset] else s.put w S []
    else s
  | .del w priv hn mn msg =>
    if (s.side w).inBook then
      match cacheCRPC (s.side w) priv hn mn msg with
      | some (S, it) => s.put w { S with dels := S.dels + 1 } [it]
      | none => s
    else s
  | .delDone w =>
    let S := s.side w
    if S.dels = 0 then s
    else s.put w { S with dels := S.dels - 1, known := false, inBook := false, half := none, full := none } []
  | .recv w now rd =>
    match s.q w with
    | [] => s
    | it :: rest =>
      let (S, out) := handle dir (K w) (K !w) (s.side w) now rd it
      State.put ⟨s.side, upd s.q w rest, s.pins⟩ w S out

/-- Any sequence of events out of those allowed. -/
inductive Runs (dir : Bool) (K : Bool → Nat) (ok : State → Ev → Prop) : State → State → Prop
  | refl {s} : Runs dir K ok s s
  | tail {s t} (e : Ev) : Runs dir K ok s t → ok t e → Runs dir K ok s (step dir K t e)

/-- Is an attempt at contact unfinished? The answer to a key exchange is awaited, or some message other than an encrypted
one is on its way. -/
def Busy (s : State) : Prop :=
  ∃ w, (s.side w).half.isSome ∨ ∃ it ∈ s.q w, match it with
    | .data _ _ => False
    | _ => True

/-- Events of users who do not say yes while another attempt is unfinished, and who do not reset or delete. They make
PINs and fetch them as they like. -/
def Polite (s : State) : Ev → Prop
  | .yes _ _ => ¬ Busy s
  | .reset _ => False
  | .del _ _ _ _ _ => False
  | _ => True

/-- States that polite users get into with a server that has no directory. -/
def Reach (K : Bool → Nat) (s : State) : Prop := Runs false K Polite init s

end Verif.PinContact
