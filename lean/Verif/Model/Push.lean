import Verif.Model.Blob
import Verif.Model.Identity
import Verif.Model.Crpc
import Verif.Model.GoMap

/-! # Messages pushed to a client: zkclient/push.go

`handlePush` up to the handlers of `Verif.Model.Crpc`. Disk writes succeed; the ratchet, the
key encapsulation, secretbox and the decoders are parameters. -/

namespace Verif.Push

open Verif Verif.Identity

/-- What the client computes with but does not change. `R` are ratchets, `K` are key exchange messages. -/
structure Env (R K : Type) where
  /-- `z.directory` -/
  directory : Bool
  /-- Own identity. -/
  me : Bytes
  /-- The blob keys in the order of the map walk; `none` is a value that is not hexadecimal. -/
  keys : List (Option Bytes)
  /-- `blobshare.Decrypt` -/
  box : Session.SecretBox Bytes
  /-- `sntrup4591761.Decapsulate` with the own private key. -/
  decap : Bytes → Option Bytes
  /-- `xdr.Unmarshal` into `rpc.IdentityKX`. -/
  decodeIDKX : Bytes → Option (PublicIdentity × K)
  /-- `xdr.Unmarshal` into `rpc.KX`. -/
  decodeKX : Bytes → Option K
  /-- `xdr.Unmarshal` into `rpc.ProxyCmd`: whether the command is a ratchet reset. -/
  decodeProxy : Bytes → Option Bool
  /-- `ratchet.New`, `FillKeyExchange`, `CompleteKeyExchange(…, false)`. -/
  accept : PublicIdentity → K → Option R
  /-- `CompleteKeyExchange(…, true)` of a half ratchet. -/
  complete : R → K → Option R
  /-- `ratchet.New`, `FillKeyExchange` of `step1IDKX`. -/
  half : PublicIdentity → R
  /-- `Decrypt` of a ratchet. -/
  decrypt : R → Bytes → Option (Bytes × R)
  zlib : Crpc.Zlib
  /-- Whether `z.cache` finds the client online and with a free tag. -/
  canSend : Bool

/-- What the client keeps: per directory under inbound/ the files publicidentity.xdr, ratchet.xdr and
halfratchet.xdr; the identities handed to the address book; and the destinations of the key exchange
messages given to the scheduler. -/
structure State (R : Type) where
  ids : GoMap Bytes PublicIdentity
  ratchets : GoMap Bytes R
  halves : GoMap Bytes R
  book : List PublicIdentity
  sent : List Bytes

/-- Errors. -/
inductive Error where
  | invalidIdentity
  | badProxy
  | unknownIdentity
  | noPayload
  | shortPayload
  | decap
  | noKey
  | unmarshal
  | self
  | kx
  | exists_
  | offline
  | noRatchet
  | mismatch
  | ratchet
  | crpc (e : Crpc.PushError)
  deriving DecidableEq, Repr

/-- A push that was handled: a contact was made, a reset was carried out, or a handler was called. -/
inductive Done where
  | contact
  | reset
  | call (c : Crpc.Call)

/-- Result and state afterwards. -/
abbrev M (R : Type) := Outcome Error Done × State R

variable {R K : Type}

/-- `identityExists`, /repo/zkclient/identity.go:31-49. -/
def identityExists (s : State R) (id : Bytes) : Bool :=
  (s.ids.get id).isSome && ((s.ratchets.get id).isSome || (s.halves.get id).isSome)

/-- `ratchetExists`, /repo/zkclient/identity.go:52-56. -/
def ratchetExists (s : State R) (id : Bytes) : Bool := (s.ratchets.get id).isSome

/-- `addressBookAdd`, /repo/zkclient/addressbook.go:60-72; the warning about a duplicate nick, which is
returned as an error after the contact has been added, is left out. -/
def addressBookAdd (E : Env R K) (s : State R) (pid : PublicIdentity) : M R :=
  if E.me = pid.identity then (.err .self, s) else (.ok .contact, { s with book := s.book ++ [pid] })

/-- The common end of `step2IDKX` and `step2IDKX2`, /repo/zkclient/push.go:200-281 and 320-397: from the
decrypted IdentityKX on. -/
def acceptIDKX (E : Env R K) (s : State R) (decrypted : Bytes) : M R :=
  match E.decodeIDKX decrypted with
  | none => (.err .unmarshal, s)
  | some (pid, kx) =>
    if pid.identity = E.me then (.err .self, s)
    else
      match E.accept pid kx with
      | none => (.err .kx, s)
      | some r =>
        -- saveIdentity, /repo/zkclient/identity.go:192-218
        if identityExists s pid.identity then (.err .exists_, s)
        else
          let s := { s with ids := s.ids.set pid.identity pid }
          let s := { s with ratchets := s.ratchets.set pid.identity r }
          if E.canSend then
            let s := { s with sent := s.sent ++ [pid.identity] }
            addressBookAdd E s pid
          else (.err .offline, s)

/-- The loop over the blob keys, /repo/zkclient/push.go:73-87 and 185-198: the plaintext for the first
key that fits. -/
def tryKeys (E : Env R K) (nonce encrypted : Bytes) : List (Option Bytes) → Option Bytes
  | [] => none
  | none :: rest => tryKeys E nonce encrypted rest
  | some k :: rest =>
    match Blob.decrypt E.box k nonce encrypted with
    | some d => some d
    | none => tryKeys E nonce encrypted rest

/-- `step2IDKX`, /repo/zkclient/push.go:162-291. An empty payload is decoded as a nil slice. -/
def step2 (E : Env R K) (s : State R) (payload : Bytes) : M R :=
  if payload = [] then (.err .noPayload, s)
  else
    match Blob.unpackNonce payload with
    | .panic => (.panic, s)
    | .err e => nomatch e
    | .ok (nonce, encrypted) =>
      match tryKeys E nonce encrypted E.keys with
      | none => (.err .noKey, s)
      | some d => acceptIDKX E s d

/-- `sntrup4591761.CiphertextSize` -/
def ciphertextSize : Nat := 1047

/-- `step2IDKX2`, /repo/zkclient/push.go:293-397. -/
def step2dir (E : Env R K) (s : State R) (payload : Bytes) : M R :=
  if payload = [] then (.err .noPayload, s)
  else if payload.length < ciphertextSize then (.err .shortPayload, s)
  else
    match E.decap (payload.take ciphertextSize) with
    | none => (.err .decap, s)
    | some k =>
      match Blob.unpackNonce (payload.drop ciphertextSize) with
      | .panic => (.panic, s)
      | .err e => nomatch e
      | .ok (nonce, encrypted) =>
        match Blob.decrypt E.box k nonce encrypted with
        | none => (.err .noKey, s)
        | some d => acceptIDKX E s d

/-- `loadRatchet`, /repo/zkclient/identity.go:72-129: needs the ratchet and the identity file. -/
def loadRatchet (s : State R) (id : Bytes) (half : Bool) : Option (R × PublicIdentity) :=
  match (if half then s.halves else s.ratchets).get id, s.ids.get id with
  | some r, some pid => some (r, pid)
  | _, _ => none

/-- `step3IDKX`, /repo/zkclient/push.go:54-160. `updateRatchet` writes into the directory of the identity
that is in the file. -/
def step3 (E : Env R K) (s : State R) (from_ payload : Bytes) : M R :=
  match Blob.unpackNonce payload with
  | .panic => (.panic, s)
  | .err e => nomatch e
  | .ok (nonce, encrypted) =>
    match tryKeys E nonce encrypted E.keys with
    | none => (.err .noKey, s)
    | some d =>
      match E.decodeKX d with
      | none => (.err .unmarshal, s)
      | some kx =>
        match loadRatchet s from_ true with
        | none => (.err .noRatchet, s)
        | some (r, pid) =>
          match E.complete r kx with
          | none => (.err .kx, s)
          | some r' =>
            let s := { s with ratchets := s.ratchets.set pid.identity r' }
            let s := { s with halves := s.halves.del from_ }
            if from_ ≠ pid.identity then (.err .mismatch, s)
            else addressBookAdd E s pid

/-- `handleResetRatchet`, /repo/zkclient/reset.go:52-72, with `step1IDKX`,
/repo/zkclient/zkclient.go:1053-1115. -/
def handleReset (E : Env R K) (s : State R) (from_ : Bytes) : M R :=
  match s.ids.get from_ with
  | none => (.err .unknownIdentity, s)
  | some pid =>
    let s := { s with halves := s.halves.del from_ }
    let s := { s with ratchets := s.ratchets.del from_ }
    if E.canSend then
      let s := { s with sent := s.sent ++ [pid.identity] }
      if identityExists s pid.identity then (.err .exists_, s)
      else
        let s := { s with ids := s.ids.set pid.identity pid }
        (.ok .reset, { s with halves := s.halves.set pid.identity (E.half pid) })
    else (.err .offline, s)

/-- `rpc.Push` with the Cleartext flag of its message. -/
structure Packet where
  from_ : Bytes
  payload : Bytes
  cleartext : Bool
  deriving DecidableEq, Repr

/-- The cleartext branch, /repo/zkclient/push.go:406-429. -/
def handleCleartext (E : Env R K) (s : State R) (p : Packet) : M R :=
  match E.decodeProxy p.payload with
  | some true => handleReset E s p.from_
  | some false => (.err .badProxy, s)
  | none => (.err .badProxy, s)

/-- A message of a contact with a ratchet, /repo/zkclient/push.go:449-694, up to the handlers. -/
def handleFull (E : Env R K) (s : State R) (p : Packet) : M R :=
  match loadRatchet s p.from_ false with
  | none => (.err .noRatchet, s)
  | some (r, pid) =>
    match E.decrypt r p.payload with
    | none => (.err .ratchet, s)
    | some (plain, r') =>
      let s := { s with ratchets := s.ratchets.set pid.identity r' }
      match Crpc.receive E.zlib plain with
      | .ok c => (.ok (.call c), s)
      | .err e => (.err (.crpc e), s)
      | .panic => (.panic, s)

/-- `handlePush`, /repo/zkclient/push.go:399-694, up to the handlers. -/
def handlePush (E : Env R K) (s : State R) (p : Packet) : M R :=
  if p.from_ = List.replicate 32 0 then (.err .invalidIdentity, s)
  else if p.cleartext then handleCleartext E s p
  else if identityExists s p.from_ = false then
    if E.directory then step2dir E s p.payload else step2 E s p.payload
  else if ratchetExists s p.from_ = false then step3 E s p.from_ p.payload
  else handleFull E s p

end Verif.Push
