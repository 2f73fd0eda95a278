import Verif.Model.GoMap

/-!
# The double ratchet: /repo/ratchet/ratchet.go

The model is symbolic: keys are terms, two keys are equal exactly when they are the same
term (HMAC-SHA256, SHA-256 and the KEM are ideal), and a sealed box opens only under the
key and nonce it was sealed with (secretbox is ideal). Control flow, counters, the map of
skipped keys and every state update follow the Go code statement by statement.
-/

namespace Verif.Ratchet

open Verif

/-- Labels of `deriveKey`, /repo/ratchet/ratchet.go:147-156 (`rootKeyUpdateLabel` is the
`mix` constructor of `Key`). -/
inductive Label
  | chainKey | headerKey | nextRecvHeaderKey | rootKey | sendHeaderKey | messageKey
  | chainKeyStep
  deriving DecidableEq, Repr

/-- A curve25519 public value: that of a private value, or a low order point (for which
`X25519` returns an error). /repo/ratchet/ratchet.go:115-116, 269-270. -/
inductive Pub
  | of (priv : Nat)
  | low
  deriving DecidableEq, Repr

/-- 32 byte secrets as terms: the all-zero array, a random value, a KEM session key, SHA-256
of two keys (:205-213), HMAC of a label (:136-143), and SHA-256 of the root key update label,
a root key and a curve25519 shared value (:251-255; the shared value of privates `x`, `y` is
the unordered pair, stored sorted). -/
inductive Key
  | zero
  | rnd (n : Nat)
  | kem (pk r : Nat)
  | sha (a b : Key)
  | hmac (l : Label) (k : Key)
  | mix (root : Key) (x y : Nat)
  deriving DecidableEq, Repr

/-- `curve25519.X25519(priv, pub)` followed by hashing with the root key,
/repo/ratchet/ratchet.go:247-255 and :467-478. `none` is the error for low order points. -/
def mixDH (root : Key) (priv : Nat) : Pub → Option Key
  | .of q => some (.mix root (min priv q) (max priv q))
  | .low => none

/-- Plaintext header, /repo/ratchet/ratchet.go:276-279. The two counters are uint32. -/
structure Header where
  num : Nat
  prev : Nat
  pub : Pub
  nonce : Nat
  deriving DecidableEq, Repr

/-- A sealed header (secretbox of exactly `headerSize` bytes), or bytes that are not the
sealing of anything. -/
inductive HBox
  | sealed (k : Key) (n : Nat) (h : Header)
  | junk (i : Nat)
  deriving DecidableEq, Repr

/-- A sealed message, or bytes that are not the sealing of anything. -/
inductive MBox
  | sealed (k : Key) (n : Nat) (m : Bytes)
  | junk (i : Nat)
  deriving DecidableEq, Repr

/-- What is handed to `Decrypt`: fewer than `sealedHeaderSize` bytes, or the header nonce in
the clear, the sealed header and the sealed message. -/
inductive Ct
  | short
  | mk (hn : Nat) (h : HBox) (m : MBox)
  deriving DecidableEq, Repr

/-- `secretbox.Open` of a header. -/
def openH (k : Key) (n : Nat) : HBox → Option Header
  | .sealed k' n' h => if k' = k ∧ n' = n then some h else none
  | .junk _ => none

/-- `secretbox.Open` of a message. -/
def openM (k : Key) (n : Nat) : MBox → Option Bytes
  | .sealed k' n' m => if k' = k ∧ n' = n then some m else none
  | .junk _ => none

/-- `savedKey`, /repo/ratchet/ratchet.go:83-86; time in nanoseconds since the epoch. -/
structure SavedKey where
  key : Key
  ts : Int
  deriving DecidableEq, Repr

/-- `map[[32]byte]map[uint32]savedKey`. -/
abbrev Saved := GoMap Key (GoMap Nat SavedKey)

/-- `Ratchet`, /repo/ratchet/ratchet.go:45-78. `kemSk` and `theirKem` stand for
MyPrivateKey and TheirPublicKey (key pairs are numbered); the signing keys and
TheirIdentityPublic are not used by this package and left out. -/
structure Ratchet where
  kemSk : Nat := 0
  theirKem : Nat := 0
  rootKey : Key := .zero
  sendHeaderKey : Key := .zero
  recvHeaderKey : Key := .zero
  nextSendHeaderKey : Key := .zero
  nextRecvHeaderKey : Key := .zero
  sendChainKey : Key := .zero
  recvChainKey : Key := .zero
  sendPriv : Nat := 0
  recvPub : Pub := .low
  sendCount : Nat := 0
  recvCount : Nat := 0
  prevSendCount : Nat := 0
  ratchet : Bool := false
  saved : Saved := []
  myHalf : Option Key := none
  theirHalf : Option Key := none
  kxPrivate : Option Nat := none
  deriving DecidableEq, Repr

/-- Result of a call: a value, an error, a panic, or no return at all. -/
inductive Res (α : Type)
  | ok (a : α)
  | err
  | crash
  | diverge
  deriving DecidableEq, Repr

/-- 2^32, one past the largest counter. -/
def u32 : Nat := 4294967296

/-- `maxMissingMessages`, /repo/ratchet/ratchet.go:41. -/
def maxMissing : Nat := 80

/-- `New`, /repo/ratchet/ratchet.go:94-101, together with the caller filling in the two key
fields. A random private value is a parameter. -/
def new (kemSk theirKem kxPriv : Nat) : Ratchet :=
  { kemSk := kemSk, theirKem := theirKem, kxPrivate := some kxPriv }

/-! ## Key exchange -/

/-- The scrypt/secretbox packed public value in a KeyExchange: too short to unpack, a public
value sealed under a key derived from `k`, or something that does not open. `valid` records
whether the bytes pass `validateECDHpoint` (modelled on bytes in Verif.Model.Point). -/
inductive PubBlob
  | short
  | sealed (k : Key) (p : Pub) (valid : Bool)
  | junk
  deriving DecidableEq, Repr

/-- KEM ciphertext: encapsulation to key pair `pk`, or bytes that fail to decapsulate. -/
inductive KemCt
  | enc (pk r : Nat)
  | junk
  deriving DecidableEq, Repr

/-- `KeyExchange`, /repo/ratchet/ratchet.go:103-106. -/
structure KeyExchange where
  cipher : KemCt
  pub : PubBlob
  deriving DecidableEq, Repr

/-- `FillKeyExchange`, /repo/ratchet/ratchet.go:110-133. Nil `kxPrivate` dereferences nil.
Simplifications: the KEM, scrypt and the random source do not fail; honest public values
pass the range check. -/
def fillKeyExchange (r : Ratchet) (rnd : Nat) : Res KeyExchange × Ratchet :=
  match r.kxPrivate with
  | none => (.crash, r)
  | some priv =>
    let k := Key.kem r.theirKem rnd
    (.ok ⟨.enc r.theirKem rnd, .sealed k (.of priv) true⟩, { r with myHalf := some k })

/-- `CompleteKeyExchange`, /repo/ratchet/ratchet.go:180-238. -/
def completeKeyExchange (r : Ratchet) (kx : KeyExchange) (alice : Bool) : Res Unit × Ratchet :=
  match kx.cipher with
  | .junk => (.err, r)
  | .enc pk rnd =>
    if pk = r.kemSk then
      let k := Key.kem pk rnd
      let r := { r with theirHalf := some k }
      match kx.pub with
      | .short => (.crash, r)
      | .junk => (.err, r)
      | .sealed k' p valid =>
        if k' = k then
          if valid then
            match r.myHalf with
            | none => (.crash, r)
            | some mine =>
              let shared := if alice then Key.sha mine k else Key.sha k mine
              let r := { r with rootKey := .hmac .rootKey shared }
              if alice then
                (.ok (), { r with
                  recvHeaderKey := .hmac .headerKey shared
                  nextSendHeaderKey := .hmac .sendHeaderKey shared
                  nextRecvHeaderKey := .hmac .nextRecvHeaderKey shared
                  recvChainKey := .hmac .chainKey shared
                  recvPub := p
                  ratchet := true
                  kxPrivate := none })
              else
                match r.kxPrivate with
                | none => (.crash, r)
                | some priv =>
                  (.ok (), { r with
                    sendHeaderKey := .hmac .headerKey shared
                    nextRecvHeaderKey := .hmac .sendHeaderKey shared
                    nextSendHeaderKey := .hmac .nextRecvHeaderKey shared
                    sendChainKey := .hmac .chainKey shared
                    sendPriv := priv
                    ratchet := false
                    kxPrivate := none })
          else (.err, r)
        else (.err, r)
    else (.err, r)

/-! ## Encrypt -/

/-- The ratchet step at the head of `Encrypt`, /repo/ratchet/ratchet.go:242-262. `none` is the
X25519 error; the assignments made before it stay. -/
def ratchetStep (r : Ratchet) (priv : Nat) : Bool × Ratchet :=
  let r := { r with sendPriv := priv, sendHeaderKey := r.nextSendHeaderKey }
  match mixDH r.rootKey priv r.recvPub with
  | none => (false, r)
  | some km =>
    (true, { r with
      rootKey := .hmac .rootKey km
      nextSendHeaderKey := .hmac .sendHeaderKey km
      sendChainKey := .hmac .chainKey km
      prevSendCount := r.sendCount
      sendCount := 0
      ratchet := false })

/-- The remainder of `Encrypt`, /repo/ratchet/ratchet.go:264-283. -/
def sealMsg (r : Ratchet) (hn mn : Nat) (msg : Bytes) : Ct × Ratchet :=
  let mk := Key.hmac .messageKey r.sendChainKey
  let header : Header := ⟨r.sendCount, r.prevSendCount, .of r.sendPriv, mn⟩
  (.mk hn (.sealed r.sendHeaderKey hn header) (.sealed mk mn msg),
   { r with
     sendChainKey := .hmac .chainKeyStep r.sendChainKey
     sendCount := (r.sendCount + 1) % u32 })

/-- `Encrypt`, /repo/ratchet/ratchet.go:241-284; the random private value and the two random
nonces are parameters. -/
def encrypt (r : Ratchet) (priv hn mn : Nat) (msg : Bytes) : Res Ct × Ratchet :=
  if r.ratchet then
    match ratchetStep r priv with
    | (false, r) => (.err, r)
    | (true, r) => let (ct, r) := sealMsg r hn mn msg; (.ok ct, r)
  else
    let (ct, r) := sealMsg r hn mn msg
    (.ok ct, r)

/-! ## Decrypt -/

/-- Result of `trySavedKeys`. -/
inductive Tried
  | failed
  | nothing
  | opened (m : Bytes) (s : Saved)
  deriving DecidableEq, Repr

/-- The loop of `trySavedKeys`, /repo/ratchet/ratchet.go:297-327, over the entries of `r.saved`
in some order; `all` is the whole map, from which the used key is deleted. -/
def tryLoop (all : Saved) (hn : Nat) (h : HBox) (m : MBox) : Saved → Tried
  | [] => .nothing
  | (hk, keys) :: rest =>
    match openH hk hn h with
    | none => tryLoop all hn h m rest
    | some hdr =>
      match keys.get hdr.num with
      | none => .nothing
      | some sk =>
        match openM sk.key hdr.nonce m with
        | none => .failed
        | some msg =>
          let keys' := keys.del hdr.num
          .opened msg (if keys' = [] then all.del hk else all.set hk keys')

/-- `for n := receivedCount; n <= messageNum; n++`, /repo/ratchet/ratchet.go:365-372, for
`messageNum = n + missing` not the largest uint32: the new chain key, the message key and the
skipped keys. -/
def advance (ck : Key) (n : Nat) (now : Int) : Nat → Key × Key × GoMap Nat SavedKey
  | 0 => (.hmac .chainKeyStep ck, .hmac .messageKey ck, [])
  | missing + 1 =>
    let (ck', mk, sv) := advance (.hmac .chainKeyStep ck) (n + 1) now missing
    (ck', mk, (n, ⟨.hmac .messageKey ck, now⟩) :: sv)

/-- `saveKeys`, /repo/ratchet/ratchet.go:336-380. When `messageNum` is the largest uint32 the
loop condition `n <= messageNum` is always true: if nothing is missing the wrapped-around
counter then writes to a nil map (panic), otherwise the loop never ends. -/
def saveKeys (hk ck : Key) (messageNum receivedCount : Nat) (now : Int) :
    Res (Key × Key × Option (Key × GoMap Nat SavedKey)) :=
  if messageNum < receivedCount then .err
  else
    let missing := messageNum - receivedCount
    if maxMissing < missing then .err
    else if messageNum + 1 = u32 then (if missing = 0 then .crash else .diverge)
    else
      let (ck', mk, sv) := advance ck receivedCount now missing
      .ok (ck', mk, if missing = 0 then none else some (hk, sv))

/-- `mergeSavedKeys`, /repo/ratchet/ratchet.go:384-396; `newKeys` has at most one header key. -/
def mergeSavedKeys (saved : Saved) : Option (Key × GoMap Nat SavedKey) → Saved
  | none => saved
  | some (hk, new) =>
    match saved.get hk with
    | none => saved.set hk new
    | some old => saved.set hk (new.foldl (fun m e => m.set e.1 e.2) old)

/-- The part of `Decrypt` after `trySavedKeys` found nothing,
/repo/ratchet/ratchet.go:414-508. -/
def decryptNew (r : Ratchet) (now : Int) (hn : Nat) (h : HBox) (m : MBox) :
    Res Bytes × Ratchet :=
  match (if r.recvHeaderKey = .zero then none else openH r.recvHeaderKey hn h) with
  | some hdr =>
    match saveKeys r.recvHeaderKey r.recvChainKey hdr.num r.recvCount now with
    | .err => (.err, r)
    | .crash => (.crash, r)
    | .diverge => (.diverge, r)
    | .ok (ck, mk, sv) =>
      match openM mk hdr.nonce m with
      | none => (.err, r)
      | some msg =>
        (.ok msg, { r with
          recvChainKey := ck
          saved := mergeSavedKeys r.saved sv
          recvCount := (hdr.num + 1) % u32 })
  | none =>
    match openH r.nextRecvHeaderKey hn h with
    | none => (.err, r)
    | some hdr =>
      if r.ratchet then (.err, r)
      else
        match saveKeys r.recvHeaderKey r.recvChainKey hdr.prev r.recvCount now with
        | .err => (.err, r)
        | .crash => (.crash, r)
        | .diverge => (.diverge, r)
        | .ok (_, _, oldSv) =>
          match mixDH r.rootKey r.sendPriv hdr.pub with
          | none => (.err, r)
          | some km =>
            match saveKeys r.nextRecvHeaderKey (.hmac .chainKey km) hdr.num 0 now with
            | .err => (.err, r)
            | .crash => (.crash, r)
            | .diverge => (.diverge, r)
            | .ok (ck, mk, sv) =>
              match openM mk hdr.nonce m with
              | none => (.err, r)
              | some msg =>
                (.ok msg, { r with
                  rootKey := .hmac .rootKey km
                  recvChainKey := ck
                  recvHeaderKey := r.nextRecvHeaderKey
                  nextRecvHeaderKey := .hmac .sendHeaderKey km
                  sendPriv := 0
                  recvPub := hdr.pub
                  recvCount := (hdr.num + 1) % u32
                  saved := mergeSavedKeys (mergeSavedKeys r.saved oldSv) sv
                  ratchet := true })

/-- `Decrypt`, /repo/ratchet/ratchet.go:408-509. `secretbox.Open` appends to a nil slice, so an
empty plaintext opened by `trySavedKeys` comes back as nil and is taken for "not found"
(:409-412): the key is gone and decryption goes on with the other keys. -/
def decrypt (r : Ratchet) (now : Int) : Ct → Res Bytes × Ratchet
  | .short => (.err, r)
  | .mk hn h m =>
    match tryLoop r.saved hn h m r.saved with
    | .failed => (.err, r)
    | .nothing => decryptNew r now hn h m
    | .opened msg s =>
      if msg = [] then decryptNew { r with saved := s } now hn h m
      else (.ok msg, { r with saved := s })

/-! ## Marshal and Unmarshal -/

/-- `RatchetState_SavedKeys_MessageKey`, /repo/ratchet/disk/disk.go:32-36. Byte-string fields
that hold a key are `none` when their length is not 32. -/
structure DiskKey where
  num : Nat
  key : Option Key
  creationTime : Int
  deriving DecidableEq, Repr

/-- `RatchetState`, /repo/ratchet/disk/disk.go:7-36. The three optional fields are `none` when
empty and `some none` when of a wrong length. -/
structure Disk where
  rootKey : Option Key
  sendHeaderKey : Option Key
  recvHeaderKey : Option Key
  nextSendHeaderKey : Option Key
  nextRecvHeaderKey : Option Key
  sendChainKey : Option Key
  recvChainKey : Option Key
  sendPriv : Option Nat
  recvPub : Option Pub
  sendCount : Nat
  recvCount : Nat
  prevSendCount : Nat
  ratchet : Bool
  priv : Option (Option Nat)
  myHalf : Option (Option Key)
  theirHalf : Option (Option Key)
  saved : List (Option Key × List DiskKey)
  deriving DecidableEq, Repr

/-- Nanoseconds per second. -/
def second : Int := 1000000000

/-- Does `Marshal` keep this key? /repo/ratchet/ratchet.go:554. The saturation of
`time.Time.Sub` at about 292 years is left out. -/
def keep (now lifetime : Int) (k : SavedKey) : Bool := ¬ (lifetime < now - k.ts)

/-- `Marshal`, /repo/ratchet/ratchet.go:531-570; `Unix()` is seconds rounded down. -/
def marshal (r : Ratchet) (now lifetime : Int) : Disk where
  rootKey := some r.rootKey
  sendHeaderKey := some r.sendHeaderKey
  recvHeaderKey := some r.recvHeaderKey
  nextSendHeaderKey := some r.nextSendHeaderKey
  nextRecvHeaderKey := some r.nextRecvHeaderKey
  sendChainKey := some r.sendChainKey
  recvChainKey := some r.recvChainKey
  sendPriv := some r.sendPriv
  recvPub := some r.recvPub
  sendCount := r.sendCount
  recvCount := r.recvCount
  prevSendCount := r.prevSendCount
  ratchet := r.ratchet
  priv := r.kxPrivate.map some
  myHalf := r.myHalf.map some
  theirHalf := r.theirHalf.map some
  saved := r.saved.map fun e =>
    (some e.1, (e.2.filter fun x => keep now lifetime x.2).map fun x =>
      ⟨x.1, some x.2.key, x.2.ts / second⟩)

/-- The inner loop of `Unmarshal`, /repo/ratchet/ratchet.go:633-641. -/
def loadKeys : List DiskKey → GoMap Nat SavedKey → Option (GoMap Nat SavedKey)
  | [], m => some m
  | d :: ds, m =>
    match d.key with
    | none => none
    | some k => loadKeys ds (m.set d.num ⟨k, d.creationTime * second⟩)

/-- The outer loop of `Unmarshal`, /repo/ratchet/ratchet.go:628-644: the flag tells whether it
ended without an error. -/
def loadSaved : List (Option Key × List DiskKey) → Saved → Bool × Saved
  | [], s => (true, s)
  | (none, _) :: _, s => (false, s)
  | (some hk, ds) :: rest, s =>
    match loadKeys ds [] with
    | none => (false, s)
    | some m => loadSaved rest (s.set hk m)

/-- Is the field absent or a proper key? -/
def optOk {α : Type} : Option (Option α) → Bool
  | some none => false
  | _ => true

/-- `Unmarshal`, /repo/ratchet/ratchet.go:582-647. Simplification: after an error the partly
overwritten ratchet is not described, as every caller drops it. A nil `kxPrivate` is
dereferenced if the record has a private value. -/
def unmarshal (r : Ratchet) (d : Disk) : Res Ratchet :=
  match d.rootKey, d.sendHeaderKey, d.recvHeaderKey, d.nextSendHeaderKey, d.nextRecvHeaderKey,
      d.sendChainKey, d.recvChainKey, d.sendPriv, d.recvPub with
  | some rootKey, some shk, some rhk, some nshk, some nrhk, some sck, some rck, some sp,
      some rp =>
    if d.priv.join.isSome && r.kxPrivate.isNone then .crash
    else if !(optOk d.priv && optOk d.myHalf && optOk d.theirHalf) then .err
    else
      match loadSaved d.saved r.saved with
      | (false, _) => .err
      | (true, s) =>
        .ok { r with
          rootKey := rootKey, sendHeaderKey := shk, recvHeaderKey := rhk
          nextSendHeaderKey := nshk, nextRecvHeaderKey := nrhk
          sendChainKey := sck, recvChainKey := rck, sendPriv := sp, recvPub := rp
          sendCount := d.sendCount, recvCount := d.recvCount
          prevSendCount := d.prevSendCount, ratchet := d.ratchet
          kxPrivate := d.priv.join, myHalf := d.myHalf.join, theirHalf := d.theirHalf.join
          saved := s }
  | _, _, _, _, _, _, _, _, _ => .err

end Verif.Ratchet
