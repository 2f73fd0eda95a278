import Verif.Model.Common

/-! # zkidentity/zkidentity.go: New, RecalculateDigest, Verify

SHA-256 and ed25519 are parameters. -/

namespace Verif.Identity

open Verif

/-- Hash and signature functions, with the laws used about them: digests have 32 bytes, a signature
made with a private key verifies with its public key. -/
structure Prims where
  SK : Type
  sha256 : Bytes → Bytes
  sha_len : ∀ m, (sha256 m).length = 32
  pub : SK → Bytes
  pub_len : ∀ sk, (pub sk).length = 32
  sign : SK → Bytes → Bytes
  verify : Bytes → Bytes → Bytes → Bool
  verify_sign : ∀ sk m, verify (pub sk) m (sign sk m) = true

/-- `PublicIdentity`, /repo/zkidentity/zkidentity.go:37-45. -/
structure PublicIdentity where
  name : Bytes
  nick : Bytes
  sigKey : Bytes
  key : Bytes
  identity : Bytes
  digest : Bytes
  signature : Bytes
  deriving DecidableEq, Repr

/-- Sizes of the array fields: ed25519 public key 32, sntrup4591761 public key 1218, SHA-256 32. -/
def PublicIdentity.Sized (p : PublicIdentity) : Prop :=
  p.sigKey.length = 32 ∧ p.key.length = 1218 ∧ p.identity.length = 32

/-- What is hashed, /repo/zkidentity/zkidentity.go:112-117 and 149-154: successive `Write`s. -/
def hashed (p : PublicIdentity) : Bytes := p.name ++ p.nick ++ p.sigKey ++ p.key ++ p.identity

/-- `Verify`, /repo/zkidentity/zkidentity.go:148-159. -/
def verify (P : Prims) (p : PublicIdentity) : Bool :=
  if p.digest ≠ P.sha256 (hashed p) then false else P.verify p.sigKey p.digest p.signature

/-- `RecalculateDigest`, /repo/zkidentity/zkidentity.go:110-128, on the public part; `none` is the
error. -/
def recalculateDigest (P : Prims) (sk : P.SK) (p : PublicIdentity) : Option PublicIdentity :=
  let p := { p with digest := P.sha256 (hashed p) }
  let p := { p with signature := P.sign sk p.digest }
  if verify P p then some p else none

/-- `New`, /repo/zkidentity/zkidentity.go:74-104; the generated keys are parameters. -/
def new (P : Prims) (sk : P.SK) (ntruPub name nick : Bytes) : Option PublicIdentity :=
  recalculateDigest P sk
    { name := name, nick := nick, sigKey := P.pub sk, key := ntruPub, identity := P.sha256 ntruPub
      digest := [], signature := [] }

end Verif.Identity
