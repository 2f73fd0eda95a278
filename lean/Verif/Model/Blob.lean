import Verif.Model.Session

/-! # blobshare/blobshare.go

`[32]byte` and `[24]byte` arguments are byte strings of that length. -/

namespace Verif.Blob

open Verif

/-- `copy(dst[off:], src)` into a slice: overwrites from `off` as far as both reach. -/
def copyAt (dst : Bytes) (off : Nat) (src : Bytes) : Bytes :=
  dst.take off ++ src.take (dst.length - off) ++ dst.drop (off + min src.length (dst.length - off))

/-- `PackSaltNonce`, /repo/blobshare/blobshare.go:65-73. -/
def packSaltNonce (salt nonce data : Bytes) : Bytes :=
  let packed := List.replicate (32 + 24 + data.length) 0
  let packed := copyAt packed 0 salt
  let packed := copyAt packed 32 nonce
  copyAt packed (32 + 24) data

/-- `UnpackSaltNonce`, /repo/blobshare/blobshare.go:75-89; slicing beyond the capacity panics (the
capacity of the slices passed equals their length). -/
def unpackSaltNonce (packed : Bytes) : Outcome Empty (Bytes × Bytes × Bytes) :=
  if packed.length < 32 then .panic
  else if packed.length < 32 + 24 then .panic
  else .ok (packed.take 32, (packed.drop 32).take 24, packed.drop (32 + 24))

/-- `PackNonce`, /repo/blobshare/blobshare.go:91-98. -/
def packNonce (nonce data : Bytes) : Bytes :=
  let packed := List.replicate (24 + data.length) 0
  let packed := copyAt packed 0 nonce
  copyAt packed 24 data

/-- `UnpackNonce`, /repo/blobshare/blobshare.go:100-108. -/
def unpackNonce (packed : Bytes) : Outcome Empty (Bytes × Bytes) :=
  if packed.length < 24 then .panic else .ok (packed.take 24, packed.drop 24)

/-- `Encrypt`, /repo/blobshare/blobshare.go:110-123; the random nonce is a parameter. -/
def encrypt (B : Session.SecretBox Bytes) (data key nonce : Bytes) : Bytes × Bytes :=
  (B.sealB key nonce data, nonce)

/-- `Decrypt`, /repo/blobshare/blobshare.go:125-131; `none` is the error. -/
def decrypt (B : Session.SecretBox Bytes) (key nonce data : Bytes) : Option Bytes :=
  B.openB key nonce data

/-- `NewKey`, /repo/blobshare/blobshare.go:34-51: scrypt is any function of password and salt; the
random salt is a parameter. -/
def newKey (scrypt : Bytes → Bytes → Bytes) (password salt : Bytes) : Bytes × Bytes :=
  (scrypt password salt, salt)

/-- `DeriveKey`, /repo/blobshare/blobshare.go:53-63. -/
def deriveKey (scrypt : Bytes → Bytes → Bytes) (password salt : Bytes) : Bytes :=
  scrypt password salt

/-- Sharing data under a password, as /repo/ratchet/ratchet.go:118-130 and the clients do. -/
def share (B : Session.SecretBox Bytes) (scrypt : Bytes → Bytes → Bytes)
    (password salt nonce data : Bytes) : Bytes :=
  let (key, salt) := newKey scrypt password salt
  let (e, nonce) := encrypt B data key nonce
  packSaltNonce salt nonce e

/-- The other end, /repo/ratchet/ratchet.go:187-199. -/
def unshare (B : Session.SecretBox Bytes) (scrypt : Bytes → Bytes → Bytes)
    (password packed : Bytes) : Outcome Unit Bytes :=
  match unpackSaltNonce packed with
  | .ok (salt, nonce, data) =>
    match decrypt B (deriveKey scrypt password salt) nonce data with
    | some d => .ok d
    | none => .err ()
  | .err e => nomatch e
  | .panic => .panic

end Verif.Blob
