import Verif.Model.Xdr0

/-! # XDR encoding of Go values

`davecgh/go-xdr/xdr2` is a dependency that is not part of /repo; the definitions follow its
documentation and RFC 4506. A universe of types covers the structures of /repo/rpc/rpc.go. -/

namespace Verif.Xdr

open Verif

/-- The shapes of the encoded Go types: `uint32`, `int`, `uint64`, `int64`, `bool`, `string` and
`[]byte`, `[n]byte`, and (as nested pairs) structures, and slices. -/
inductive Ty where
  | u32
  | i32
  | u64
  | i64
  | bool
  | opaque
  | fixed (n : Nat)
  | unit
  | pair (a b : Ty)
  | list (a : Ty)
  deriving DecidableEq, Repr

/-- The values of a type. -/
@[reducible] def Val : Ty → Type
  | .u32 => Nat
  | .i32 => Int
  | .u64 => Nat
  | .i64 => Int
  | .bool => Bool
  | .opaque => Bytes
  | .fixed n => { b : Bytes // b.length = n }
  | .unit => Unit
  | .pair a b => Val a × Val b
  | .list a => List (Val a)

/-- The values that exist in Go and fit the encoding: numbers in range, lengths below 2^31 and within
the limit of the decoder if there is one (`limit ≠ 0`). An `int` is sent as 32 bits. -/
def Fits (limit : Nat) : (t : Ty) → Val t → Prop
  | .u32, n => n < 2 ^ 32
  | .i32, x => -2 ^ 31 ≤ x ∧ x < 2 ^ 31
  | .u64, n => n < 2 ^ 64
  | .i64, x => -2 ^ 63 ≤ x ∧ x < 2 ^ 63
  | .bool, _ => True
  | .opaque, b => b.length + 3 < 2 ^ 31 ∧ (limit ≠ 0 → b.length ≤ limit)
  | .fixed n, _ => n + 3 < 2 ^ 31
  | .unit, _ => True
  | .pair a b, v => Fits limit a v.1 ∧ Fits limit b v.2
  | .list a, l => l.length < 2 ^ 31 ∧ (limit ≠ 0 → l.length ≤ limit) ∧ ∀ v ∈ l, Fits limit a v

/-- 64-bit big endian. -/
def be64 (n : Nat) : Bytes := be32 (n / 2 ^ 32) ++ be32 (n % 2 ^ 32)

/-- Opaque data of known length, with padding. -/
def encFixed (b : Bytes) : Bytes := b ++ List.replicate (padLen b.length) 0

/-- `xdr.Marshal` -/
def enc : (t : Ty) → Val t → Bytes
  | .u32, n => be32 n
  | .i32, x => be32 (x % 2 ^ 32).toNat
  | .u64, n => be64 n
  | .i64, x => be64 (x % 2 ^ 64).toNat
  | .bool, b => be32 (if b then 1 else 0)
  | .opaque, b => be32 b.length ++ encFixed b
  | .fixed _, b => encFixed b.1
  | .unit, _ => []
  | .pair a b, v => enc a v.1 ++ enc b v.2
  | .list a, l => be32 l.length ++ l.flatMap (enc a)

/-- Result of decoding: a value and the unread rest; the end of the input where nothing of the item had
been read (`io.EOF`); the end within an item (`io.ErrUnexpectedEOF`); or another error. -/
inductive Res (α : Type) where
  | ok (a : α) (rest : Bytes)
  | eof
  | unexpected
  | bad
  deriving Repr, DecidableEq

/-- Sequencing. -/
def Res.bind {α β : Type} (r : Res α) (f : α → Bytes → Res β) : Res β :=
  match r with
  | .ok a rest => f a rest
  | .eof => .eof
  | .unexpected => .unexpected
  | .bad => .bad

/-- `io.ReadFull` of `n` bytes. -/
def readFull (n : Nat) (buf : Bytes) : Res Bytes :=
  if n = 0 then .ok [] buf
  else if buf = [] then .eof
  else if buf.length < n then .unexpected
  else .ok (buf.take n) (buf.drop n)

/-- Value of big-endian bytes. -/
def beVal (b : Bytes) : Nat := b.foldl (fun acc x => 256 * acc + x.toNat) 0

/-- `DecodeUint`. -/
def readU32 (buf : Bytes) : Res Nat := (readFull 4 buf).bind fun b r => .ok (beVal b) r

/-- `DecodeUhyper`. -/
def readU64 (buf : Bytes) : Res Nat := (readFull 8 buf).bind fun b r => .ok (beVal b) r

/-- Two's complement. -/
def signed (bits n : Nat) : Int := if n < 2 ^ (bits - 1) then (n : Int) else (n : Int) - 2 ^ bits

/-- `DecodeFixedOpaque`; the contents of the padding are not looked at. -/
def readFixed (n : Nat) (buf : Bytes) : Res Bytes :=
  (readFull (if n = 0 then 0 else n + padLen n) buf).bind fun b r => .ok (b.take n) r

/-- Decoding `n` items one after the other. -/
def readMany {α : Type} (f : Bytes → Res α) : Nat → Bytes → Res (List α)
  | 0, buf => .ok [] buf
  | n + 1, buf => (f buf).bind fun a r => (readMany f n r).bind fun l r' => .ok (a :: l) r'

/-- `xdr.Unmarshal` (`limit = 0`) and `xdr.UnmarshalLimited`. -/
def dec (limit : Nat) : (t : Ty) → Bytes → Res (Val t)
  | .u32, buf => readU32 buf
  | .i32, buf => (readU32 buf).bind fun n r => .ok (signed 32 n) r
  | .u64, buf => readU64 buf
  | .i64, buf => (readU64 buf).bind fun n r => .ok (signed 64 n) r
  | .bool, buf => (readU32 buf).bind fun n r =>
      if n = 0 then .ok false r else if n = 1 then .ok true r else .bad
  | .opaque, buf => (readU32 buf).bind fun n r => if tooLong limit n then .bad else readFixed n r
  | .fixed n, buf => (readFixed n buf).bind fun b r =>
      if h : b.length = n then .ok ⟨b, h⟩ r else .bad
  | .unit, buf => .ok () buf
  | .pair a b, buf => (dec limit a buf).bind fun x r => (dec limit b r).bind fun y r' => .ok (x, y) r'
  | .list a, buf => (readU32 buf).bind fun n r =>
      if tooLong limit n then .bad else readMany (dec limit a) n r

/-- A Go structure with the given fields. -/
def struct : List Ty → Ty
  | [] => .unit
  | [t] => t
  | t :: ts => .pair t (struct ts)

/-! ## The messages of /repo/rpc/rpc.go and the structures inside them -/

/-- `zkidentity.PublicIdentity`, /repo/zkidentity/zkidentity.go:37-45: Name, Nick, SigKey, Key,
Identity, Digest, Signature. -/
def publicIdentity : Ty := struct [.opaque, .opaque, .fixed 32, .fixed 1218, .fixed 32, .fixed 32, .fixed 64]

/-- `CreateAccount`, /repo/rpc/rpc.go:78-81. -/
def createAccount : Ty := struct [.opaque, publicIdentity]

/-- `Message`, /repo/rpc/rpc.go:97-103. -/
def message : Ty := struct [.opaque, .i64, .bool, .u32]

/-- `Acknowledge`, /repo/rpc/rpc.go:107-110. -/
def acknowledge : Ty := struct [.opaque, .i32]

/-- `Unwelcome`, /repo/rpc/rpc.go:120-123. -/
def unwelcome : Ty := struct [.i32, .opaque]

/-- `ServerProperty`, /repo/rpc/rpc.go:136-140. -/
def serverProperty : Ty := struct [.opaque, .opaque, .bool]

/-- `Welcome`, /repo/rpc/rpc.go:128-134. -/
def welcome : Ty := struct [.i32, .i64, .list serverProperty]

/-- `CreateAccountReply`, /repo/rpc/rpc.go:240-242. -/
def createAccountReply : Ty := .opaque

/-- `Push`, /repo/rpc/rpc.go:246-250. -/
def push : Ty := struct [.fixed 32, .i64, .opaque]

/-- `Cache` and `Proxy`, /repo/rpc/rpc.go:254-257, 263-266. -/
def cache : Ty := struct [.fixed 32, .opaque]

/-- `ProxyReply`, /repo/rpc/rpc.go:269-272. -/
def proxyReply : Ty := struct [.fixed 32, .opaque]

/-- `ProxyCmd`, /repo/rpc/rpc.go:283-286. -/
def proxyCmd : Ty := struct [.u32, .opaque]

/-- `Ping` and `Pong`, /repo/rpc/rpc.go:290-290, 291-291. -/
def ping : Ty := .unit

/-- `Rendezvous`, /repo/rpc/rpc.go:297-300. -/
def rendezvous : Ty := struct [.opaque, .opaque]

/-- `RendezvousReply`, /repo/rpc/rpc.go:304-307. -/
def rendezvousReply : Ty := struct [.opaque, .opaque]

/-- `RendezvousPull`, /repo/rpc/rpc.go:310-312. -/
def rendezvousPull : Ty := .opaque

/-- `RendezvousPullReply`, /repo/rpc/rpc.go:316-320. -/
def rendezvousPullReply : Ty := struct [.opaque, .opaque, .opaque]

/-- `IdentityFind`, /repo/rpc/rpc.go:325-327. -/
def identityFind : Ty := .opaque

/-- `IdentityFindReply`, /repo/rpc/rpc.go:330-334. -/
def identityFindReply : Ty := struct [.opaque, .opaque, publicIdentity]

/-- `ratchet.KeyExchange`, /repo/ratchet/ratchet.go:103-106: ciphertext and encrypted public part. -/
def keyExchange : Ty := struct [.fixed 1047, .opaque]

/-- `IdentityKX`, /repo/rpc/rpc.go:338-341. -/
def identityKX : Ty := struct [publicIdentity, keyExchange]

/-- `KX`, /repo/rpc/rpc.go:345-347. -/
def kx : Ty := keyExchange

/-- `CRPC`, /repo/rpc/rpc.go:373-378. -/
def crpc : Ty := struct [.i64, .opaque, .opaque]

/-- `PrivateMessage`, /repo/rpc/rpc.go:381-384. -/
def privateMessage : Ty := struct [.opaque, .u32]

/-- `JanitorMessage`, /repo/rpc/rpc.go:388-391. -/
def janitorMessage : Ty := struct [.opaque, .opaque]

/-- `GroupInvite`, /repo/rpc/rpc.go:396-402. -/
def groupInvite : Ty := struct [.opaque, .list .opaque, .u64, .opaque, .i64]

/-- `GroupJoin`, /repo/rpc/rpc.go:405-409. -/
def groupJoin : Ty := struct [.opaque, .u64, .opaque]

/-- `GroupPart` and `GroupKill`, /repo/rpc/rpc.go:412-415, 418-421. -/
def groupPart : Ty := struct [.opaque, .opaque]

/-- `GroupList`, /repo/rpc/rpc.go:441-449. -/
def groupList : Ty := struct [.opaque, .u64, .i64, .list (.fixed 32)]

/-- `GroupKick`, /repo/rpc/rpc.go:424-429. -/
def groupKick : Ty := struct [.fixed 32, .opaque, .bool, groupList]

/-- `GroupUpdate`, /repo/rpc/rpc.go:433-436. -/
def groupUpdate : Ty := struct [.opaque, groupList]

/-- `GroupMessage`, /repo/rpc/rpc.go:452-457. -/
def groupMessage : Ty := struct [.opaque, .u64, .opaque, .u32]

/-- `ChunkNew`, /repo/rpc/rpc.go:460-467. -/
def chunkNew : Ty := struct [.u64, .u64, .opaque, .opaque, .opaque, .fixed 32]

/-- `Chunk`, /repo/rpc/rpc.go:469-473. -/
def chunk : Ty := struct [.u64, .fixed 32, .opaque]

end Verif.Xdr
