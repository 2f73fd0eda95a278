import Verif.Model.Path
import Verif.Model.Hex
import Verif.Model.Xdr

/-! # Transfer of files: zkclient/send.go, zkclient/chunk.go

The file system is a tree without symbolic links that only these handlers change. SHA-256 is a function `H`.
The messages are taken one after the other, as `handleRPC` does. What is told to the user is left out. -/

namespace Verif.Chunks

open Verif Path

/-- `[sha256.Size]byte`, also the identities. -/
abbrev Digest := { b : Bytes // b.length = 32 }

/-- `rpc.ChunkNew`, /repo/rpc/rpc.go:460-467. -/
structure ChunkNew where
  size : Nat
  chunkSize : Nat
  filename : Bytes
  description : Bytes
  mime : Bytes
  digest : Digest
  deriving DecidableEq, Repr

/-- `rpc.Chunk`, /repo/rpc/rpc.go:469-473. -/
structure Chunk where
  offset : Nat
  digest : Digest
  payload : Bytes
  deriving DecidableEq, Repr

/-- The values that the XDR package sees. -/
def ChunkNew.val (cn : ChunkNew) : Xdr.Val Xdr.chunkNew :=
  (cn.size, cn.chunkSize, cn.filename, cn.description, cn.mime, cn.digest)

/-- The descriptor file, /repo/zkclient/chunk.go:49-53. -/
def ChunkNew.encode (cn : ChunkNew) : Bytes := Xdr.enc Xdr.chunkNew cn.val

/-- Reading the descriptor file, /repo/zkclient/chunk.go:136-141. -/
def decode (b : Bytes) : Option ChunkNew :=
  match Xdr.dec 0 Xdr.chunkNew b with
  | .ok (size, chunkSize, filename, description, mime, digest) _ =>
    some ⟨size, chunkSize, filename, description, mime, digest⟩
  | _ => none

/-- Go's conversion of a `uint64` to `int64`. -/
def toInt64 (n : Nat) : Int := Xdr.signed 64 n

/-- The directory for received files, `path.Join(z.settings.Root, spoolDir)`, and the digest function. -/
structure Env where
  base : Path
  H : Bytes → Digest

/-- `descriptor.xdr` -/
def descName : Bytes := [100, 101, 115, 99, 114, 105, 112, 116, 111, 114, 46, 120, 100, 114]

/-- The directory of a sender, /repo/zkclient/chunk.go:36-37, 89-90. -/
def dirOf (E : Env) (a : Digest) : Path := E.base ++ [Hex.encode a.1]

/-- The unfinished file, lines 38 and 91. -/
def spoolOf (E : Env) (a d : Digest) : Path := dirOf E a ++ [Hex.encode d.1]

/-- The descriptor, lines 39 and 92. -/
def descOf (E : Env) (a : Digest) : Path := dirOf E a ++ [descName]

/-- The name with `k` times `1` before it. -/
def prefixed (k : Nat) (name : Bytes) : Bytes := List.replicate k 49 ++ name

/-- The loop of /repo/zkclient/chunk.go:162-170 from the `k`-th prefix on, at most `fuel` rounds. -/
def landingFrom (fs : FS) (base : Path) (name : Bytes) : Nat → Nat → Option Path
  | 0, _ => none
  | fuel + 1, k =>
    if exist fs (join base (prefixed k name)) then landingFrom fs base name fuel (k + 1)
    else some (join base (prefixed k name))

/-- The loop. `none`: it does not end (`landing_none_iff` shows that the bound on the rounds changes
nothing). `os.Stat` fails exactly if there is nothing; in the other cases (a name that is too long, a
directory that may not be searched) the renaming that follows fails as well and `Fault.move` stands for it. -/
def landing (fs : FS) (base : Path) (name : Bytes) : Option Path := landingFrom fs base name (fs.length + 2) 0

/-- Failures of the file system, and of the lookup in the address book. -/
inductive Fault where
  | none
  /-- before anything has been changed -/
  | early
  /-- only the first `n` bytes of the descriptor or of the chunk have been written -/
  | write (n : Nat)
  /-- after writing: the spool can not be created; the descriptor can not be read, the sender is not in the
  address book, the file can not be read -/
  | late
  /-- the file can not be moved -/
  | move
  /-- the descriptor can not be removed -/
  | remove
  deriving DecidableEq, Repr

/-- `doHandleChunkNew`, /repo/zkclient/chunk.go:32-73. The error of MkdirAll is ignored. -/
def handleNew (E : Env) (fs : FS) (a : Digest) (cn : ChunkNew) (flt : Fault) : FS :=
  if flt = .early then fs
  else
    let fs1 := mkdirAll fs [] (dirOf E a)
    match create fs1 (descOf E a) (match flt with | .write n => cn.encode.take n | _ => cn.encode) with
    | none => fs1
    | some fs2 =>
      match flt with
      | .write _ | .late => fs2
      | _ =>
        match create fs2 (spoolOf E a cn.digest) [] with
        | none => fs2
        | some fs3 => fs3

/-- Result of a handler: the file system, or the handler does not return. -/
inductive Res where
  | done (fs : FS)
  | hang
  deriving DecidableEq, Repr

/-- The last part of `doHandleChunk`, /repo/zkclient/chunk.go:135-189: the chunk has been written. -/
def finish (E : Env) (fs : FS) (a d : Digest) (flt : Fault) : Res :=
  match read fs (descOf E a) with
  | none => .done fs
  | some b =>
    match decode b with
    | none => .done fs
    | some cn =>
      match read fs (spoolOf E a d) with
      | none => .done fs
      | some x =>
        if (x.length : Int) ≠ toInt64 cn.size then .done fs
        else if E.H x ≠ cn.digest then .done fs
        else
          match landing fs E.base cn.filename with
          | none => .hang
          | some q =>
            if flt = .move then .done fs
            else
              match rename fs (spoolOf E a d) q with
              | none => .done fs
              | some fs2 => .done (if flt = .remove then fs2 else fs2.del (descOf E a))

/-- `doHandleChunk`, /repo/zkclient/chunk.go:86-192. -/
def handleChunk (E : Env) (fs : FS) (a : Digest) (c : Chunk) (flt : Fault) : Res :=
  if flt = .early then .done fs
  else
    match read fs (spoolOf E a c.digest) with
    | none => .done fs
    | some x =>
      if (x.length : Int) ≠ toInt64 c.offset then .done fs
      else
        match flt with
        | .write n => .done (fs.set (spoolOf E a c.digest) (.file (x ++ c.payload.take n)))
        | .late => .done (fs.set (spoolOf E a c.digest) (.file (x ++ c.payload)))
        | _ => finish E (fs.set (spoolOf E a c.digest) (.file (x ++ c.payload))) a c.digest flt

/-- A message of somebody. -/
inductive Msg where
  | new (cn : ChunkNew)
  | chunk (c : Chunk)
  deriving DecidableEq, Repr

/-- A message, its sender, and what fails while it is handled. -/
structure Ev where
  sender : Digest
  msg : Msg
  fault : Fault
  deriving DecidableEq, Repr

/-- The receiving client. `hung`: a handler has not returned, and no further message is handled. -/
structure State where
  fs : FS
  hung : Bool
  deriving DecidableEq, Repr

/-- A message is handled, /repo/zkclient/chunk.go:20-31, 75-84: errors are only printed. -/
def step (E : Env) (s : State) (e : Ev) : Option State :=
  if s.hung then none
  else
    match e.msg with
    | .new cn => some { s with fs := handleNew E s.fs e.sender cn e.fault }
    | .chunk c =>
      match handleChunk E s.fs e.sender c e.fault with
      | .done fs => some { s with fs := fs }
      | .hang => some { s with hung := true }

/-- The messages, one after the other. -/
inductive Run (E : Env) : State → List Ev → State → Prop
  | nil (s) : Run E s [] s
  | cons {s e s' es s''} : step E s e = some s' → Run E s' es s'' → Run E s (e :: es) s''

/-! ## The sender: zkclient/send.go -/

/-- `path.Base` of a path, /repo/zkclient/send.go:66. -/
def pathBase (p : Bytes) : Bytes :=
  let q := (p.reverse.dropWhile (· = 47)).reverse
  if p = [] then [46]
  else if q = [] then [47]
  else (q.reverse.takeWhile (· ≠ 47)).reverse

/-- The chunks for pieces read one after the other, /repo/zkclient/send.go:126-155. -/
def chunksFrom (d : Digest) (off : Nat) : List Bytes → List Chunk
  | [] => []
  | p :: ps => ⟨off, d, p⟩ :: chunksFrom d (off + p.length) ps

/-- What reading a file in pieces of at most `cs` bytes until the end may give. -/
def Pieces (cs : Nat) (data : Bytes) (ps : List Bytes) : Prop :=
  ps.flatten = data ∧ ∀ p ∈ ps, p ≠ [] ∧ p.length ≤ cs

/-- The messages of `send` and `completeSend`, /repo/zkclient/send.go:45-158. `none`: refused. The file is the
same whenever it is read. The file type is determined from the first bytes, and there is an error if there are
none. -/
def send (H : Bytes → Digest) (cs attachmentSize : Nat) (file descr mime : Bytes) (data : Bytes)
    (ps : List Bytes) : Option (List Msg) :=
  if data.length > attachmentSize then none
  else if data = [] then none
  else some (.new ⟨data.length, cs, pathBase file, descr, mime, H data⟩ ::
    (chunksFrom (H data) 0 ps).map .chunk)

end Verif.Chunks
