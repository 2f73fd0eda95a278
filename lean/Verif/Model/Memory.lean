import Verif.Model.Crpc

/-! # How much memory is asked for when something is read

`xdr.Unmarshal` and `xdr.UnmarshalLimited` (davecgh/go-xdr, not in the repository) read the length of a text, of bytes or of a
slice, compare it with the limit if there is one, and ask for that much memory before they read what is to be put there. The
server has a limit everywhere (`unmarshal`, /repo/zkserver/zkserver.go:95-98; /repo/session/kx.go:401), the client nowhere but
for the frames of a session: /repo/zkclient/push.go:91-676, /repo/zkclient/zkclient.go:794-1516, 2010, welcome.go:171.

Counted: the buffers that are read into and the elements of slices. Left out: copies, of which there is at most one of each
buffer; what `zlib` needs for itself; the garbage collector. -/

namespace Verif.Memory

open Verif Xdr Crpc

/-- What an element of a slice takes in the memory of a program of 64 bits: a string or a slice is a pointer and one or two
lengths (16 or 24 bytes; here 16), and `int` has 8 bytes. Gaps for alignment are left out. -/
def goSize : Ty → Nat
  | .u32 => 4
  | .i32 => 8
  | .u64 => 8
  | .i64 => 8
  | .bool => 1
  | .opaque => 16
  | .fixed n => n
  | .unit => 0
  | .pair a b => goSize a + goSize b
  | .list _ => 16

/-- What is asked for while up to `n` items are read one after the other. -/
def allocMany {α : Type} (d : Bytes → Res α) (f : Bytes → Nat) : Nat → Bytes → Nat
  | 0, _ => 0
  | n + 1, buf =>
    match d buf with
    | .ok _ r => f buf + allocMany d f n r
    | _ => f buf

/-- What is asked for while a value is read, whether or not this succeeds. -/
def alloc (limit : Nat) : (t : Ty) → Bytes → Nat
  | .opaque, buf =>
    match readU32 buf with
    | .ok n _ => if tooLong limit n then 0 else n + padLen n
    | _ => 0
  | .fixed n, _ => n + padLen n
  | .pair a b, buf =>
    match dec limit a buf with
    | .ok _ r => alloc limit a buf + alloc limit b r
    | _ => alloc limit a buf
  | .list a, buf =>
    match readU32 buf with
    | .ok n r => if tooLong limit n then 0 else n * goSize a + allocMany (dec limit a) (alloc limit a) n r
    | _ => 0
  | _, _ => 0

/-- What the server reads: `preSession`, zkserver.go:603 (the mode, a string) and 632; `KX.Read`, the frame of a session; and
`handleSession`, lines 445-575. -/
def serverTypes : List Ty :=
  [.opaque, createAccount, message, ping, rendezvous, rendezvousPull, cache, identityFind]

/-- The type that `handlePush` reads for a command, /repo/zkclient/push.go:498-676. -/
def tyOf (cmd : Bytes) : Option Ty :=
  if cmd = cmdPrivateMessage then some Xdr.privateMessage
  else if cmd = cmdGroupInvite then some Xdr.groupInvite
  else if cmd = cmdGroupJoin then some Xdr.groupJoin
  else if cmd = cmdGroupKill then some Xdr.groupPart
  else if cmd = cmdGroupKick then some Xdr.groupKick
  else if cmd = cmdGroupPart then some Xdr.groupPart
  else if cmd = cmdGroupList then some Xdr.groupList
  else if cmd = cmdGroupUpdate then some Xdr.groupUpdate
  else if cmd = cmdGroupMessage then some Xdr.groupMessage
  else if cmd = cmdChunkNew then some Xdr.chunkNew
  else if cmd = cmdChunk then some Xdr.chunk
  else if cmd = cmdJanitorMessage then some Xdr.janitorMessage
  else none

/-- A message that comes to a client: the command of a proxy, which is not encrypted and which anybody can send; one that the
ratchet can decrypt, with what is in it; or one that it has decrypted before or cannot decrypt. -/
inductive In where
  | clear (payload : Bytes)
  | plain (decrypted : Bytes)
  | stale

/-- What `handlePush` asks for, /repo/zkclient/push.go:407-429 and 478-691. -/
def handled (z : Zlib) : In → Nat
  | .clear p => alloc 0 proxyCmd p
  | .plain d =>
    match dec 0 Xdr.crpc d with
    | .ok (_, cmd, comp) rest =>
      match reader z comp rest, tyOf cmd with
      | some (some rd), some t => alloc 0 Xdr.crpc d + alloc 0 t rd
      | _, _ => alloc 0 Xdr.crpc d
    | _ => alloc 0 Xdr.crpc d
  | .stale => 0

/-- The program ends: it asks for more memory than it is given, or it reads from the nil reader. -/
def Ends (z : Zlib) (mem : Nat) (m : In) : Prop :=
  mem < handled z m ∨ ∃ d, m = .plain d ∧ receive z d = .panic

/-! ## A client with so much memory -/

/-- The messages that the server has for a client, oldest first, whether the client runs, how often it has ended by itself, and
what it has acknowledged. -/
structure Box where
  box : List In
  runs : Bool
  ended : Nat
  done : List In

/-- A message comes to the server; the client is started; it is given the next message. -/
inductive Ev where
  | deliver (m : In)
  | start
  | next

/-- What is left at the server of a message that ended the client: the ratchet was saved before the plaintext was looked at,
push.go:463-475, and does not decrypt it again. -/
def left : In → In
  | .clear p => .clear p
  | _ => .stale

open Classical in
/-- One step. A message is acknowledged, and thereby removed from the server, after it was handled, also if there was an
error, /repo/zkclient/zkclient.go:1381-1430. -/
noncomputable def step (z : Zlib) (mem : Nat) (s : Box) : Ev → Box
  | .deliver m => { s with box := s.box ++ [m] }
  | .start => { s with runs := true }
  | .next =>
    if s.runs then
      match s.box with
      | [] => s
      | m :: r =>
        if Ends z mem m then { s with box := left m :: r, runs := false, ended := s.ended + 1 }
        else { s with box := r, done := s.done ++ [m] }
    else s

/-- Several steps. -/
noncomputable def run (z : Zlib) (mem : Nat) (s : Box) (es : List Ev) : Box := es.foldl (step z mem) s

end Verif.Memory
