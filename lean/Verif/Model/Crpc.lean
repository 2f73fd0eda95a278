import Verif.Model.Xdr

/-! # Messages between clients: zkclient/msg.go and zkclient/push.go

Sender: `compress` and `crpc`; receiver: the part of `handlePush` after decryption. The ratchet is in
`Verif.Model.Ratchet`; here the plaintext that it carries is built and taken apart. -/

namespace Verif.Crpc

open Verif Verif.Xdr

/-- Bytes of an ASCII string. -/
def ascii (s : List Char) : Bytes := s.map fun c => UInt8.ofNat c.toNat

/-! `CRPCCmd*`, /repo/rpc/rpc.go:351-362. -/

/-- "privmsg" -/
def cmdPrivateMessage : Bytes := ascii ['p', 'r', 'i', 'v', 'm', 's', 'g']
/-- "groupinvite" -/
def cmdGroupInvite : Bytes := ascii ['g', 'r', 'o', 'u', 'p', 'i', 'n', 'v', 'i', 't', 'e']
/-- "groupjoin" -/
def cmdGroupJoin : Bytes := ascii ['g', 'r', 'o', 'u', 'p', 'j', 'o', 'i', 'n']
/-- "grouppart" -/
def cmdGroupPart : Bytes := ascii ['g', 'r', 'o', 'u', 'p', 'p', 'a', 'r', 't']
/-- "groupkill" -/
def cmdGroupKill : Bytes := ascii ['g', 'r', 'o', 'u', 'p', 'k', 'i', 'l', 'l']
/-- "groupkick" -/
def cmdGroupKick : Bytes := ascii ['g', 'r', 'o', 'u', 'p', 'k', 'i', 'c', 'k']
/-- "groupupdate" -/
def cmdGroupUpdate : Bytes := ascii ['g', 'r', 'o', 'u', 'p', 'u', 'p', 'd', 'a', 't', 'e']
/-- "grouplist" -/
def cmdGroupList : Bytes := ascii ['g', 'r', 'o', 'u', 'p', 'l', 'i', 's', 't']
/-- "groupmessage" -/
def cmdGroupMessage : Bytes := ascii ['g', 'r', 'o', 'u', 'p', 'm', 'e', 's', 's', 'a', 'g', 'e']
/-- "chunknew" -/
def cmdChunkNew : Bytes := ascii ['c', 'h', 'u', 'n', 'k', 'n', 'e', 'w']
/-- "chunk" -/
def cmdChunk : Bytes := ascii ['c', 'h', 'u', 'n', 'k']
/-- "janitormessage" -/
def cmdJanitorMessage : Bytes := ascii ['j', 'a', 'n', 'i', 't', 'o', 'r', 'm', 'e', 's', 's', 'a', 'g', 'e']

/-- `CRPCCompNone`, /repo/rpc/rpc.go:365. -/
def compNone : Bytes := []
/-- `CRPCCompZLIB`, /repo/rpc/rpc.go:366. -/
def compZlib : Bytes := ascii ['z', 'l', 'i', 'b']

/-- What the sender can pass as `payload interface{}`. -/
inductive Payload where
  | privateMessage (v : Val privateMessage)
  | groupInvite (v : Val groupInvite)
  | groupJoin (v : Val groupJoin)
  | groupList (v : Val groupList)
  | groupUpdate (v : Val groupUpdate)
  | groupMessage (v : Val groupMessage)
  | groupPart (v : Val groupPart)
  | groupKill (v : Val groupPart)
  | groupKick (v : Val groupKick)
  | chunkNew (v : Val chunkNew)
  | chunk (v : Val chunk)
  | janitorMessage (v : Val janitorMessage)
  /-- A value of any other Go type. -/
  | other

/-- zlib. `inflate b = none`: `zlib.NewReader` fails on `b`; `some d`: `d` can be read before the end of
the stream or an error in it. -/
structure Zlib where
  deflate : Bytes → Bytes
  inflate : Bytes → Option Bytes

/-- First switch of `compress`, /repo/zkclient/msg.go:259-341. -/
def marshal : Payload → Option Bytes
  | .privateMessage v => some (enc Xdr.privateMessage v)
  | .groupInvite v => some (enc Xdr.groupInvite v)
  | .groupJoin v => some (enc Xdr.groupJoin v)
  | .groupList v => some (enc Xdr.groupList v)
  | .groupUpdate v => some (enc Xdr.groupUpdate v)
  | .groupMessage v => some (enc Xdr.groupMessage v)
  | .groupKill v => some (enc Xdr.groupPart v)
  | .groupKick v => some (enc Xdr.groupKick v)
  | .groupPart v => some (enc Xdr.groupPart v)
  | .chunkNew v => some (enc Xdr.chunkNew v)
  | .chunk v => some (enc Xdr.chunk v)
  | .janitorMessage v => some (enc Xdr.janitorMessage v)
  | .other => none

/-- `compress`, /repo/zkclient/msg.go:253-363: payload and compression. -/
def compress (z : Zlib) (p : Payload) : Option (Bytes × Bytes) :=
  match marshal p with
  | none => none
  | some raw =>
    let packed := z.deflate raw
    if raw.length < packed.length then some (raw, compNone) else some (packed, compZlib)

/-- Second switch, in `crpc`, /repo/zkclient/msg.go:374-402. -/
def command : Payload → Option Bytes
  | .privateMessage _ => some cmdPrivateMessage
  | .groupInvite _ => some cmdGroupInvite
  | .groupJoin _ => some cmdGroupJoin
  | .groupList _ => some cmdGroupList
  | .groupUpdate _ => some cmdGroupUpdate
  | .groupMessage _ => some cmdGroupMessage
  | .groupPart _ => some cmdGroupPart
  | .groupKill _ => some cmdGroupKill
  | .groupKick _ => some cmdGroupKick
  | .chunkNew _ => some cmdChunkNew
  | .chunk _ => some cmdChunk
  | .janitorMessage _ => some cmdJanitorMessage
  | .other => none

/-- `crpc`, /repo/zkclient/msg.go:365-418, up to the encryption. `now` is `time.Now().Unix()`. -/
def crpc (z : Zlib) (now : Int) (p : Payload) : Option Bytes :=
  match compress z p with
  | none => none
  | some (body, comp) =>
    match command p with
    | none => none
    | some cmd => some (enc Xdr.crpc (now, cmd, comp) ++ body)

/-- The handler that `handlePush` calls, with the decoded payload. -/
inductive Call where
  | handlePm (v : Val privateMessage)
  | handleGroupInvite (v : Val groupInvite)
  | handleGroupJoin (v : Val groupJoin)
  | handleGroupKill (v : Val groupPart)
  | handleGroupKick (v : Val groupKick)
  | handleGroupPart (v : Val groupPart)
  | handleGroupList (v : Val groupList)
  | handleGroupUpdate (v : Val groupUpdate)
  | handleGroupMessage (v : Val groupMessage)
  | handleChunkNew (v : Val chunkNew)
  | handleChunk (v : Val chunk)
  | handleJanitorMessage (v : Val janitorMessage)

/-- Errors of the receiving side. -/
inductive PushError where
  | unmarshalCrpc
  | invalidCompression
  | unmarshalPayload
  | invalidCommand
  deriving DecidableEq, Repr

/-- `xdr.Unmarshal(rd, &v)` and the call of the handler; reading from the nil reader panics. -/
def decodeCall (rd : Option Bytes) (t : Ty) (f : Val t → Call) : Outcome PushError Call :=
  match rd with
  | none => .panic
  | some b =>
    match dec 0 t b with
    | .ok v _ => .ok (f v)
    | _ => .err .unmarshalPayload

/-- The reader chosen at /repo/zkclient/push.go:486-495: `none` is an unknown compression, `some none`
the nil reader left behind when `zlib.NewReader` fails, because its error is dropped. -/
def reader (z : Zlib) (comp rest : Bytes) : Option (Option Bytes) :=
  if comp = compNone then some (some rest)
  else if comp = compZlib then some (z.inflate rest)
  else none

/-- The switch at /repo/zkclient/push.go:497-691. -/
def dispatch (cmd : Bytes) (rd : Option Bytes) : Outcome PushError Call :=
  if cmd = cmdPrivateMessage then decodeCall rd Xdr.privateMessage .handlePm
  else if cmd = cmdGroupInvite then decodeCall rd Xdr.groupInvite .handleGroupInvite
  else if cmd = cmdGroupJoin then decodeCall rd Xdr.groupJoin .handleGroupJoin
  else if cmd = cmdGroupKill then decodeCall rd Xdr.groupPart .handleGroupKill
  else if cmd = cmdGroupKick then decodeCall rd Xdr.groupKick .handleGroupKick
  else if cmd = cmdGroupPart then decodeCall rd Xdr.groupPart .handleGroupPart
  else if cmd = cmdGroupList then decodeCall rd Xdr.groupList .handleGroupList
  else if cmd = cmdGroupUpdate then decodeCall rd Xdr.groupUpdate .handleGroupUpdate
  else if cmd = cmdGroupMessage then decodeCall rd Xdr.groupMessage .handleGroupMessage
  else if cmd = cmdChunkNew then decodeCall rd Xdr.chunkNew .handleChunkNew
  else if cmd = cmdChunk then decodeCall rd Xdr.chunk .handleChunk
  else if cmd = cmdJanitorMessage then decodeCall rd Xdr.janitorMessage .handleJanitorMessage
  else .err .invalidCommand

/-- `handlePush` from the decoding of the decrypted bytes on, /repo/zkclient/push.go:478-694. -/
def receive (z : Zlib) (decrypted : Bytes) : Outcome PushError Call :=
  match dec 0 Xdr.crpc decrypted with
  | .ok (_, cmd, comp) rest =>
    match reader z comp rest with
    | none => .err .invalidCompression
    | some rd => dispatch cmd rd
  | _ => .err .unmarshalCrpc

end Verif.Crpc
