import Verif.Model.Xdr
import Verif.Model.Policy

/-! # Before a session

The bytes that a client and the server exchange on a new connection: `preSession`, /repo/zkserver/zkserver.go:592-716, with
`handleAccountCreate`, /repo/zkserver/account.go:36-84; and on the other side /repo/zkclient/welcome.go:149-199,
/repo/zkclient/acceptserverfingerprint.go:111-129, `finalizeAccountCreation`, /repo/zkclient/zkclient.go:1983-2018, and
`sessionPhase`, /repo/zkclient/zkclient.go:748-757.  The connection (inside TLS) delivers bytes in order, in pieces of any
size. -/

namespace Verif.Front

open Verif Xdr

/-- "identify", /repo/rpc/rpc.go:45. -/
def mIdentify : Bytes := [0x69, 0x64, 0x65, 0x6e, 0x74, 0x69, 0x66, 0x79]
/-- "createaccount", /repo/rpc/rpc.go:46. -/
def mCreate : Bytes := [0x63, 0x72, 0x65, 0x61, 0x74, 0x65, 0x61, 0x63, 0x63, 0x6f, 0x75, 0x6e, 0x74]
/-- "session", /repo/rpc/rpc.go:47. -/
def mSession : Bytes := [0x73, 0x65, 0x73, 0x73, 0x69, 0x6f, 0x6e]

/-- "not allowed", /repo/rpc/rpc.go:85. -/
def eDisallowed : Bytes := [0x6e, 0x6f, 0x74, 0x20, 0x61, 0x6c, 0x6c, 0x6f, 0x77, 0x65, 0x64]
/-- "internal error, contact administrator", /repo/rpc/rpc.go:86. -/
def eInternal : Bytes :=
  [0x69, 0x6e, 0x74, 0x65, 0x72, 0x6e, 0x61, 0x6c, 0x20, 0x65, 0x72, 0x72, 0x6f, 0x72, 0x2c, 0x20, 0x63, 0x6f, 0x6e, 0x74,
   0x61, 0x63, 0x74, 0x20, 0x61, 0x64, 0x6d, 0x69, 0x6e, 0x69, 0x73, 0x74, 0x72, 0x61, 0x74, 0x6f, 0x72]

/-- A `zkidentity.PublicIdentity`. -/
abbrev Pub := Val publicIdentity

/-- Values can be compared. -/
def decVal : (t : Ty) → DecidableEq (Val t)
  | .u32 => inferInstanceAs (DecidableEq Nat)
  | .i32 => inferInstanceAs (DecidableEq Int)
  | .u64 => inferInstanceAs (DecidableEq Nat)
  | .i64 => inferInstanceAs (DecidableEq Int)
  | .bool => inferInstanceAs (DecidableEq Bool)
  | .opaque => inferInstanceAs (DecidableEq Bytes)
  | .fixed n => inferInstanceAs (DecidableEq { b : Bytes // b.length = n })
  | .unit => inferInstanceAs (DecidableEq Unit)
  | .pair a b => @instDecidableEqProd _ _ (decVal a) (decVal b)
  | .list a => @instDecidableEqList _ (decVal a)

instance : DecidableEq Pub := decVal publicIdentity

/-- What of the server's settings counts here: `MaxMsgSize`, `AllowIdentify`, `CreatePolicy`; and its identity. -/
structure Cfg where
  limit : Nat
  identify : Bool
  policy : Bytes
  self : Pub

/-- What the rest of the server says to the `n`-th request for an account on the connection: `validToken`,
/repo/zkserver/pending.go:41-79 (see `Verif.Policy`), and `account.Create` (see `Verif.Accounts`).  Others may change tokens and
accounts at any time, so nothing relates the answers. -/
structure Rest where
  token : Nat → Bytes → Bool
  create : Nat → Pub → Bool

/-- What is sent back. -/
inductive Reply
  | identity
  | created
  | refused
  | internal
  deriving DecidableEq, Repr

/-- The bytes of it: the identity, or a `CreateAccountReply`. -/
def Reply.bytes (cfg : Cfg) : Reply → Bytes
  | .identity => enc publicIdentity cfg.self
  | .created => enc createAccountReply []
  | .refused => enc createAccountReply eDisallowed
  | .internal => enc createAccountReply eInternal

/-- What `preSession` does, as far as others can see. -/
inductive Ev
  /-- `validToken` was asked -/
  | check (token : Bytes) (ok : Bool)
  /-- `account.Create` was called -/
  | create (pub : Pub) (ok : Bool)
  | reply (r : Reply)
  deriving DecidableEq

/-- Where the server is with the connection. -/
inductive Fate
  /-- it waits for more bytes -/
  | waiting
  /-- it has closed the connection -/
  | closed
  /-- it is in `kx.Respond`, with these bytes still to be read -/
  | session (rest : Bytes)
  deriving DecidableEq, Repr

/-- `handleAccountCreate`, /repo/zkserver/account.go:36-84; `false`: an error, which closes the connection. -/
def handle (cfg : Cfg) (o : Rest) (n : Nat) (token : Bytes) (pub : Pub) : List Ev × Bool :=
  let make := [Ev.create pub (o.create n pub), .reply (if o.create n pub then .created else .internal)]
  match Policy.verdict cfg.policy with
  | .refuse => ([.reply .refused], false)
  | .askToken =>
    if o.token n token then (.check token true :: make, true) else ([.check token false, .reply .refused], false)
  | .allow => (make, true)

/-- The loop of `preSession`, on the bytes that have come; the first argument is larger than their number.  Every turn takes
at least four. -/
def serve (cfg : Cfg) (o : Rest) : Nat → Nat → Bytes → List Ev × Fate
  | 0, _, _ => ([], .waiting)
  | fuel + 1, n, bytes =>
    match dec cfg.limit .opaque bytes with
    | .eof => ([], .waiting)
    | .unexpected => ([], .waiting)
    | .bad => ([], .closed)
    | .ok mode rest =>
      if mode = mIdentify then
        if cfg.identify then
          let r := serve cfg o fuel n rest
          (.reply .identity :: r.1, r.2)
        else ([], .closed)
      else if mode = mCreate then
        match dec cfg.limit createAccount rest with
        | .eof => ([], .waiting)
        | .unexpected => ([], .waiting)
        | .bad => ([], .closed)
        | .ok ca rest =>
          let h := handle cfg o n ca.1 ca.2
          if h.2 then
            let r := serve cfg o fuel (n + 1) rest
            (h.1 ++ r.1, r.2)
          else (h.1, .closed)
      else if mode = mSession then ([], .session rest)
      else ([], .closed)

/-- All of it. -/
def server (cfg : Cfg) (o : Rest) (bytes : Bytes) : List Ev × Fate := serve cfg o (bytes.length + 1) 0 bytes

/-- The bytes the server has sent. -/
def sent (cfg : Cfg) (evs : List Ev) : Bytes := evs.flatMap fun | .reply r => r.bytes cfg | _ => []

/-! ## The client -/

/-- Where the client is. -/
inductive Status
  /-- waiting for the identity of the server -/
  | asked
  /-- waiting for the answer to the request for an account -/
  | requested
  /-- the answer was an error -/
  | refused (why : Bytes)
  /-- what came could not be read -/
  | failed
  /-- in `kx.Initiate`, with these bytes still to be read -/
  | session (rest : Bytes)
  deriving DecidableEq, Repr

/-- The bytes of the three requests. -/
def askIdentity : Bytes := enc .opaque mIdentify
def askAccount (token : Bytes) (pub : Pub) : Bytes := enc .opaque mCreate ++ enc createAccount (token, pub)
def askSession : Bytes := enc .opaque mSession

/-- Reading a `CreateAccountReply`. -/
def readReply (bytes : Bytes) : Res Bytes := dec 0 createAccountReply bytes

/-- `finalizeAccountCreation` up to `sessionPhase`, on the bytes that have come: what is written, and where it is. -/
def finalize (token : Bytes) (pub : Pub) (bytes : Bytes) : Bytes × Status :=
  match readReply bytes with
  | .eof => (askAccount token pub, .requested)
  | .unexpected => (askAccount token pub, .requested)
  | .bad => (askAccount token pub, .failed)
  | .ok why rest =>
    if why = [] then (askAccount token pub ++ askSession, .session rest) else (askAccount token pub, .refused why)

/-- The client on the bytes that have come.  `known`: it has the identity of the server on file.  If not it asks, and the user
agrees. -/
def client (known : Bool) (token : Bytes) (pub : Pub) (bytes : Bytes) : Bytes × Status :=
  if known then finalize token pub bytes
  else
    match dec 0 publicIdentity bytes with
    | .eof => (askIdentity, .asked)
    | .unexpected => (askIdentity, .asked)
    | .bad => (askIdentity, .failed)
    | .ok _ rest =>
      let r := finalize token pub rest
      (askIdentity ++ r.1, r.2)

/-! ## Both -/

/-- A connection: the bytes the server and the client have received. -/
structure Conn where
  up : Bytes
  down : Bytes
  deriving DecidableEq, Repr

/-- Some bytes that were written arrive. -/
inductive Step (cfg : Cfg) (o : Rest) (known : Bool) (token : Bytes) (pub : Pub) : Conn → Conn → Prop
  | up (s : Conn) (x : Bytes) : s.up ++ x <+: (client known token pub s.down).1 →
      Step cfg o known token pub s ⟨s.up ++ x, s.down⟩
  | down (s : Conn) (x : Bytes) : s.down ++ x <+: sent cfg (server cfg o s.up).1 →
      Step cfg o known token pub s ⟨s.up, s.down ++ x⟩

/-- Any number of steps on a new connection. -/
inductive Reach (cfg : Cfg) (o : Rest) (known : Bool) (token : Bytes) (pub : Pub) : Conn → Prop
  | start : Reach cfg o known token pub ⟨[], []⟩
  | step {s t : Conn} : Reach cfg o known token pub s → Step cfg o known token pub s t → Reach cfg o known token pub t

end Verif.Front
