import Verif.Model.Common

/-! # Making an account, and which server the client talks to

zkclient/welcome.go 120-202, zkclient/acceptserverfingerprint.go 110-129, zkclient/zkclient.go 679-776, 954-1006, 1599-1651,
1983-2050 and 2110-2145, zkclient/mainwindow.go 389-412, tools/zkimport/zkimport.go 123-217.

A step is one thing the user does, with everything the client does about it. The network is free to answer with any
certificate and any identity. -/

namespace Verif.Enrol

open Verif

/-- What matters of the public identity of a server: its key and the field `Identity`, which is sent along and whose
fingerprint is what users see. It should be the SHA-256 of the key. -/
structure SrvId where
  key : Bytes
  ident : Bytes
  deriving DecidableEq, Repr

/-- `myserver.ini`, /repo/zkclient/zkclient.go:679-724. Identities of clients, with their private keys, are numbers. -/
structure Rec where
  addr : Bytes
  sid : SrvId
  cert : Bytes
  mine : Option Nat
  deriving DecidableEq, Repr

/-- A TLS connection: the certificate of the other end, and the key of the server that is there. -/
structure Conn where
  cert : Bytes
  key : Bytes
  deriving DecidableEq, Repr

/-- The window on the screen. -/
inductive Screen where
  | welcome
  | ask (conn : Conn) (pid : SrvId) (token : Bytes)
  | main
  deriving DecidableEq, Repr

/-- What the client writes to a connection: the request for an account, with the token; and the key exchange. -/
inductive Sent where
  | create (cert : Bytes) (id : Nat) (token : Bytes)
  | session (cert : Bytes) (key : Bytes)
  deriving DecidableEq, Repr

/-- The client. The last three fields are not part of it: what the user has accepted (server and certificate), what was
written, and the accounts that exist on servers (key of the server, client). -/
structure Z where
  disk : Option Rec
  id : Nat
  srv : Option SrvId
  addr : Bytes
  cert : Bytes
  prov : Option Bytes
  online : Bool
  screen : Screen
  accepted : List (SrvId × Bytes)
  certs : List Bytes
  sent : List Sent
  accounts : List (Bytes × Nat)
  deriving DecidableEq, Repr

/-- Starting the client, /repo/zkclient/zkclient.go:2110-2145 and 1599-1651. `fresh` is the new identity, if one is needed. -/
def start (z : Z) (fresh : Nat) : Z :=
  match z.disk with
  | none => { z with id := fresh, srv := none, addr := [], cert := [], prov := none, online := false, screen := .welcome }
  | some r =>
    match r.mine with
    | none => { z with id := fresh, srv := some r.sid, addr := r.addr, cert := r.cert, prov := none, online := false,
                       screen := .welcome }
    | some i => { z with id := i, srv := some r.sid, addr := r.addr, cert := r.cert, prov := none, online := false,
                         screen := .main }

/-- A first start. -/
def init (fresh : Nat) : Z := ⟨none, fresh, none, [], [], none, false, .welcome, [], [], [], []⟩

/-- `saveServerRecord`, /repo/zkclient/zkclient.go:679-724. -/
def saveServerRecord (z : Z) (sid : SrvId) (cert : Bytes) : Z :=
  { z with disk := some ⟨z.addr, sid, cert, some z.id⟩ }

/-- How far `finalizeAccountCreation` gets. -/
inductive Res where
  /-- The connection breaks before there is an answer; the server may have made the account. -/
  | lost (made : Bool)
  /-- The server answers with an error. -/
  | refused
  /-- There is an account, but the session fails. -/
  | noSession
  /-- There is a session, but the record cannot be saved. -/
  | noSave
  | done
  deriving DecidableEq, Repr

/-- What servers that stick to the protocol can do: an account is made for an identity that has none, and the key exchange
is completed by the holder of the key. -/
def Res.fair (z : Z) (conn : Conn) (pid : SrvId) : Res → Bool
  | .lost made => !made || (conn.key, z.id) ∉ z.accounts
  | .refused => true
  | .noSession => (conn.key, z.id) ∉ z.accounts
  | .noSave => (conn.key, z.id) ∉ z.accounts && conn.key = pid.key
  | .done => (conn.key, z.id) ∉ z.accounts && conn.key = pid.key

/-- The request has made an account. -/
def Res.made : Res → Bool
  | .lost made => made
  | .refused => false
  | _ => true

/-- `finalizeAccountCreation`, /repo/zkclient/zkclient.go:1983-2050. -/
def finalize (z : Z) (conn : Conn) (pid : SrvId) (token : Bytes) (res : Res) : Z :=
  let z := { z with sent := z.sent ++ [.create conn.cert z.id token],
                    accounts := if res.made then z.accounts ++ [(conn.key, z.id)] else z.accounts }
  match res with
  | .lost _ => z
  | .refused => z
  | .noSession => { z with srv := some pid, cert := conn.cert, sent := z.sent ++ [.session conn.cert pid.key] }
  | .noSave => { z with srv := some pid, cert := conn.cert, sent := z.sent ++ [.session conn.cert pid.key], online := true }
  | .done =>
    let z := { z with srv := some pid, cert := conn.cert, sent := z.sent ++ [.session conn.cert pid.key], online := true }
    { saveServerRecord z pid conn.cert with screen := .main }

/-- What can happen. -/
inductive Ev where
  /-- The process ends, however, and is started again. -/
  | start (fresh : Nat)
  /-- The form is filled in, /repo/zkclient/welcome.go:138-202. `pid` is the answer to the question who the server is,
  `res` what happens if the account is requested right away. -/
  | dial (addr token : Bytes) (conn : Conn) (pid : SrvId) (res : Res)
  /-- The answer to "Are you sure you want to continue connecting", /repo/zkclient/acceptserverfingerprint.go:111-129. -/
  | no
  | yes (res : Res)
  /-- `/online` or a reconnection, /repo/zkclient/zkclient.go:954-987; `ok`: the session is established. -/
  | online (conn : Conn) (ok : Bool)
  /-- The connection ends. -/
  | offline
  /-- `/acceptnewcert`, /repo/zkclient/mainwindow.go:390-412; `ok`: the record could be saved. -/
  | acceptCert (ok : Bool)
  /-- `zkimport` of a server, /repo/tools/zkimport/zkimport.go:146-217; the user has answered "yes", or `force`. An existing
  record keeps what is not set. -/
  | importServer (addr : Bytes) (sid : SrvId) (cert : Bytes) (force : Bool)
  deriving DecidableEq, Repr

/-- One step. Events that the window on the screen does not offer do nothing. -/
def step (z : Z) : Ev → Z
  | .start fresh => start z fresh
  | .dial addr token conn pid res =>
    if z.screen = .welcome ∧ addr ≠ [] then
      let z := { z with addr := addr }
      match z.srv with
      | none => { z with screen := .ask conn pid token }
      | some sid => finalize z conn sid token res
    else z
  | .no =>
    match z.screen with
    | .ask _ _ _ => { z with screen := .welcome }
    | _ => z
  | .yes res =>
    match z.screen with
    | .ask conn pid token =>
      finalize { z with accepted := z.accepted ++ [(pid, conn.cert)], certs := z.certs ++ [conn.cert] } conn pid token res
    | _ => z
  | .online conn ok =>
    if z.screen = .main ∧ z.online = false then
      if conn.cert ≠ z.cert then { z with prov := some conn.cert }
      else
        match z.srv with
        | none => z
        | some sid => { z with sent := z.sent ++ [.session conn.cert sid.key], online := ok }
    else z
  | .offline => { z with online := false }
  | .acceptCert ok =>
    match z.screen, z.online, z.prov, z.srv with
    | .main, false, some c, some sid =>
      let z := { z with certs := z.certs ++ [c] }
      if ok then { saveServerRecord z sid c with cert := c, prov := none } else z
    | _, _, _, _ => z
  | .importServer addr sid cert force =>
    if z.disk.isSome ∧ force = false then z
    else { z with disk := some ⟨addr, sid, cert, z.disk.bind (·.mine)⟩, accepted := z.accepted ++ [(sid, cert)],
                  certs := z.certs ++ [cert] }

/-- States that events with property `ok` lead to. -/
inductive Runs (ok : Z → Ev → Prop) : Z → Z → Prop
  | refl {z} : Runs ok z z
  | step {z z' ev} : Runs ok z z' → ok z' ev → Runs ok z (step z' ev)

/-- All states. -/
abbrev Reach (fresh : Nat) := Runs (fun _ _ => True) (init fresh)

end Verif.Enrol
