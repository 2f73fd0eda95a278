import Verif.Model.Xdr
import Verif.Model.Base64
import Verif.Model.IniDB
import Verif.Model.Accounts

/-! # Records of servers and clients: tools/zkexport, tools/zkimport, and `myserver.ini`

The public identity of a server or a client is exported as a line of base64, which the other side imports.
The client keeps what it knows about its server, and its own identity, in `myserver.ini`. -/

namespace Verif.Records

open Verif

/-- `tools.ServerRecord`, /repo/tools/tools.go:28-33: PublicIdentity, Certificate, IPandPort, Directory. -/
def serverRecord : Xdr.Ty := Xdr.struct [Xdr.publicIdentity, .opaque, .opaque, .bool]

/-- `tools.ClientRecord`, /repo/tools/tools.go:35-37: a structure with one field. -/
def clientRecord : Xdr.Ty := Xdr.struct [Xdr.publicIdentity]

/-- `zkidentity.FullIdentity`, /repo/zkidentity/zkidentity.go:47-51: Public, PrivateSigKey, PrivateKey. -/
def fullIdentity : Xdr.Ty := Xdr.struct [Xdr.publicIdentity, .fixed 64, .fixed 1600]

/-- What `zkexport` prints, /repo/tools/zkexport/zkexport.go:135-141 and the same for clients; without `-v`. -/
def exported (t : Xdr.Ty) (v : Xdr.Val t) : Bytes := Base64.encode (Xdr.enc t v) ++ [10]

/-- What `readBlob` returns. -/
inductive Blob where
  | server (r : Xdr.Val serverRecord)
  | client (r : Xdr.Val clientRecord)

/-- `readBlob`, /repo/tools/zkimport/zkimport.go:29-59; `none` is an error. The code decodes base64 while it
reads and would not notice an error behind the record; here the whole file has to be base64. -/
def readBlob (file : Bytes) : Option Blob :=
  match Base64.decode file with
  | none => none
  | some buf =>
    match Xdr.dec 0 serverRecord buf with
    | .ok r _ => some (.server r)
    | _ =>
      match Xdr.dec 0 clientRecord buf with
      | .ok r _ => some (.client r)
      | _ => none

/-! ## A client on the server -/

/-- `importClientRecord`, /repo/tools/zkimport/zkimport.go:61-121, in a directory that is one of zkserver: the
`Bool` is success. The error of `os.Stat` on the directory of the user, lines 100-106, is returned, so the
directory has to exist. `listing` is the users directory as `Find` lists it. -/
def importClient (s : Accounts.State) (listing : List Accounts.Acct) (pid : Accounts.Pub) (force : Bool) :
    Bool × Accounts.State :=
  match s.enabled.get pid.identity with
  | none => (false, s)
  | some a =>
    if Accounts.createCheck s listing pid force then
      (true, { s with enabled := s.enabled.set pid.identity (Accounts.created (some a) pid) })
    else (false, s)

/-! ## The client's file -/

/-- A byte below 128 as a character. -/
def toStr (b : Bytes) : IniDB.Str := b.map fun c => Char.ofNat c.toNat

/-- And back. -/
def ofStr (s : IniDB.Str) : Bytes := s.map fun c => UInt8.ofNat c.toNat

/-- `server.Set("", key, value)` one after the other; the first error ends it. -/
def setAll (i : IniDB.DB) : List (IniDB.Str × IniDB.Str) → Bool × IniDB.DB
  | [] => (true, i)
  | (k, v) :: r =>
    match IniDB.set i [] k v with
    | (true, i') => setAll i' r
    | (false, i') => (false, i')

/-- Open the file, or create it, set the records, save: common to /repo/zkclient/zkclient.go:693-721 and
/repo/tools/zkimport/zkimport.go:181-212. `ord` is the order in which Go walks the maps. -/
def writeRecord (base : IniDB.Str) (d : IniDB.Dir) (tmp tmp' stamp : IniDB.Str)
    (ord : IniDB.Tables → List (IniDB.Str × List (IniDB.Str × IniDB.Str)))
    (fields : List (IniDB.Str × IniDB.Str)) : Bool × IniDB.Dir :=
  let go (i : IniDB.DB) (d : IniDB.Dir) :=
    let r := setAll i fields
    if r.1 then
      let s := IniDB.save r.2 d tmp' stamp (ord r.2.tables)
      (s.1, s.2.2)
    else (false, d)
  match IniDB.new base true 10 d tmp with
  | .error => (false, d)
  | .opened i => go i d
  | .created i d' => go i d'

/-- The records of the server. -/
def serverFields (addr : IniDB.Str) (sid : Xdr.Val Xdr.publicIdentity) (cert : Bytes) :
    List (IniDB.Str × IniDB.Str) :=
  [("server".toList, addr),
   ("serveridentity".toList, toStr (Base64.encode (Xdr.enc Xdr.publicIdentity sid))),
   ("servercert".toList, toStr (Base64.encode cert))]

/-- The records set by `saveServerRecord`, /repo/zkclient/zkclient.go:699-717. -/
def clientFields (addr : IniDB.Str) (sid : Xdr.Val Xdr.publicIdentity) (cert : Bytes)
    (me : Xdr.Val fullIdentity) : List (IniDB.Str × IniDB.Str) :=
  serverFields addr sid cert ++
    [("myidentity".toList, toStr (Base64.encode (Xdr.enc fullIdentity me)))]

/-- The records set by `importServerRecord`, /repo/tools/zkimport/zkimport.go:185-207. -/
def importFields (r : Xdr.Val serverRecord) : List (IniDB.Str × IniDB.Str) :=
  let r : Xdr.Val Xdr.publicIdentity × Bytes × Bytes × Bool := r
  serverFields (toStr r.2.2.1) r.1 r.2.1 ++
    [("directory".toList, if r.2.2.2 then "true".toList else "false".toList)]

/-- `importServerRecord`, /repo/tools/zkimport/zkimport.go:146-217; `yes` is the answer of the user. -/
def importServer (base : IniDB.Str) (d : IniDB.Dir) (tmp tmp' stamp : IniDB.Str)
    (ord : IniDB.Tables → List (IniDB.Str × List (IniDB.Str × IniDB.Str))) (force yes : Bool)
    (r : Xdr.Val serverRecord) : Bool × IniDB.Dir :=
  if (d.get base).isSome ∧ ¬ force then (false, d)
  else if ¬ force ∧ ¬ yes then (false, d)
  else writeRecord base d tmp tmp' stamp ord (importFields r)

/-- `parseMyServer`, /repo/zkclient/zkclient.go:1599-1632: address, identity and certificate. -/
def parseMyServer (i : IniDB.DB) : Option (IniDB.Str × Xdr.Val Xdr.publicIdentity × Bytes) :=
  match IniDB.get i [] "server".toList, IniDB.get i [] "serveridentity".toList with
  | some addr, some pib64 =>
    match Base64.decode (ofStr pib64) with
    | none => none
    | some pi =>
      match Xdr.dec 0 Xdr.publicIdentity pi with
      | .ok sid _ =>
        match IniDB.get i [] "servercert".toList with
        | none => none
        | some pc64 => (Base64.decode (ofStr pc64)).map fun cert => (addr, sid, cert)
      | _ => none
  | _, _ => none

/-- `parseMyIdentity`, /repo/zkclient/zkclient.go:1634-1651. -/
def parseMyIdentity (i : IniDB.DB) : Option (Xdr.Val fullIdentity) :=
  match IniDB.get i [] "myidentity".toList with
  | none => none
  | some b64 =>
    match Base64.decode (ofStr b64) with
    | none => none
    | some buf =>
      match Xdr.dec 0 fullIdentity buf with
      | .ok me _ => some me
      | _ => none

end Verif.Records
