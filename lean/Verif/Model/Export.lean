import Verif.Model.Records
import Verif.Model.Settings

/-! # What is told of a server and a client: tools/zkexport and tools/b64cert

`zkexport` reads the files of a server or a client, whether or not it runs, and prints what others import.  Next to it is what
the programs themselves read when they are started, /repo/zkserver/zkserver.go:862-960 and /repo/zkclient/zkclient.go:2117-2140.

Simplifications.
* The files are given by what reading and decoding them yields.  `path.Join` and `filepath.Join`, which are the same on
  UNIX, are a parameter, and so is the home directory.
* The server makes an identity and a certificate if it has none (`Startup`); here they are there.
* `zkexport -s` reads the configuration and the certificate more than once, nobody changes them meanwhile. -/

namespace Verif.Export

open Verif Records

abbrev Str := IniDB.Str

/-- A machine. -/
structure World where
  home : Str
  join : Str → Str → Str
  /-- files of text; `none` if the file cannot be read -/
  text : Str → Option Str
  /-- `ReadFile` and `UnmarshalFullIdentity` -/
  ident : Str → Option (Xdr.Val fullIdentity)
  /-- `tls.LoadX509KeyPair`: the certificate, and those that signed it -/
  pair : Str → Str → Option (Bytes × List Bytes)
  /-- the files of myserver directories: `IniDB.Dir` of a directory -/
  dir : Str → IniDB.Dir

/-- The public part of a full identity. -/
def pub (v : Xdr.Val fullIdentity) : Xdr.Val Xdr.publicIdentity :=
  let v : Xdr.Val Xdr.publicIdentity × Xdr.Val (.fixed 64) × Xdr.Val (.fixed 1600) := v
  v.1

/-- What a server uses. -/
structure Uses where
  root : Str
  identity : Xdr.Val Xdr.publicIdentity
  cert : Bytes
  listen : Str
  directory : Bool

/-- A server that is started with the configuration file `cfg`, /repo/zkserver/settings.go:16-45 and
/repo/zkserver/zkserver.go:862-960, 821-843. -/
def serves (w : World) (cfg : Str) : Option Uses :=
  match Settings.server w.home (w.text cfg) with
  | .error _ => none
  | .ok s =>
    match w.ident (w.join s.root "zkserver.id".toList) with
    | none => none
    | some fi =>
      match w.pair (w.join s.root "zkserver.crt".toList) (w.join s.root "zkserver.key".toList) with
      | none => none
      | some c => some ⟨s.root, pub fi, c.1, s.listen, s.directory⟩

/-- `tools.ServerRecord`, /repo/tools/tools.go:28-33, with the address as text. -/
structure Rec where
  identity : Xdr.Val Xdr.publicIdentity
  cert : Bytes
  addr : Str
  directory : Bool

inductive Err
  | cert | ident | addr | conf
  deriving DecidableEq, Repr

/-- `s.Load` of settings that have `listen` set to nothing, /repo/tools/zkexport/zkexport.go:54-59. -/
def loadNoListen (w : World) (cfg : Str) : Except Settings.Bad Settings.Server :=
  match w.text cfg with
  | none => .error .file
  | some t =>
    match IniDB.parse t with
    | none => .error .file
    | some f => { Settings.Server.new with listen := [] }.fill w.home f

/-- `fetchServerIPandPort`, /repo/tools/zkexport/zkexport.go:46-61; an error is no address. -/
def fetchAddr (w : World) (root : Str) : Str :=
  match loadNoListen w (w.join root "zkserver.conf".toList) with
  | .error _ => []
  | .ok s => s.listen

/-- `fetchServerDirectory`, /repo/tools/zkexport/zkexport.go:63-79. -/
def fetchDirectory (w : World) (root : Str) : Option Bool :=
  match Settings.server w.home (w.text (w.join root "zkserver.conf".toList)) with
  | .error _ => none
  | .ok s => some s.directory

/-- `fetchServerRecord`, /repo/tools/zkexport/zkexport.go:81-113. -/
def fetchServer (w : World) (root addr : Str) : Except Err Rec :=
  match w.pair (w.join root "zkserver.crt".toList) (w.join root "zkserver.key".toList) with
  | none => .error .cert
  | some c =>
    match w.ident (w.join root "zkserver.id".toList) with
    | none => .error .ident
    | some fi =>
      let a := if addr = [] then fetchAddr w root else addr
      if a = [] then .error .addr
      else
        match fetchDirectory w root with
        | none => .error .conf
        | some d => .ok ⟨pub fi, c.1, a, d⟩

/-- The root of the tool: `-root`, or the default, /repo/zkutil/zkutil.go:84-97. -/
def rootOf (w : World) (flag dflt : Str) : Str := if flag = [] then w.join w.home dflt else flag

/-- `zkexport -s`, /repo/tools/zkexport/zkexport.go:115-147: the record. -/
def exportServer (w : World) (flag addr : Str) : Except Err Rec :=
  fetchServer w (rootOf w flag ".zkserver".toList) addr

/-- What is printed. -/
def Rec.line (r : Rec) : Bytes := exported serverRecord (r.identity, r.cert, ofStr r.addr, r.directory)

/-- The outer fingerprint that `zkexport -s -f` prints; `none`: "unexpected chained certificate",
/repo/tools/tools.go:77-83. -/
def outer (sha : Bytes → Bytes) (w : World) (root : Str) : Option Bytes :=
  match w.pair (w.join root "zkserver.crt".toList) (w.join root "zkserver.key".toList) with
  | none => none
  | some c => if c.2 = [] then some (sha c.1) else none

/-- The name of the client's file, /repo/tools/tools.go:24; the directory is `root`/myserver. -/
def myserver : Str := "myserver.ini".toList

/-- The identity a client with the root directory `root` uses, /repo/zkclient/zkclient.go:2122-2140; `none`: it makes a new
one. -/
def clientUses (w : World) (root : Str) : Option (Xdr.Val fullIdentity) :=
  match IniDB.new myserver false 10 (w.dir root) [] with
  | .opened i => parseMyIdentity i
  | _ => none

/-- `fetchClientIdentity` and `fetchClientFullIdentity`, /repo/tools/zkexport/zkexport.go:150-181. -/
def fetchClient (w : World) (root : Str) : Option (Xdr.Val fullIdentity) :=
  match IniDB.new myserver false 10 (w.dir root) [] with
  | .opened i =>
    match IniDB.get i [] "myidentity".toList with
    | none => none
    | some b64 =>
      match Base64.decode (ofStr b64) with
      | none => none
      | some id =>
        match Xdr.dec 0 fullIdentity id with
        | .ok fi _ => some fi
        | _ => none
  | _ => none

/-- `zkexport`, /repo/tools/zkexport/zkexport.go:183-224. -/
def exportClient (w : World) (flag : Str) : Option Bytes :=
  (fetchClient w (rootOf w flag ".zkclient".toList)).map fun fi => exported clientRecord (pub fi)

/-- The line that `b64cert` prints, /repo/tools/b64cert/b64cert.go:31-37. -/
def b64cert (c : Bytes × List Bytes) : Str := "servercert = ".toList ++ toStr (Base64.encode c.1)

end Verif.Export
