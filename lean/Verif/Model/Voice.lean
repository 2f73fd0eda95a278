import Verif.Model.Log
import Verif.Model.Hex
import Verif.Model.Crpc

/-! # What the console says while the server talks

The answers of the server make the client print lines in the console, and some of them contain text of the server or of
a contact: /repo/zkclient/zkclient.go:960-1000 and 1655-1693 when a connection begins, 1330-1550 during a session, and
/repo/zkclient/push.go:400-430 for a reset. `fmt.Sprintf` is that of `Verif.Model.Log`.

Simplifications.
* A line is what `printf` gets (`output`, /repo/zkclient/zkclient.go:151-152): the time in front of it, the window it is
  shown in, and what ttk does with it are left out. The copies of `FloodfT` in other windows are the same lines.
* Lines that only contain what the client itself knows, such as errors of its disk, are left out, as is all that handlers
  of messages print. -/

namespace Verif.Voice

open Verif Log

abbrev Id := Bytes

def ascii (s : String) : Bytes := Crpc.ascii s.toList

/-- "%v" -/
def pv : Bytes := [0x25, 0x76]

/-- "%x" -/
def px : Bytes := [0x25, 0x78]

/-- What the client knows. `red` and `reset` are the codes of ttk for bold red and for the end of it,
/repo/zkclient/mainwindow.go:53-54. -/
structure Cfg where
  addr : Bytes
  /-- the fingerprint of the certificate -/
  outer : Bytes
  /-- the fingerprint of the identity of the server with which the key exchange was done -/
  inner : Bytes
  /-- `TLSVerbose` -/
  verbose : Bool
  /-- `FindIdentity` -/
  book : Id → Option Bytes
  red : Bytes
  reset : Bytes

/-- What comes from the server. -/
inductive Ev
  /-- a welcome with these properties -/
  | welcome (props : List (Bytes × Bytes))
  /-- an unwelcome with this reason -/
  | unwelcome (reason : Bytes)
  /-- the answer to a blob for a PIN -/
  | rendezvous (error token : Bytes)
  /-- the answer to a PIN, if it is an error -/
  | pull (error : Bytes)
  /-- a message that can not be handled, and why; whether it is a `ratchetError` -/
  | push (src : Id) (ratchet : Bool) (why : Bytes)
  /-- a reset, not encrypted -/
  | reset (src : Id) (text : Bytes)
  /-- an acknowledgement -/
  | ack (error : Bytes)
  /-- the answer to a name that was looked up -/
  | find (nick error : Bytes)
  /-- the answer to a message for the other side of a key exchange that begins anew -/
  | proxy (dst : Id) (error : Bytes)
  deriving DecidableEq, Repr

/-- "motd", `PropMOTD`, /repo/rpc/rpc.go:151. -/
def motdKey : Bytes := ascii "motd"

/-- `strings.Split(v, "\n")`. -/
def splitLines : Bytes → List Bytes
  | [] => [[]]
  | c :: r =>
    if c = 0x0a then [] :: splitLines r
    else
      match splitLines r with
      | [] => [[c]]
      | l :: ls => (c :: l) :: ls

/-- The first message of the day among the properties, /repo/zkclient/zkclient.go:1677-1688. -/
def motd (props : List (Bytes × Bytes)) : List Bytes :=
  match props.find? fun p => p.1 = motdKey with
  | none => []
  | some p => splitLines p.2

/-- The name in front of an identity: `nickFromId`, and a blank, /repo/zkclient/zkclient.go:1529-1533,
/repo/zkclient/push.go:414-418. -/
def called (c : Cfg) (i : Id) : Bytes :=
  match c.book i with
  | some n => if n = [] then [] else n ++ [0x20]
  | none => []

/-- The text of a failed push, which is used as a format: /repo/zkclient/zkclient.go:1395-1418. -/
def pushText (c : Cfg) (src : Id) (ratchet : Bool) (why : Bytes) : Bytes :=
  sprintf ((if ratchet then ascii "push ratchet error from " else ascii "could not handle push command from ") ++ pv ++
    ascii ": " ++ pv) [(c.book src).getD (Hex.encode src), why]

/-- The lines in the console. -/
def console (c : Cfg) : Ev → List Bytes
  /- `welcomeUser`, /repo/zkclient/zkclient.go:1655-1693 -/
  | .welcome props =>
    [sprintf (ascii "Connected to server: " ++ pv) [c.addr]] ++
    (if c.verbose then
      [sprintf (ascii "Outer server fingerprint: " ++ pv) [c.outer], sprintf (ascii "Inner server fingerprint: " ++ pv) [c.inner]]
    else [sprintf (ascii "Server fingerprint: " ++ pv) [c.inner]]) ++
    (motd props).map fun l => sprintf pv [l]
  /- /repo/zkclient/zkclient.go:814, 1000 -/
  | .unwelcome reason => [sprintf (ascii "Could not connect to server: " ++ pv) [reason]]
  /- lines 1341-1352 -/
  | .rendezvous error token =>
    if error ≠ [] then [sprintf (ascii "key exchange failed: " ++ pv) [error]]
    else [sprintf (ascii "key exchange PIN: " ++ pv) [token]]
  /- lines 1360-1369 -/
  | .pull error => if error ≠ [] then [sprintf (ascii "fetch failed: " ++ pv) [error]] else []
  /- lines 1390-1422 -/
  | .push src ratchet why =>
    [sprintf (c.red ++ pushText c src ratchet why ++ c.reset) [], sprintf (ascii "deleting remote message") []]
  /- /repo/zkclient/push.go:412-423 -/
  | .reset src text =>
    [sprintf (c.red ++ ascii "Received ratchet reset command from: " ++ pv ++ px ++ c.reset) [called c src, Hex.encode src],
      sprintf (c.red ++ ascii "Ratchet reset message: " ++ pv ++ c.reset) [text]]
  /- /repo/zkclient/zkclient.go:1460-1464 -/
  | .ack error => if error ≠ [] then [sprintf (c.red ++ ascii "cache error: " ++ pv ++ c.reset) [error]] else []
  /- lines 1488-1506 -/
  | .find nick error =>
    (if nick = [] then [sprintf (ascii "Server did not return nick") []] else []) ++
    if error ≠ [] then [sprintf pv [error]] else []
  /- lines 1528-1543 -/
  | .proxy dst error =>
    if error ≠ [] then [sprintf pv [error]]
    else [sprintf (c.red ++ ascii "Awaiting kx " ++ pv ++ px ++ c.reset) [called c dst, Hex.encode dst]]

/-- All lines of a session. -/
def run (c : Cfg) (es : List Ev) : List Bytes := es.flatMap (console c)

end Verif.Voice
