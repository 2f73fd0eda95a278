import Verif.Model.Log
import Verif.Model.Hex
import Verif.Model.Voice
import Verif.Model.Policy
import Verif.Model.Rendezvous

/-! # What the server writes to its log about its users

The calls of `z.Info`, `z.Warn`, `z.Error`, `z.Dbg` and `z.T` in /repo/zkserver/zkserver.go, cache.go, account.go, pending.go and
rendezvous.go. `fmt.Sprintf` is that of `Verif.Model.Log`, which is also about the file; here a log is the list of its entries.

Simplifications.
* What `Deliver` and `Create` answer is part of the event.
* Entries about the server itself (when it starts, its sockets, its listener), about replies that can not be encoded or
  written, and those of `sessionWriter` and `sessionNtfn`, which have the identity of the user and a tag as those of
  `handleSession` do, are left out. -/

namespace Verif.Journal

open Verif Log
open Verif.Voice (ascii)

/-- An entry: how important it is, and its text. -/
abbrev Entry := Level × Bytes

/-- The settings. -/
structure Cfg where
  debug : Bool
  trace : Bool
  /-- `AllowIdentify` -/
  identify : Bool
  /-- `CreatePolicy` -/
  policy : Bytes
  /-- the directory of the messages for a user, /repo/zkserver/account/account.go: accountFile -/
  dir : Bytes → Bytes

/-- What `Deliver` answers, /repo/zkserver/account/account.go:313-362. -/
inductive Result
  /-- stored under this name -/
  | stored (name : Bytes)
  /-- there is a message of this name -/
  | duplicate (name : Bytes)
  /-- the file can not be written, and what the system says -/
  | unwritable (why : Bytes)
  deriving DecidableEq, Repr

/-- Who logs in, /repo/zkserver/zkserver.go:672-693. -/
inductive Standing
  | disabled
  | unknown
  | welcome
  deriving DecidableEq, Repr

inductive Ev
  /-- a connection from an address -/
  | opened (addr : Bytes)
  | closed (addr : Bytes)
  /-- it ends before it says what it wants -/
  | mute (addr : Bytes)
  /-- it wants something that there is not -/
  | mode (addr text : Bytes)
  | identify (addr : Bytes)
  /-- somebody wants an account: the fingerprint, the token; the file of tokens, the readings of the clock; and whether
  the account can be created -/
  | create (addr fp token : Bytes) (db : Policy.DB) (now : Policy.Time) (later : Bytes → Policy.Time) (error : Option Bytes)
  /-- the key exchange fails -/
  | noKx (addr why : Bytes)
  | login (addr id : Bytes) (s : Standing)
  /-- the session begins, and ends -/
  | begun (id : Bytes)
  | ended (id : Bytes)
  /-- a message from a user arrives: its command and its tag -/
  | request (id command : Bytes) (tag : Nat)
  /-- ... to be left for somebody -/
  | cache (src dst payload : Bytes) (r : Result)
  /-- ... to be left for somebody as it is -/
  | proxy (src dst payload : Bytes) (r : Result)
  /-- ... to be left under a PIN, fetched with one -/
  | leave (tag : Nat) (blob : Bytes)
  | fetch (tag : Nat) (pin : Bytes)
  /-- ... looks for a nick -/
  | find (tag : Nat) (nick : Bytes)
  /-- a message that has been delivered can not be deleted -/
  | stays (id name why : Bytes)
  /-- the session ends with an error -/
  | failed (addr why : Bytes)

/-- The error of `Deliver`, /repo/zkserver/account/account.go:337 and 346; `none`: there is none. -/
def Result.error (c : Cfg) (dst : Bytes) : Result → Option Bytes
  | .stored _ => none
  | .duplicate n => some (sprintf (ascii "duplicate filename %v") [n])
  | .unwritable w => some (sprintf (ascii "could not write to %v: %v") [c.dir dst, w])

/-- `path.Base` of the first result of `Deliver`, which is empty if there is an error. -/
def Result.base : Result → Bytes
  | .stored n => n
  | _ => ascii "."

/-- What is to be said of tokens. -/
inductive Note
  /-- there is no such token, /repo/zkserver/pending.go:54 -/
  | invalid (token : Bytes)
  /-- it has no proper time, line 69 -/
  | garbled (token : Bytes)
  /-- its time is over, line 74 -/
  | expired (token : Bytes)
  /-- a record without a proper time, found by `prunePending`, line 22 -/
  | corrupt (token : Bytes)
  deriving DecidableEq, Repr

/-- The token of a note. -/
def Note.token : Note → Bytes
  | .invalid t | .garbled t | .expired t | .corrupt t => t

/-- `prunePending`, /repo/zkserver/pending.go:16-32. -/
def pruneNotes (db : Policy.DB) : List Note :=
  (db.filter fun kv => (Policy.parseInt64 kv.2).isNone).map fun kv => .corrupt kv.1

/-- `validToken`, /repo/zkserver/pending.go:40-77, with the deferred `prunePending`. -/
def tokenNotes (db : Policy.DB) (token : Bytes) (now : Policy.Time) : List Note :=
  match db.get token with
  | none => .invalid token :: pruneNotes db
  | some v =>
    match Policy.parseInt64 v with
    | none => .garbled token :: pruneNotes (db.del token)
    | some t => if Policy.expired t now then .expired token :: pruneNotes (db.del token) else pruneNotes (db.del token)

/-- The entries. -/
def Note.entry (addr : Bytes) : Note → Entry
  | .invalid t => (.dbg, sprintf (ascii "%v invalid token %v") [addr, t])
  | .garbled t => (.error, sprintf (ascii "%v corrupt token %v") [addr, t])
  | .expired t => (.dbg, sprintf (ascii "%v token expired %v") [addr, t])
  | .corrupt t => (.error, sprintf (ascii "corrupt token %v") [t])

/-- The refusal of an account, /repo/zkserver/account.go:20-26, 46 and 51, and /repo/zkserver/zkserver.go:642. -/
def refusal (addr fp why : Bytes) : List Entry :=
  [(.trace, sprintf (ascii "accountReplyFailure: %v %v %v") [addr, why, fp]),
   (.error, sprintf (ascii "handleAccountCreate: %v %v") [addr, why])]

/-- `Create` and what is said of it, /repo/zkserver/account.go:57-67. -/
def creation (addr fp : Bytes) : Option Bytes → List Entry
  | some why => [(.error, sprintf (ascii "%v could not create account: %v") [addr, why])]
  | none => [(.info, sprintf (ascii "created account %v: %v") [addr, fp])]

/-- The calls an event makes.  Lines are those of /repo/zkserver/zkserver.go if not said otherwise. -/
def calls (c : Cfg) : Ev → List Entry
  -- 593, 597, 605, 713
  | .opened a => [(.dbg, sprintf (ascii "incoming connection: %v") [a])]
  | .closed a => [(.info, sprintf (ascii "connection closed: %v") [a])]
  | .mute a => [(.dbg, sprintf (ascii "could not unmarshal mode: %v") [a])]
  | .mode a m => [(.error, sprintf (ascii "invalid mode: %v: %v") [a, m])]
  -- 612-627
  | .identify a =>
    (.trace, sprintf (ascii "InitialCmdIdentify: %v") [a]) ::
      if c.identify then [(.dbg, sprintf (ascii "identifying self to: %v") [a])]
      else [(.warn, sprintf (ascii "disallowing identify to: %v") [a])]
  -- 630-645, account.go:36-67
  | .create a fp token db now later error =>
    (.trace, sprintf (ascii "InitialCmdCreateAccount: %v") [a]) ::
      (.trace, sprintf (ascii "handleAccountCreate: %v %v") [a, fp]) ::
      match Policy.verdict c.policy with
      | .refuse => refusal a fp (ascii "disallowing account create")
      | .askToken =>
        (tokenNotes db token now).map (Note.entry a) ++
          if (Policy.validToken db token now later).1 then creation a fp error
          else refusal a fp (ascii "invalid account create token")
      | .allow => creation a fp error
  -- 651, 661, 675, 687, 692
  | .noKx a why =>
    [(.trace, sprintf (ascii "InitialCmdSession: %v") [a]), (.error, sprintf (ascii "kx.Respond: %v %v") [a, why])]
  | .login a i s =>
    [(.trace, sprintf (ascii "InitialCmdSession: %v") [a]),
     match s with
     | .disabled => (.warn, sprintf (ascii "disabled user identity: %v %x") [a, Hex.encode i])
     | .unknown => (.warn, sprintf (ascii "unknown identity: %v %x") [a, Hex.encode i])
     | .welcome => (.info, sprintf (ascii "connection from %v identity %x") [a, Hex.encode i])]
  -- 391, 418
  | .begun i => [(.dbg, sprintf (ascii "handleSession account online: %v") [Hex.encode i])]
  | .ended i => [(.dbg, sprintf (ascii "handleSession exit: %v") [Hex.encode i])]
  -- 459
  | .request i cmd tag => [(.trace, sprintf (ascii "handleSession: %v %v %v") [Hex.encode i, cmd, Rendezvous.format tag])]
  -- cache.go:34-75
  | .cache src dst _ r =>
    match r.error c dst with
    | some e => [(.dbg, sprintf (ascii "delivery failed: %v") [e])]
    | none =>
      if c.debug then [(.dbg, sprintf (ascii "handleCache: %v -> %v: %v") [Hex.encode dst, Hex.encode src, r.base])] else []
  -- cache.go:102-117
  | .proxy src dst _ r =>
    (match r.error c dst with
      | some e => [(.dbg, sprintf (ascii "proxy delivery failed %x -> %x: %v") [Hex.encode src, Hex.encode dst, e])]
      | none => []) ++
      if c.debug then [(.dbg, sprintf (ascii "handleProxy: %v -> %v: %v") [Hex.encode dst, Hex.encode src, r.base])] else []
  -- rendezvous.go:58 and 125
  | .leave tag _ => [(.trace, sprintf (ascii "handleRendezvous tag %v") [Rendezvous.format tag])]
  | .fetch tag _ => [(.trace, sprintf (ascii "handleRendezvousPull tag %v") [Rendezvous.format tag])]
  -- account.go:82-110: nothing
  | .find _ _ => []
  -- 538-544
  | .stays i n w => [(.error, sprintf (ascii "handleSession: %v delete failed %v %v") [Hex.encode i, n, w])]
  -- 706
  | .failed a w => [(.error, sprintf (ascii "handleSession failed: %v %v") [a, w])]

/-- What is kept of the calls: /repo/debug/debug.go:31-68, and /repo/zkserver/zkserver.go:957-971, where tracing is only
switched on together with debugging. -/
def kept (c : Cfg) (l : Level) : Bool :=
  match l with
  | .dbg => c.debug
  | .trace => c.debug && c.trace
  | _ => true

/-- The entries in the log. -/
def log (c : Cfg) (es : List Ev) : List Entry := (es.flatMap (calls c)).filter fun e => kept c e.1

end Verif.Journal
