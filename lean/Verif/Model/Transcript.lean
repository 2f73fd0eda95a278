import Verif.Model.Clock
import Verif.Model.Crpc
import Verif.Model.Mention

/-! # What is written to the log of a conversation

`printf`, /repo/zkclient/zkclient.go:151-197, writes each line of a window to a file (`log`, zkclient.go:200-239; which file
that is: `Verif.Model.ChatLog`).  The lines are those that `handlePm` (/repo/zkclient/push.go:693-715), `handleGroupMessage`
(push.go:1216-1294) and the echo of what the user writes (/repo/zkclient/mainwindow.go:518-523 and 569-574,
/repo/zkclient/groupchat.go:529-537) make, and notices of the client.

Simplifications.
* One window, whose file can be opened; the file is what was written so far.
* `ttk.Unescape` belongs to another library: it is a parameter `u`.
* Times are nanoseconds since 1970 began on the wall of the user, printed in the format that is the default
  ("2006-01-02 15:04:05", /repo/zkclient/settings.go:133).
* The nicks of contacts do not change while the log is written. -/

namespace Verif.Transcript

open Verif Clock IniDB

/-- `rpc.MessageMode`, /repo/rpc/rpc.go: any other number can be sent, too. -/
inductive Mode
  | normal
  | me
  | other
  deriving DecidableEq, Repr

/-- The settings and the surroundings of a window. -/
structure Cfg where
  /-- `ttk.Unescape` -/
  u : Bytes → Bytes
  /-- `unicode.ToUpper` -/
  up : Nat → Nat
  /-- `NickColor`, `PmColor`, `GcColor`, `MAGENTABOLD`, `RESET` -/
  nickC : Bytes
  pmC : Bytes
  gcC : Bytes
  markC : Bytes
  off : Bytes
  /-- the nick of the user -/
  own : Bytes
  /-- the nick under which an identity is shown -/
  nick : Bytes → Bytes
  /-- the window of a group -/
  group : Bool

/-- `Format("2006-01-02 15:04:05")`, zkclient.go:192. -/
def long (s : Stamp) : Bytes :=
  Crpc.ascii (digits 4 s.year ++ ['-'] ++ digits 2 s.month ++ ['-'] ++ digits 2 s.day ++ [' '] ++ digits 2 s.hour ++ [':'] ++
    digits 2 s.min ++ [':'] ++ digits 2 s.sec)

/-- `Month.String` of the standard library. -/
def monthName (m : Nat) : List Char :=
  ["January", "February", "March", "April", "May", "June", "July", "August", "September", "October", "November",
    "December"].map String.toList |>.getD (m - 1) []

/-- Nanoseconds of a day. -/
def dayLen : Nat := 24 * 60 * 60 * 1000000000

/-- "1 January 1970" -/
def dayText (day : Nat) : List Char :=
  let d := date day
  Nat.toDigits 10 d.d ++ [' '] ++ monthName d.m ++ [' '] ++ Nat.toDigits 10 d.y

/-- The text of `updateTS`, zkclient.go:93-108, if there is one; `last` is the day of `lastMsg`. -/
def dayNotice (last : Option Nat) (day : Nat) : Option Bytes :=
  match last with
  | none => some (Crpc.ascii ("first message received on ".toList ++ dayText day))
  | some e => if day ≠ e then some (Crpc.ascii ("day changed to ".toList ++ dayText day)) else none

/-- The line of `log`, zkclient.go:192 and 238. -/
def line (c : Cfg) (t : Nat) (output : Bytes) : Bytes := c.u (long (wall t) ++ [32] ++ output) ++ [10]

/-- Who speaks, push.go:702-708, 1279-1284, groupchat.go:530-535: "* " and the nick, or the nick in angle brackets. -/
def tag (c : Cfg) (colour nick : Bytes) (m : Mode) : Bytes :=
  if m = .me then [42, 32] ++ colour ++ nick ++ c.off else [60] ++ colour ++ nick ++ c.off ++ [62]

/-- " left group chat: ", push.go:905. -/
def leftText : Bytes := Crpc.ascii " left group chat: ".toList

inductive Ev
  /-- a message from a contact or a member of the group, and when the server received it -/
  | heard (id : Bytes) (m : Mode) (text : Bytes) (t : Nat)
  /-- the user writes -/
  | wrote (m : Mode) (text : Bytes) (t : Nat)
  /-- a member leaves the group, push.go:903-908 -/
  | left (id : Bytes) (reason : Bytes) (t : Nat)
  /-- another notice of the client -/
  | told (text : Bytes) (t : Nat)
  /-- the window is closed, or the client ends, and it is opened again: `lastMsg` is zero -/
  | reopened
  deriving DecidableEq, Repr

structure State where
  file : Bytes := []
  /-- the day of `lastMsg` -/
  last : Option Nat := none
  /-- cutting a message in the wrong place ends the client, see `Verif.Model.Mention` -/
  alive : Bool := true
  deriving DecidableEq, Repr

/-- The lines of `printf` with the time of the server (`PrintfTS`): `updateTS` first, zkclient.go:176-193. -/
def stamped (c : Cfg) (s : State) (t : Nat) (output : Bytes) : State :=
  let notice := match dayNotice s.last (t / dayLen) with
    | some n => line c t n
    | none => []
  { s with file := s.file ++ notice ++ line c t output, last := some (t / dayLen) }

/-- ... and with the time of the client (`PrintfT`). -/
def local' (c : Cfg) (s : State) (t : Nat) (output : Bytes) : State := { s with file := s.file ++ line c t output }

/-- What is shown of a text: in a group, the nick of the user is marked. -/
def shown (c : Cfg) (m : Mode) (text : Bytes) : Outcome Unit Bytes :=
  if c.group then Mention.colour c.up c.markC c.off c.own (m == .normal) text else .ok text

def step (c : Cfg) (s : State) : Ev → State
  | .heard id m text t =>
    if s.alive then
      match shown c m text with
      | .ok x => stamped c s t (tag c (if c.group then c.gcC else c.pmC) (c.nick id) m ++ [32] ++ x)
      | _ => { s with alive := false }
    else s
  | .wrote m text t => if s.alive then local' c s t (tag c c.nickC c.own m ++ [32] ++ text) else s
  | .left id reason t => if s.alive then local' c s t (c.pmC ++ c.nick id ++ c.off ++ leftText ++ reason) else s
  | .told text t => if s.alive then local' c s t text else s
  | .reopened => { s with last := none, alive := true }

def run (c : Cfg) (s : State) (es : List Ev) : State := es.foldl (step c) s

end Verif.Transcript
