import Verif.Model.Commands

/-! # What is left on the disk of what was typed and received

The default configuration says of `savehistory` that it "saves commands but not text to a history file", and of `debug` that
it is output to the log (/repo/zkclient/zkclient.conf.go:21-22, 33-34).  This is the history file
(/repo/zkclient/mainwindow.go:160-190, 330-352) and the log file (/repo/debug/debug.go:31-100): what goes into them when
lines are typed, and when messages to and from others are written and received.

Simplifications.
* The log is a list of lines, and a line the values that are printed in it.  `spew.Sdump` prints all fields of a structure;
  here it is one value, the content.
* Of the lines of the log only those that are written with what is typed, shown, sent or received are here, and those with the
  key of a key exchange; the others print settings, errors, names of files, tags and identities.
* The logs of conversations are those of `Logs`. -/

namespace Verif.Residue

open Verif Commands

/-- The commands of messages between clients, /repo/rpc/rpc.go:350-363. -/
inductive Kind
  | privateMessage
  | groupInvite
  | groupJoin
  | groupPart
  | groupKill
  | groupKick
  | groupUpdate
  | groupList
  | groupMessage
  | chunkNew
  | chunk
  | janitorMessage
  deriving DecidableEq, Repr

/-- Whether the content is among what `handlePush` prints, /repo/zkclient/push.go:498-690. -/
def Kind.dumped : Kind → Bool
  | .chunk | .janitorMessage => false
  | _ => true

inductive Level
  | log | dbg
  deriving DecidableEq, Repr

structure Line where
  level : Level
  holds : List Bytes
  deriving DecidableEq, Repr

structure State where
  hist : Hist
  /-- the setting `debug`: `settings.Debug`, and `EnableDebug` was called, /repo/zkclient/zkclient.go:2099-2102 -/
  debug : Bool
  /-- the log file -/
  log : List Line
  deriving DecidableEq, Repr

/-- `Dbg`, /repo/debug/debug.go:54-61. -/
def State.dbg (s : State) (holds : List Bytes) : State :=
  if s.debug then { s with log := s.log ++ [⟨.dbg, holds⟩] } else s

inductive Ev
  /-- Enter; `error`: what `action` returns, mainwindow.go:184-189 -/
  | enter (cmd : Bytes) (error : Option Bytes)
  /-- the arrows, mainwindow.go:217-233 -/
  | up
  | down
  /-- the client is ended and started again -/
  | restart
  /-- a line on the console, /repo/zkclient/zkclient.go:200-217 -/
  | console (line : Bytes)
  /-- a message to another client is encrypted and written, /repo/zkclient/msg.go:483-489 -/
  | wrote (to_ content : Bytes)
  /-- a message to the server, with its content, is written, /repo/zkclient/msg.go:167-173 -/
  | asked (ping : Bool) (content : Bytes)
  /-- a message of another client was decrypted, /repo/zkclient/push.go:498-690 -/
  | received (k : Kind) (from_ content : Bytes)
  /-- `step1IDKX`: a key exchange is begun with somebody from the directory.  What is sent, and kept at the server until it is
  fetched, is encrypted with the key `nk`, which only who has the private key that belongs to the identity can get from `nc`;
  both are printed, /repo/zkclient/zkclient.go:1053-1092 -/
  | offered (nk nc : Bytes)
  deriving DecidableEq, Repr

/-- One event; `none`: a panic. -/
def step (s : State) : Ev → Option State
  | .enter cmd error =>
    if cmd = [] then some s
    else
      (s.hist.key (.enter cmd none)).map fun h =>
        let s := { s with hist := h }
        match error with
        | none => s
        | some e => s.dbg [e]
  | .up => (s.hist.key .up).map fun h => { s with hist := h }
  | .down => (s.hist.key .down).map fun h => { s with hist := h }
  | .restart => (s.hist.key .restart).map fun h => { s with hist := h }
  | .console line => some { s with log := s.log ++ [⟨.log, [line]⟩] }
  | .wrote to_ content => some (s.dbg [to_, content])
  | .asked ping content => some (if ping then s else s.dbg [content])
  | .received k from_ content => some (s.dbg (if k.dumped then [from_, content] else [from_]))
  | .offered nk nc => some ((s.dbg [nk]).dbg [nc])

def run : State → List Ev → Option State
  | s, [] => some s
  | s, e :: es => (step s e).bind fun s' => run s' es

end Verif.Residue
