import Verif.Model.Intro
import Verif.Model.Groups

/-! # What a client sends of itself

zkclient/push.go, zkclient/reset.go, zkclient/zkclient.go 1053-1115 and 1480-1512, zkclient/groupchat.go: to whom something
is sent by a client, upon what the user does, what others send, and what the server answers. The receipt of a message is
confirmed to the server alone, /repo/zkclient/zkclient.go:1394-1430, which is left out. So are the questions to the server.

Simplifications. The client is online and the disk does not fail, unless a fault is part of the event. Introductions are
those of Model/Intro, groups those of Model/Groups; the two share the address book. What is sent to a member of a group
there is no ratchet with is counted, although it fails. A panic sends nothing; what follows is the next start. The
commands for messages and files are not in it: they send to whom the user names. -/

namespace Verif.Answers

open Verif
open Verif.Intro (Z Pid Payload)

structure S where
  z : Z
  g : Groups.State
  deriving DecidableEq, Repr

inductive Ev
  /-- introductions, with the first messages of others -/
  | intro (e : Intro.Ev)
  /-- a message of a group, in the ratchet of its sender, /repo/zkclient/push.go:500-694 -/
  | crpc (src : Nat) (m : Groups.Msg) (flt : Groups.Fault)
  /-- any other message in the ratchet of its sender: a private message, a chunk of a file or the notice of one, a notice
  that one was deleted, /repo/zkclient/push.go:696-719 and 1049-1217, reset.go:16-50 -/
  | mail (src : Nat)
  /-- a command about groups -/
  | cmd (c : Groups.Cmd) (flt : Groups.Fault)
  /-- a message of a kick is acknowledged -/
  | ack (n : Nat)
  | tick (d : Nat)
  deriving DecidableEq, Repr

/-- The groups see the address book, and start with nothing sent. -/
def S.sync (s : S) : Groups.State := { s.g with known := s.z.book.map (·.1), out := [] }

/-- A group message is looked at if there is a ratchet with the sender, /repo/zkclient/push.go:431-500. -/
def S.heard (s : S) (src : Nat) : Bool := src ≠ 0 && s.z.exists_ src && (s.z.full.get src).isSome

def groups (upper : Bytes → Bytes) (s : S) (e : Groups.Ev) : Groups.State :=
  match Groups.step upper s.sync e with
  | .ok g => g
  | .panic => s.sync

def step (upper : Bytes → Bytes) (dir : Bool) (me : Nat) (s : S) : Ev → S
  | .intro e => { s with z := Intro.step dir me s.z e }
  | .crpc src m flt => if s.heard src then { s with g := groups upper s (.recv src m flt) } else s
  | .mail _ => s
  | .cmd c flt => { s with g := groups upper s (.cmd c flt) }
  | .ack n => { s with g := groups upper s (.ack n) }
  | .tick d => { s with g := groups upper s (.tick d) }

/-- To whom the answer to an offer goes: `cache` with the identity that is in the offer,
/repo/zkclient/push.go:264-268 and 380-383, after identity and ratchet were stored. -/
def answered (me : Nat) (z : Z) (p : Pid) (fits : Bool) : List Nat :=
  if p.ident = me ∨ fits = false ∨ z.exists_ p.ident = true then [] else [p.ident]

/-- To whom something is sent upon a message, /repo/zkclient/push.go:399-447. An offer upon a reset is sent before anything
is stored, /repo/zkclient/zkclient.go:1089-1097. -/
def pushed (dir : Bool) (me : Nat) (z : Z) (from_ : Nat) (pl : Payload) : List Nat :=
  if from_ = 0 then []
  else
    match pl with
    | .reset _ =>
      match z.files.get from_ with
      | none => []
      | some p => [p.ident]
    | pl =>
      if z.exists_ from_ = false then
        match dir, pl with
        | false, .idkx k p fits => if k ∈ z.keys then answered me z p fits else []
        | true, .idkxDir p fits => answered me z p fits
        | _, _ => []
      else []

/-- The same for all that is in Model/Intro. "Yes" sends the offer first, /repo/zkclient/acceptclientfingerprint.go:168-178;
so does the answer of a directory. A reset is told if there was a ratchet, /repo/zkclient/zkclient.go:1807-1838; so is a
deletion, /repo/zkclient/addressbook.go:49-53. -/
def introduced (dir : Bool) (me : Nat) (z : Z) : Intro.Ev → List Nat
  | .pin _ => []
  | .fetch _ _ => []
  | .yes =>
    match z.asking with
    | none => []
    | some (_, p) => [p.ident]
  | .no => []
  | .found _ p => [p.ident]
  | .push from_ pl => pushed dir me z from_ pl
  | .reset i => if (z.book.get i).isSome ∧ (z.full.get i).isSome then [i] else []
  | .del i => if (z.book.get i).isSome ∧ (z.full.get i).isSome then [i] else []
  | .restart => []

/-- To whom something is sent upon an event. -/
def sends (upper : Bytes → Bytes) (dir : Bool) (me : Nat) (s : S) : Ev → List Nat
  | .intro e => introduced dir me s.z e
  | .crpc src m flt => if s.heard src then (groups upper s (.recv src m flt)).out.map (·.1) else []
  | .mail _ => []
  | .cmd c flt => (groups upper s (.cmd c flt)).out.map (·.1)
  | .ack n => (groups upper s (.ack n)).out.map (·.1)
  | .tick d => (groups upper s (.tick d)).out.map (·.1)

def start (me : Nat) (nick : Bytes) : S := ⟨{}, Groups.init me nick⟩

/-- After these events, the first one first. -/
def after (upper : Bytes → Bytes) (dir : Bool) (me : Nat) (nick : Bytes) (evs : List Ev) : S :=
  evs.foldl (step upper dir me) (start me nick)

end Verif.Answers
