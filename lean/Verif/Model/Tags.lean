import Verif.Model.GoMap
import Verif.Model.TagStack

/-! # Tags in a session of the server: zkserver/zkserver.go

The loop of `handleSession` as far as tags are concerned, together with `sessionNtfn`, which numbers the
messages pushed to the client. Each locked section, and each operation on the channel of free tags, is one
step, so that the two goroutines interleave in all ways. -/

namespace Verif.Tags

open Verif
open Verif.TagStack (Chan newBlocking)

/-- `tagDepth`, /repo/zkserver/zkserver.go:48. -/
def tagDepth : Nat := 32

/-- What is kept of a message pushed to the client: its tag and the identifier of the stored message,
/repo/zkserver/zkserver.go:308-321. -/
structure Pushed where
  tag : Nat
  ident : Nat
  deriving DecidableEq, Repr

/-- Where the goroutine of `handleSession` is. -/
inductive Reader where
  /-- about to read, line 435 -/
  | idle
  /-- handling an acknowledgement: the message has been looked up and deleted, line 539 -/
  | acking (tag : Nat)
  /-- the slot has been cleared, the tag is to be returned, line 545 -/
  | pushing (tag : Nat)
  /-- the loop has ended: the session is closed -/
  | done
  deriving DecidableEq, Repr

/-- Where the goroutine `sessionNtfn` is. -/
inductive Ntfn where
  /-- waiting for a notification, line 273 -/
  | idle
  /-- it has taken a tag, line 289 -/
  | holding (tag ident : Nat)
  /-- it has returned, and closed the connection -/
  | done
  deriving DecidableEq, Repr

/-- A session. The last three are not part of the program: they record what has happened. -/
structure Sess where
  /-- `sc.tagStack` -/
  tags : Chan
  /-- `sc.tagMessage` -/
  slots : List (Option Pushed)
  /-- `tagBitmap` -/
  bitmap : List Bool
  reader : Reader
  ntfn : Ntfn
  /-- what has been pushed under which tag -/
  sent : List Pushed
  /-- the tags that the client has acknowledged -/
  acked : List Nat
  /-- the stored messages that have been deleted -/
  deleted : List Nat
  deriving DecidableEq, Repr

/-- A new session, /repo/zkserver/zkserver.go:344-352 and 402-404. -/
def fresh : Sess :=
  ⟨newBlocking tagDepth, List.replicate tagDepth none, List.replicate tagDepth false, .idle, .idle, [], [], []⟩

inductive Ev where
  /-- the client's message with this tag is read; not an acknowledgement. `ok`: the handler returned no error.
  The answer is not represented: whether there is room for it is in `Verif.Sessions`. -/
  | request (tag : Nat) (ok : Bool)
  /-- the client's acknowledgement of this tag is read -/
  | ack (tag : Nat)
  /-- `sc.tagMessage[message.Tag] = nil`, lines 540-542 -/
  | clear
  /-- `sc.tagStack.Push`, line 545 -/
  | push
  /-- a notification arrives and gets a tag, lines 273-289 -/
  | notify (ident : Nat)
  /-- `sc.tagMessage[tag] = &r`, lines 297-323 -/
  | place
  /-- a notification that is an error, lines 280-283, or the end of the session, line 269 -/
  | ntfnEnds
  /-- the connection fails and the reader returns -/
  | readFails
  deriving DecidableEq, Repr

/-- A step of a session. `none`: can not happen in this state. `some none`: an index is out of range, which
ends the whole program. /repo/zkserver/zkserver.go:260-331, 449-588. -/
def step (s : Sess) : Ev → Option (Option Sess)
  | .request tag ok =>
    if s.reader = .idle then
      if tag > tagDepth then some (some { s with reader := .done })
      else match s.bitmap[tag]? with
        | none => some none
        | some true => some (some { s with reader := .done })
        | some false =>
          -- set, handled, and cleared again at the end of the loop
          some (some { s with reader := if ok then .idle else .done, bitmap := s.bitmap.set tag (!ok) })
    else none
  | .ack tag =>
    if s.reader = .idle then
      if tag > tagDepth then some (some { s with reader := .done })
      else match s.bitmap[tag]? with
        | none => some none
        | some true => some (some { s with reader := .done })
        | some false =>
          match s.slots[tag]? with
          | none => some none
          | some none =>
            some (some { s with bitmap := s.bitmap.set tag true, acked := tag :: s.acked, reader := .acking tag })
          | some (some m) =>
            if m.tag ≠ tag then some (some { s with bitmap := s.bitmap.set tag true, acked := tag :: s.acked, reader := .done })
            else some (some { s with bitmap := s.bitmap.set tag true, acked := tag :: s.acked, reader := .acking tag,
                                     deleted := m.ident :: s.deleted })
    else none
  | .clear =>
    match s.reader with
    | .acking tag =>
      if tag < s.slots.length then some (some { s with slots := s.slots.set tag none, reader := .pushing tag })
      else some none
    | _ => none
  | .push =>
    match s.reader with
    | .pushing tag =>
      match s.tags.push tag with
      | none => none
      | some t => some (some { s with tags := t, reader := .idle, bitmap := s.bitmap.set tag false })
    | _ => none
  | .notify ident =>
    if s.ntfn = .idle then
      match s.tags.pop with
      | none => none
      | some (tag, t) => some (some { s with tags := t, ntfn := .holding tag ident })
    else none
  | .place =>
    match s.ntfn with
    | .holding tag ident =>
      match s.slots[tag]? with
      | none => some none
      | some (some _) => some (some { s with ntfn := .done })
      | some none => some (some { s with slots := s.slots.set tag (some ⟨tag, ident⟩), ntfn := .idle,
                                         sent := ⟨tag, ident⟩ :: s.sent })
    | _ => none
  | .ntfnEnds => if s.ntfn = .idle then some (some { s with ntfn := .done }) else none
  | .readFails => if s.reader = .idle then some (some { s with reader := .done }) else none

/-- The server: `none` after a panic; otherwise the sessions by number. -/
abbrev Server := Option (GoMap Nat Sess)

/-- Something happens on the server: a client connects, or a step of a session. -/
inductive SEv where
  | connect (i : Nat)
  | at (i : Nat) (e : Ev)
  deriving DecidableEq, Repr

def sstep : Server → SEv → Option Server
  | none, _ => none
  | some m, .connect i => if (m.get i).isSome then none else some (some (m.set i fresh))
  | some m, .at i e =>
    match m.get i with
    | none => none
    | some s =>
      match step s e with
      | none => none
      | some none => some none
      | some (some s') => some (some (m.set i s'))

/-- Executions of the server. -/
inductive Run : Server → List SEv → Server → Prop
  | nil (s) : Run s [] s
  | cons {s e s' es s''} : sstep s e = some s' → Run s' es s'' → Run s (e :: es) s''

/-- Executions of a session in which every step satisfies `G`. -/
inductive SRun (G : Sess → Ev → Prop) : Sess → List Ev → Sess → Prop
  | nil (s) : SRun G s [] s
  | cons {s e s' es s''} : G s e → step s e = some (some s') → SRun G s' es s'' → SRun G s (e :: es) s''

end Verif.Tags
