import Verif.Model.Accounts
import Verif.Model.Groups

/-! # What the client says when an account was disabled

zkclient/zkclient.go 1117-1178 (`handleDisabledUser`) and 1459-1479 (the reply of the server that leads to it),
282-292 and 342-470 (windows), zkclient/addressbook.go 100-105. The reply of the server is `Accounts.handleCache`.

Windows have a key here that is never given again, so that notices can be attributed to them. What the user and the
rest of the client do to the address book and to groups is arbitrary. The line "cache error" in window 0, which every
failed message gets, is left out, and so are colours and fingerprints. -/

namespace Verif.Disabled

open Verif Groups

/-- A notice. -/
inductive Notice where
  /-- "User disabled: ...", or "user ... disabled: please kick ... from gc" if `kick` is set, in the window with the
  key `key`. -/
  | told (key : Nat) (kick : Bool) (who : Id)
  /-- "User disabled: ..." with the identity, in the window in front of the user. -/
  | unnamed (who : Id)
  deriving DecidableEq, Repr

/-- Whom a notice is about. -/
def Notice.who : Notice → Id
  | .told _ _ w => w
  | .unnamed w => w

/-- `conversation`, /repo/zkclient/zkclient.go:284-294. `party` is the identity in it, nobody if it is a group. -/
structure Win where
  key : Nat
  nick : Bytes
  group : Bool
  party : Option Id
  seen : Nat
  deriving DecidableEq, Repr

/-- The client. `book` gives the nick under which an identity is in the address book, `groups` the members of groups,
the administrator first. `said` are the notices so far. -/
structure St where
  self : Id
  nick : Bytes
  book : GoMap Id Bytes
  groups : GoMap Bytes (List Id)
  wins : List Win
  fresh : Nat
  said : List Notice
  deriving DecidableEq, Repr

/-- "console" -/
def consoleText : Bytes := [99, 111, 110, 115, 111, 108, 101]

/-- A client that was just started: only window 0, /repo/zkclient/mainwindow.go:143-148 and 278. -/
def init (self : Id) (nick : Bytes) : St :=
  ⟨self, nick, [], [], [⟨0, consoleText, false, some self, 0⟩], 1, []⟩

/-- `addressBookFind`, /repo/zkclient/addressbook.go:100-105: the nick of the identity. -/
def St.find (s : St) (id : Id) : Option Bytes := if id = s.self then some s.nick else s.book.get id

/-- The loop of `handleDisabledUser`, /repo/zkclient/zkclient.go:1130-1177, over the remaining windows: the windows
afterwards and the notices; `none` if the client ends. -/
def walk (s : St) (id : Id) (nick : Bytes) : List Win → Option (List Win × List Notice)
  | [] => some ([], [])
  | w :: ws =>
    let go (w' : Win) (ns : List Notice) : Option (List Win × List Notice) :=
      (walk s id nick ws).map fun r => (w' :: r.1, ns ++ r.2)
    if w.group then
      match s.groups.get w.nick with
      | none => go w [.told w.key false id]
      | some [] => none
      | some (a :: ms) =>
        if a = s.self then go w [.told w.key true id]
        else if id ∈ a :: ms then
          if w.seen > 0 then go { w with seen := w.seen + 1 } []
          else go { w with seen := w.seen + 1 } [.told w.key false id]
        else go w []
    else if w.nick ≠ nick then go w []
    else if w.seen > 0 then go { w with seen := w.seen + 1 } []
    else some ({ w with seen := w.seen + 1 } :: ws, [.told w.key false id])

/-- `handleDisabledUser`, /repo/zkclient/zkclient.go:1117-1178. -/
def handle (s : St) (id : Id) : Option St :=
  match s.find id with
  | none => some { s with said := s.said ++ [.unnamed id] }
  | some nick => (walk s id nick s.wins).map fun r => { s with wins := r.1, said := s.said ++ r.2 }

/-- What happens. -/
inductive Ev where
  /-- The server acknowledges a message to `dst`, /repo/zkclient/zkclient.go:1459-1479. -/
  | ack (dst : Id) (a : Accounts.Ack)
  /-- A window is opened, /repo/zkclient/zkclient.go:342-470. -/
  | opened (nick : Bytes) (group : Bool) (party : Option Id)
  /-- A window other than window 0 is closed, /repo/zkclient/mainwindow.go:632-646. -/
  | closed (i : Nat)
  /-- The address book and the groups change. -/
  | world (book : GoMap Id Bytes) (groups : GoMap Bytes (List Id))
  deriving DecidableEq, Repr

def step (s : St) : Ev → Option St
  | .ack dst a => if a = .disabled then handle s dst else some s
  | .opened nick group party =>
    some { s with wins := s.wins ++ [⟨s.fresh, nick, group, party, 0⟩], fresh := s.fresh + 1 }
  | .closed i => some (if i = 0 then s else { s with wins := s.wins.eraseIdx i })
  | .world b g => some { s with book := b, groups := g }

/-- Executions in which every step satisfies `G`. -/
inductive Run (G : St → Ev → Prop) : St → List Ev → St → Prop
  | nil (s) : Run G s [] s
  | cons {s e s' es s''} : G s e → step s e = some s' → Run G s' es s'' → Run G s (e :: es) s''

end Verif.Disabled
