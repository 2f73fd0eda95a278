import Verif.Model.Common

/-! # The windows in which keys are exchanged

The main window, the window of `/kx`, the window that asks for the password of a blob that was fetched, and the windows
that ask whether a person is to be accepted: /repo/zkclient/kxwindow.go:93-163, /repo/zkclient/kxacceptwindow.go:98-191,
/repo/zkclient/acceptclientfingerprint.go:108-210, /repo/zkclient/mainwindow.go:160-189 and 430-444, the answer to a fetch,
/repo/zkclient/zkclient.go:1359-1379, and the keys that work everywhere, zkclient.go:2233-2278.

The terminal library `ttk` is not part of the repository.  What is assumed of it: a key goes to the window that has the
focus when the key is pressed; a line editor adds characters at its end or takes the last one away, has the text it was last
given by `SetText`, and stores its text when Enter is pressed, before the handler of the window runs; what is queued is done
before the next key.  Left out: cursor keys, the history and completion, the status lines of the windows, the windows of the
first start, and windows of conversations that are closed. -/

namespace Verif.Dialogs

open Verif

/-- The part of a `PublicIdentity`, /repo/zkidentity/zkidentity.go:46-56, that matters: the identity itself, which is also
the fingerprint (144-146), the names, and the keys. -/
structure Person where
  id : Nat
  name : Bytes
  nick : Bytes
  keys : Nat
  deriving DecidableEq, Repr

/-- The windows.  A window that asks about a person is new each time (kxacceptwindow.go:169-176). -/
inductive Win
  | main
  | kx
  | accept
  | client (n : Nat)
  deriving DecidableEq, Repr

/-- `acceptCFPWindow`, acceptclientfingerprint.go:20-33: the person that is shown, the key derived from the password, and
what is in the edit. -/
structure Dialog where
  who : Person
  dk : Nat
  text : Bytes
  deriving DecidableEq, Repr

/-- What leaves the windows. -/
inductive Out
  /-- a line of the main window is acted on -/
  | line (l : Bytes)
  /-- a PIN is fetched -/
  | fetch (pin : Bytes)
  /-- the own identity is given to the server, under a password -/
  | blob (pw : Bytes)
  /-- the key of that blob is kept -/
  | blobKey (pw : Bytes)
  /-- an offer to exchange keys is sent to a person; offers are counted, each has a ratchet of its own -/
  | offer (who : Person) (dk : Nat) (round : Nat)
  /-- the identity of a person is written to the disk -/
  | saved (who : Person)
  /-- the key for the answer is kept -/
  | kept (who : Person) (dk : Nat)
  /-- the half ratchet of an offer is written to the disk -/
  | half (who : Person) (round : Nat)
  | accepted (who : Person)
  | rejected (who : Person)
  deriving DecidableEq, Repr

/-- What a line of the main window is: mainwindow.go:430-444. -/
inductive Cmd
  | kx
  | fetch (pin : Bytes)
  | other
  deriving DecidableEq, Repr

/-- What is given: the own identity, how lines are read, and what a password makes of a blob (`UnpackSaltNonce`,
`DeriveKey`, `Decrypt` and `xdr.Unmarshal`, kxacceptwindow.go:113-141): the person and the derived key, or an error. -/
structure World where
  self : Nat
  cmd : Bytes → Cmd
  opens : Bytes → Bytes → Option (Person × Nat)

structure State where
  focus : Win
  /-- the edit of the main window -/
  line : Bytes
  /-- the edit of the window of `/kx` -/
  kxText : Bytes
  /-- the edit of the window for the password of a fetched blob -/
  pwText : Bytes
  /-- `kaw.rendezvousPullReply` -/
  reply : Option Bytes
  dialogs : List Dialog
  /-- `identityExists`, /repo/zkclient/identity.go:31-49 -/
  book : Nat → Bool
  online : Bool
  /-- `z.active` and the number of conversations -/
  active : Nat
  count : Nat
  rounds : Nat
  out : List Out
  crashed : Bool

/-- The client after its start, zkclient.go:2159-2203. -/
def start (book : Nat → Bool) (count : Nat) : State :=
  ⟨.main, [], [], [], none, [], book, false, 0, count, 0, [], false⟩

inductive Key
  | char (c : UInt8)
  | back
  | enter
  | f10
  deriving DecidableEq, Repr

/-- A failure of the disk while a key is handled. -/
inductive Fault
  | none
  | identity
  | key
  | ratchet
  deriving DecidableEq, Repr

inductive Event
  | key (k : Key) (f : Fault)
  /-- Ctrl-P, Ctrl-N, and Alt with a digit -/
  | prev
  | next
  | jump (d : Nat)
  /-- a `RendezvousPullReply`: a blob, or an error -/
  | reply (r : Option Bytes)
  | online (b : Bool)
  /-- a person is added or removed in some other way -/
  | book (id : Nat) (b : Bool)

/-- A line editor. -/
def edit (t : Bytes) : Key → Bytes
  | .char c => t ++ [c]
  | .back => t.dropLast
  | _ => t

/-- `strings.ToLower`, for ASCII letters. -/
def lower (t : Bytes) : Bytes := t.map fun c => if 65 ≤ c ∧ c ≤ 90 then c + 32 else c

def yes : Bytes := [121, 101, 115]

/-- `KeyHandler` of the main window, mainwindow.go:160-189: an empty line does nothing, the edit is emptied, and the line is
acted on.  `/kx` (430-438) and `/fetch` (440-444, zkclient.go:1695-1714) need a connection. -/
def mainKey (w : World) (s : State) : Key → State
  | .enter =>
    if s.line = [] then s
    else
      let s' := { s with line := [], out := s.out ++ [.line s.line] }
      match w.cmd s.line with
      | .kx => if s.online then { s' with focus := .kx } else s'
      | .fetch pin => if s.online then { s' with out := s'.out ++ [.fetch pin] } else s'
      | .other => s'
  | k => { s with line := edit s.line k }

/-- `KeyHandler` of the window of `/kx`, kxwindow.go:93-163: the blob is sent, the key is kept, the edit is emptied. -/
def kxKey (s : State) (f : Fault) : Key → State
  | .enter =>
    if !s.online then s
    else
      let s1 := { s with out := s.out ++ [.blob s.kxText] }
      if f = .key then s1
      else { s1 with out := s1.out ++ [.blobKey s.kxText], kxText := [], focus := .main }
  | .f10 => { s with kxText := [], focus := .main }
  | k => { s with kxText := edit s.kxText k }

/-- `KeyHandler` of the window for the password, kxacceptwindow.go:98-191.  The edit is emptied by F10 only. -/
def acceptKey (w : World) (s : State) : Key → State
  | .enter =>
    match s.reply with
    | none => { s with crashed := true }
    | some b =>
      match w.opens s.pwText b with
      | none => s
      | some (p, dk) =>
        if p.id = w.self then s
        else if s.book p.id then s
        else { s with dialogs := s.dialogs ++ [⟨p, dk, []⟩], focus := .client s.dialogs.length }
  | .f10 => { s with pwText := [], focus := .main }
  | k => { s with pwText := edit s.pwText k }

/-- Yes to a person, acceptclientfingerprint.go:122-208: an offer with a new ratchet is sent, then the identity, the key and
the half ratchet are written.  `newIdentity` is always true.  Keys cannot fail to be made. -/
def agree (s : State) (d : Dialog) (f : Fault) : State :=
  if !s.online then s
  else
    let s1 := { s with out := s.out ++ [.offer d.who d.dk s.rounds], rounds := s.rounds + 1 }
    if s1.book d.who.id ∨ f = .identity then s1
    else
      let s2 := { s1 with out := s1.out ++ [.saved d.who] }
      if f = .key then s2
      else
        let s3 := { s2 with out := s2.out ++ [.kept d.who d.dk] }
        if f = .ratchet then s3
        else { s3 with out := s3.out ++ [.half d.who s.rounds, .accepted d.who],
                       book := fun i => if i = d.who.id then true else s3.book i, focus := .main }

/-- `KeyHandler` of a window that asks about a person, acceptclientfingerprint.go:108-210. -/
def clientKey (s : State) (n : Nat) (f : Fault) (k : Key) : State :=
  match s.dialogs[n]? with
  | none => { s with crashed := true }
  | some d =>
    match k with
    | .enter =>
      if lower d.text = yes then agree s d f
      else { s with out := s.out ++ [.rejected d.who], focus := .main }
    | k => { s with dialogs := s.dialogs.set n { d with text := edit d.text k } }

/-- `z.focus`, zkclient.go:241-285, as far as it matters. -/
def conv (s : State) (id : Nat) : State := if id < s.count then { s with active := id } else s

def step (w : World) (s : State) : Event → State
  | .key k f =>
    match s.focus with
    | .main => mainKey w s k
    | .kx => kxKey s f k
    | .accept => acceptKey w s k
    | .client n => clientKey s n f k
  | .prev => if s.active = 0 then conv s (s.count - 1) else conv s (s.active - 1)
  | .next => if s.active + 1 > s.count - 1 then conv s 0 else conv s (s.active + 1)
  | .jump d => conv s d
  | .reply none => s
  | .reply (some b) => { s with reply := some b, focus := .accept }
  | .online b => { s with online := b }
  | .book id b => { s with book := fun i => if i = id then b else s.book i }

def run (w : World) (s : State) (es : List Event) : State := es.foldl (step w) s

end Verif.Dialogs
