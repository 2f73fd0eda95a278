import Verif.Model.Common

/-! # Looking a name up in the server's directory

A client that does not know a name asks the directory of the server for it: `find`
(/repo/zkclient/zkclient.go:1717-1765), its three callers (the command `/find`, `addressBookConversation` at
addressbook.go:74-95 behind `/m`, `/q` and `/send`, and `handleGroupInvite` at push.go:721-762), the goroutine that
writes what is queued (msg.go:120-194), and what is done with the answer (zkclient.go:1480-1512).

Simplifications.
* One client.  What the server answers is an event; what an honest server answers is said by the theorems.
* Whether a tag is in the pool is a part of the event: other requests take and return them.
* Only lookups are kept of what is queued and written; their order is that in which they were scheduled.  (All are
  scheduled with high priority, zkclient.go:1752.)
* `find` is one event: between its check of the address book and its lock nothing else is modelled.
* A write succeeds or leaves the message in the queue (msg.go:171-181).  A message that was written may still never
  arrive; then its answer never comes.
* The key exchange that an answer starts is only recorded (C86 has it); that it ended well is the event `learn`.
* An answer whose tag is not in use ends the session before it is acted on (zkclient.go:1497-1502); this is left out. -/

namespace Verif.Lookup

/-- An identity: the name it carries and its public key. -/
structure Ident where
  nick : Bytes
  key : Nat
  deriving DecidableEq, Repr

/-- What the user is shown. -/
inductive Notice
  /-- An error of `find`, shown after `/find`. -/
  | refused (nick : Bytes)
  /-- "Attempting key exchange with". -/
  | attempting (nick : Bytes)
  /-- "nick not found in directory". -/
  | notInDirectory (nick : Bytes)
  /-- "nick not found", "can't interact with self". -/
  | notKnown (nick : Bytes)
  /-- The error of the server. -/
  | server (nick : Bytes)
  deriving DecidableEq, Repr

structure State where
  /-- The name of this client. -/
  me : Bytes
  online : Bool := false
  /-- `z.directory`: what the server of the last session said. -/
  directory : Bool := false
  /-- The names in the address book. -/
  book : List Bytes := []
  /-- `pendingIdentities`. -/
  pending : List Bytes := []
  /-- Lookups in the queue. -/
  queue : List Bytes := []
  /-- Lookups written in this session that have not been answered. -/
  sent : List Bytes := []
  /-- The identities that answers started a key exchange with, latest first. -/
  kx : List Ident := []
  /-- What the user was shown, latest first. -/
  told : List Notice := []
  deriving DecidableEq, Repr

inductive Ev
  /-- `/find nick`. -/
  | find (nick : Bytes) (tag : Bool)
  /-- `/m`, `/q` or `/send` to a name. -/
  | talk (nick : Bytes) (tag : Bool)
  /-- An invitation to a group came, with the names of its members, each with what the pool had at that time. -/
  | invited (members : List (Bytes × Bool))
  /-- The first lookup of the queue is written. -/
  | write
  /-- An answer comes: the name it is for, and the identity or an error. -/
  | reply (nick : Bytes) (answer : Option Ident)
  /-- The connection is lost. -/
  | lose
  /-- A session begins with a server that has a directory or has not. -/
  | connect (directory : Bool)
  /-- A key exchange ended well. -/
  | learn (nick : Bytes)
  /-- A contact is deleted. -/
  | forget (nick : Bytes)
  /-- The program ends and is started again: what is kept in memory is lost. -/
  | restart
  deriving DecidableEq, Repr

/-- `find` (zkclient.go:1717-1765). -/
def find (s : State) (nick : Bytes) (tag : Bool) : Option State :=
  if !s.online then none
  else if !s.directory then none
  else if nick = [] then none
  else if nick = s.me then none
  else if nick ∈ s.book then none
  else if nick ∈ s.pending then none
  else if !tag then none
  else some { s with queue := s.queue ++ [nick], pending := nick :: s.pending }

/-- `/find` shows the error of `find` (mainwindow.go:705-709). -/
def cmdFind (s : State) (nick : Bytes) (tag : Bool) : State :=
  match find s nick tag with
  | some s' => s'
  | none => { s with told := .refused nick :: s.told }

/-- `addressBookConversation` (addressbook.go:74-95) and what the commands show of its error (mainwindow.go:461-470,
554-563, zkclient.go:486-494).  Nothing of a name that is in the book is modelled. -/
def cmdTalk (s : State) (nick : Bytes) (tag : Bool) : State :=
  if nick = s.me then { s with told := .notKnown nick :: s.told }
  else if nick ∈ s.book then s
  else if s.directory then
    match find s nick tag with
    | some s' => { s' with told := .attempting nick :: s'.told }
    | none => { s with told := .notInDirectory nick :: s.told }
  else { s with told := .notKnown nick :: s.told }

/-- The loop over the members in `handleGroupInvite` (push.go:745-757): the errors of `find` go to the debug log. -/
def invited (s : State) : List (Bytes × Bool) → State
  | [] => s
  | (nick, tag) :: ms =>
    if nick ∈ s.book then invited s ms
    else invited ((find s nick tag).getD s) ms

/-- An answer (zkclient.go:1480-1512).  The name is only used to end the wait; the identity is not compared with it. -/
def reply (s : State) (nick : Bytes) (answer : Option Ident) : State :=
  let s := { s with sent := s.sent.erase nick,
                    pending := if nick = [] then s.pending else s.pending.filter (· ≠ nick) }
  match answer with
  | none => { s with told := .server nick :: s.told }
  | some i => { s with kx := i :: s.kx }

def step (s : State) : Ev → Option State
  | .find n t => some (cmdFind s n t)
  | .talk n t => some (cmdTalk s n t)
  | .invited ms => if s.online then some (invited s ms) else none
  | .write =>
    if s.online then
      match s.queue with
      | [] => none
      | n :: q => some { s with queue := q, sent := s.sent ++ [n] }
    else none
  | .reply n a => if s.online then some (reply s n a) else none
  | .lose => if s.online then some { s with online := false, sent := [] } else none
  | .connect d => if s.online then none else some { s with online := true, directory := d }
  | .learn n => some { s with book := n :: s.book }
  | .forget n => some { s with book := s.book.filter (· ≠ n) }
  | .restart => some { me := s.me, book := s.book }

def run : State → List Ev → Option State
  | s, [] => some s
  | s, e :: es => (step s e).bind fun s' => run s' es

/-- The client is started with an address book. -/
def init (me : Bytes) (book : List Bytes) : State := { me, book }

end Verif.Lookup
