import Verif.Model.AddressBook

/-!
# Deleting a contact: zkclient/addressbook.go, msg.go, zkclient.go, push.go, reset.go, identity.go

One client with all of its contacts, from `/addressbook del` to the removal of the files, with lost connections, restarts
and key exchanges in between. The deletion is not done by the command: the contact is told first, and what is to be
deleted is deleted when the server has answered that message.

Simplifications.

* Payloads and cryptography are left out: a key exchange is a blob key and the identity that is introduced, a message is
  a number. Messages of a contact with a ratchet decrypt.
* All messages of the client go through one queue; both queues of /repo/zkclient/msg.go behave alike for each message.
* The ratchet is written before the server answers, /repo/zkclient/msg.go:510.
* Besides the removal of directories, disk writes succeed.
* A directory under inbound/ is known by the identity it is named after.
-/

namespace Verif.Deletion

open Verif AddressBook

/-- `wireMsg`, /repo/zkclient/msg.go:27-32: for whom, and, if the message tells of a deletion, the nick that was typed
(which the callback knows). -/
structure Job where
  to_ : Bytes
  del : Option Bytes
  deriving DecidableEq, Repr

/-- What the user is told. -/
inductive Notice
  /-- "nick not found", /repo/zkclient/addressbook.go:26 -/
  | notFound (nick : Bytes)
  /-- "could not delete … from address book", /repo/zkclient/addressbook.go:32-36 -/
  | notDeleted (nick i : Bytes)
  /-- "delete …: …", /repo/zkclient/addressbook.go:43 -/
  | notRemoved (nick i : Bytes)
  /-- "deleted user: …", /repo/zkclient/addressbook.go:46 -/
  | deleted (nick i : Bytes)
  /-- "Message cannot be delivered", /repo/zkclient/msg.go:452-455 -/
  | undeliverable (j : Job)
  /-- "CRPC (rescheduled)", /repo/zkclient/msg.go:157-160 -/
  | rescheduled (j : Job)
  /-- "cache error", /repo/zkclient/zkclient.go:1460-1463 -/
  | cacheError
  /-- "queue not empty", /repo/zkclient/mainwindow.go:672-674 -/
  | queueNotEmpty
  /-- a message of a contact -/
  | shown (from_ : Bytes) (m : Nat)
  deriving DecidableEq, Repr

/-- The client. -/
structure State where
  /-- the address book -/
  book : Book := []
  /-- publicidentity.xdr of each directory under inbound/ -/
  files : GoMap Bytes PubId := []
  /-- directories with halfratchet.xdr -/
  half : List Bytes := []
  /-- directories with ratchet.xdr -/
  full : List Bytes := []
  /-- blobkeys.ini, from which nothing is ever removed, /repo/zkclient/blobkeys.go:28-44 -/
  keys : List Nat := []
  online : Bool := false
  /-- what the scheduler has to send -/
  queue : List Job := []
  /-- what was sent and is not answered; `tagCallback` -/
  flight : List Job := []
  /-- callbacks that have not begun: nick and identity -/
  calls : List (Bytes × Bytes) := []
  /-- callbacks that have removed the contact from the address book, but not its files -/
  removing : List (Bytes × Bytes) := []
  /-- record: what the user was told -/
  said : List Notice := []
  /-- record: deletions that were asked for, with the identity that the nick had -/
  asked : List (Bytes × Bytes) := []
  /-- record: to whom the news of a deletion was sent -/
  told : List Bytes := []
  /-- record: deletions of which the server has answered the news -/
  answered : List (Bytes × Bytes) := []
  deriving DecidableEq, Repr

/-- `identityExists`, /repo/zkclient/identity.go:31-49. -/
def State.exists_ (s : State) (i : Bytes) : Bool := (s.files.get i).isSome && (i ∈ s.half || i ∈ s.full)

/-- `addressBookAdd`, /repo/zkclient/addressbook.go:60-72. -/
def addBook (me : Bytes) (b : Book) (p : PubId) : Book :=
  if p.identity = me then b
  else
    match add b p with
    | some (_, b') => b'
    | none => b

/-- The client tells the user. -/
def State.say (s : State) (n : Notice) : State := { s with said := s.said ++ [n] }

/-- What can happen. -/
inductive Ev
  /-- the user types `/addressbook del nick`, /repo/zkclient/mainwindow.go:688-696 -/
  | ab (nick : Bytes)
  /-- the client sends something else to a contact -/
  | send (i : Bytes)
  /-- the scheduler takes up the next message; `fails` is whether it cannot be written, or there is no tag -/
  | work (fails : Bool)
  /-- the server answers a message, perhaps with an error -/
  | answer (j : Job) (error : Bool)
  /-- the first part of a callback; `order` is how Go walks the map -/
  | forget (nick i : Bytes) (order : List (Bytes × PubId))
  /-- the second part; which of the identity, the half ratchet and the ratchet cannot be removed -/
  | remove (nick i : Bytes) (keep : Bool × Bool × Bool)
  | online
  /-- the connection is closed or lost -/
  | offline
  /-- the user makes a PIN, so that there is a blob key, /repo/zkclient/kxwindow.go:94-163 -/
  | pin (k : Nat)
  /-- the user makes contact with what a PIN or the directory gave -/
  | offer (k : Nat) (p : PubId)
  /-- the first message of a key exchange arrives -/
  | idkx (from_ : Bytes) (k : Nat) (p : PubId)
  /-- the second message of a key exchange arrives -/
  | kx (from_ : Bytes) (k : Nat)
  /-- the user types `/reset nick` -/
  | reset (nick : Bytes)
  /-- a contact resets; `sent` is whether the answer could be sent -/
  | resetBy (from_ : Bytes) (k : Nat) (sent : Bool)
  /-- a message of a contact arrives -/
  | push (from_ : Bytes) (m : Nat)
  /-- the user types `/quit` and starts the client again, which finds the directories in the order `l` -/
  | quit (l : List PubId)
  /-- the client is killed, or quits by force, and is started again -/
  | killed (l : List PubId)
  deriving DecidableEq, Repr

/-- `loadIdentities`, /repo/zkclient/addressbook.go:108-138, in a client that has just begun: the files are what is left. -/
def restart (me : Bytes) (s : State) (l : List PubId) : State :=
  if l.Perm (s.files.map Prod.snd) then
    { s with book := l.foldl (addBook me) [], online := false, queue := [], flight := [], calls := [], removing := [] }
  else s

/-- `cacheCRPC`, /repo/zkclient/msg.go:437-519, of the message at the head of the queue, /repo/zkclient/msg.go:131-184.
Without a ratchet the message is dropped, with its callback. -/
def work (s : State) (fails : Bool) : State :=
  match s.queue with
  | [] => s
  | j :: rest =>
    if s.online = false then s.say (.rescheduled j)
    else if ¬ (j.to_ ∈ s.full ∧ (s.files.get j.to_).isSome) then
      ({ s with queue := rest }).say (.undeliverable j)
    else if fails then s.say (.rescheduled j)
    else { s with queue := rest, flight := s.flight ++ [j], told := if j.del.isSome then s.told ++ [j.to_] else s.told }

/-- The first message of a key exchange: `step2IDKX`, /repo/zkclient/push.go:162-291, and `step2IDKX2`,
/repo/zkclient/push.go:293-397, which any blob key, or the directory, lets in. -/
def idkx (dir : Bool) (me : Bytes) (s : State) (from_ : Bytes) (k : Nat) (p : PubId) : State :=
  if s.exists_ from_ then s
  else if (dir = false ∧ k ∉ s.keys) ∨ p.identity = me ∨ s.exists_ p.identity = true then s
  else { s with files := s.files.set p.identity p, full := p.identity :: s.full, book := addBook me s.book p }

/-- One event. `dir` is whether the server has a directory, `me` the own identity. -/
def step (dir : Bool) (me : Bytes) (s : State) : Ev → State
  /- `addressBookDel`, /repo/zkclient/addressbook.go:23-56 -/
  | .ab nick =>
    match findNick s.book nick with
    | none => s.say (.notFound nick)
    | some p => { s with queue := s.queue ++ [⟨p.identity, some nick⟩], asked := s.asked ++ [(nick, p.identity)] }
  | .send i => { s with queue := s.queue ++ [⟨i, none⟩] }
  | .work fails => work s fails
  /- `Acknowledge`, /repo/zkclient/zkclient.go:1425-1478: the callback is called whether or not there was an error -/
  | .answer j error =>
    if j ∈ s.flight then
      let s := { s with flight := s.flight.erase j }
      let s := if error then s.say .cacheError else s
      match j.del with
      | none => s
      | some nick => { s with calls := s.calls ++ [(nick, j.to_)], answered := s.answered ++ [(nick, j.to_)] }
    else s
  /- /repo/zkclient/addressbook.go:30-37 -/
  | .forget nick i order =>
    if (nick, i) ∈ s.calls ∧ order.Perm s.book then
      let s := { s with calls := s.calls.erase (nick, i) }
      match AddressBook.del s.book i order with
      | none => s.say (.notDeleted nick i)
      | some b => { s with book := b, removing := s.removing ++ [(nick, i)] }
    else s
  /- /repo/zkclient/addressbook.go:39-46 -/
  | .remove nick i (keepId, keepHalf, keepFull) =>
    if (nick, i) ∈ s.removing then
      let s := { s with
        removing := s.removing.erase (nick, i)
        files := if keepId then s.files else s.files.del i
        half := if keepHalf then s.half else s.half.filter (· ≠ i)
        full := if keepFull then s.full else s.full.filter (· ≠ i) }
      s.say (if keepId || keepHalf || keepFull then .notRemoved nick i else .deleted nick i)
    else s
  /- `goOnline`, /repo/zkclient/zkclient.go:941: there is nothing in flight on a new connection -/
  | .online => { s with online := true, flight := [] }
  | .offline => { s with online := false, flight := [] }
  | .pin k => { s with keys := s.keys ++ [k] }
  /- `step1IDKX`, /repo/zkclient/zkclient.go:1053-1115: the address book waits for the answer -/
  | .offer k p =>
    if p.identity = me ∨ s.exists_ p.identity = true then s
    else { s with files := s.files.set p.identity p, keys := s.keys ++ [k], half := p.identity :: s.half }
  | .idkx from_ k p => idkx dir me s from_ k p
  /- `step3IDKX`, /repo/zkclient/push.go:54-160 -/
  | .kx from_ k =>
    match s.files.get from_ with
    | none => s
    | some p =>
      if from_ ∈ s.full ∨ from_ ∉ s.half ∨ k ∉ s.keys then s
      else { s with full := from_ :: s.full, half := s.half.filter (· ≠ from_), book := addBook me s.book p }
  /- `reset`, /repo/zkclient/zkclient.go:1768-1840 -/
  | .reset nick =>
    if s.online = false then s
    else
      match findNick s.book nick with
      | none => s
      | some p =>
        { s with half := s.half.filter (· ≠ p.identity), full := s.full.filter (· ≠ p.identity) }
  /- `handleResetRatchet`, /repo/zkclient/reset.go:52-71 -/
  | .resetBy from_ k sent =>
    if (s.files.get from_).isSome then
      let s := { s with half := s.half.filter (· ≠ from_), full := s.full.filter (· ≠ from_) }
      if sent then { s with keys := s.keys ++ [k], half := from_ :: s.half } else s
    else s
  /- the rest of `handlePush`, /repo/zkclient/push.go:430-475 -/
  | .push from_ m =>
    if s.exists_ from_ = true ∧ from_ ∈ s.full then s.say (.shown from_ m) else s
  /- /repo/zkclient/mainwindow.go:657-677: messages that wait to be sent count, answers that are awaited do not -/
  | .quit l => if s.queue = [] then restart me s l else s.say .queueNotEmpty
  | .killed l => restart me s l

/-- A sequence of events, the first one first. -/
def run (dir : Bool) (me : Bytes) (s : State) (es : List Ev) : State := es.foldl (step dir me) s

/-- States that a client gets into. -/
def Reach (dir : Bool) (me : Bytes) (s : State) : Prop := ∃ es, run dir me {} es = s

end Verif.Deletion
