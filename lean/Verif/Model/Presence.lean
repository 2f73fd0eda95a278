import Verif.Model.Accounts
import Verif.Model.Rendezvous

/-! # What the server tells its users of each other

All requests of all users, one after the other, and everything that the server sends: `handleSession`,
/repo/zkserver/zkserver.go:336-588, with the accounts of `Verif.Accounts`, what is announced to a user as in
`Verif.Delivery`, and the PINs of `Verif.Rendezvous`.

Simplifications.
* A request is handled in one step. What may come between its parts is in `Accounts`, `Delivery` and `Rendezvous`.
* Whether the sender of a request has a session is not asked by `step`; `proper` has it.
* How many announced messages may be without acknowledgement (C31-C34), pings, and the words of the welcome (C128)
  are left out, and so is how long an answer takes.
* If `Push` fails (`user.ini` is missing) the user is not online; C37 has what happens then. -/

namespace Verif.Presence

open Verif.Accounts

/-- Settings: whether there is a directory (`directory`), `MaxMsgSize`, and the identities in the order in which
`ioutil.ReadDir` lists them. -/
structure Config where
  dir : Bool
  limit : Nat
  order : List Id

/-- The accounts; for everybody who is online what was announced to them in this session; the PINs. -/
structure State where
  acc : Accounts.State
  online : Id → Option (List Name)
  pins : Rendezvous.DB

def init : State := ⟨Accounts.init, fun _ => none, []⟩

/-- The listing that `Find` goes over, /repo/zkserver/account/account.go:193-200: names with a dot come first. -/
def listing (cfg : Config) (s : Accounts.State) : List Acct :=
  cfg.order.filterMap s.disabled.get ++ cfg.order.filterMap s.enabled.get

/-- What happens. -/
inductive Ev where
  /-- `handleAccountCreate`, where the policy allows it, /repo/zkserver/account.go:36-82 -/
  | register (pid : Pub)
  /-- a session begins, /repo/zkserver/zkserver.go:673-402 -/
  | login (who : Id)
  /-- a session ends, lines 405-420 -/
  | logout (who : Id)
  /-- `handleCache`, and `handleProxy` if `clear`, /repo/zkserver/cache.go:18-121 -/
  | send (who dst : Id) (clear : Bool) (payload : Bytes) (t : Int) (w : Write)
  /-- `sessionNtfn` sends the next message that was not announced yet, zkserver.go:257-332 -/
  | announce (who : Id)
  /-- `TaggedCmdAcknowledge`, zkserver.go:511-556 -/
  | ack (who : Id) (n : Name)
  /-- `handleIdentityFind`, /repo/zkserver/account.go:84-101 -/
  | find (who : Id) (nick : Bytes)
  /-- `handleRendezvous` -/
  | leave (who : Id) (blob exp : Bytes) (rand : Nat → Option Nat)
  /-- `handleRendezvousPull` -/
  | pull (who : Id) (token : Bytes)
  /-- the administrator, zkserver.go:748-795 -/
  | disable (id : Id)
  | enable (id : Id)
  /-- the server is stopped and started again -/
  | restart

/-- What somebody gets from the server. -/
inductive Out where
  /-- the answer to a request for an account -/
  | registered (ok : Bool)
  /-- the welcome, or a refusal, `disabled` if the account is -/
  | welcome
  | unwelcome (disabled : Bool)
  | ack (a : Ack)
  | proxied (ok : Bool)
  | push (n : Delivery.Note)
  | found (p : Option Pub)
  | pin (o : Rendezvous.Out)
  /-- the connection is closed -/
  | closed
  deriving DecidableEq

def setOnline (s : State) (who : Id) (v : Option (List Name)) : State :=
  { s with online := fun x => if x = who then v else s.online x }

/-- The next message to be announced, if the user is online: the first of the directory that was not, account.go:439-498. -/
def pending (s : State) (who : Id) : Option (List Name × Name × GoMap Name Bytes) :=
  match s.online who, (s.acc.enabled.get who).bind Acct.cache with
  | some p, some c =>
    match (Delivery.listing c).find? (· ∉ p) with
    | none => none
    | some n => some (p, n, c)
  | _, _ => none

/-- One event, at the time `n`, by which files are named; what is sent, and to whom. -/
def step (cfg : Config) (s : State) (n : Name) : Ev → State × List (Id × Out)
  | .register pid =>
    if createCheck s.acc (listing cfg s.acc) pid false then
      ({ s with acc := { s.acc with
          enabled := s.acc.enabled.set pid.identity (created (s.acc.enabled.get pid.identity) pid) } },
        [(pid.identity, .registered true)])
    else (s, [(pid.identity, .registered false)])
  | .login who =>
    if admit s.acc who then
      match s.online who with
      | some _ => (setOnline s who none, [(who, .closed)])
      | none =>
        if cfg.dir then
          match push s.acc who with
          | (true, a) => (setOnline { s with acc := a } who (some []), [(who, .welcome)])
          | (false, _) => (s, [(who, .welcome), (who, .closed)])
        else (setOnline s who (some []), [(who, .welcome)])
    else (s, [(who, .unwelcome (s.acc.isDisabled who))])
  | .logout who => (setOnline s who none, [])
  | .send who dst clear payload t w =>
    if clear then
      match handleProxy s.acc s.acc who dst payload n t w with
      | (ok, a) => ({ s with acc := a }, [(who, .proxied ok)])
    else
      match handleCache s.acc s.acc who dst payload n t w with
      | (ok, a) => ({ s with acc := a }, [(who, .ack ok)])
  | .announce who =>
    match pending s who with
    | none => (s, [])
    | some (p, m, c) =>
      match Delivery.readNote c m with
      | .msg m' d => (setOnline s who (some (m :: p)), [(who, .push (.msg m' d))])
      | _ => (setOnline s who none, [(who, .closed)])
  | .ack who m =>
    match delete s.acc who m with
    | (true, a) => (setOnline { s with acc := a } who ((s.online who).map (·.filter (· ≠ m))), [])
    | (false, _) => (s, [])
  | .find who nick => (s, [(who, .found (Accounts.find (listing cfg s.acc) nick))])
  | .leave who blob exp rand =>
    match Rendezvous.answer ⟨blob, exp, s.pins⟩ rand with
    | (o, none) => (s, [(who, .pin o)])
    | (o, some db) => ({ s with pins := db }, [(who, .pin o)])
  | .pull who token => (s, [(who, .pin (Rendezvous.pull cfg.limit s.pins token))])
  | .disable id =>
    match disable s.acc id with
    | (true, a) => (setOnline { s with acc := a } id none, if (s.online id).isSome then [(id, .closed)] else [])
    | (false, _) => (s, [])
  | .enable id => ({ s with acc := (enable s.acc id).2 }, [])
  | .restart => ({ s with online := fun _ => none }, [])

/-- A history: events and when they happened. What everybody is sent, first to last. -/
def run (cfg : Config) (s : State) : List (Name × Ev) → State × List (Id × Out)
  | [] => (s, [])
  | (n, e) :: h =>
    let (s', o) := step cfg s n e
    let (s'', os) := run cfg s' h
    (s'', o ++ os)

/-- Who makes a request; `none`: it needs no session. -/
def Ev.asker : Ev → Option Id
  | .send who .. => some who
  | .ack who _ => some who
  | .find who _ => some who
  | .leave who .. => some who
  | .pull who _ => some who
  | .logout who => some who
  | _ => none

/-- Requests are made by users who are online, C67. -/
def proper (cfg : Config) (s : State) : List (Name × Ev) → Bool
  | [] => true
  | (n, e) :: h =>
    (match e.asker with
     | none => true
     | some who => (s.online who).isSome) && proper cfg (step cfg s n e).1 h

end Verif.Presence
