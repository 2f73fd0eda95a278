import Verif.Model.StoredMessage
import Verif.Model.GoMap
import Verif.Model.Identity
import Verif.Model.Hex
import Verif.Model.Delivery

/-! # Accounts: zkserver/account/account.go, zkserver/cache.go, zkserver/account.go

The directory of users. An account is a directory named by the identity in hexadecimal, or by a dot and
the identity if it is disabled. `user.ini` is represented by its two records (C27 and C28 are about the
file itself), its `identity` record by the public identity encoded in it. Every step is one call, except
`Create` and `Deliver`, which do their checks without holding the lock and are two steps each. -/

namespace Verif.Accounts

open Verif Verif.Stored

abbrev Id := Bytes
abbrev Pub := Identity.PublicIdentity
abbrev Name := Delivery.Name

/-- `user.ini`: the `identity` record and whether `listed` is 1. -/
structure User where
  identity : Option Pub
  listed : Bool
  deriving DecidableEq, Repr

/-- The directory of an account: `user.ini` and the cache directory, if they exist. -/
structure Acct where
  user : Option User
  cache : Option (GoMap Name Bytes)
  deriving DecidableEq, Repr

/-- The users directory, and the calls of `Create` that have passed their checks. -/
structure State where
  enabled : GoMap Id Acct
  disabled : GoMap Id Acct
  creating : List Pub
  deriving DecidableEq, Repr

def init : State := ⟨[], [], []⟩

/-- All directories. -/
def State.dirs (s : State) : List Acct := s.disabled.map Prod.snd ++ s.enabled.map Prod.snd

/-- `Find`, /repo/zkserver/account/account.go:193-234, over the listing of the users directory; `none` is
an error, including the error of the first directory whose `user.ini` can not be opened. -/
def find : List Acct → Bytes → Option Pub
  | [], _ => none
  | a :: rest, nick =>
    match a.user with
    | none => none
    | some u =>
      if u.listed then
        match u.identity with
        | none => none
        | some p => if p.nick = nick then some p else find rest nick
      else find rest nick

/-- The checks of `Create`, /repo/zkserver/account/account.go:123-137; `false` is an error. -/
def createCheck (s : State) (listing : List Acct) (pid : Pub) (force : Bool) : Bool :=
  if (find listing pid.nick).isSome then false
  else if (s.enabled.get pid.identity).isSome then force
  else true

/-- The account as `Create` leaves it, /repo/zkserver/account/account.go:139-167: what exists is kept. -/
def created (old : Option Acct) (pid : Pub) : Acct :=
  let user := ((old.bind Acct.user).getD ⟨none, false⟩)
  ⟨some { user with identity := some pid }, some ((old.bind Acct.cache).getD [])⟩

/-- The account if the server dies within `Create`: after creating the directory, after creating `user.ini`,
after saving it. -/
def createdPart (old : Option Acct) (pid : Pub) (stage : Nat) : Acct :=
  match stage with
  | 0 => ⟨old.bind Acct.user, old.bind Acct.cache⟩
  | 1 => ⟨some ((old.bind Acct.user).getD ⟨none, false⟩), old.bind Acct.cache⟩
  | _ => ⟨(created old pid).user, old.bind Acct.cache⟩

/-- `Disabled`, lines 236-239. -/
def State.isDisabled (s : State) (id : Id) : Bool := (s.disabled.get id).isSome

/-- `Enabled`, lines 241-244. -/
def State.isEnabled (s : State) (id : Id) : Bool := (s.enabled.get id).isSome

/-- `Disable`, lines 246-265; the `Bool` is success. -/
def disable (s : State) (id : Id) : Bool × State :=
  if (s.disabled.get id).isSome then (false, s)
  else match s.enabled.get id with
    | none => (false, s)
    | some a => (true, { s with enabled := s.enabled.del id, disabled := s.disabled.set id a })

/-- `Enable`, lines 267-286. -/
def enable (s : State) (id : Id) : Bool × State :=
  match s.disabled.get id with
  | none => (false, s)
  | some a =>
    if (s.enabled.get id).isSome then (false, s)
    else (true, { s with disabled := s.disabled.del id, enabled := s.enabled.set id a })

/-- Set the `listed` record of an account. -/
def setListed (s : State) (id : Id) (v : Bool) : Bool × State :=
  match s.enabled.get id with
  | none => (false, s)
  | some a =>
    match a.user with
    | none => (false, s)
    | some u => (true, { s with enabled := s.enabled.set id { a with user := some { u with listed := v } } })

/-- `Push`, lines 170-191. -/
def push (s : State) (id : Id) : Bool × State := setListed s id true

/-- `Pull`, lines 288-309; `inidb.New` makes sure that the table exists, so deleting succeeds. -/
def pull (s : State) (id : Id) : Bool × State := setListed s id false

/-- Outcomes of `ioutil.WriteFile` for a path whose directory exists. -/
inductive Write where
  | ok
  /-- fails before the file is created -/
  | fail
  /-- fails after `k` bytes -/
  | short (k : Nat)
  deriving DecidableEq, Repr

/-- The check of `Deliver`, lines 333-338: is there no such file? -/
def deliverCheck (s : State) (dst : Id) (n : Name) : Bool :=
  match (s.enabled.get dst).bind Acct.cache with
  | none => true
  | some c => (c.get n).isNone

/-- Put a file into the cache directory. -/
def putFile (s : State) (dst : Id) (n : Name) (f : Bytes) : State :=
  match s.enabled.get dst with
  | none => s
  | some a => { s with enabled := s.enabled.set dst { a with cache := a.cache.map (·.set n f) } }

/-- The rest of `Deliver`, lines 340-361, without the signal to the goroutine, which `Verif.Delivery` has. -/
def deliverWrite (s : State) (dst : Id) (n : Name) (m : DiskMessage) (w : Write) : Bool × State :=
  match (s.enabled.get dst).bind Acct.cache with
  | none => (false, s)
  | some _ =>
    match w with
    | .ok => (true, putFile s dst n (marshal m))
    | .fail => (false, s)
    | .short k => (false, putFile s dst n ((marshal m).take k))

/-- `Delete`, lines 364-381. -/
def delete (s : State) (id : Id) (n : Name) : Bool × State :=
  match s.enabled.get id with
  | none => (false, s)
  | some a =>
    match a.cache with
    | none => (false, s)
    | some c =>
      if (c.get n).isSome then
        (true, { s with enabled := s.enabled.set id { a with cache := some (c.del n) } })
      else (false, s)

/-- The checks of `preSession`, /repo/zkserver/zkserver.go:673-690: may this identity go on to a session? -/
def admit (s : State) (id : Id) : Bool :=
  if s.isDisabled id then false else if s.isEnabled id then true else false

/-- Calls, and what the environment contributes to them. -/
inductive Ev where
  | createCheck (listing : List Acct) (pid : Pub) (force : Bool)
  | createWrite (pid : Pub)
  /-- the server dies in the middle of the writes -/
  | createCrash (pid : Pub) (stage : Nat)
  | push (id : Id)
  | pull (id : Id)
  | enable (id : Id)
  | disable (id : Id)
  | deliver (dst : Id) (n : Name) (m : DiskMessage) (w : Write)
  | delete (id : Id) (n : Name)
  deriving DecidableEq, Repr

/-- A step: the state after it, and whether the call succeeded. `none`: can not happen. -/
def step (s : State) : Ev → Option (Bool × State)
  | .createCheck listing pid force =>
    if createCheck s listing pid force then some (true, { s with creating := pid :: s.creating })
    else some (false, s)
  | .createWrite pid =>
    if pid ∈ s.creating then
      some (true, { s with
        creating := s.creating.erase pid
        enabled := s.enabled.set pid.identity (created (s.enabled.get pid.identity) pid) })
    else none
  | .createCrash pid stage =>
    if pid ∈ s.creating then
      some (false, { s with
        creating := []
        enabled := s.enabled.set pid.identity (createdPart (s.enabled.get pid.identity) pid stage) })
    else none
  | .push id => some (push s id)
  | .pull id => some (pull s id)
  | .enable id => some (enable s id)
  | .disable id => some (disable s id)
  | .deliver dst n m w => some (deliverWrite s dst n m w)
  | .delete id n => some (delete s id n)

/-- Executions in which every step satisfies `G`. -/
inductive Run (G : State → Ev → Prop) : State → List Ev → State → Prop
  | nil (s) : Run G s [] s
  | cons {s e b s' es s''} : G s e → step s e = some (b, s') → Run G s' es s'' → Run G s (e :: es) s''

def Reach (G : State → Ev → Prop) (s : State) : Prop := ∃ es, Run G init es s

/-! ## Requests that store a message: zkserver/cache.go -/

/-- `Acknowledge`: no error, "internal error", or "identity disabled". -/
inductive Ack where
  | good
  | internal
  | disabled
  deriving DecidableEq, Repr

/-- `handleCache`, /repo/zkserver/cache.go:18-74, for the authenticated sender `src`. The check of `Deliver`
sees the accounts `s0`; by the time of its write they may be `s1`. -/
def handleCache (s0 s1 : State) (src dst : Id) (payload : Bytes) (n : Name) (t : Int) (w : Write) : Ack × State :=
  if deliverCheck s0 dst n then
    match deliverWrite s1 dst n ⟨src, t, payload, false⟩ w with
    | (true, s) => (.good, s)
    | (false, s) => (if s.isDisabled dst then .disabled else .internal, s)
  else (if s1.isDisabled dst then .disabled else .internal, s1)

/-- `handleProxy`, /repo/zkserver/cache.go:77-121; the `Bool` is whether `Error` is empty. -/
def handleProxy (s0 s1 : State) (src dst : Id) (payload : Bytes) (n : Name) (t : Int) (w : Write) : Bool × State :=
  if deliverCheck s0 dst n then deliverWrite s1 dst n ⟨src, t, payload, true⟩ w else (false, s1)

/-! ## Administrative commands: zkserver/account.go, socketHandler in zkserver/zkserver.go -/

/-- `handleIdentityDisable`, /repo/zkserver/account.go:103-124, on the text of the identity; the reply is
whether `Error` is empty. For a wrong length `err` is nil and `err.Error()` panics. -/
def handleIdentityDisable (s : State) (text : Bytes) : Outcome Empty Bool × State :=
  match Hex.decode text with
  | none => (.ok false, s)
  | some id =>
    if id.length ≠ 32 then (.panic, s)
    else let r := disable s id; (.ok r.1, r.2)

/-- `handleIdentityEnable`, /repo/zkserver/account.go:126-147. -/
def handleIdentityEnable (s : State) (text : Bytes) : Outcome Empty Bool × State :=
  match Hex.decode text with
  | none => (.ok false, s)
  | some id =>
    if id.length ≠ 32 then (.panic, s)
    else let r := enable s id; (.ok r.1, r.2)

/-- `SCUserDisable` in `socketHandler`, /repo/zkserver/zkserver.go:748-769: the reply, the accounts, and the
session that is closed; sessions are found by the text of the identity as `handleSession` wrote it. -/
def socketDisable (s : State) (sessions : GoMap Bytes Nat) (text : Bytes) : Outcome Empty Bool × State × Option Nat :=
  match handleIdentityDisable s text with
  | (.panic, s) => (.panic, s, none)
  | (r, s) => (r, s, sessions.get text)

end Verif.Accounts
