import Verif.Model.Accounts

/-! # Who may create an account: zkserver/account.go, zkserver/pending.go

`handleAccountCreate` asks the policy and, for policy "token", the file `pending.ini`. The file is
represented by the records of its table "" (C27 and C28 are about the file itself). Opening the file and
saving it are two steps: several connections, and the program that adds tokens, do so at the same time. -/

namespace Verif.Policy

open Verif

abbrev Pub := Accounts.Pub
abbrev DB := GoMap Bytes Bytes

/-! ## strconv and time -/

/-- The value of a string of decimal digits; `none` if another character occurs. -/
def digits (acc : Nat) : Bytes → Option Nat
  | [] => some acc
  | b :: r => if 48 ≤ b.toNat ∧ b.toNat ≤ 57 then digits (10 * acc + (b.toNat - 48)) r else none

/-- `strconv.ParseUint(s, 10, 64)` of the Go library. -/
def parseUint64 (s : Bytes) : Option Nat :=
  if s = [] then none
  else match digits 0 s with
    | none => none
    | some n => if n < 2 ^ 64 then some n else none

/-- `strconv.ParseInt(s, 10, 64)` of the Go library: an optional sign, then as `ParseUint`. -/
def parseInt64 (s : Bytes) : Option Int :=
  match s with
  | 43 :: r => match parseUint64 r with
    | none => none
    | some n => if n < 2 ^ 63 then some n else none
  | 45 :: r => match parseUint64 r with
    | none => none
    | some n => if n ≤ 2 ^ 63 then some (-(n : Int)) else none
  | r => match parseUint64 r with
    | none => none
    | some n => if n < 2 ^ 63 then some n else none

/-- A clock value: seconds since 1970 and nanoseconds. -/
structure Time where
  sec : Int
  nsec : Nat
  deriving DecidableEq, Repr

/-- Seconds from year 1 to 1970, the constant `unixToInternal` of package time. -/
def unixToInternal : Int := 62135596800

/-- `time.Unix(t, 0).Before(now)`: package time adds `unixToInternal` in 64 bits and compares. -/
def expired (t : Int) (now : Time) : Bool :=
  let a := Int.bmod (t + unixToInternal) (2 ^ 64)
  let b := now.sec + unixToInternal
  decide (a < b) || (decide (a = b) && decide (0 < now.nsec))

/-! ## pending.go -/

/-- Does the loop of `prunePending`, /repo/zkserver/pending.go:17-31, delete a record with this value? -/
def stale (v : Bytes) (now : Time) : Bool :=
  match parseInt64 v with
  | none => true
  | some t => expired t now

/-- `prunePending`, /repo/zkserver/pending.go:16-32: what remains; every record is compared with its own
reading of the clock. -/
def prune (db : DB) (now : Bytes → Time) : DB := db.filter fun kv => !stale kv.2 (now kv.1)

/-- `validToken`, /repo/zkserver/pending.go:40-77, after the file has been opened: the answer, the records
after the deferred `prunePending`, and whether they differ from the file, in which case they are saved. -/
def validToken (db : DB) (token : Bytes) (now : Time) (later : Bytes → Time) : Bool × DB × Bool :=
  match db.get token with
  | none => (false, prune db later, db.any fun kv => stale kv.2 (later kv.1))
  | some v =>
    let rest := prune (db.del token) later
    match parseInt64 v with
    | none => (false, rest, true)
    | some t => (!expired t now, rest, true)

/-! ## account.go -/

/-- What the policy check does, /repo/zkserver/account.go:41-55. -/
inductive Verdict where
  | refuse
  | askToken
  | allow
  deriving DecidableEq, Repr

/-- "token" -/
def sToken : Bytes := [0x74, 0x6f, 0x6b, 0x65, 0x6e]
/-- "yes" -/
def sYes : Bytes := [0x79, 0x65, 0x73]
/-- "no" -/
def sNo : Bytes := [0x6e, 0x6f]

/-- `switch z.settings.CreatePolicy`, /repo/zkserver/account.go:41-55. -/
def verdict (policy : Bytes) : Verdict :=
  if policy = sNo then .refuse
  else if policy = sToken then .askToken
  else if policy = sYes then .allow
  else .refuse

/-- A call of `validToken` that has opened the file. -/
structure Call where
  pub : Pub
  token : Bytes
  snap : DB
  deriving DecidableEq, Repr

/-- The accounts, the file (`none`: there is none), calls of `validToken` and runs of zkservertoken that
have opened it, and the requests that have passed the policy check but not yet entered `Create`. -/
structure State where
  acc : Accounts.State
  file : Option DB
  calls : List Call
  tools : List DB
  allowed : List Pub
  deriving DecidableEq, Repr

/-- Outcomes of `Save`: done; failed with the file as it was; failed between the two renames, the file gone. -/
inductive Save where
  | ok
  | fail
  | lost
  deriving DecidableEq, Repr

def saved (old : Option DB) (new : DB) : Save → Option DB
  | .ok => some new
  | .fail => old
  | .lost => none

/-- Events. -/
inductive Ev where
  /-- `handleAccountCreate` up to the opening of the file; `opens`: the file can be read or created -/
  | request (pub : Pub) (token : Bytes) (opens : Bool)
  /-- the rest of `validToken` -/
  | finish (c : Call) (now : Time) (later : Bytes → Time) (sv : Save)
  /-- zkservertoken opens the file, /repo/tools/zkservertoken/zkservertoken.go:60-63 -/
  | toolOpen
  /-- and adds a token not on file, lines 65-97 -/
  | toolSave (snap : DB) (token : Bytes) (expires : Bytes) (sv : Save)
  /-- `Create` is entered for a request, /repo/zkserver/account.go:57 -/
  | create (listing : List Accounts.Acct) (pub : Pub)
  /-- the administrator runs zkimport, /repo/tools/zkimport/zkimport.go:113 -/
  | import (listing : List Accounts.Acct) (pub : Pub) (force : Bool)
  /-- all other steps on accounts -/
  | acct (e : Accounts.Ev)

/-- Is this a step other than entering `Create`? -/
def notCheck : Accounts.Ev → Bool
  | .createCheck .. => false
  | _ => true

/-- A step under a policy. `none`: can not happen. -/
def step (policy : Bytes) (s : State) : Ev → Option State
  | .request pub token opens =>
    match verdict policy with
    | .refuse => some s
    | .allow => some { s with allowed := pub :: s.allowed }
    | .askToken =>
      if opens then
        match s.file with
        | none => some { s with file := some [] }
        | some db => some { s with calls := ⟨pub, token, db⟩ :: s.calls }
      else some s
  | .finish c now later sv =>
    if c ∈ s.calls then
      let r := validToken c.snap c.token now later
      some { s with
        calls := s.calls.erase c
        file := if r.2.2 then saved s.file r.2.1 sv else s.file
        allowed := if r.1 then c.pub :: s.allowed else s.allowed }
    else none
  | .toolOpen =>
    some { s with file := some (s.file.getD []), tools := s.file.getD [] :: s.tools }
  | .toolSave snap token expires sv =>
    if snap ∈ s.tools then
      if (snap.get token).isSome then none
      else some { s with tools := s.tools.erase snap, file := saved s.file (snap.set token expires) sv }
    else none
  | .create listing pub =>
    if pub ∈ s.allowed then
      match Accounts.step s.acc (.createCheck listing pub false) with
      | none => none
      | some (_, acc) => some { s with acc := acc, allowed := s.allowed.erase pub }
    else none
  | .import listing pub force =>
    match Accounts.step s.acc (.createCheck listing pub force) with
    | none => none
    | some (_, acc) => some { s with acc := acc }
  | .acct e =>
    if notCheck e then
      match Accounts.step s.acc e with
      | none => none
      | some (_, acc) => some { s with acc := acc }
    else none

/-- Executions in which every step satisfies `G`. -/
inductive Run (policy : Bytes) (G : State → Ev → Prop) : State → List Ev → State → Prop
  | nil (s) : Run policy G s [] s
  | cons {s e s' es s''} : G s e → step policy s e = some s' → Run policy G s' es s'' →
      Run policy G s (e :: es) s''

end Verif.Policy
