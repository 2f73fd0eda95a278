import Verif.Model.Policy
import Verif.Model.Base64
import Verif.Model.Xdr

/-! # Rendezvous: zkserver/rendezvous.go

Blobs are kept in `rendezvous.ini`, represented by the records of its table "" (C28 is about the file
itself; `C41_file` in Verif.Props.Rendezvous connects the two). A rendezvous opens the file, answers, and
saves the file: three steps, as other connections do the same. A pull reads the file once: one step. -/

namespace Verif.Rendezvous

open Verif

abbrev DB := GoMap Bytes Bytes

/-- The last digits of a number, at most so many. -/
def formatAux : Nat → Nat → Bytes
  | 0, _ => []
  | k + 1, n =>
    if n < 10 then [UInt8.ofNat (48 + n)] else formatAux k (n / 10) ++ [UInt8.ofNat (48 + n % 10)]

/-- `strconv.FormatUint(n, 10)`; 64 bits are at most 20 digits. -/
def format (n : Nat) : Bytes := formatAux 20 n

/-- `base64(xdr(r))`, /repo/zkserver/rendezvous.go:180-188. -/
def record (blob exp : Bytes) : Bytes := Base64.encode (Xdr.enc Xdr.rendezvous (blob, exp))

/-- Are the inputs refused, /repo/zkserver/rendezvous.go:150-158? -/
def refused (blob exp : Bytes) : Bool :=
  decide (blob.length > 4096) ||
    match Policy.parseUint64 exp with
    | none => true
    | some n => decide (n > 168)

/-- The loop, /repo/zkserver/rendezvous.go:161-202, with what the random number generator gives (`none`:
an error): the first PIN that is not in use, within the retries. `Set` does not fail, as `New` makes sure
that the table exists, and neither does `Marshal`. -/
def pick (db : DB) (rand : Nat → Option Nat) : Nat → Nat → Option Bytes
  | 0, _ => none
  | retry + 1, i =>
    match rand i with
    | none => pick db rand retry (i + 1)
    | some x =>
      if (db.get (format (x % 1000000))).isSome then pick db rand retry (i + 1)
      else some (format (x % 1000000))

/-- A call of `handleRendezvous` that has opened the file. -/
structure Call where
  blob : Bytes
  exp : Bytes
  snap : DB
  deriving DecidableEq, Repr

/-- The file (`none`: there is none), calls that have opened it, and what calls that have answered are going
to save. The clock, in hours, is there for the statements: the code does not look at it. -/
structure State where
  file : Option DB
  calls : List Call
  saving : List DB
  now : Nat
  deriving DecidableEq, Repr

def init : State := ⟨none, [], [], 0⟩

/-- Answers. -/
inductive Out where
  | nothing
  /-- `RendezvousReply` with an error -/
  | failed
  /-- `RendezvousReply` with a PIN -/
  | pin (token : Bytes)
  /-- `RendezvousPullReply` with an error -/
  | notFound
  /-- `RendezvousPullReply` with a blob -/
  | blob (token blob : Bytes)
  deriving DecidableEq, Repr

/-- `handleRendezvousPull`, /repo/zkserver/rendezvous.go:86-117, on the records; `limit` is
`MaxMsgSize`. -/
def pull (limit : Nat) (db : DB) (token : Bytes) : Out :=
  match db.get token with
  | none => .notFound
  | some v =>
    match Base64.decode v with
    | none => .notFound
    | some b =>
      match Xdr.dec limit Xdr.rendezvous b with
      | .ok r _ => .blob token r.1
      | _ => .notFound

/-- The answer of `handleRendezvous`, /repo/zkserver/rendezvous.go:149-207, and the records after it if they
have changed. -/
def answer (c : Call) (rand : Nat → Option Nat) : Out × Option DB :=
  if refused c.blob c.exp then (.failed, none)
  else match pick c.snap rand 25 0 with
    | none => (.failed, none)
    | some token => (.pin token, some (c.snap.set token (record c.blob c.exp)))

/-- Events. -/
inductive Ev where
  /-- `handleRendezvous` opens the file, or creates it, lines 134-140 -/
  | begin (blob exp : Bytes)
  /-- and answers, lines 149-207 -/
  | reply (c : Call) (rand : Nat → Option Nat)
  /-- the deferred function saves the file, lines 142-148; an error is only logged -/
  | save (db : DB) (sv : Policy.Save)
  /-- `handleRendezvousPull` -/
  | pull (token : Bytes)
  /-- time passes -/
  | tick (hours : Nat)

/-- A step and the answer it sends. `none`: can not happen. -/
def step (limit : Nat) (s : State) : Ev → Option (Out × State)
  | .begin blob exp =>
    some (.nothing, { s with file := some (s.file.getD []), calls := ⟨blob, exp, s.file.getD []⟩ :: s.calls })
  | .reply c rand =>
    if c ∈ s.calls then
      match answer c rand with
      | (o, none) => some (o, { s with calls := s.calls.erase c })
      | (o, some db) => some (o, { s with calls := s.calls.erase c, saving := db :: s.saving })
    else none
  | .save db sv =>
    if db ∈ s.saving then
      some (.nothing, { s with saving := s.saving.erase db, file := Policy.saved s.file db sv })
    else none
  | .pull token => some (pull limit (s.file.getD []) token, { s with file := some (s.file.getD []) })
  | .tick h => some (.nothing, { s with now := s.now + h })

/-- Executions in which every step satisfies `G`, with the events and answers. -/
inductive Run (limit : Nat) (G : State → Ev → Prop) : State → List (Ev × Out) → State → Prop
  | nil (s) : Run limit G s [] s
  | cons {s e o s' es s''} : G s e → step limit s e = some (o, s') → Run limit G s' es s'' →
      Run limit G s ((e, o) :: es) s''

end Verif.Rendezvous
