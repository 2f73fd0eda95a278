import Verif.Model.Rendezvous
import Verif.Model.Blob
import Verif.Model.Dialogs

/-! # Who tries PINs and passwords

A user of the server asks for one PIN after the other with `RendezvousPull`, /repo/zkserver/rendezvous.go:57-117, and chooses
each question by the answers so far. Nothing in the server counts the questions, and `handleSession` answers as many as come,
/repo/zkserver/zkserver.go:491-502. What is fetched was encrypted with a password, /repo/zkclient/kxwindow.go:114-128, and can be
tried on other passwords without asking anybody, /repo/zkclient/kxacceptwindow.go:112-131. -/

namespace Verif.Guess

open Verif Rendezvous

/-- How somebody who guesses goes on: the next question, by the answers so far. -/
abbrev Strategy := List Out → Bytes

/-- The answers to the first questions, when the file holds `dbs i` at the time of question `i` and one record besides. -/
def answers (limit : Nat) (ask : Strategy) (dbs : Nat → DB) (pin record : Bytes) : Nat → List Out
  | 0 => []
  | i + 1 =>
    let so := answers limit ask dbs pin record i
    so ++ [pull limit ((dbs i).set pin record) (ask so)]

/-- The PIN is among the first `k` questions. -/
def Found (limit : Nat) (ask : Strategy) (dbs : Nat → DB) (pin record : Bytes) (k : Nat) : Prop :=
  ∃ i, i < k ∧ ask (answers limit ask dbs pin record i) = pin

/-- One PIN after the other. -/
def inTurn : Strategy := fun so => format so.length

/-- A blob is tried with one password after the other; the first that opens it is kept, with what it opens. -/
def tryAll (B : Session.SecretBox Bytes) (scrypt : Bytes → Bytes → Bytes) (packed : Bytes) : List Bytes → Option (Bytes × Bytes)
  | [] => none
  | pw :: rest =>
    match Blob.unshare B scrypt pw packed with
    | .ok d => some (pw, d)
    | _ => tryAll B scrypt packed rest

end Verif.Guess
