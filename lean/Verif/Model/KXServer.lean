import Verif.Model.KXNet
import Verif.Model.Sessions

/-!
# zkserver/zkserver.go: from the key exchange to the session

The key exchanges of `Verif.KXNet`, one server among them, and the sessions of that server (`Verif.Sessions`). The
connection with number `c` is that of run `c`.

Simplifications: all connections of the server belong to key exchanges that have completed; those that fail are closed
(/repo/zkserver/zkserver.go:661-667) and leave no trace. Of a message it matters only who wrote it.
-/

namespace Verif.KXServer

open Verif.KX Verif.KXNet

/-- The key exchanges and the sessions; the messages that the readers of the sessions have taken, oldest first. -/
structure Sys where
  net : KXNet.State
  srv : Sessions.State
  log : List (Nat × Pay)

/-- How many messages have been read in a session. -/
def Sys.handled (t : Sys) (c : Nat) : Nat := (t.log.filter (·.1 = c)).length

inductive Ev where
  | net
  | srv (e : Sessions.Ev)
  deriving DecidableEq, Repr

/-- Events of the server that have nothing to do with what was sent. -/
def Free : Sessions.Ev → Prop
  | .connect _ _ => False
  | .request _ => False
  | _ => True

/-- A step. `b` is the identity of the server, `ident` the identity of a public key (`TheirIdentity`,
/repo/session/kx.go:50-52). -/
inductive Step (ident : KeyName → Sessions.Id) (b : Nat) : Sys → Ev → Sys → Prop
  | net {t n} : KXNet.Step t.net n → Step ident b t .net { t with net := n }
  /-- `preSession`, /repo/zkserver/zkserver.go:653-704: the key exchange has completed, and the account of the identity
  is enabled -/
  | connect {t c r e x v} : t.net.runs[c]? = some r → r.role = .resp b e → result c r = some x →
      Sessions.step t.srv (.connect c (ident x.theirPK)) = some v →
      Step ident b t (.srv (.connect c (ident x.theirPK))) { t with srv := v }
  /-- the reader of a session gets a message, /repo/zkserver/zkserver.go:434 -/
  | request {t c r x v f p} : t.net.runs[c]? = some r → result c r = some x → t.net.Knows (.frame f) →
      Sym.openF x.readKey (x.rseq + t.handled c) f = some p → Sessions.step t.srv (.request c) = some v →
      Step ident b t (.srv (.request c)) { t with srv := v, log := t.log ++ [(c, p)] }
  | srv {t e v} : Free e → Sessions.step t.srv e = some v → Step ident b t (.srv e) { t with srv := v }

/-- States that can occur. -/
inductive Reach (ident : KeyName → Sessions.Id) (b : Nat) : Sys → Prop
  | init : Reach ident b ⟨⟨[], []⟩, Sessions.init, []⟩
  | step {t e t'} : Reach ident b t → Step ident b t e t' → Reach ident b t'

end Verif.KXServer
