import Verif.Model.IniDB
import Verif.Model.Xdr
import Verif.Model.Base64
import Verif.Model.Hex

/-! # The files of group invitations: zkclient/groupinvites.go

`joins.ini` has the invitations received, `invites.ini` those issued. Both have a table for each group and in it a
record for each identity: the invitation as XDR and base64. Each function opens the file, and saves it if something
was changed. The two files are in directories of their own, so here is one of them. `Model/Groups` has the same as
maps. -/

namespace Verif.Invites

open Verif

/-- Go strings, as in the model of inidb. -/
abbrev Str := IniDB.Str

/-- Bytes that are ASCII, as a string. -/
def str (b : Bytes) : Str := b.map fun c => Char.ofNat c.toNat

/-- The bytes of a string; `none` if it is not ASCII, in which case neither hex nor base64 can be decoded. -/
def bytes? (s : Str) : Option Bytes :=
  if s.all (fun c => c.toNat < 128) then some (s.map fun c => UInt8.ofNat c.toNat) else none

/-- `rpc.GroupInvite`, /repo/rpc/rpc.go:396-402. The name is a string, because it becomes the name of a table. -/
structure Invite where
  name : Str
  members : List Bytes
  token : Nat
  descr : Bytes
  expires : Int
  deriving DecidableEq, Repr

/-- The invitation as it is encoded. -/
def Invite.val (g : Invite) : Xdr.Val Xdr.groupInvite :=
  (g.name.flatMap String.utf8EncodeChar, g.members, g.token, g.descr, g.expires)

/-- `base64.StdEncoding.EncodeToString` of `xdr.Marshal`, /repo/zkclient/groupinvites.go:174-188, 222-231. -/
def record (g : Invite) : Str := str (Base64.encode (Xdr.enc Xdr.groupInvite g.val))

/-- `unmarshalInvite`, /repo/zkclient/groupinvites.go:44-58; `none` is an error. -/
def unmarshalInvite (s : Str) : Option (Xdr.Val Xdr.groupInvite) :=
  match bytes? s with
  | none => none
  | some b =>
    match Base64.decode b with
    | none => none
    | some x =>
      match Xdr.dec 0 Xdr.groupInvite x with
      | .ok v _ => some v
      | _ => none

/-- `Token` of an invitation. -/
def tokenOf (v : Xdr.Val Xdr.groupInvite) : Nat := v.2.2.1

/-- `hex.EncodeToString(id[:])`, the key of a record. -/
def key (id : Bytes) : Str := str (Hex.encode id)

/-- `hex.DecodeString(id)` and `copy(idxx[:], idx)`, /repo/zkclient/groupinvites.go:265-274: what is missing is
zero, what is too much is left out. -/
def idOf (k : Str) : Option Bytes :=
  match bytes? k with
  | none => none
  | some b => (Hex.decode b).map fun x => (x ++ List.replicate 32 0).take 32

/-- The depth of backups. -/
def depth : Int := 10

/-- `joinDBAdd` from the opened file to `Save`, /repo/zkclient/groupinvites.go:215-231, and the same in
`inviteDBAdd`, 145-188, after the token was chosen. `none`: it returns without saving. -/
def add (id : Bytes) (g : Invite) (i : IniDB.DB) : Option IniDB.DB :=
  if (IniDB.get i g.name (key id)).isSome then none
  else
    let r := IniDB.set (IniDB.newTable i g.name) g.name (key id) (record g)
    if r.1 then some r.2 else none

/-- `delJoin`, /repo/zkclient/groupinvites.go:290-321: a table is deleted if it has one record, and this one has
the token. -/
def take (group : Str) (token : Nat) (i : IniDB.DB) : Option IniDB.DB :=
  match IniDB.records i group with
  | [(_, r)] =>
    match unmarshalInvite r with
    | none => none
    | some v =>
      if token ≠ tokenOf v then none
      else
        let x := IniDB.delTable i group
        if x.1 then some x.2 else none
  | _ => none

/-- `delInvite`, /repo/zkclient/groupinvites.go:335-360. -/
def use (id : Bytes) (group : Str) (token : Nat) (i : IniDB.DB) : Option IniDB.DB :=
  match IniDB.get i group (key id) with
  | none => none
  | some r =>
    match unmarshalInvite r with
    | none => none
    | some v =>
      if tokenOf v ≠ token then none
      else
        let x := IniDB.del i group (key id)
        if x.1 then some x.2 else none

/-- What is done with the file. -/
inductive Act where
  /-- an invitation is received from `id`, or issued to `id` -/
  | add (id : Bytes) (g : Invite)
  /-- a group was joined -/
  | take (group : Str) (token : Nat)
  /-- `id` joins with a token -/
  | use (id : Bytes) (group : Str) (token : Nat)
  deriving DecidableEq, Repr

/-- The function called with the opened file. -/
def Act.change : Act → IniDB.DB → Option IniDB.DB
  | .add id g => Invites.add id g
  | .take group token => Invites.take group token
  | .use id group token => Invites.use id group token

/-- Whether a missing file is created, /repo/zkclient/groupinvites.go:140, 210, 284, 329. -/
def Act.create : Act → Bool
  | .add _ _ => true
  | _ => false

/-- What is up to the system: the names of the temporary files of `New` and `Save`, the time, and the order in
which Go walks the maps. -/
structure Env where
  tmp0 : Str
  tmp : Str
  stamp : Str
  order : List (Str × List (Str × Str))

/-- `inidb.New`: the database and the directory afterwards; `ErrCreated` is not an error. -/
def opened (base : Str) (create : Bool) (d : IniDB.Dir) (tmp0 : Str) : Option IniDB.DB × IniDB.Dir :=
  match IniDB.new base create depth d tmp0 with
  | .error => (none, d)
  | .opened i => (some i, d)
  | .created i d' => (some i, d')

/-- The database that is saved, if there is something to save, and the directory before. -/
def changed (base : Str) (d : IniDB.Dir) (a : Act) (tmp0 : Str) : Option IniDB.DB × IniDB.Dir :=
  match opened base a.create d tmp0 with
  | (none, d1) => (none, d1)
  | (some i, d1) => (a.change i, d1)

/-- One of the functions: whether it succeeded, and the directory afterwards. -/
def step (base : Str) (d : IniDB.Dir) (a : Act) (e : Env) : Bool × IniDB.Dir :=
  match changed base d a e.tmp0 with
  | (none, d1) => (false, d1)
  | (some i, d1) =>
    let r := IniDB.save i d1 e.tmp e.stamp e.order
    (r.1, r.2.2)

/-- `getJoin`, /repo/zkclient/groupinvites.go:244-279: it can return `id`. Which one is found if there are several
is up to the order in which Go walks the map. -/
def Finds (base : Str) (d : IniDB.Dir) (group : Str) (token : Nat) (id : Bytes) : Prop :=
  ∃ i, (opened base false d []).1 = some i ∧
    ∃ k r v, (k, r) ∈ IniDB.records i group ∧ unmarshalInvite r = some v ∧ tokenOf v = token ∧ idOf k = some id

/-- Executions. -/
inductive Run (base : Str) (G : IniDB.Dir → Act → Env → Prop) : IniDB.Dir → List (Act × Bool) → IniDB.Dir → Prop
  | nil (d) : Run base G d [] d
  | cons {d a e as d'} : G d a e → Run base G (step base d a e).2 as d' →
      Run base G d ((a, (step base d a e).1) :: as) d'

end Verif.Invites
