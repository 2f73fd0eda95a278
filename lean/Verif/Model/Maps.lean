/-! # The maps that goroutines share

Go ends a program with `fatal error: concurrent map writes` (`… map read and map write`, `… map iteration and map write`) if it
finds that a goroutine writes to a map while another one uses it; this cannot be recovered from. The maps that are shared here:
`z.groups`, `z.pendingIdentities`, the address book, `z.sessions`, `a.online`, `dn.processed` and the subsystems of the log, with
every place where they are used, as of a search for them in the source.

* A goroutine is what it does to locks and maps; everything between is left out. A use of a map takes time: it begins and ends.
* A function that returns early is cut off at a use (`k`); what it does after that is left out, and the lock is released.
* The `processed` maps of all sessions are taken for one.
* The maps of `INIDB` and of ratchets are made by the function that uses them, and belong to one goroutine.
* Before goroutines are started maps are made and subsystems are registered; nobody else is there. -/

namespace Verif.Maps

inductive Op
  /-- `Lock` -/
  | acq (l : Nat)
  /-- `RLock` -/
  | racq (l : Nat)
  /-- `Unlock`, `RUnlock` -/
  | rel (l : Nat)
  /-- use a map; `w`: write or delete -/
  | use (m : Nat) (w : Bool)
  deriving DecidableEq, Repr

/-- Locks: those of `ZKC`, `pendingIdentitiesMutex`, the address book, the log, `ZKS`, `Account`. -/
abbrev zkc : Nat := 0
abbrev pendingMtx : Nat := 1
abbrev book : Nat := 2
abbrev log : Nat := 3
abbrev zks : Nat := 4
abbrev account : Nat := 5

/-- Maps. -/
abbrev groups : Nat := 0
abbrev pendingIds : Nat := 1
abbrev identities : Nat := 2
abbrev subsystems : Nat := 3
abbrev sessions : Nat := 4
abbrev online : Nat := 5
abbrev processed : Nat := 6

/-- Read, and write. -/
abbrev rd (m : Nat) : Op := .use m false
abbrev wr (m : Nat) : Op := .use m true

/-- `Lock`, the first `k` uses, `Unlock`. -/
def locked (l : Nat) (us : List Op) (k : Nat) : List Op := .acq l :: us.take k ++ [.rel l]

/-- `RLock`, the first `k` uses, `RUnlock`. -/
def rlocked (l : Nat) (us : List Op) (k : Nat) : List Op := .racq l :: us.take k ++ [.rel l]

/-! ## Functions that are called with a lock held -/

/-- `_gcSaveDisk`, /repo/zkclient/groupchat.go:64-86. -/
def gcSaveDisk' : List Op := [rd groups]

/-- `_deleteGroup`, groupchat.go:54-62. -/
def deleteGroup' : List Op := [wr groups]

/-- `_updateGroupList`, /repo/zkclient/zkclient.go:1891-1916. -/
def updateGroupList' : List Op := [rd groups, wr groups] ++ gcSaveDisk'

/-- `_addIdGroupchat`, zkclient.go:1918-1939. -/
def addIdGroupchat' : List Op := [rd groups, wr groups]

/-! ## Calls -/

/-- Calls that use a map other than the address book and the subsystems, in the client and in the server. -/
inductive Call
  /-- `gcNew`, groupchat.go:99-117 -/
  | gcNew (k : Nat)
  /-- `gcInvite`, groupchat.go:133-136 -/
  | gcInvite (k : Nat)
  /-- `gcJoin`, groupchat.go:182-208 -/
  | gcJoin (k : Nat)
  /-- `gcKick`, groupchat.go:254-257 -/
  | gcKick (k : Nat)
  /-- the callback of `gcKick`, groupchat.go:304-340 -/
  | kicked (k : Nat)
  /-- `gcPartForce`, groupchat.go:383-387 -/
  | gcPartForce (k : Nat)
  /-- `gcPart`, groupchat.go:407-410 -/
  | gcPart (k : Nat)
  /-- `gcKill`, groupchat.go:440-476 -/
  | gcKill (k : Nat)
  /-- `gcMessage`, groupchat.go:501-510, after `groupConversation`, zkclient.go:345-351 -/
  | gcMessage (k : Nat)
  /-- `handleGroupJoin`, /repo/zkclient/push.go:768-811 -/
  | handleGroupJoin (k : Nat)
  /-- `handleGroupPart`, push.go:839-886 -/
  | handleGroupPart (k : Nat)
  /-- `handleGroupKick`, push.go:920-1012; `me`: the user is kicked -/
  | handleGroupKick (me : Bool) (k : Nat)
  /-- `handleGroupKill`, push.go:1017-1029 -/
  | handleGroupKill (k : Nat)
  /-- `handleGroupList`, `handleGroupUpdate`, push.go:1174-1209: `diffGroupList`, 1052-1055, `groupConversation`, `updateGroupList` -/
  | handleGroupList (k k' : Nat)
  /-- `handleGroupMessage`, push.go:1222-1260, and `groupConversation` -/
  | handleGroupMessage (k : Nat)
  /-- `listGroupchat`, zkclient.go:527-570 -/
  | listGroupchat (k : Nat)
  /-- `handleDisabledUser`, zkclient.go:1127-1136, in a loop over `n` windows -/
  | handleDisabledUser (n : Nat)
  /-- `loadGroupchat`, zkclient.go:1967-1977 -/
  | loadGroupchat (k : Nat)
  /-- the answer to a lookup, zkclient.go:1492-1494 -/
  | found
  /-- `find`, zkclient.go:1735-1761 -/
  | find (k : Nat)
  /-- `handleSession`, /repo/zkserver/zkserver.go:364-379: somebody else is knocked offline -/
  | knock (k : Nat)
  /-- `handleSession`, zkserver.go:387-389 -/
  | begins
  /-- `handleSession`, zkserver.go:414-416 -/
  | ends
  /-- `socketHandler`, zkserver.go:763-769 -/
  | disable
  /-- `Deliver`, /repo/zkserver/account/account.go:340-362 -/
  | deliver (k : Nat)
  /-- `Delete`, account.go:366-378 -/
  | delete (k : Nat)
  /-- `Offline`, account.go:395-399 -/
  | offline (k : Nat)
  /-- `Online`, account.go:408-425 -/
  | login (k : Nat)
  /-- the loop over files of `Online`, account.go:439-456 -/
  | scan (k : Nat)
  deriving DecidableEq, Repr

def Call.ops : Call → List Op
  | .gcNew k => locked zkc [rd groups, wr groups] k ++ if k < 2 then [] else locked zkc gcSaveDisk' k
  | .gcInvite k => rlocked zkc [rd groups] k
  | .gcJoin k => locked zkc ([rd groups, wr groups] ++ gcSaveDisk') k
  | .gcKick k => locked zkc [rd groups] k
  | .kicked k => locked zkc ([rd groups, wr groups] ++ gcSaveDisk') k
  | .gcPartForce k => locked zkc deleteGroup' k
  | .gcPart k => rlocked zkc [rd groups] k
  | .gcKill k => locked zkc (rd groups :: deleteGroup') k
  | .gcMessage k => rlocked zkc [rd groups] 1 ++ rlocked zkc [rd groups] k
  | .handleGroupJoin k =>
    locked zkc ([rd groups] ++ addIdGroupchat' ++ [wr groups] ++ gcSaveDisk' ++ [wr groups]) k
  | .handleGroupPart k => locked zkc ([rd groups, wr groups] ++ gcSaveDisk') k
  | .handleGroupKick me k => locked zkc (rd groups :: if me then deleteGroup' else updateGroupList') k
  | .handleGroupKill k => locked zkc (rd groups :: deleteGroup') k
  | .handleGroupList k k' =>
    rlocked zkc [rd groups] k ++ rlocked zkc [rd groups] 1 ++ locked zkc updateGroupList' k'
  | .handleGroupMessage k => locked zkc [rd groups] k ++ rlocked zkc [rd groups] 1
  | .listGroupchat k => rlocked zkc [rd groups] k
  | .handleDisabledUser n => locked zkc (List.replicate n (rd groups)) n
  | .loadGroupchat k => locked zkc [rd groups, wr groups] k
  | .found => locked pendingMtx [wr pendingIds] 1
  | .find k => locked pendingMtx [rd pendingIds, wr pendingIds, rd pendingIds, wr pendingIds] k
  | .knock k => locked zks [rd sessions, wr sessions] k
  | .begins => locked zks [wr sessions] 1
  | .ends => locked zks [wr sessions] 1
  | .disable => locked zks [rd sessions] 1
  | .deliver k => locked account [rd online] k
  | .delete k => locked account [rd online, wr processed] k
  | .offline k => locked account [rd online, wr online] k
  | .login k => locked account [rd online, wr online] k
  | .scan k => locked account [] 0 ++ locked account [rd processed, wr processed] k

/-- Calls that may also be made while a lock is held. -/
inductive Leaf
  /-- `Add`, /repo/zkclient/addressbook/addressbook.go:44-69: `n` nicks are taken -/
  | add (n : Nat)
  /-- `Del`, addressbook.go:72-87 -/
  | del (k : Nat)
  /-- `FindNick`, addressbook.go:89-99 -/
  | findNick
  /-- `FindIdentity`, addressbook.go:102-113 -/
  | findIdentity
  /-- `All`, addressbook.go:130-140 -/
  | all
  /-- `log`, /repo/debug/debug.go:70-91 -/
  | log
  deriving DecidableEq, Repr

def Leaf.ops : Leaf → List Op
  | .add n => locked book (List.replicate (n + 1) (rd identities) ++ [wr identities]) (n + 2)
  | .del k => locked book [rd identities, wr identities] k
  | .findNick => rlocked book [rd identities] 1
  | .findIdentity => rlocked book [rd identities] 1
  | .all => rlocked book [rd identities] 1
  | .log => locked Maps.log [rd subsystems] 1

/-- A goroutine makes calls one after the other, and the others anywhere between and within them. -/
inductive Woven : List Op → List Op → Prop
  | nil : Woven [] []
  | op (o : Op) {p t : List Op} : Woven p t → Woven (o :: p) (o :: t)
  | leaf (l : Leaf) {p t : List Op} : Woven p t → Woven p (l.ops ++ t)

/-- What a goroutine of the program may do. -/
def Goroutine (t : List Op) : Prop := ∃ cs : List Call, Woven (cs.flatMap Call.ops) t

/-! ## Goroutines at work -/

/-- What is still to be done, the locks that are held, `true` if for writing, and the map that is being used. -/
structure Thread where
  prog : List Op
  held : List (Nat × Bool)
  inside : Option (Nat × Bool)
  deriving DecidableEq, Repr

abbrev State := List Thread

def start (gs : List (List Op)) : State := gs.map fun g => ⟨g, [], none⟩

/-- Nobody has the lock. -/
def free (s : State) (l : Nat) : Bool := s.all fun t => t.held.all fun h => h.1 != l

/-- Nobody has it for writing. That readers wait for a writer who waits is left out. -/
def readable (s : State) (l : Nat) : Bool := s.all fun t => t.held.all fun h => h != (l, true)

/-- The next step of a goroutine. -/
def act (s : State) (t : Thread) : Option Thread :=
  match t.prog with
  | [] => none
  | .acq l :: r => if free s l then some { t with prog := r, held := (l, true) :: t.held } else none
  | .racq l :: r => if readable s l then some { t with prog := r, held := (l, false) :: t.held } else none
  | .rel l :: r => some { t with prog := r, held := t.held.filter fun h => h.1 != l }
  | .use m w :: r =>
    match t.inside with
    | none => some { t with inside := some (m, w) }
    | some _ => some { t with prog := r, inside := none }

def step (s : State) (i : Nat) : Option State :=
  match s[i]? with
  | none => none
  | some t => (act s t).map fun t' => s.set i t'

inductive Reach (gs : List (List Op)) : State → Prop
  | start : Reach gs (start gs)
  | step {s s' : State} (i : Nat) : Reach gs s → step s i = some s' → Reach gs s'

end Verif.Maps
