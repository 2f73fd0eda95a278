/-! # Who may read the files

The calls by which the client and the server make, rename and remove files and directories, and the permissions they ask
for.  Each call is on its own: any of them may come at any time, from any goroutine, and may fail.  Contents are left out.
Somebody else is anybody but the owner: the bits of group and others are alike.  Links and mounts are left out, and so is
what others do in directories they may write to. -/

namespace Verif.Perms

abbrev Path := List String

/-- The bits of a mode that are for somebody else. -/
structure Perm where
  r : Bool
  w : Bool
  x : Bool
  deriving DecidableEq, Repr

/-- 0600 and 0700. -/
def own : Perm := ⟨false, false, false⟩
/-- 0666, the mode of `os.Create`. -/
def p666 : Perm := ⟨true, true, false⟩
/-- 0777, the mode of a socket. -/
def p777 : Perm := ⟨true, true, true⟩

/-- The umask takes bits away. -/
def Perm.mask (p u : Perm) : Perm := ⟨p.r && !u.r, p.w && !u.w, p.x && !u.x⟩

inductive Kind
  | dir
  | file
  | sock
  deriving DecidableEq, Repr

structure Node where
  kind : Kind
  perm : Perm
  deriving DecidableEq, Repr

abbrev FS := Path → Option Node

def isDir (fs : FS) (p : Path) : Bool :=
  match fs p with
  | some ⟨.dir, _⟩ => true
  | _ => false

/-- System calls. -/
inductive Sys
  | mkdirAll (p : Path) (m : Perm)
  /-- open with `O_CREATE`: a file that is there keeps its mode -/
  | create (p : Path) (m : Perm)
  /-- `ioutil.TempFile`: a new file with mode 0600 -/
  | temp (p : Path)
  | rename (p q : Path)
  /-- rename to a name that was seen not to be there -/
  | renameNew (p q : Path)
  /-- `os.Remove` of a file, `os.RemoveAll` -/
  | remove (p : Path)
  /-- `net.Listen("unix", p)` -/
  | listen (p : Path)

/-- Something new, if there is a directory for it and nothing there yet. -/
def make (fs : FS) (p : Path) (n : Node) : FS := fun r =>
  if r = p ∧ fs p = none ∧ p ≠ [] ∧ isDir fs p.dropLast then some n else fs r

/-- `os.MkdirAll`: each directory on the way that is not there. -/
def mkdirs (fs : FS) (n : Node) (done : Path) : Path → FS
  | [] => fs
  | c :: rest => mkdirs (make fs (done ++ [c]) n) n (done ++ [c]) rest

/-- What was at and below `p` is at and below `q`. -/
def move (fs : FS) (p q : Path) : FS := fun r =>
  if q <+: r then fs (p ++ r.drop q.length) else if p <+: r then none else fs r

/-- A rename needs something to rename and a directory to put it in, and a directory is not moved into itself.  What is at
the target is gone; that a directory with something in it is not replaced is left out. -/
def canMove (fs : FS) (p q : Path) : Prop :=
  fs p ≠ none ∧ q ≠ [] ∧ isDir fs q.dropLast ∧ ¬ p <+: q ∧ ¬ q <+: p

instance (fs : FS) (p q : Path) : Decidable (canMove fs p q) := by unfold canMove; infer_instance

def exec (u : Perm) (fs : FS) : Sys → FS
  | .mkdirAll p m => mkdirs fs ⟨.dir, m.mask u⟩ [] p
  | .create p m => make fs p ⟨.file, m.mask u⟩
  | .temp p => make fs p ⟨.file, own.mask u⟩
  | .rename p q => if canMove fs p q then move fs p q else fs
  | .renameNew p q => if fs q = none ∧ canMove fs p q then move fs p q else fs
  | .remove p => fun r => if p <+: r then none else fs r
  | .listen p => make fs p ⟨.sock, p777.mask u⟩

def run (u : Perm) (fs : FS) (cs : List Sys) : FS := cs.foldl (exec u) fs

/-- `path.Join` with `..`, component by component. -/
def clean (p : Path) : Path := p.foldl (fun acc c => if c = ".." then acc.dropLast else acc ++ [c]) []

/-- The calls of an ini database at `d/f`: /repo/inidb/inidb.go:58 makes the directory, 104 the temporary file, 127 the
backup, 135 puts the new file in place, 172 removes old backups. -/
inductive DBCall (d : Path) : Sys → Prop
  | dir : DBCall d (.mkdirAll d own)
  | temp (t : String) : DBCall d (.temp (d ++ [t]))
  | rename (t t' : String) : DBCall d (.rename (d ++ [t]) (d ++ [t']))
  | prune (t : String) : DBCall d (.remove (d ++ [t]))

/-- The calls of the client, with the root directory `R` of its settings. -/
inductive ClientCall (R : Path) : Sys → Prop
  /-- /repo/zkclient/zkclient.go:2069-2084 and 2111: inbound, logs, spool, groupchat and the server record -/
  | dirs (d : String) : ClientCall R (.mkdirAll (R ++ [d]) own)
  /-- /repo/debug/debug.go:80 and 94: the log, at any place -/
  | log (p : Path) : ClientCall R (.create p own)
  /-- zkclient.go:694 and 2123, /repo/zkclient/push.go:65 and 177, blobkeys.go:56, groupinvites.go:64-329,
  mainwindow.go:729 and 794, /repo/tools/zkimport/zkimport.go:179: databases in directories of their own -/
  | db (d : String) (c : Sys) (h : DBCall (R ++ [d]) c) : ClientCall R c
  /-- mainwindow.go:728 -/
  | conversations (d t : String) : ClientCall R (.remove (R ++ [d, t]))
  /-- zkclient.go:228: the logs of conversations, whatever the nick -/
  | chat (p : Path) : ClientCall R (.create p own)
  /-- /repo/zkclient/groupchat.go:83 and 61 -/
  | group (n : String) : ClientCall R (.create (R ++ ["groupchat", n]) own)
  | ungroup (n : String) : ClientCall R (.remove (R ++ ["groupchat", n]))
  /-- /repo/zkclient/identity.go:201 and 212 -/
  | idDir (i : String) : ClientCall R (.mkdirAll (R ++ ["inbound", i]) own)
  | identity (i t : String) : ClientCall R (.create (R ++ ["inbound", i, t]) own)
  /-- identity.go:148 and 164 -/
  | ratchetTemp (i t : String) : ClientCall R (.temp (R ++ ["inbound", i, t]))
  | ratchet (i t t' : String) : ClientCall R (.rename (R ++ ["inbound", i, t]) (R ++ ["inbound", i, t']))
  /-- identity.go:69, zkclient.go:1807 and 1820, reset.go:62-65 -/
  | ratchetGone (i t : String) : ClientCall R (.remove (R ++ ["inbound", i, t]))
  /-- /repo/zkclient/addressbook.go:41 -/
  | contactGone (i : String) : ClientCall R (.remove (R ++ ["inbound", i]))
  /-- mainwindow.go:306 and 344 -/
  | history : ClientCall R (.create (R ++ ["history"]) own)
  /-- /repo/zkclient/settings.go:158, 174 and 178: the configuration file, with mode 0700 -/
  | confDir (p : Path) : ClientCall R (.mkdirAll p own)
  | conf (p : Path) : ClientCall R (.create p own)
  /-- /repo/zkclient/chunk.go:40: the directory for what comes from one person -/
  | spool (i : String) : ClientCall R (.mkdirAll (R ++ ["spool", i]) own)
  /-- chunk.go:43 and 56: the descriptor and the file, with `os.Create` -/
  | announced (i t : String) : ClientCall R (.create (R ++ ["spool", i, t]) p666)
  /-- chunk.go:161-171: the file is complete; its name comes from the sender and may have separators -/
  | received (i t : String) (name : Path) :
    ClientCall R (.renameNew (R ++ ["spool", i, t]) (clean (R ++ "spool" :: name)))
  /-- chunk.go:188 -/
  | descriptor (i t : String) : ClientCall R (.remove (R ++ ["spool", i, t]))

/-- The calls of the server, with the root directory `R`, the directory `users` of accounts below it, and the tools that
work on it. -/
inductive ServerCall (R : Path) : Sys → Prop
  /-- /repo/zkserver/zkserver.go:875 -/
  | root : ServerCall R (.mkdirAll R own)
  /-- /repo/debug/debug.go:80 and 94 -/
  | log (p : Path) : ServerCall R (.create p own)
  /-- zkserver.go:909, 934 and 939: identity, certificate and key -/
  | keys (t : String) : ServerCall R (.create (R ++ [t]) own)
  /-- /repo/zkserver/account/account.go:97 -/
  | users (d : String) : ServerCall R (.mkdirAll (R ++ [d]) own)
  /-- account.go:139, 176, 202 and 294 -/
  | account (d i : String) (c : Sys) (h : DBCall (R ++ [d, i]) c) : ServerCall R c
  /-- account.go:162 -/
  | cache (d i : String) : ServerCall R (.mkdirAll (R ++ [d, i, "cache"]) own)
  /-- account.go:344 and 370 -/
  | deliver (d i t : String) : ServerCall R (.create (R ++ [d, i, "cache", t]) own)
  | delivered (d i t : String) : ServerCall R (.remove (R ++ [d, i, "cache", t]))
  /-- account.go:264 and 285 -/
  | switch (d i i' : String) : ServerCall R (.rename (R ++ [d, i]) (R ++ [d, i']))
  /-- /repo/zkserver/rendezvous.go:74 and 144, pending.go:43, /repo/tools/zkservertoken/zkservertoken.go:60 -/
  | db (d : String) (c : Sys) (h : DBCall (R ++ [d]) c) : ServerCall R c
  /-- zkserver.go:982 and 805: the socket -/
  | unsock (t : String) : ServerCall R (.remove (R ++ [t]))
  | sock (t : String) : ServerCall R (.listen (R ++ [t]))

/-- Somebody else gets to it: may pass all directories on the way, and may read or write it; a socket must be written to. -/
def Exposed (fs : FS) (p : Path) : Prop :=
  ∃ n, fs p = some n ∧ (match n.kind with | .sock => n.perm.w = true | _ => n.perm.r = true ∨ n.perm.w = true) ∧
    ∀ q, q <+: p → q ≠ p → ∃ m, fs q = some ⟨.dir, m⟩ ∧ m.x = true

end Verif.Perms
