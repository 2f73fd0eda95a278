/-! # Open files: debug, inidb, zkclient, zkserver/account, tools

Every function that opens a file, as what it does with its files on every path. What is read and written is in the other modules.

* What may go either way (an error, the end of a file) is `check`; a loop that opens and closes nothing is left out.
* ioutil.ReadFile, ioutil.WriteFile, goini.LoadFile and goutil.FileSHA256 close what they open and are left out, and so are
  connections (C100, C136).
* Go's collector closes files that are forgotten, at some time or never; this is not counted on. -/

namespace Verif.Handles

/-- A function: `defer` closes its file when the function returns. -/
inductive Prog
  | ret
  | opens (h : Nat) (ok fails : Prog)
  | close (h : Nat) (next : Prog)
  | defer (h : Nat) (next : Prog)
  | check (ok fails : Prog)
  deriving DecidableEq, Repr

open Prog

/-- What opens files. -/
inductive Call
  /-- `Debug.log`, debug/debug.go:70-91 -/
  | log
  /-- `debug.New`, debug/debug.go:92-107 -/
  | newLog
  /-- `INIDB.Save`, inidb/inidb.go:96-145 -/
  | save
  /-- the log of a conversation, zkclient/zkclient.go:228-239 -/
  | chatLog
  /-- `updateRatchet`, zkclient/identity.go:131-172 -/
  | ratchet
  /-- `readHistory`, zkclient/mainwindow.go:300-327 -/
  | readHistory
  /-- `appendHistory`, zkclient/mainwindow.go:330-351 -/
  | appendHistory
  /-- `send` and `completeSend`, zkclient/send.go:44-158; `large`: more than the server allows -/
  | send (large : Bool)
  /-- `doHandleChunkNew`, zkclient/chunk.go:32-76 -/
  | chunkNew
  /-- `doHandleChunk`, zkclient/chunk.go:87-192; `full`: the chunk cannot be written -/
  | chunk (full : Bool)
  /-- one message in the loop of `Online`, zkserver/account/account.go:448-498 -/
  | notify
  /-- `readBlob`, tools/zkimport/zkimport.go:29-59 -/
  | readBlob
  deriving DecidableEq, Repr

/-- What each does with its files. -/
def Call.prog : Call → Prog
  | .log => .opens 0 (.defer 0 .ret) .ret
  | .newLog => .opens 0 (.close 0 .ret) .ret
  | .save => .check (.opens 0 (.close 0 (.check (.check .ret .ret) .ret)) .ret) .ret
  | .chatLog => .opens 0 (.defer 0 .ret) .ret
  | .ratchet => .opens 0 (.check (.close 0 (.check .ret .ret)) (.close 0 .ret)) .ret
  | .readHistory => .check (.opens 0 (.defer 0 (.check .ret .ret)) .ret) .ret
  | .appendHistory => .check (.opens 0 (.defer 0 .ret) .ret) .ret
  | .send large =>
    .check (.opens 0
      -- Stat
      (.check
        (if large then .ret else
          -- FileMIME
          .check
            -- completeSend: digest, seek, chunks
            (.defer 0 (.check (.check (.check .ret .ret) .ret) .ret))
            (.close 0 .ret))
        (.close 0 .ret))
      .ret) .ret
  | .chunkNew =>
    .opens 0 (.defer 0
      -- Encode
      (.check (.opens 1 (.defer 1 (.check .ret .ret)) .ret) .ret)) .ret
  | .chunk full =>
    .opens 0
      -- Stat
      (.check
        -- offset
        (.check
          (if full then .ret else
            -- Stat
            .check
              (.close 0 (.opens 1 (.defer 1
                -- Decode, sizes, FindIdentity, digest, Rename
                (.check (.check (.check (.check (.check .ret .ret) .ret) .ret) .ret) .ret)) .ret))
              (.close 0 .ret))
          (.close 0 .ret))
        (.close 0 .ret))
      .ret
  | .notify => .opens 0 (.check (.close 0 .ret) (.check (.close 0 .ret) (.close 0 .ret))) .ret
  | .readBlob => .opens 0 (.defer 0 (.check .ret (.check (.check .ret .ret) .ret))) .ret

/-- A call that is under way. -/
structure Running where
  prog : Prog
  opened : List Nat := []
  deferred : List Nat := []
  deriving DecidableEq, Repr

/-- All calls under way, and how many files calls that returned have left open. -/
structure State where
  running : List Running := []
  left : Nat := 0
  deriving DecidableEq, Repr

inductive Ev
  /-- some goroutine calls a function -/
  | start (c : Call)
  /-- call number `i` goes on; `b`: what is tried succeeds -/
  | move (i : Nat) (b : Bool)
  deriving DecidableEq, Repr

/-- What a call does next; if it returns, how many files it leaves open. -/
def Running.move (r : Running) (b : Bool) : Running ⊕ Nat :=
  match r.prog with
  | .ret => .inr (r.opened.filter (!r.deferred.contains ·)).length
  | .opens h ok fails => .inl (if b then { r with prog := ok, opened := h :: r.opened } else { r with prog := fails })
  | .close h k => .inl { r with prog := k, opened := r.opened.filter (· != h) }
  | .defer h k => .inl { r with prog := k, deferred := h :: r.deferred }
  | .check ok fails => .inl { r with prog := if b then ok else fails }

def step (s : State) : Ev → State
  | .start c => { s with running := s.running ++ [⟨c.prog, [], []⟩] }
  | .move i b =>
    match s.running[i]? with
    | none => s
    | some r =>
      match r.move b with
      | .inl r' => { s with running := s.running.set i r' }
      | .inr n => ⟨s.running.eraseIdx i, s.left + n⟩

def run (es : List Ev) : State := es.foldl step {}

/-- How many files are open. -/
def State.openFiles (s : State) : Nat := s.left + (s.running.map fun r => r.opened.length).sum

end Verif.Handles
