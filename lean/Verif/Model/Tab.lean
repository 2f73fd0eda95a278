import Verif.Model.Completion
import Verif.Model.Commands
import Verif.Model.Path
import Mathlib.Data.List.Sort

/-! # The tab key on the command line

`KeyHandler`, /repo/zkclient/mainwindow.go:152-221, for Enter and Tab, and the functions of
/repo/zkclient/completion.go:63-139 that it calls.  What the user types or takes from the history changes the command line
in any way, and not the completion in progress.  Contacts and files may come and go at any time.  That `setCmd` and the
editor race is left out. -/

namespace Verif.Tab

open Verif

/-- /repo/zkclient/completion.go:23-26. -/
inductive Mode
  | nick
  | file
  deriving DecidableEq, Repr

/-- `completion`, completion.go:16-21. -/
structure Ctx where
  mode : Mode
  c : Completion.Completion
  deriving DecidableEq, Repr

/-- The order of Go strings. -/
def le : Bytes → Bytes → Prop
  | [], _ => True
  | _ :: _, [] => False
  | a :: x, b :: y => a < b ∨ (a = b ∧ le x y)

instance : DecidableRel le := fun a b => by
  induction a generalizing b with
  | nil => exact inferInstanceAs (Decidable True)
  | cons a x ih =>
    cases b with
    | nil => exact inferInstanceAs (Decidable False)
    | cons b y => exact @instDecidableOr _ _ _ (@instDecidableAnd _ _ _ (ih y))

/-- `sort.Strings` -/
def sorted (l : List Bytes) : List Bytes := l.insertionSort le

/-- The client as far as Tab is concerned. -/
structure State where
  /-- the text of `cmdEdit` -/
  line : Bytes
  /-- `z.cctx` -/
  ctx : Option Ctx
  /-- the nicks of `z.ab.All()` -/
  book : List Bytes
  /-- `filepath.Glob` of a text followed by `/*`; empty on errors, which are ignored -/
  glob : Bytes → List Bytes
  /-- the home directory -/
  home : Path.Path

/-- A rooted path as text. -/
def render (p : Path.Path) : Bytes := if p = [] then [47] else p.flatMap fun c => 47 :: c

/-- `homedir.Expand` of github.com/mitchellh/go-homedir: a tilde stands for the home directory, homes of others are
refused. The library is not in /repo; it is modelled after its documentation. -/
def expand (home : Path.Path) : Bytes → Option Bytes
  | [] => some []
  | 126 :: [] => some (render home)
  | 126 :: 47 :: r => some (render (Path.join home (47 :: r)))
  | 126 :: 92 :: r => some (render (Path.join home (92 :: r)))
  | 126 :: _ :: _ => none
  | p => some p

/-- `completeNick`, completion.go:63-82. -/
def completeNick (s : State) (word : Bytes) : Outcome Empty Bytes × Ctx :=
  let c : Completion.Completion :=
    match s.ctx with
    | some ⟨.nick, c⟩ => c
    | _ => Completion.fresh (sorted s.book)
  let r := Completion.next c word
  (r.1, ⟨.nick, r.2⟩)

/-- `completeNickCommandLine`, completion.go:84-99. -/
def completeNickCommandLine (s : State) (args : List Bytes) : Outcome Empty State :=
  match args with
  | [a0, a1] =>
    match completeNick s a1 with
    | (.ok nick, ctx) => .ok { s with line := a0 ++ [32] ++ nick, ctx := some ctx }
    | (.err e, _) => .err e
    | (.panic, _) => .panic
  | _ => .ok s

/-- `completeDir`, completion.go:101-124. -/
def completeDir (s : State) (word : Bytes) : Outcome Empty Bytes × Option Ctx :=
  match s.ctx with
  | some ⟨.file, c⟩ =>
    let r := Completion.next c word
    (r.1, some ⟨.file, r.2⟩)
  | _ =>
    match expand s.home word with
    | none => (.ok [], none)
    | some ef =>
      let r := Completion.next (Completion.fresh (sorted (s.glob ef))) ef
      (r.1, some ⟨.file, r.2⟩)

/-- `completeDirCommandLine`, completion.go:126-139. -/
def completeDirCommandLine (s : State) (args : List Bytes) : Outcome Empty State :=
  match args with
  | [a0, a1, a2] =>
    let s := if [47] <:+ a2 ∨ a2 = [126] then { s with ctx := none } else s
    match completeDir s a2 with
    | (.ok f, ctx) => .ok { s with line := a0 ++ [32] ++ a1 ++ [32] ++ f, ctx := ctx }
    | (.err e, _) => .err e
    | (.panic, _) => .panic
  | _ => .ok s

/-- The commands whose first argument is completed, mainwindow.go:209. -/
def nickCommands : List Bytes :=
  [Commands.c_msg, Commands.c_m, Commands.c_info, Commands.c_reset, Commands.c_q, Commands.c_query]

/-- Tab, mainwindow.go:189-221. -/
def tab (s : State) : Outcome Empty State :=
  if s.line = [] then .ok s
  else
    let args := Text.split s.line
    match args.head? with
    | none => .ok s
    | some a0 =>
      if nickCommands.contains a0 then completeNickCommandLine s args
      else if a0 = Commands.c_send then
        if args.length = 1 ∨ args.length = 2 then completeNickCommandLine s args
        else if args.length = 3 then completeDirCommandLine s args
        else .ok s
      else .ok s

/-- Enter, mainwindow.go:153-187: the line is acted upon (`Commands.parse`) and cleared. -/
def enter (s : State) : State := if s.line = [] then s else { s with line := [], ctx := none }

/-- What happens. -/
inductive Ev
  /-- typing, deleting, or a line of the history -/
  | edit (line : Bytes)
  | tab
  | enter
  /-- contacts come, go, or are renamed -/
  | book (l : List Bytes)
  /-- files come and go -/
  | files (glob : Bytes → List Bytes)

def step (s : State) : Ev → Outcome Empty State
  | .edit l => .ok { s with line := l }
  | .tab => tab s
  | .enter => .ok (enter s)
  | .book l => .ok { s with book := l }
  | .files g => .ok { s with glob := g }

def run (s : State) : List Ev → Outcome Empty State
  | [] => .ok s
  | e :: es =>
    match step s e with
    | .ok s' => run s' es
    | .err x => .err x
    | .panic => .panic

end Verif.Tab
