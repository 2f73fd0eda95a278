import Verif.Model.Text
import Verif.Model.GoMap
import Verif.Model.Xdr0

/-! # The log files

/repo/debug/debug.go, and what it asks of `fmt.Fprintf`.  Client and server write what happens to files that are meant to
be read line by line: time, subsystem, level and a text.  Also the first word of a stranger to the server,
/repo/zkserver/zkserver.go:592-716, as far as it comes to the log. -/

namespace Verif.Log

open Verif Text

/-! ## `fmt.Fprintf`, Go's fmt/print.go

Arguments are given as the bytes they print as; their types, and what flags, width and precision do to them, are left
out (the formats of /repo/zkserver and /repo/zkclient use neither).  What is modelled is which argument is printed where,
and what is printed if a format does not fit its arguments. -/

/-- The flags. -/
def isFlag (c : UInt8) : Bool := c = 0x23 || c = 0x30 || c = 0x2b || c = 0x2d || c = 0x20

/-- `parsenum`: the number, whether there was one, and what follows.  A number that gets too large is the end of it all. -/
def parsenum : Nat → Bool → Bytes → Nat × Bool × Bytes
  | n, b, [] => (n, b, [])
  | n, b, c :: r =>
    if 0x30 ≤ c ∧ c ≤ 0x39 then
      if n > 1000000 then (0, false, []) else parsenum (n * 10 + (c.toNat - 0x30)) true r
    else (n, b, c :: r)

/-- What the loop of `doPrintf` carries through a directive. -/
structure P where
  /-- the rest of the format -/
  rest : Bytes
  /-- index of the next argument -/
  num : Nat
  /-- an index was the last thing read -/
  after : Bool
  good : Bool
  reordered : Bool
  /-- complaints printed -/
  out : Bytes
  deriving DecidableEq, Repr

/-- `argNumber` and `parseArgNumber`: an index in brackets. -/
def argNumber (n : Nat) (p : P) : P :=
  match p.rest with
  | 0x5b :: r =>
    let p := { p with reordered := true }
    if r.length < 2 then { p with rest := r, after := false, good := false }
    else
      match index [0x5d] r with
      | none => { p with rest := r, after := false, good := false }
      | some j =>
        let p := { p with rest := r.drop (j + 1) }
        match parsenum 0 false (r.take j) with
        | (k, true, []) =>
          if 1 ≤ k ∧ k ≤ n then { p with num := k - 1, after := true } else { p with after := true, good := false }
        | _ => { p with after := false, good := false }
  | _ => { p with after := false }

/-- A `*`: no argument is an `int` here. -/
def star (n : Nat) (why : Bytes) (p : P) (r : Bytes) : P :=
  { p with rest := r, num := if p.num < n then p.num + 1 else p.num, after := false, out := p.out ++ why }

/-- "%!(BADWIDTH)" -/
def badWidth : Bytes := [0x25, 0x21, 0x28, 0x42, 0x41, 0x44, 0x57, 0x49, 0x44, 0x54, 0x48, 0x29]
/-- "%!(BADPREC)" -/
def badPrec : Bytes := [0x25, 0x21, 0x28, 0x42, 0x41, 0x44, 0x50, 0x52, 0x45, 0x43, 0x29]
/-- "%!(NOVERB)" -/
def noVerb : Bytes := [0x25, 0x21, 0x28, 0x4e, 0x4f, 0x56, 0x45, 0x52, 0x42, 0x29]
/-- "%!" -/
def percentBang : Bytes := [0x25, 0x21]
/-- "(BADINDEX)" -/
def badIndex : Bytes := [0x28, 0x42, 0x41, 0x44, 0x49, 0x4e, 0x44, 0x45, 0x58, 0x29]
/-- "(MISSING)" -/
def missing : Bytes := [0x28, 0x4d, 0x49, 0x53, 0x53, 0x49, 0x4e, 0x47, 0x29]
/-- "%!(EXTRA " -/
def extra : Bytes := [0x25, 0x21, 0x28, 0x45, 0x58, 0x54, 0x52, 0x41, 0x20]
/-- "string=", the type of every argument here. -/
def sString : Bytes := [0x73, 0x74, 0x72, 0x69, 0x6e, 0x67, 0x3d]

/-- The width. -/
def width (n : Nat) (p : P) : P :=
  match p.rest with
  | 0x2a :: r => star n badWidth p r
  | _ =>
    let q := parsenum 0 false p.rest
    { p with rest := q.2.2, good := p.good && !(p.after && q.2.1) }

/-- The precision. -/
def precision (n : Nat) (p : P) : P :=
  match p.rest with
  | 0x2e :: r =>
    let p := argNumber n { p with rest := r, good := p.good && !p.after }
    match p.rest with
    | 0x2a :: r => star n badPrec p r
    | _ => { p with rest := (parsenum 0 false p.rest).2.2 }
  | _ => p

/-- The verb. -/
def verb (args : List Bytes) (p : P) : P :=
  match p.rest with
  | [] => { p with out := p.out ++ noVerb }
  | c :: s =>
    let q := decodeRune (c :: s)
    let r := (c :: s).drop (max q.2 1)
    if q.1 = 0x25 then { p with rest := r, out := p.out ++ [0x25] }
    else if !p.good then { p with rest := r, out := p.out ++ percentBang ++ encodeRune q.1 ++ badIndex }
    else
      match args[p.num]? with
      | none => { p with rest := r, out := p.out ++ percentBang ++ encodeRune q.1 ++ missing }
      | some a => { p with rest := r, num := p.num + 1, out := p.out ++ a }

/-- What follows a `%`. -/
def directive (args : List Bytes) (num : Nat) (reordered : Bool) (s : Bytes) : P :=
  let n := args.length
  let p := argNumber n ⟨s.dropWhile isFlag, num, false, true, reordered, []⟩
  let p := precision n (width n p)
  let p := if p.after then p else argNumber n p
  verb args p

/-- Arguments the format did not ask for. -/
def extras : List Bytes → Bytes
  | [] => []
  | [a] => sString ++ a
  | a :: b :: r => sString ++ a ++ [0x2c, 0x20] ++ extras (b :: r)

/-- `doPrintf`; the first argument is at least the length of the format. -/
def printf (args : List Bytes) : Nat → Bytes → Nat → Bool → Bytes
  | _, [], num, reordered =>
    if !reordered && num < args.length then extra ++ extras (args.drop num) ++ [0x29] else []
  | 0, _ :: _, _, _ => []
  | fuel + 1, c :: r, num, reordered =>
    if c = 0x25 then
      let p := directive args num reordered r
      p.out ++ printf args fuel p.rest p.num p.reordered
    else c :: printf args fuel r num reordered

/-- `fmt.Sprintf`. -/
def sprintf (format : Bytes) (args : List Bytes) : Bytes := printf args format.length format 0 false

/-! ## The log, /repo/debug/debug.go -/

/-- The functions that write. -/
inductive Level
  | log
  | info
  | warn
  | error
  | critical
  | dbg
  | trace
  deriving DecidableEq, Repr

/-- The prefixes "[LOG] ", "[INF] ", "[WAR] ", "[ERR] ", "[CRI] ", "[DBG] " and "[TRC] ", debug.go:31-68. -/
def tag : Level → Bytes
  | .log => [0x5b, 0x4c, 0x4f, 0x47, 0x5d, 0x20]
  | .info => [0x5b, 0x49, 0x4e, 0x46, 0x5d, 0x20]
  | .warn => [0x5b, 0x57, 0x41, 0x52, 0x5d, 0x20]
  | .error => [0x5b, 0x45, 0x52, 0x52, 0x5d, 0x20]
  | .critical => [0x5b, 0x43, 0x52, 0x49, 0x5d, 0x20]
  | .dbg => [0x5b, 0x44, 0x42, 0x47, 0x5d, 0x20]
  | .trace => [0x5b, 0x54, 0x52, 0x43, 0x5d, 0x20]

/-- "[UNK]" -/
def unk : Bytes := [0x5b, 0x55, 0x4e, 0x4b, 0x5d]

/-- `Debug`, debug.go:22-29, and the file. -/
structure State where
  subsystems : GoMap Nat Bytes
  debug : Bool
  trace : Bool
  file : Bytes
  deriving DecidableEq, Repr

/-- `New`, debug.go:91-107: an existing file is kept. -/
def new (file : Bytes) : State := ⟨[], false, false, file⟩

/-- What the program can do with the log. -/
inductive Call
  /-- `Register`, debug.go:109-119 -/
  | register (id : Nat) (name : Bytes)
  /-- `EnableDebug`, `DisableDebug`, debug.go:121-133 -/
  | debug (on : Bool)
  /-- `EnableTrace`, `DisableTrace`, debug.go:135-147 -/
  | trace (on : Bool)
  /-- One of the functions `Log` to `T`, debug.go:31-68.  `now` is the time as `time.Now().Format(d.format)` gives it;
  `opens`: the file can be opened. -/
  | write (level : Level) (id : Nat) (format : Bytes) (args : List Bytes) (now : Bytes) (opens : Bool)
  deriving DecidableEq, Repr

/-- `log`, debug.go:70-89.  An error of the write is ignored, as there; it is not modelled. -/
def log (s : State) (id : Nat) (pre format : Bytes) (args : List Bytes) (now : Bytes) (opens : Bool) : State :=
  let name := (s.subsystems.get id).getD unk
  if opens then { s with file := s.file ++ sprintf (now ++ [0x20] ++ name ++ pre ++ format ++ [0x0a]) args } else s

/-- One call.  All but the two looks at `debug` and `trace` happen under the lock.  `un` is `ttk.Unescape`, which is not
part of /repo.  Whether `Register` refused is its result. -/
def step (un : Bytes → Bytes) (s : State) : Call → State
  | .register id name =>
    match s.subsystems.get id with
    | some _ => s
    | none => { s with subsystems := s.subsystems.set id name }
  | .debug on => { s with debug := on }
  | .trace on => { s with trace := on }
  | .write level id format args now opens =>
    match level with
    | .log => log s id (tag .log) (un (sprintf format args)) [] now opens
    | .dbg => if s.debug then log s id (tag .dbg) format args now opens else s
    | .trace => if s.trace then log s id (tag .trace) format args now opens else s
    | l => log s id (tag l) format args now opens

/-- A run. -/
def exec (un : Bytes → Bytes) (s : State) (cs : List Call) : State := cs.foldl (step un) s

/-! ## The first word of a stranger, /repo/zkserver/zkserver.go:592-716 -/

/-- "identify", "createaccount" and "session", /repo/rpc/rpc.go:45-47. -/
def modes : List Bytes :=
  [[0x69, 0x64, 0x65, 0x6e, 0x74, 0x69, 0x66, 0x79],
   [0x63, 0x72, 0x65, 0x61, 0x74, 0x65, 0x61, 0x63, 0x63, 0x6f, 0x75, 0x6e, 0x74],
   [0x73, 0x65, 0x73, 0x73, 0x69, 0x6f, 0x6e]]

/-- "invalid mode: %v: %v", zkserver.go:713. -/
def invalidMode : Bytes :=
  [0x69, 0x6e, 0x76, 0x61, 0x6c, 0x69, 0x64, 0x20, 0x6d, 0x6f, 0x64, 0x65, 0x3a, 0x20, 0x25, 0x76, 0x3a, 0x20, 0x25, 0x76]

/-- "connection closed: %v", zkserver.go:597. -/
def connClosed : Bytes :=
  [0x63, 0x6f, 0x6e, 0x6e, 0x65, 0x63, 0x74, 0x69, 0x6f, 0x6e, 0x20, 0x63, 0x6c, 0x6f, 0x73, 0x65, 0x64, 0x3a, 0x20, 0x25, 0x76]

/-- `preSession`, zkserver.go:592-612, 712-716, on the bytes a stranger sends: what is logged if their first word is none of
the three the server knows; `limit` is `MaxMsgSize`.  The subsystem is `idApp` = 0, /repo/zkserver/zkserver.go:37.  The
other ways out are not of interest here and give nothing. -/
def stranger (limit : Nat) (addr now : Bytes) (bytes : Bytes) : List Call :=
  match Xdr.decOpaque limit bytes with
  | .got mode _ =>
    if mode ∈ modes then []
    else [.write .error 0 invalidMode [addr, mode] now true, .write .info 0 connClosed [addr] now true]
  | _ => []

end Verif.Log
