import Verif.Model.IniDB

/-! # The settings: zkserver/settings/settings.go, zkserver/settings.go, zkclient/settings.go

A configuration file is text, parsed by vaughan0/go-ini as in `Verif.Model.IniDB`. What the operating system says
(the home directory, whether the file exists) is a parameter. -/

namespace Verif.Settings

open Verif

abbrev Str := IniDB.Str
abbrev Tables := IniDB.Tables

/-! ## The Go library and go-ini -/

/-- `File.Get` of go-ini. -/
def get (f : Tables) (sect key : Str) : Option Str :=
  match GoMap.get f sect with
  | some s => GoMap.get s key
  | none => none

/-- `unicode.ToLower`, for comparison with words of ASCII letters: besides the capitals A-Z just two characters become
an ASCII letter, U+0130 (i) and U+212A (k). All others are left alone here. -/
def lowerChar (c : Char) : Char :=
  if 65 ≤ c.toNat ∧ c.toNat ≤ 90 then Char.ofNat (c.toNat + 32)
  else if c.toNat = 0x130 then 'i'
  else if c.toNat = 0x212a then 'k'
  else c

/-- `strings.ToLower` -/
def lower (s : Str) : Str := s.map lowerChar

/-- The value of a string of decimal digits; `none` if another character occurs. -/
def digits (acc : Nat) : Str → Option Nat
  | [] => some acc
  | c :: r => if 48 ≤ c.toNat ∧ c.toNat ≤ 57 then digits (10 * acc + (c.toNat - 48)) r else none

/-- `strconv.ParseUint(s, 10, 64)` -/
def parseUint (s : Str) : Option Nat :=
  if s = [] then none
  else match digits 0 s with
    | none => none
    | some n => if n < 2 ^ 64 then some n else none

/-- `strings.Replace(s, "~", home, 1)` -/
def tilde (home : Str) : Str → Str
  | [] => []
  | c :: r => if c = '~' then home ++ r else c :: tilde home r

/-- `strings.Split(s, sep)` for a separator of one character. -/
def split (sep : Char) : Str → List Str
  | [] => [[]]
  | c :: s =>
    if c = sep then [] :: split sep s
    else match split sep s with
      | [] => [[c]]
      | l :: ls => (c :: l) :: ls

/-- The loop of go-ini once more, with what is in the map when it stops: `LoadFile` returns the map together with the
error. -/
def parseUpTo : List Str → (cur : Str) → Tables → Tables × Bool
  | [], _, f => (f, true)
  | l :: ls, cur, f =>
    match IniDB.classify l with
    | .skip => parseUpTo ls cur f
    | .assign k v => parseUpTo ls cur (IniDB.put f cur k v)
    | .header n => parseUpTo ls n (IniDB.touch f n)
    | .bad => (f, false)

/-- Why settings are refused. -/
inductive Bad where
  /-- the file could not be read or parsed -/
  | file
  /-- `must be yes or no` -/
  | bool (key : String)
  /-- `invalid createpolicy value` -/
  | policy
  /-- `… invalid`, of a size -/
  | size (key : String)
  /-- homedir: `cannot expand user-specific home dir` -/
  | home
  /-- a colour -/
  | color (key : String)
  deriving DecidableEq, Repr

/-- `iniBool`, /repo/zkserver/settings/settings.go:182-199 and /repo/zkclient/settings.go:293-310, called with the
present value; "not found" is no error for any caller. -/
def iniBool (f : Tables) (old : Bool) (sect key : String) : Except Bad Bool :=
  match get f sect.toList key.toList with
  | none => .ok old
  | some v =>
    if lower v = "yes".toList then .ok true
    else if lower v = "no".toList then .ok false
    else .error (.bool key)

/-- `if ok { s.X = v }` -/
def orOld (f : Tables) (old : Str) (sect key : String) : Str := (get f sect.toList key.toList).getD old

/-! ## The server -/

/-- `Settings`, /repo/zkserver/settings/settings.go:17-36. -/
structure Server where
  root : Str
  users : Str
  listen : Str
  allowIdentify : Bool
  createPolicy : Str
  directory : Bool
  motd : Str
  maxAttachmentSize : Nat
  maxChunkSize : Nat
  maxMsgSize : Nat
  logFile : Str
  timeFormat : Str
  debug : Bool
  trace : Bool
  profiler : Str
  deriving DecidableEq, Repr

/-- `New`, /repo/zkserver/settings/settings.go:43-64, with /repo/rpc/rpc.go:157-169 and `ZKSHome` of
/repo/tools/tools.go. -/
def Server.new : Server where
  root := "~/.zkserver".toList
  users := "~/.zkserver/home".toList
  listen := "127.0.0.1:12345".toList
  allowIdentify := false
  createPolicy := "no".toList
  directory := false
  motd := "~/.zkserver/motd.txt".toList
  maxAttachmentSize := 10 * 1024 * 1024
  maxChunkSize := 256 * 1024
  maxMsgSize := 256 * 1024 + 1024
  logFile := "~/.zkserver/zkserver.log".toList
  timeFormat := "2006-01-02 15:04:05".toList
  debug := false
  trace := false
  profiler := "localhost:6060".toList

/-- A size, /repo/zkserver/settings/settings.go:134-150. -/
def iniSize (f : Tables) (old : Nat) (key : String) : Except Bad Nat :=
  match get f [] key.toList with
  | none => .ok old
  | some v =>
    match parseUint v with
    | none => .error (.size key)
    | some n => .ok n

/-- `createpolicy`, /repo/zkserver/settings/settings.go:108-119. -/
def iniPolicy (f : Tables) (old : Str) : Except Bad Str :=
  match get f [] "createpolicy".toList with
  | none => .ok old
  | some v =>
    if v = "yes".toList then .ok v
    else if v = "no".toList then .ok v
    else if v = "token".toList then .ok v
    else .error .policy

/-- `Load` behind the parser, /repo/zkserver/settings/settings.go:81-180, in its order. What `Load` leaves in the
structure when it fails is left out: both callers drop it. -/
def Server.fill (s : Server) (home : Str) (f : Tables) : Except Bad Server := do
  let root := tilde home (orOld f s.root "" "root")
  let users := tilde home (orOld f s.users "" "users")
  let listen := tilde home (orOld f s.listen "" "listen")
  let allowIdentify ← iniBool f s.allowIdentify "" "allowidentify"
  let createPolicy ← iniPolicy f s.createPolicy
  let directory ← iniBool f s.directory "" "directory"
  let motd := tilde home (orOld f s.motd "" "motd")
  let maxAttachmentSize ← iniSize f s.maxAttachmentSize "maxattachmentsize"
  let maxChunkSize ← iniSize f s.maxChunkSize "maxchunksize"
  let logFile := tilde home (orOld f s.logFile "log" "logfile")
  let debug ← iniBool f s.debug "log" "debug"
  let trace ← iniBool f s.trace "log" "trace"
  let timeFormat := orOld f s.timeFormat "log" "timeformat"
  let profiler := orOld f s.profiler "log" "profiler"
  return { s with root, users, listen, allowIdentify, createPolicy, directory, motd, maxAttachmentSize, maxChunkSize,
                  logFile, debug, trace, timeFormat, profiler }

/-- `ObtainSettings` of the server, /repo/zkserver/settings.go:16-45, and `Load`,
/repo/zkserver/settings/settings.go:68-180: `text` is what the file holds, `none` if it cannot be read; `home` is the
home directory of the user. -/
def server (home : Str) (text : Option Str) : Except Bad Server :=
  match text with
  | none => .error .file
  | some t =>
    match IniDB.parse t with
    | none => .error .file
    | some f => Server.new.fill home f

/-! ## The client -/

/-- What `homedir.Expand` returns: the path as it is, or the home directory joined with the rest. -/
inductive Loc where
  | plain (s : Str)
  | home (rest : Str)
  deriving DecidableEq, Repr

/-- `homedir.Expand` of mitchellh/go-homedir, the home directory being known. -/
def expand : Str → Except Bad Loc
  | [] => .ok (.plain [])
  | c :: r =>
    if c ≠ '~' then .ok (.plain (c :: r))
    else match r with
      | [] => .ok (.home [])
      | d :: r' => if d = '/' ∨ d = '\\' then .ok (.home (d :: r')) else .error .home

/-- Colours of ttk; `na` is `AttrNA`. -/
inductive Color where
  | na | black | red | green | yellow | blue | magenta | cyan | white
  deriving DecidableEq, Repr

/-- `textToColor`, /repo/zkclient/settings.go:51-76. -/
def textToColor (s : Str) : Option Color :=
  let l := lower s
  if l = "na".toList then some .na
  else if l = "black".toList then some .black
  else if l = "red".toList then some .red
  else if l = "green".toList then some .green
  else if l = "yellow".toList then some .yellow
  else if l = "blue".toList then some .blue
  else if l = "magenta".toList then some .magenta
  else if l = "cyan".toList then some .cyan
  else if l = "white".toList then some .white
  else none

/-- The bits of the attribute given to ttk. -/
structure Attr where
  bold : Bool := false
  underline : Bool := false
  reverse : Bool := false
  deriving DecidableEq, Repr

/-- The loop over the attributes, /repo/zkclient/settings.go:85-98. -/
def attrs : Attr → List Str → Option Attr
  | a, [] => some a
  | a, k :: ks =>
    if lower k = "bold".toList then attrs { a with bold := true } ks
    else if lower k = "underline".toList then attrs { a with underline := true } ks
    else if lower k = "reverse".toList then attrs { a with reverse := true } ks
    else none

/-- A colour setting: what is handed to `ttk.Color`. -/
structure Ink where
  attr : Attr
  fg : Color
  bg : Color
  deriving DecidableEq, Repr

/-- `colorToAnsi`, /repo/zkclient/settings.go:78-111. `ttk` says which combinations `ttk.Color`, a dependency, accepts;
the escape sequence that it returns is represented by its arguments. -/
def colorToAnsi (ttk : Ink → Bool) (s : Str) : Option Ink :=
  match split ':' s with
  | [x, y, z] =>
    match attrs {} (split ',' (lower x)) with
    | none => none
    | some a =>
      match textToColor y with
      | none => none
      | some fg =>
        match textToColor z with
        | none => none
        | some bg => if ttk ⟨a, fg, bg⟩ then some ⟨a, fg, bg⟩ else none
  | _ => none

/-- `Settings`, /repo/zkclient/settings.go:28-49; `Home` is left out. -/
structure Client where
  root : Loc
  tlsVerbose : Bool
  beep : Bool
  separator : Bool
  saveHistory : Bool
  logFile : Loc
  timeFormat : Str
  longTimeFormat : Str
  debug : Bool
  profiler : Str
  nickColor : Ink
  gcColor : Ink
  pmColor : Ink
  deriving DecidableEq, Repr

/-- Defaults, /repo/zkclient/settings.go:118-140 with /repo/zkclient/mainwindow.go:55-57; paths are expanded later. -/
def defRoot : Str := "~/.zkclient".toList
/-- see `defRoot` -/
def defLog : Str := "~/.zkclient/zkclient.log".toList

/-- see `defRoot` -/
def Client.new : Client where
  root := .home "/.zkclient".toList
  tlsVerbose := true
  beep := false
  separator := false
  saveHistory := false
  logFile := .home "/.zkclient/zkclient.log".toList
  timeFormat := "15:04:05".toList
  longTimeFormat := "2006-01-02 15:04:05".toList
  debug := false
  profiler := "localhost:6061".toList
  nickColor := ⟨{ bold := true }, .white, .na⟩
  gcColor := ⟨{ bold := true }, .green, .na⟩
  pmColor := ⟨{ bold := true }, .cyan, .na⟩

/-- A colour, /repo/zkclient/settings.go:262-288. -/
def iniColor (ttk : Ink → Bool) (f : Tables) (old : Ink) (key : String) : Except Bad Ink :=
  match get f "ui".toList key.toList with
  | none => .ok old
  | some v =>
    match colorToAnsi ttk v with
    | none => .error (.color key)
    | some i => .ok i

/-- The settings taken from the parsed file, /repo/zkclient/settings.go:199-290, in that order. -/
def Client.fill (ttk : Ink → Bool) (f : Tables) : Except Bad Client := do
  let s := Client.new
  let root ← expand (orOld f defRoot "" "root")
  let tlsVerbose ← iniBool f s.tlsVerbose "" "tlsverbose"
  let beep ← iniBool f s.beep "" "beep"
  let separator ← iniBool f s.separator "" "separator"
  let saveHistory ← iniBool f s.saveHistory "log" "savehistory"
  let logFile ← expand (orOld f defLog "log" "logfile")
  let debug ← iniBool f s.debug "log" "debug"
  let timeFormat := orOld f s.timeFormat "log" "timeformat"
  let longTimeFormat := orOld f s.longTimeFormat "log" "longtimeformat"
  let profiler := orOld f s.profiler "log" "profiler"
  let nickColor ← iniColor ttk f s.nickColor "nickcolor"
  let gcColor ← iniColor ttk f s.gcColor "gcothercolor"
  let pmColor ← iniColor ttk f s.pmColor "pmothercolor"
  return { root, tlsVerbose, beep, separator, saveHistory, logFile, debug, timeFormat, longTimeFormat, profiler,
           nickColor, gcColor, pmColor }

/-- What is found under the name of the configuration file. -/
inductive Found where
  /-- nothing -/
  | absent
  /-- `os.Stat` fails for another reason, or it is a directory -/
  | unusable
  /-- a file; `none` if reading it fails -/
  | file (text : Option Str)
  deriving DecidableEq, Repr

/-- The lines of `defaultConfigFileContent`, /repo/zkclient/zkclient.conf.go:4-48. -/
def shippedLines : List String := [
  "",
  "# root directory for zkclient settings, logs etc",
  "root = ~/.zkclient",
  "",
  "# print certificate fingerprint",
  "tlsverbose = yes",
  "",
  "# annoy user by beeping on incoming messages",
  "# beep = yes",
  "",
  "# Draw separator to show where conversation left off",
  "# separator = yes",
  "",
  "# logging and debug",
  "[log]",
  "",
  "# savehistory saves commands but not text to a history file",
  "savehistory = no",
  "",
  "# timeformat for logging purposes",
  "# see https://golang.org/pkg/time/#Time.Format for more details",
  "timeformat = 15:04:05",
  "",
  "# longtimeformat is used when a year/month/day is required.",
  "longtimeformat = 2006-01-02 15:04:05",
  "",
  "# logfile contains log file name location",
  "logfile = ~/.zkclient/zkclient.log",
  "",
  "# enable/disable debug output to log",
  "debug = no",
  "",
  "# launch go's profiler on specified url",
  "# requires debug = yes",
  "profiler = 127.0.0.1:6061",
  "",
  "# Valid ui colors: na, black, red, green, yellow, blue, magenta, cyan and white",
  "# Valid atttributes are: none, underline and bold",
  "# format is: attribute:foreground:background",
  "[ui]",
  "nickcolor = bold:na:na",
  "gcothercolor = bold:green:na",
  "pmothercolor = bold:cyan:na"]

/-- The same as one text. -/
def shipped : Str := shippedLines.flatMap fun l => l.toList ++ ['\n']

/-- `ObtainSettings` of the client, /repo/zkclient/settings.go:113-291, without `-export` and `-version`: `dflt` tells
whether the name of the file is the default one (`*filename == defaultConfFile`, which is also the `DefValue` of the
flag). The second component is the file that is written at the first run; writing it succeeds. -/
def client (ttk : Ink → Bool) (dflt : Bool) (d : Found) : Except Bad Client × Option Str :=
  match d with
  | .unusable => (.error .file, none)
  | .absent =>
    if dflt then (Client.fill ttk (parseUpTo (IniDB.lines shipped) [] []).1, some shipped)
    else (.error .file, none)
  | .file none => if dflt then (Client.fill ttk [], none) else (.error .file, none)
  | .file (some t) =>
    match parseUpTo (IniDB.lines t) [] [] with
    | (f, true) => (Client.fill ttk f, none)
    | (f, false) => if dflt then (Client.fill ttk f, none) else (.error .file, none)

end Verif.Settings
