import Verif.Model.Windows
import Verif.Model.Path

/-! # Chat logs: zkclient/zkclient.go 200-239

Every line printed in a window other than the first is appended to a file. -/

namespace Verif.ChatLog

open Verif Path Windows

/-- `logsDir`: "logs", /repo/zkclient/zkclient.go:674. -/
def logsDir : Bytes := [108, 111, 103, 115]

/-- "groupchat." -/
def groupPrefix : Bytes := [103, 114, 111, 117, 112, 99, 104, 97, 116, 46]

/-- ".log" -/
def dotLog : Bytes := [46, 108, 111, 103]

/-- The name that is joined to the directory, /repo/zkclient/zkclient.go:217-228. `server` is the host part of the server address. -/
def logName (server : Bytes) (c : Conv) : Bytes :=
  if c.group then groupPrefix ++ c.nick ++ [46] ++ server ++ dotLog
  else c.nick ++ [46] ++ server ++ [46] ++ Hex.encode c.id.identity ++ dotLog

/-- `filename`, /repo/zkclient/zkclient.go:217-228. -/
def logFile (root : Path) (server : Bytes) (c : Conv) : Path := join (root ++ [logsDir]) (logName server c)

/-- Opening with `O_CREATE` and `O_APPEND` and writing the line, /repo/zkclient/zkclient.go:229-239. If the file cannot
be opened nothing is written. What `ttk.Unescape` removes from the line is left out. -/
def log (fs : FS) (root : Path) (server : Bytes) (c : Conv) (line : Bytes) : FS :=
  let p := logFile root server c
  match create fs p ((Path.read fs p).getD [] ++ line ++ [10]) with
  | none => fs
  | some fs' => fs'

end Verif.ChatLog
