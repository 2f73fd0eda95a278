import Verif.Model.Text

/-! # Highlighting the own nick in messages to a group: zkclient/push.go 1257-1276 -/

namespace Verif.Mention

open Verif Text

/-- The text that `handleGroupMessage` shows for a message, /repo/zkclient/push.go:1257-1276: if the nick occurs in it, whatever
the case of the letters, that part is put between `on` and `off`. The place is looked up in the upper case version, and the
message itself is cut there: out of range is a panic. `up` is `unicode.ToUpper`, `normal` that the message is no `/me`. -/
def colour (up : Nat → Nat) (on off nick : Bytes) (normal : Bool) (msg : Bytes) : Outcome Unit Bytes :=
  match index (toUpper up nick) (toUpper up msg) with
  | none => .ok msg
  | some x =>
    if normal then
      if x + nick.length ≤ msg.length then
        .ok (msg.take x ++ on ++ (msg.drop x).take nick.length ++ off ++ msg.drop (x + nick.length))
      else .panic
    else .ok msg

end Verif.Mention
