import Verif.Model.Windows
import Verif.Proofs.Text
import Verif.Proofs.GoMap
import Verif.Props.AddressBook

/-! # Windows of the client: C73 to C77 -/

namespace Verif.Windows

open Verif AddressBook Text

/-! ## C73: what is typed in a window goes to that window's party -/

/-- A nick without spaces that does not begin with white space. -/
def PlainNick (n : Bytes) : Prop := n ≠ [] ∧ (32 : UInt8) ∉ n ∧ ∀ w ∈ spaces, ¬ w <+: n

/-- `k` is the first window with this nick. -/
def FirstNick (z : Z) (n : Bytes) (k : Nat) (d : Conv) : Prop :=
  z.conv[k]? = some d ∧ d.nick = n ∧ ∀ (j : Nat) (e : Conv), j < k → z.conv[j]? = some e → e.nick ≠ n

theorem find_first {z : Z} {n : Bytes} {i : Nat} {c : Conv} (hc : z.conv[i]? = some c) (hn : c.nick = n) :
    ∃ k d, FirstNick z n k d ∧ z.find (fun v => decide (n = v.nick)) = some k := by
  have hs : (z.conv.findIdx? fun v => decide (n = v.nick)).isSome := by
    rw [List.findIdx?_isSome, List.any_eq_true]
    exact ⟨c, List.mem_of_getElem? hc, by simp [hn]⟩
  obtain ⟨k, hk⟩ := Option.isSome_iff_exists.1 hs
  obtain ⟨hlt, h1, h2⟩ := List.findIdx?_eq_some_iff_getElem.1 hk
  refine ⟨k, z.conv[k], ⟨List.getElem?_eq_getElem hlt, ?_, ?_⟩, hk⟩
  · simpa using (of_decide_eq_true h1).symm
  · intro j e hj he hne
    have hjl : j < z.conv.length := by omega
    have := h2 j hj
    rw [List.getElem?_eq_getElem hjl] at he
    injection he with he
    rw [he] at this
    simp [hne] at this

/-- Text typed in the window of a contact is sent, without the white space at its end, to the identity of the
first window that has the nick of the active one, and it is echoed there. -/
theorem C73_recipient (z : Z) (c : Conv) (t : Bytes) (h0 : z.active ≠ 0) (hc : z.conv[z.active]? = some c)
    (hg : c.group = false) (hn : PlainNick c.nick) (ht : ¬ [47] <+: t) (hb : ¬ Blank t) :
    ∃ k d t', FirstNick z c.nick k d ∧ Trimmed t t' ∧
      action z t = some ((z.send [(d.id.identity, .pm t')]).push [.print (some k) (.outPm d.id.identity t')]) := by
  obtain ⟨hn0, hn1, hn2⟩ := hn
  obtain ⟨k, d, hf, hfind⟩ := find_first hc rfl
  refine ⟨k, d, trimRightSpace t, hf, trimRightSpace_spec t, ?_⟩
  have ht0 : t ≠ [] := by
    rintro rfl
    exact hb ⟨[], by simp, rfl⟩
  have hr : trimRightSpace t ≠ [] := fun e => hb (trimRightSpace_eq_nil e)
  have he : expand z t = some ([47, 109] ++ 32 :: (c.nick ++ 32 :: t)) := by
    unfold expand
    rw [if_neg (by simpa [List.isPrefixOf_iff_prefix] using ht), if_neg h0, hc]
    simp [hg]
  unfold action
  rw [if_neg ht0, he]
  dsimp only
  unfold dispatch
  rw [split_append (by decide), split_append hn1]
  dsimp only
  rw [if_neg (by decide), if_pos (by decide), if_neg (by
    have := List.length_pos_iff.2 (split_ne_nil t)
    simp only [List.length_cons]
    omega)]
  have hm : textM ([47, 109] ++ 32 :: (c.nick ++ 32 :: t)) [47, 109] c.nick = trimRightSpace t := by
    unfold textM
    rw [trimPrefix_append, trimSpace_cons hn0 hn2 hr]
    have : c.nick ++ 32 :: trimRightSpace t = (c.nick ++ [32]) ++ trimRightSpace t := by simp
    rw [this, trimPrefix_append, trimRightBlank_trimmed]
  unfold cmdM
  rw [List.headD_cons, hm]
  dsimp only
  rw [hfind]
  dsimp only
  rw [hf.1]

/-- Text typed in the window of a contact is sent to that contact and to nobody else, and is echoed in that
window, if no window before it has the same nick. Missing for the full claim: other nicks, and text that is only white space
(next theorems). -/
theorem C73_private_partial (z : Z) (c : Conv) (t : Bytes) (h0 : z.active ≠ 0) (hc : z.conv[z.active]? = some c)
    (hg : c.group = false) (hn : PlainNick c.nick) (ht : ¬ [47] <+: t) (hb : ¬ Blank t)
    (hu : ∀ (j : Nat) (e : Conv), j < z.active → z.conv[j]? = some e → e.nick ≠ c.nick) :
    ∃ t', Trimmed t t' ∧ action z t =
      some ((z.send [(c.id.identity, .pm t')]).push [.print (some z.active) (.outPm c.id.identity t')]) := by
  obtain ⟨k, d, t', ⟨h1, h2, h3⟩, h4, h5⟩ := C73_recipient z c t h0 hc hg hn ht hb
  have hk : k = z.active := by
    rcases Nat.lt_trichotomy k z.active with h | h | h
    · exact absurd h2 (hu k d h h1)
    · exact h
    · exact absurd rfl (h3 _ _ h hc)
  subst hk
  rw [hc] at h1
  injection h1 with h1
  subst h1
  exact ⟨t', h4, h5⟩

/-- The code points that Unicode counts as white space. -/
def white : List Nat :=
  [0x9, 0xA, 0xB, 0xC, 0xD, 0x20, 0x85, 0xA0, 0x1680, 0x2000, 0x2001, 0x2002, 0x2003, 0x2004, 0x2005, 0x2006, 0x2007, 0x2008,
   0x2009, 0x200A, 0x2028, 0x2029, 0x202F, 0x205F, 0x3000]

/-- What is taken away at the end of a text, and not allowed in nicks, is the white space of Unicode, in UTF-8. -/
theorem C73_white (w : Bytes) : w ∈ spaces ↔ ∃ r ∈ white, w = String.utf8EncodeChar (Char.ofNat r) := by
  have : spaces = white.map fun r => String.utf8EncodeChar (Char.ofNat r) := by decide
  rw [this, List.mem_map]
  exact exists_congr fun r => and_congr_right fun _ => eq_comm

/-- "/me" in the window of a contact sends its text, without the white space around it, to the contact of this very window
and to nobody else. -/
theorem C73_me (z : Z) (c : Conv) (t : Bytes) (h0 : z.active ≠ 0) (hc : z.conv[z.active]? = some c) (hg : c.group = false)
    (ht : ∀ w ∈ spaces, ¬ w <+: t) :
    ∃ t', Trimmed t t' ∧ action z ([47, 109, 101] ++ 32 :: t) =
      some ((z.send [(c.id.identity, .pm t')]).push [.print none (.outPm c.id.identity t')]) := by
  refine ⟨trimRightSpace t, trimRightSpace_spec t, ?_⟩
  unfold action
  rw [if_neg (by simp)]
  have he : expand z ([47, 109, 101] ++ 32 :: t) = some ([47, 109, 101] ++ 32 :: t) := by
    unfold expand
    rw [if_pos (by simp)]
  rw [he]
  dsimp only
  unfold dispatch
  rw [split_append (by decide)]
  dsimp only
  rw [if_pos rfl, if_neg (by have := List.length_pos_iff.2 (split_ne_nil t); omega)]
  unfold cmdMe
  rw [if_neg h0, hc]
  dsimp only
  rw [trimPrefix_append, hg]
  simp only [Bool.false_eq_true, if_false]
  unfold trimSpace
  rw [trimLeftSpace_cons ht]

theorem sent_query (z : Z) (n : Bytes) : (query z n).sent = z.sent := by
  have h1 : ∀ {z z' : Z} {i : Bytes} {k : Nat}, getConversation z i = some (z', k) → z'.sent = z.sent := by
    intro z z' i k h
    unfold getConversation at h
    grind [Z.push, Z.addConv]
  have h2 : ∀ {z z' : Z} {i : Bytes} {k : Nat}, groupConversation z i = some (z', k) → z'.sent = z.sent := by
    intro z z' i k h
    unfold groupConversation at h
    grind [Z.push, Z.addConv]
  unfold query
  split
  · rfl
  · split
    · next h => have := h2 h; simpa [Z.push] using this
    · split
      · next h =>
        unfold addressBookConversation at h
        split at h
        · cases h
        · split at h
          · cases h
          · have := h1 h; simpa [Z.push] using this
      · rfl

/-- What is typed in the console is sent to nobody, unless it is a command that names a recipient. -/
theorem C73_nobody (z z' : Z) (l : Bytes) (h0 : z.active = 0) (ha : action z l = some z')
    (hm : ∀ w ∈ ([[47, 109], [47, 109, 115, 103], [47, 103, 99]] : List Bytes), (split l).head? ≠ some w) :
    z'.sent = z.sent := by
  unfold action at ha
  split at ha
  · cases ha; rfl
  · have he : expand z l = some l := by
      unfold expand
      simp [h0]
    rw [he] at ha
    dsimp only at ha
    unfold dispatch at ha
    cases hs : split l with
    | nil => rw [hs] at ha; cases ha; rfl
    | cons a0 as =>
      have hm' : ∀ w ∈ ([[47, 109], [47, 109, 115, 103], [47, 103, 99]] : List Bytes), a0 ≠ w := by
        intro w hw e
        exact hm w hw (by rw [hs, e]; rfl)
      have m1 := hm' _ (.head _)
      have m2 := hm' _ (.tail _ (.head _))
      have m3 := hm' _ (.tail _ (.tail _ (.head _)))
      rw [hs] at ha
      dsimp only at ha
      split at ha
      · split at ha
        · cases ha; rfl
        · unfold cmdMe at ha
          rw [if_pos h0] at ha
          cases ha; rfl
      · simp only [m1, m2, or_self, if_false] at ha
        split at ha
        · split at ha
          · cases ha; rfl
          · cases ha
            unfold cmdWc
            rw [if_pos (.inl h0)]
        · split at ha
          · split at ha
            · cases ha; rfl
            · cases ha; exact sent_query _ _
          · cases ha; rfl

/-- Text typed in the window of a group is sent to every member but oneself, marked with the name of the group. It is
echoed in the first window whose identity has that nick. -/
theorem C73_group (z : Z) (c : Conv) (t : Bytes) (ms : List Bytes) (h0 : z.active ≠ 0)
    (hc : z.conv[z.active]? = some c) (hg : c.group = true) (hi : c.id.nick = c.nick) (hm : z.groups.get c.nick = some ms)
    (hn : PlainNick c.nick) (ht : ¬ [47] <+: t) (hb : ¬ Blank t) :
    ∃ k t', Trimmed t t' ∧ z.find (fun v => v.id.nick = c.nick) = some k ∧
      action z t = some ((z.send ((ms.filter (· ≠ z.own.identity)).map fun m => (m, .gm c.nick t'))).push
        [.print (some k) (.outGm c.nick t')]) := by
  obtain ⟨hn0, hn1, hn2⟩ := hn
  have hs : (z.find fun v => decide (v.id.nick = c.nick)).isSome := by
    unfold Z.find
    rw [List.findIdx?_isSome, List.any_eq_true]
    exact ⟨c, List.mem_of_getElem? hc, by simp [hi]⟩
  obtain ⟨k, hk⟩ := Option.isSome_iff_exists.1 hs
  refine ⟨k, trimRightSpace t, trimRightSpace_spec t, hk, ?_⟩
  have ht0 : t ≠ [] := by
    rintro rfl
    exact hb ⟨[], by simp, rfl⟩
  have hr : trimRightSpace t ≠ [] := fun e => hb (trimRightSpace_eq_nil e)
  have he : expand z t = some ([47, 103, 99] ++ 32 :: ([109] ++ 32 :: (c.nick ++ 32 :: t))) := by
    unfold expand
    rw [if_neg (by simpa [List.isPrefixOf_iff_prefix] using ht), if_neg h0, hc]
    simp [hg]
  unfold action
  rw [if_neg ht0, he]
  dsimp only
  unfold dispatch
  rw [split_append (by decide), split_append (by decide), split_append hn1]
  dsimp only
  rw [if_neg (by decide), if_neg (by decide), if_pos rfl, if_pos (by decide)]
  have hmt : textGc ([47, 103, 99] ++ 32 :: ([109] ++ 32 :: (c.nick ++ 32 :: t))) [109] c.nick = trimRightSpace t := by
    unfold textGc
    have h1 : [109] ++ 32 :: (c.nick ++ 32 :: t) = ([109] ++ 32 :: c.nick) ++ 32 :: t := by simp
    have hp : ∀ w ∈ spaces, ¬ w <+: ([109] ++ 32 :: c.nick) := by
      intro w hw
      refine no_space_prefix (a := [109]) (by simp) ?_ c.nick w hw
      decide
    have h2 : ([109] ++ 32 :: c.nick) ++ 32 :: trimRightSpace t = [109] ++ 32 :: (c.nick ++ 32 :: trimRightSpace t) := by
      simp
    rw [trimPrefix_append, h1, trimSpace_cons (by simp) hp hr, h2, trimPrefix_append,
      trimSpace_cons hn0 hn2 (by rw [trimRightSpace_idem]; exact hr), trimRightSpace_idem]
    have : c.nick ++ 32 :: trimRightSpace t = (c.nick ++ [32]) ++ trimRightSpace t := by simp
    rw [this, trimPrefix_append, trimRightBlank_trimmed]
  rw [hmt]
  unfold gcMessage
  rw [if_neg (by
    have := List.length_pos_iff.2 (split_ne_nil t)
    simp only [List.length_cons]
    omega)]
  unfold groupConversation
  rw [hm]
  dsimp only
  rw [hk]
  dsimp only
  rw [hm]
  rfl

/-- Events one after the other, each of them allowed. -/
def execIf (ok : Z → Ev → Prop) [∀ z e, Decidable (ok z e)] (z : Z) : List Ev → Option Z
  | [] => some z
  | e :: es => if ok z e then (step z e).bind fun z' => execIf ok z' es else none

theorem runs_exec {ok : Z → Ev → Prop} [∀ z e, Decidable (ok z e)] {own : PubId} {z z' : Z} (h : Runs ok own z) :
    ∀ {evs : List Ev}, execIf ok z evs = some z' → Runs ok own z' := by
  intro evs
  induction evs generalizing z with
  | nil =>
    intro he
    injection he with he
    exact he ▸ h
  | cons e es ih =>
    intro he
    rw [execIf] at he
    split at he
    · rename_i hok
      obtain ⟨z1, h1, h2⟩ := Option.bind_eq_some_iff.1 he
      exact ih (.step h hok h1) h2
    · cases he

/-- The user of the examples. -/
def me : PubId := ⟨[109, 101], [0xaa], 0⟩

/-- Two people who both call themselves "bob". -/
def bob1 : PubId := ⟨[98, 111, 98], [1], 0⟩
def bob2 : PubId := ⟨[98, 111, 98], [2], 0⟩

/-- "hi" -/
def hi : Bytes := [104, 105]

/-- Both have written, everything is shown, and the user has changed to the window of the second. -/
def twoBobs : List Ev :=
  [.learn bob1, .learn bob2, .pm [1] hi, .pm [2] hi, .work, .work, .work, .work, .work, .work, .focus 2, .work]

/-- A state that the events lead to. -/
theorem reach_of {ok : Z → Ev → Prop} [∀ z e, Decidable (ok z e)] {own : PubId} (evs : List Ev) (P : Z → Prop)
    [DecidablePred P] (h : (execIf ok (init own) evs).any (fun z => decide (P z)) = true) :
    ∃ z, Runs ok own z ∧ P z := by
  cases hz : execIf ok (init own) evs with
  | none => simp [hz] at h
  | some z => exact ⟨z, runs_exec .init hz, by simpa [hz] using h⟩

instance (n : Bytes) : Decidable (PlainNick n) := by
  unfold PlainNick
  infer_instance

/-- **Violated.** Two contacts have chosen the same nick. What the user types in the window of the second is sent to the
first. -/
theorem C73_nick_violated : ∃ z, Reach me z ∧ z.queue = [] ∧
    z.conv[z.active]? = some ⟨bob2, [98, 111, 98], false, [.info, .inPm [2] hi]⟩ ∧ PlainNick bob2.nick ∧ z.sent = [] ∧
    (action z hi).map (·.sent) = some [(bob1.identity, .pm hi)] :=
  reach_of twoBobs _ (by decide +kernel)

/-- "al" and "al x" -/
def al : PubId := ⟨[97, 108], [1], 0⟩
def alx : PubId := ⟨[97, 108, 32, 120], [2], 0⟩

/-- **Violated.** The nick of a contact is "al x". What the user types in their window goes to the contact "al", together
with the rest of the nick. -/
theorem C73_space_violated : ∃ z, Reach me z ∧ z.queue = [] ∧
    z.conv[z.active]? = some ⟨alx, alx.nick, false, [.info, .inPm [2] hi]⟩ ∧ z.sent = [] ∧
    (action z hi).map (·.sent) = some [(al.identity, .pm [120, 32, 104, 105])] :=
  reach_of [.learn al, .learn alx, .pm [2] hi, .work, .work, .work, .focus 1, .work] _ (by decide +kernel)

/-- **Violated.** A contact calls themselves "console". What the user types in their window is sent to the user's own
identity. -/
theorem C73_console_violated : ∃ z, Reach me z ∧ z.queue = [] ∧
    z.conv[z.active]? = some ⟨⟨consoleText, [1], 0⟩, consoleText, false, [.info, .inPm [1] hi]⟩ ∧
    PlainNick consoleText ∧ z.sent = [] ∧ (action z hi).map (·.sent) = some [(me.identity, .pm hi)] :=
  reach_of [.learn ⟨consoleText, [1], 0⟩, .pm [1] hi, .work, .work, .work, .focus 1, .work] _ (by decide +kernel)

/-- **Violated.** A contact has the nick "bob", and there is a window of a group called "bob". What the user types in the
window of the contact is sent as a private message to nobody, the identity of all zeros. -/
theorem C73_group_name_violated : ∃ z, Reach me z ∧ z.queue = [] ∧
    z.conv[z.active]? = some ⟨bob1, [98, 111, 98], false, [.info, .inPm [1] hi]⟩ ∧ PlainNick bob1.nick ∧ z.sent = [] ∧
    (action z hi).map (·.sent) = some [(List.replicate 32 0, .pm hi)] :=
  reach_of [.learn bob1, .setGroup [98, 111, 98] [[0xaa], [7]], .gm [98, 111, 98] [7] hi, .pm [1] hi, .work, .work,
    .work, .work, .work, .work, .focus 2, .work] _ (by decide +kernel)

/-- **Violated.** The user types nothing but spaces. The contact gets their own nick as a message. -/
theorem C73_blank_violated : ∃ z, Reach me z ∧ z.queue = [] ∧
    z.conv[z.active]? = some ⟨bob1, [98, 111, 98], false, [.info, .inPm [1] hi]⟩ ∧ PlainNick bob1.nick ∧ z.sent = [] ∧
    (action z [32, 32]).map (·.sent) = some [(bob1.identity, .pm bob1.nick)] :=
  reach_of [.learn bob1, .pm [1] hi, .work, .work, .work, .focus 1, .work] _ (by decide +kernel)

/-- An instance of `C73_private_partial`: one bob, the text "hi" and two spaces. -/
example : ∃ z, Reach me z ∧ z.active = 1 ∧ z.conv[1]? = some ⟨bob1, [98, 111, 98], false, [.info, .inPm [1] hi]⟩ ∧
    PlainNick bob1.nick ∧ (action z (hi ++ [32, 32])).map (fun z => (z.sent, z.queue)) =
      some ([([1], .pm hi)], [.print (some 1) (.outPm [1] hi)]) :=
  reach_of [.learn bob1, .pm [1] hi, .work, .work, .work, .focus 1, .work] _ (by decide +kernel)

/-- An instance of `C73_me`. -/
example : ∃ z, Reach me z ∧ z.active = 1 ∧ (action z ([47, 109, 101, 32] ++ hi)).map (fun z => (z.sent, z.queue)) =
      some ([([1], .pm hi)], [.print none (.outPm [1] hi)]) :=
  reach_of [.learn bob1, .pm [1] hi, .work, .work, .work, .focus 1, .work] _ (by decide +kernel)

/-- An instance of `C73_nobody`: in the console neither "hi" nor "/me hi" is sent. -/
example : ∃ z, Reach me z ∧ z.active = 0 ∧ (action z hi).map (·.sent) = some [] ∧
    (action z ([47, 109, 101, 32] ++ hi)).map (·.sent) = some [] :=
  reach_of [.learn bob1] _ (by decide +kernel)

/-- An instance of `C73_group`: two other members get the text. -/
example : ∃ z, Reach me z ∧ z.active = 1 ∧ (z.conv[1]?.map (·.group)) = some true ∧
    (action z hi).map (fun z => (z.sent, z.queue)) =
      some ([([7], .gm [103] hi), ([8], .gm [103] hi)], [.print (some 1) (.outGm [103] hi)]) :=
  reach_of [.setGroup [103] [[0xaa], [7], [8]], .gm [103] [7] hi, .work, .work, .work, .focus 1, .work] _
    (by decide +kernel)

/-! ## C74: messages that arrive are shown in the window of their party -/

/-- The line is one of those that belong in window `c`: private messages of its identity, messages of the group with its
nick, and everything that is no incoming message. -/
def Fits (c : Conv) : Line → Prop
  | .inPm src _ => c.id.identity = src
  | .inGm g _ _ => c.id.nick = g
  | _ => True

/-- No incoming message. -/
def Own : Line → Prop
  | .inPm .. => False
  | .inGm .. => False
  | _ => True

theorem Own.fits {c : Conv} {l : Line} (h : Own l) : Fits c l := by
  cases l <;> trivial

/-- The entry of the queue will be written to a window where it belongs. -/
def JobFits (conv : List Conv) : Job → Prop
  | .print (some k) l => ∃ c, conv[k]? = some c ∧ Fits c l
  | .print none l => Own l
  | .focus _ => True

/-- Everything shown, or about to be, is in the right window. -/
def Inv (z : Z) : Prop :=
  (∀ c ∈ z.conv, ∀ l ∈ c.lines, Fits c l) ∧ (∀ j ∈ z.queue, JobFits z.conv j) ∧ 0 < z.conv.length

/-- Nothing but windows, queue and messages sent has changed. -/
def Same (z z' : Z) : Prop := (z'.own, z'.disk, z'.book, z'.groups) = (z.own, z.disk, z.book, z.groups)

/-- Windows and entries of the queue are added at the end. -/
def Grow (z z' : Z) : Prop :=
  ∃ cs js, z'.conv = z.conv ++ cs ∧ (∀ c ∈ cs, c.lines = []) ∧ z'.queue = z.queue ++ js ∧
    (0 < z.conv.length → ∀ j ∈ js, JobFits z'.conv j) ∧ Same z z' ∧ z'.active = z.active

theorem JobFits.append {conv : List Conv} {j : Job} (h : JobFits conv j) (cs : List Conv) : JobFits (conv ++ cs) j := by
  cases j with
  | focus k => trivial
  | print w l =>
    cases w with
    | none => exact h
    | some k =>
      obtain ⟨c, h1, h2⟩ := h
      refine ⟨c, ?_, h2⟩
      rw [List.getElem?_append_left (List.getElem?_eq_some_iff.1 h1).1]
      exact h1

theorem Grow.refl (z : Z) : Grow z z := ⟨[], [], by simp, by simp, by simp, by simp, rfl, rfl⟩

theorem Grow.trans {a b c : Z} (h : Grow a b) (h' : Grow b c) : Grow a c := by
  obtain ⟨cs, js, h1, h2, h3, h4, h5, h6⟩ := h
  obtain ⟨cs', js', g1, g2, g3, g4, g5, g6⟩ := h'
  refine ⟨cs ++ cs', js ++ js', by rw [g1, h1, List.append_assoc], ?_, by rw [g3, h3, List.append_assoc], ?_,
    Eq.trans g5 h5, g6.trans h6⟩
  · intro c hc
    rcases List.mem_append.1 hc with hc | hc
    · exact h2 c hc
    · exact g2 c hc
  · intro h0 j hj
    rcases List.mem_append.1 hj with hj | hj
    · rw [g1]
      exact (h4 h0 j hj).append _
    · exact g4 (by rw [h1, List.length_append]; omega) j hj

theorem Grow.inv {z z' : Z} (h : Grow z z') (hi : Inv z) : Inv z' := by
  obtain ⟨cs, js, h1, h2, h3, h4, -, -⟩ := h
  obtain ⟨i1, i2, i3⟩ := hi
  refine ⟨?_, ?_, by rw [h1, List.length_append]; omega⟩
  · intro c hc l hl
    rw [h1] at hc
    rcases List.mem_append.1 hc with hc | hc
    · exact i1 c hc l hl
    · rw [h2 c hc] at hl
      exact absurd hl (by simp)
  · intro j hj
    rw [h3] at hj
    rcases List.mem_append.1 hj with hj | hj
    · rw [h1]
      exact (i2 j hj).append _
    · exact h4 i3 j hj

theorem grow_push (z : Z) (js : List Job) (h : 0 < z.conv.length → ∀ j ∈ js, JobFits z.conv j) : Grow z (z.push js) :=
  ⟨[], js, by simp [Z.push], by simp, rfl, h, rfl, rfl⟩

theorem grow_send (z : Z) (ms : List (Bytes × Msg)) : Grow z (z.send ms) :=
  ⟨[], [], by simp [Z.send], by simp, by simp [Z.send], by simp, rfl, rfl⟩

theorem grow_complain (z : Z) : Grow z z.complain := grow_push _ _ (by simp [JobFits, Own])

theorem grow_addConv (z : Z) (c : Conv) (hc : c.lines = []) : Grow z (z.addConv c) := by
  refine ⟨[c], _, rfl, by simpa using hc, rfl, ?_, rfl, rfl⟩
  intro h0 j hj
  simp only [List.mem_cons, List.not_mem_nil, or_false] at hj
  rcases hj with rfl | rfl
  · refine ⟨(z.conv ++ [c])[0]'(by simp), ?_, trivial⟩
    exact List.getElem?_eq_getElem _
  · exact ⟨c, by simp [Z.addConv, Z.push], trivial⟩

theorem find_spec {z : Z} {test : Conv → Bool} {k : Nat} (h : z.find test = some k) :
    ∃ c, z.conv[k]? = some c ∧ test c = true := by
  obtain ⟨hlt, h1, -⟩ := List.findIdx?_eq_some_iff_getElem.1 h
  exact ⟨_, List.getElem?_eq_getElem hlt, h1⟩

theorem addConv_last (z : Z) (c : Conv) : (z.addConv c).conv[z.conv.length]? = some c := by simp [Z.addConv, Z.push]

theorem groupConversation_spec {z z' : Z} {g : Bytes} {k : Nat} (h : groupConversation z g = some (z', k)) :
    Grow z z' ∧ ∃ c, z'.conv[k]? = some c ∧ c.id.nick = g := by
  unfold groupConversation at h
  split at h
  · cases h
  split at h
  · rename_i hf
    injection h with h
    injection h with h1 h2
    subst h1 h2
    obtain ⟨c, hc, ht⟩ := find_spec hf
    exact ⟨.refl _, c, hc, by simpa using ht⟩
  · injection h with h
    injection h with h1 h2
    subst h1 h2
    exact ⟨grow_addConv _ _ rfl, _, addConv_last _ _, rfl⟩

/-- Identities are stored under their own name. -/
def DiskOk (z : Z) : Prop := ∀ id p, z.disk.get id = some p → p.identity = id

theorem getConversation_spec {z z' : Z} {id : Bytes} {k : Nat} (hd : DiskOk z) (h : getConversation z id = some (z', k)) :
    Grow z z' ∧ ∃ c, z'.conv[k]? = some c ∧ c.id.identity = id := by
  unfold getConversation at h
  split at h
  · cases h
  rename_i p hp
  split at h
  · rename_i hf
    injection h with h
    injection h with h1 h2
    subst h1 h2
    obtain ⟨c, hc, ht⟩ := find_spec hf
    exact ⟨.refl _, c, hc, by simpa using ht⟩
  · injection h with h
    injection h with h1 h2
    subst h1 h2
    exact ⟨grow_addConv _ _ rfl, _, addConv_last _ _, hd _ _ hp⟩

theorem addressBookConversation_spec {z z' : Z} {n : Bytes} {k : Nat} (hd : DiskOk z)
    (h : addressBookConversation z n = some (z', k)) : Grow z z' ∧ ∃ c, z'.conv[k]? = some c := by
  unfold addressBookConversation at h
  split at h
  · cases h
  split at h
  · cases h
  obtain ⟨h1, c, h2, -⟩ := getConversation_spec hd h
  exact ⟨h1, c, h2⟩

theorem grow_query {z : Z} (hd : DiskOk z) (n : Bytes) : Grow z (query z n) := by
  unfold query
  split
  · exact grow_push _ _ (by simp [JobFits])
  split
  · rename_i h
    exact (groupConversation_spec h).1.trans (grow_push _ _ (by simp [JobFits]))
  split
  · rename_i h
    exact (addressBookConversation_spec hd h).1.trans (grow_push _ _ (by simp [JobFits]))
  · exact grow_complain _

theorem grow_cmdM {z : Z} (hd : DiskOk z) (cmd a0 a1 : Bytes) : Grow z (cmdM z cmd a0 a1) := by
  unfold cmdM
  dsimp only
  have key : ∀ {o : Option (Z × Nat)}, (∀ z' k, o = some (z', k) → Grow z z') →
      Grow z (match o with
        | none => z.complain
        | some (z', k) =>
          match z'.conv[k]? with
          | none => z'
          | some c => (z'.send [(c.id.identity, .pm (textM cmd a0 a1))]).push
              [.print (some k) (.outPm c.id.identity (textM cmd a0 a1))]) := by
    intro o ho
    cases o with
    | none => exact grow_complain _
    | some p =>
      obtain ⟨z', k⟩ := p
      dsimp only
      have h1 := ho z' k rfl
      split
      · exact h1
      · rename_i c hc
        refine (h1.trans (grow_send _ _)).trans (grow_push _ _ ?_)
        intro _ j hj
        rw [List.mem_singleton] at hj
        subst hj
        exact ⟨c, hc, trivial⟩
  refine key ?_
  intro z' k h
  split at h
  · injection h with h
    injection h with h1 h2
    subst h1
    exact .refl _
  · exact (addressBookConversation_spec hd h).1

theorem grow_gcMessage (z : Z) (n : Nat) (g msg : Bytes) : Grow z (gcMessage z n g msg) := by
  unfold gcMessage
  split
  · exact grow_complain _
  split
  · exact grow_complain _
  · rename_i z' k h
    obtain ⟨h1, c, hc, -⟩ := groupConversation_spec h
    refine (h1.trans (grow_send _ _)).trans (grow_push _ _ ?_)
    intro _ j hj
    rw [List.mem_singleton] at hj
    subst hj
    exact ⟨c, hc, trivial⟩

theorem grow_cmdMe {z z' : Z} {cmd a0 : Bytes} (h : cmdMe z cmd a0 = some z') : Grow z z' := by
  unfold cmdMe at h
  split at h
  · injection h with h
    exact h ▸ grow_complain _
  split at h
  · cases h
  dsimp only at h
  split at h
  · injection h with h
    exact h ▸ grow_gcMessage ..
  · injection h with h
    subst h
    exact (grow_send _ _).trans (grow_push _ _ (by simp [JobFits, Own]))

/-- "/wc" -/
def wc : Bytes := [47, 119, 99]

theorem grow_dispatch {z z' : Z} {cmd : Bytes} (hd : DiskOk z) (hw : cmd ≠ wc) (h : dispatch z cmd = some z') :
    Grow z z' := by
  unfold dispatch at h
  split at h
  · injection h with h
    exact h ▸ .refl _
  rename_i a0 as hs
  split at h
  · split at h
    · injection h with h
      exact h ▸ grow_complain _
    · exact grow_cmdMe h
  split at h
  · split at h <;> injection h with h <;> subst h
    · exact grow_complain _
    · exact grow_cmdM hd ..
  split at h
  · split at h
    · injection h with h
      exact h ▸ grow_complain _
    split at h
    · split at h <;> injection h with h <;> subst h
      · exact grow_complain _
      · exact grow_gcMessage ..
    · injection h with h
      exact h ▸ grow_complain _
  split at h
  · rename_i ha
    split at h
    · injection h with h
      exact h ▸ grow_complain _
    · rename_i hl
      have : as = [] := List.length_eq_zero_iff.1 (by omega)
      subst this ha
      exact absurd (split_single hs) hw
  split at h
  · split at h <;> injection h with h <;> subst h
    · exact grow_complain _
    · exact grow_query hd _
  · injection h with h
    exact h ▸ grow_complain _

theorem expand_ne_wc {z : Z} {cmd cmd' : Bytes} (hw : cmd ≠ wc) (h : expand z cmd = some cmd') : cmd' ≠ wc := by
  unfold expand at h
  split at h
  · injection h with h
    exact h ▸ hw
  split at h
  · injection h with h
    exact h ▸ hw
  split at h
  · cases h
  · injection h with h
    subst h
    split <;> simp [wc]

theorem grow_action {z z' : Z} {cmd : Bytes} (hd : DiskOk z) (hw : cmd ≠ wc) (h : action z cmd = some z') : Grow z z' := by
  unfold action at h
  split at h
  · injection h with h
    exact h ▸ .refl _
  split at h
  · cases h
  · rename_i he
    exact grow_dispatch hd (expand_ne_wc hw he) h

theorem grow_pm {z : Z} (hd : DiskOk z) (src text : Bytes) : Grow z (handlePm z src text) := by
  unfold handlePm
  split
  · exact .refl _
  · rename_i h
    obtain ⟨h1, c, h2, h3⟩ := getConversation_spec hd h
    refine h1.trans (grow_push _ _ ?_)
    intro _ j hj
    rw [List.mem_singleton] at hj
    subst hj
    exact ⟨c, h2, h3⟩

theorem grow_gm (z : Z) (g src text : Bytes) : Grow z (handleGm z g src text) := by
  unfold handleGm
  split
  · exact .refl _
  split
  · split
    · exact .refl _
    · rename_i h
      obtain ⟨h1, c, h2, h3⟩ := groupConversation_spec h
      refine h1.trans (grow_push _ _ ?_)
      intro _ j hj
      rw [List.mem_singleton] at hj
      subst hj
      exact ⟨c, h2, h3⟩
  · exact .refl _

theorem DiskOk.same {z z' : Z} (hd : DiskOk z) (h : Same z z') : DiskOk z' := by
  have : z'.disk = z.disk := by
    have := h
    simp only [Same, Prod.mk.injEq] at this
    exact this.2.1
  unfold DiskOk
  rw [this]
  exact hd

theorem Grow.same {z z' : Z} (h : Grow z z') : Same z z' := by
  obtain ⟨_, _, _, _, _, _, h, _⟩ := h
  exact h

/-- Appending a line keeps the windows. -/
theorem write_getElem? (z : Z) (k j : Nat) (l : Line) : (z.write k l).conv[j]? =
    z.conv[j]?.map fun c => if j = k then { c with lines := c.lines ++ [l] } else c := by
  simp only [Z.write, List.getElem?_modify]
  congr 1
  funext c
  by_cases h : j = k
  · rw [if_pos h, if_pos h.symm]
  · rw [if_neg h, if_neg (Ne.symm h)]

theorem inv_write {z : Z} {k : Nat} {l : Line} (hi : Inv z) (hl : ∀ c, z.conv[k]? = some c → Fits c l) : Inv (z.write k l) := by
  obtain ⟨h1, h2, h3⟩ := hi
  refine ⟨?_, ?_, by simpa [Z.write] using h3⟩
  · intro c hc l' hl'
    obtain ⟨j, hj⟩ := List.mem_iff_getElem?.1 hc
    rw [write_getElem?] at hj
    obtain ⟨d, hd, rfl⟩ := Option.map_eq_some_iff.1 hj
    split at hl'
    · rename_i hjk
      subst hjk
      rw [if_pos rfl]
      rcases List.mem_append.1 hl' with hl' | hl'
      · have := h1 d (List.mem_of_getElem? hd) l' hl'
        cases l' <;> exact this
      · rw [List.mem_singleton] at hl'
        subst hl'
        have := hl d hd
        cases l' <;> exact this
    · rename_i hjk
      rw [if_neg hjk]
      exact h1 d (List.mem_of_getElem? hd) l' hl'
  · intro j hj
    have := h2 j hj
    cases j with
    | focus => trivial
    | print w l' =>
      cases w with
      | none => exact this
      | some m =>
        obtain ⟨c, hc, hf⟩ := this
        refine ⟨_, by rw [write_getElem?, hc]; rfl, ?_⟩
        dsimp only
        split
        · cases l' <;> exact hf
        · exact hf

theorem inv_work {z z' : Z} (hi : Inv z) (h : work z = some z') : Inv z' := by
  unfold work at h
  split at h
  · injection h with h
    exact h ▸ hi
  · rename_i w l r hq
    dsimp only at h
    split at h
    · injection h with h
      subst h
      have hi' : Inv { z with queue := r } := ⟨hi.1, fun j hj => hi.2.1 j (by rw [hq]; exact List.mem_cons_of_mem _ hj), hi.2.2⟩
      refine inv_write hi' ?_
      intro c hc
      have := hi.2.1 (.print w l) (by rw [hq]; exact List.mem_cons_self)
      cases w with
      | none => exact Own.fits this
      | some k =>
        obtain ⟨d, hd, hf⟩ := this
        have hc' : z.conv[k]? = some c := hc
        rw [hd] at hc'
        injection hc' with hc'
        exact hc' ▸ hf
    · cases h
  · rename_i k r hq
    have hi' : Inv { z with queue := r } := ⟨hi.1, fun j hj => hi.2.1 j (by rw [hq]; exact List.mem_cons_of_mem _ hj), hi.2.2⟩
    dsimp only at h
    split at h
    · injection h with h
      exact h ▸ hi'
    split at h
    · injection h with h
      subst h
      refine (grow_push _ _ ?_).inv hi'
      intro h0 j hj
      rw [List.mem_singleton] at hj
      subst hj
      exact ⟨z.conv[0]'h0, List.getElem?_eq_getElem _, trivial⟩
    · injection h with h
      subst h
      exact hi'

/-- No window is closed. -/
def NoClose (_ : Z) : Ev → Prop
  | .enter cmd => cmd ≠ wc
  | .restore _ => False
  | _ => True

instance (z : Z) (e : Ev) : Decidable (NoClose z e) := by
  cases e <;> unfold NoClose <;> infer_instance

theorem diskOk_learn {z : Z} (hd : DiskOk z) (p : PubId) : DiskOk (learn z p) := by
  unfold learn
  split
  · exact hd
  split
  · exact hd
  · intro id q hq
    dsimp only at hq
    rw [GoMap.get_set] at hq
    split at hq
    · injection hq with hq
      subst hq
      assumption
    · exact hd id q hq

theorem diskOk_forget {z : Z} (hd : DiskOk z) (id : Bytes) (order : List (Bytes × PubId)) : DiskOk (forget z id order) := by
  unfold forget
  split
  rotate_left
  · exact hd
  split
  · exact hd
  · intro i q hq
    dsimp only at hq
    rw [GoMap.get_del] at hq
    split at hq
    · cases hq
    · exact hd i q hq

theorem inv_noclose {own : PubId} {z : Z} (h : Runs NoClose own z) : Inv z ∧ DiskOk z := by
  induction h with
  | init =>
    refine ⟨⟨?_, ?_, by simp [init]⟩, fun id p hp => by simp [init] at hp⟩
    · intro c hc l hl
      rw [init, List.mem_singleton] at hc
      subst hc
      simp [console] at hl
    · intro j hj
      simp [init] at hj
  | step hr hok hs ih =>
    obtain ⟨hi, hd⟩ := ih
    rename_i z ev z'
    have grow : Grow z z' → Inv z' ∧ DiskOk z' := fun h => ⟨h.inv hi, hd.same h.same⟩
    cases ev with
    | learn p =>
      injection hs with hs
      subst hs
      refine ⟨?_, diskOk_learn hd p⟩
      unfold learn
      split
      · exact hi
      split <;> exact hi
    | forget id order =>
      injection hs with hs
      subst hs
      refine ⟨?_, diskOk_forget hd id order⟩
      unfold forget
      split
      · split <;> exact hi
      · exact hi
    | setGroup n ms =>
      injection hs with hs
      subst hs
      exact ⟨hi, hd⟩
    | delGroup n =>
      injection hs with hs
      subst hs
      exact ⟨hi, hd⟩
    | pm src text =>
      injection hs with hs
      subst hs
      exact grow (grow_pm hd src text)
    | gm g src text =>
      injection hs with hs
      subst hs
      exact grow (grow_gm z g src text)
    | enter cmd => exact grow (grow_action hd hok hs)
    | focus k =>
      injection hs with hs
      subst hs
      exact grow (grow_push _ _ (by simp [JobFits]))
    | restore _ => exact hok.elim
    | work =>
      refine ⟨inv_work hi hs, ?_⟩
      have hs : work z = some z' := hs
      unfold work at hs
      split at hs
      · injection hs with hs
        exact hs ▸ hd
      · dsimp only at hs
        split at hs
        · injection hs with hs
          exact hs ▸ hd
        · cases hs
      · dsimp only at hs
        split at hs
        · injection hs with hs
          exact hs ▸ hd
        split at hs <;> injection hs with hs <;> exact hs ▸ hd

/-- As long as no window is closed, a private message is only ever shown in the window of the identity that sent it,
whatever the nicks are. Missing for the full claim: closing windows (`C74_close_violated`). -/
theorem C74_private_partial {own : PubId} {z : Z} (h : Runs NoClose own z) (c : Conv) (hc : c ∈ z.conv) (src text : Bytes)
    (hl : .inPm src text ∈ c.lines) : c.id.identity = src := (inv_noclose h).1.1 c hc _ hl

/-- As long as no window is closed, a message to a group is only shown in a window whose identity has the name of the
group as its nick: the window of the group, if no contact with an open window has that nick, and the user neither. Missing
for the full claim: such contacts (next theorem), and closing windows. -/
theorem C74_group_partial {own : PubId} {z : Z} (h : Runs NoClose own z) (c : Conv) (hc : c ∈ z.conv) (g src text : Bytes)
    (hn : ∀ d ∈ z.conv, d.group = false → d.id.nick ≠ g) (hl : .inGm g src text ∈ c.lines) :
    c.group = true ∧ c.id.nick = g := by
  have h1 : c.id.nick = g := (inv_noclose h).1.1 c hc _ hl
  refine ⟨?_, h1⟩
  cases hg : c.group
  · exact absurd h1 (hn c hc hg)
  · rfl

/-- **Violated.** A contact has the same nick as a group. What others write to the group is shown in the window of the
contact, who is no member. -/
theorem C74_group_violated : ∃ z, Runs NoClose me z ∧ bob1.identity ∉ (z.groups.get bob1.nick).getD [] ∧
    z.conv[1]? = some ⟨bob1, bob1.nick, false, [.info, .inPm [1] hi, .inGm bob1.nick [7] hi]⟩ :=
  reach_of [.learn bob1, .setGroup bob1.nick [[0xaa], [7]], .pm [1] hi, .gm bob1.nick [7] hi, .work, .work, .work, .work] _
    (by decide +kernel)

/-- **Violated.** A message of the second contact is waiting to be printed when the user closes the window of the first.
It appears in the window that has moved up: that of the third. -/
theorem C74_close_violated : ∃ z, Reach me z ∧
    z.conv[2]? = some ⟨⟨[101], [3], 0⟩, [101], false, [.info, .inPm [3] hi, .inPm [2] hi]⟩ :=
  reach_of [.learn ⟨[99], [1], 0⟩, .learn ⟨[100], [2], 0⟩, .learn ⟨[101], [3], 0⟩, .pm [1] hi, .pm [2] hi, .pm [3] hi,
    .work, .work, .work, .work, .work, .work, .work, .work, .work, .focus 1, .work, .pm [2] hi, .enter wc, .work] _
    (by decide +kernel)

/-- An instance of `C74_private_partial` and `C74_group_partial`: a contact and a group. -/
example : ∃ z, Runs NoClose me z ∧ (∀ d ∈ z.conv, d.group = false → d.id.nick ≠ [103]) ∧
    z.conv = [⟨me, consoleText, false, [.info, .info]⟩, ⟨bob1, bob1.nick, false, [.info, .inPm [1] hi]⟩,
      ⟨groupId [103], [103], true, [.info, .inGm [103] [7] hi]⟩] :=
  reach_of [.learn bob1, .setGroup [103] [[0xaa], [7]], .pm [1] hi, .gm [103] [7] hi, .work, .work, .work, .work, .work,
    .work] _ (by decide +kernel)

/-- `n` entries of the queue. -/
def workN : Nat → Z → Option Z
  | 0, z => some z
  | n + 1, z => (work z).bind (workN n)

/-- One entry of the queue, when the active window exists. -/
theorem work_active {z : Z} (ha : z.active < z.conv.length) {j : Job} {q : List Job} (hq : z.queue = j :: q) :
    ∃ z' r, work z = some z' ∧ z'.active < z'.conv.length ∧ z'.queue = q ++ r ∧
      (∀ k c, z.conv[k]? = some c → ∃ c', z'.conv[k]? = some c' ∧ c'.id = c.id ∧ (∀ l ∈ c.lines, l ∈ c'.lines) ∧
        ∀ l, j = .print (some k) l → l ∈ c'.lines) := by
  unfold work
  rw [hq]
  cases j with
  | print w l =>
    dsimp only
    rw [if_pos (by simpa [Z.write] using ha)]
    refine ⟨_, [], rfl, by simpa [Z.write] using ha, by simp [Z.write], ?_⟩
    intro k c hc
    have hw := write_getElem? { z with queue := q } (w.getD z.active) k l
    dsimp only at hw
    rw [hc] at hw
    refine ⟨_, hw, ?_⟩
    dsimp only
    by_cases hk : k = w.getD z.active
    · rw [if_pos hk]
      refine ⟨rfl, fun l' hl' => List.mem_append_left _ hl', ?_⟩
      intro l' hl'
      injection hl' with _ h2
      subst h2
      simp
    · rw [if_neg hk]
      refine ⟨rfl, fun _ h => h, ?_⟩
      intro l' hl'
      injection hl' with h1 _
      subst h1
      exact absurd rfl hk
  | focus m =>
    have hkeep : ∀ k c, z.conv[k]? = some c → ∃ c', z.conv[k]? = some c' ∧ c'.id = c.id ∧ (∀ l ∈ c.lines, l ∈ c'.lines) ∧
        ∀ l, Job.focus m = .print (some k) l → l ∈ c'.lines := by
      intro k c hc
      exact ⟨c, hc, rfl, fun _ h => h, nofun⟩
    dsimp only
    split
    · exact ⟨_, [], rfl, ha, by simp, hkeep⟩
    split
    · exact ⟨_, _, rfl, ha, rfl, hkeep⟩
    · rename_i hk
      exact ⟨_, [], rfl, by dsimp only; omega, by simp, hkeep⟩

/-- Entries of the queue do appear. -/
theorem workN_shows : ∀ (q : List Job) {z : Z} {k : Nat} {c : Conv} {l : Line} {r : List Job}, z.active < z.conv.length →
    z.queue = q ++ .print (some k) l :: r → z.conv[k]? = some c →
    ∃ z' c', workN (q.length + 1) z = some z' ∧ z'.conv[k]? = some c' ∧ c'.id = c.id ∧ l ∈ c'.lines := by
  intro q
  induction q with
  | nil =>
    intro z k c l r ha hq hc
    obtain ⟨z', r', h1, -, -, h2⟩ := work_active ha hq
    obtain ⟨c', h3, h4, -, h5⟩ := h2 k c hc
    exact ⟨z', c', by simp [workN, h1], h3, h4, h5 l rfl⟩
  | cons j q ih =>
    intro z k c l r ha hq hc
    rw [List.cons_append] at hq
    obtain ⟨z1, r', h1, ha', hq', h2⟩ := work_active ha hq
    obtain ⟨c1, h3, h4, -, -⟩ := h2 k c hc
    rw [List.append_assoc] at hq'
    obtain ⟨z', c', g1, g2, g3, g4⟩ := ih ha' hq' h3
    refine ⟨z', c', ?_, g2, g3.trans h4, g4⟩
    rw [List.length_cons, workN, h1]
    exact g1

theorem addConv_active {z : Z} (ha : z.active < z.conv.length) (c : Conv) :
    (z.addConv c).active < (z.addConv c).conv.length := by
  simp only [Z.addConv, Z.push, List.length_append]
  omega

/-- A private message of somebody whose identity is stored does appear, in a window of that identity, once the queue
has been worked off. -/
theorem C74_private_arrives (z : Z) (src text : Bytes) (p : PubId) (ha : z.active < z.conv.length)
    (hp : z.disk.get src = some p) (hi : p.identity = src) :
    ∃ z' c, workN (handlePm z src text).queue.length (handlePm z src text) = some z' ∧ c ∈ z'.conv ∧
      c.id.identity = src ∧ .inPm src text ∈ c.lines := by
  have key : ∃ z1 k c, getConversation z src = some (z1, k) ∧ z1.active < z1.conv.length ∧ z1.conv[k]? = some c ∧
      c.id.identity = src := by
    unfold getConversation
    rw [hp]
    dsimp only
    cases hf : z.find (fun v => decide (v.id.identity = src)) with
    | some k =>
      obtain ⟨c, hc, ht⟩ := find_spec hf
      exact ⟨z, k, c, rfl, ha, hc, by simpa using ht⟩
    | none => exact ⟨_, _, _, rfl, addConv_active ha _, addConv_last _ _, hi⟩
  obtain ⟨z1, k, c, h1, h2, h3, h4⟩ := key
  have he : handlePm z src text = z1.push [.print (some k) (.inPm src text)] := by
    unfold handlePm
    rw [h1]
  rw [he]
  have ha1 : (z1.push [.print (some k) (.inPm src text)]).active <
      (z1.push [.print (some k) (.inPm src text)]).conv.length := h2
  obtain ⟨z', c', g1, g2, g3, g4⟩ := workN_shows z1.queue (r := []) ha1 rfl h3
  refine ⟨z', c', ?_, List.mem_of_getElem? g2, by rw [g3, h4], g4⟩
  simpa [Z.push] using g1

/-- A message to a group is ignored unless its sender is a member of the group, as far as the client knows. -/
theorem C74_members (z : Z) (group src text : Bytes) (h : src ∉ (z.groups.get group).getD []) :
    step z (.gm group src text) = some z := by
  have : handleGm z group src text = z := by
    unfold handleGm
    cases hg : z.groups.get group with
    | none => rfl
    | some ms =>
      rw [hg, Option.getD_some] at h
      dsimp only
      rw [if_neg h]
  simp only [step, this]

/-- A message of a member of a group does appear, in a window with the name of the group as its nick, once the queue has been
worked off. -/
theorem C74_group_arrives (z : Z) (group src text : Bytes) (ha : z.active < z.conv.length)
    (h : src ∈ (z.groups.get group).getD []) :
    ∃ z' c, workN (handleGm z group src text).queue.length (handleGm z group src text) = some z' ∧ c ∈ z'.conv ∧
      c.id.nick = group ∧ .inGm group src text ∈ c.lines := by
  obtain ⟨ms, hm⟩ : ∃ ms, z.groups.get group = some ms := by
    cases hg : z.groups.get group with
    | none => rw [hg] at h; simp at h
    | some ms => exact ⟨ms, rfl⟩
  have key : ∃ z1 k c, groupConversation z group = some (z1, k) ∧ z1.active < z1.conv.length ∧ z1.conv[k]? = some c ∧
      c.id.nick = group := by
    unfold groupConversation
    rw [hm]
    dsimp only
    cases hf : z.find (fun v => decide (v.id.nick = group)) with
    | some k =>
      obtain ⟨c, hc, ht⟩ := find_spec hf
      exact ⟨z, k, c, rfl, ha, hc, by simpa using ht⟩
    | none =>
      exact ⟨_, _, _, rfl, addConv_active ha _, addConv_last _ _, rfl⟩
  obtain ⟨z1, k, c, h1, h2, h3, h4⟩ := key
  have he : handleGm z group src text = z1.push [.print (some k) (.inGm group src text)] := by
    unfold handleGm
    rw [hm, Option.getD_some] at h
    rw [hm]
    dsimp only
    rw [if_pos h, h1]
  rw [he]
  have ha1 : (z1.push [.print (some k) (.inGm group src text)]).active <
      (z1.push [.print (some k) (.inGm group src text)]).conv.length := h2
  obtain ⟨z', c', g1, g2, g3, g4⟩ := workN_shows z1.queue (r := []) ha1 rfl h3
  refine ⟨z', c', ?_, List.mem_of_getElem? g2, by rw [g3, h4], g4⟩
  simpa [Z.push] using g1

/-- An instance of `C74_private_arrives`: the window is opened by the message. -/
example : (workN 3 (handlePm (learn (init me) bob1) [1] hi)).map (fun z => z.conv.map (·.lines)) =
    some [[.info], [.info, .inPm [1] hi]] := by decide +kernel

/-- Instances of `C74_group_arrives` and `C74_members`: a member, and somebody else. -/
example : ∃ z, Runs NoClose me z ∧ z.active < z.conv.length ∧ [7] ∈ (z.groups.get [103]).getD [] ∧
    [8] ∉ (z.groups.get [103]).getD [] ∧
    (workN 3 (handleGm z [103] [7] hi)).map (fun z => z.conv.map (·.lines)) = some [[.info], [.info, .inGm [103] [7] hi]] :=
  reach_of [.setGroup [103] [[0xaa], [7]]] _ (by decide +kernel)

/-! ## C75: closing windows does not crash the client -/

/-- The user, and the restoring of windows, wait until everything is shown. -/
def Patient (z : Z) : Ev → Prop
  | .enter _ => z.queue = []
  | .restore _ => z.queue = []
  | _ => True

instance (z : Z) (e : Ev) : Decidable (Patient z e) := by
  cases e <;> unfold Patient <;> infer_instance

/-- The active window exists, or the first thing the queue does is to change to window 0, which exists. -/
def Safe (z : Z) : Prop := 0 < z.conv.length ∧ (z.active < z.conv.length ∨ z.queue.head? = some (.focus 0))

theorem Grow.safe {z z' : Z} (h : Grow z z') (hs : Safe z) : Safe z' := by
  obtain ⟨cs, js, h1, -, h3, -, -, h6⟩ := h
  obtain ⟨s1, s2⟩ := hs
  refine ⟨by rw [h1, List.length_append]; omega, ?_⟩
  rcases s2 with s2 | s2
  · left
    rw [h6, h1, List.length_append]
    omega
  · right
    rw [h3]
    cases hq : z.queue with
    | nil => simp [hq] at s2
    | cons j q =>
      rw [hq] at s2
      simpa using s2

theorem diskOk_work {z z' : Z} (hd : DiskOk z) (hs : work z = some z') : DiskOk z' := by
  unfold work at hs
  split at hs
  · injection hs with hs
    exact hs ▸ hd
  · dsimp only at hs
    split at hs
    · injection hs with hs
      exact hs ▸ hd
    · cases hs
  · dsimp only at hs
    split at hs
    · injection hs with hs
      exact hs ▸ hd
    split at hs <;> injection hs with hs <;> exact hs ▸ hd

theorem safe_work {z : Z} (hs : Safe z) : ∃ z', work z = some z' ∧ Safe z' := by
  obtain ⟨h0, h1⟩ := hs
  unfold work
  split
  · exact ⟨z, rfl, h0, h1⟩
  · rename_i w l r hq
    dsimp only
    have ha : z.active < z.conv.length := by
      rcases h1 with h1 | h1
      · exact h1
      · rw [hq] at h1
        cases h1
    rw [if_pos (by simpa [Z.write] using ha)]
    exact ⟨_, rfl, by simpa [Z.write] using h0, .inl (by simpa [Z.write] using ha)⟩
  · rename_i k r hq
    dsimp only
    split
    · rename_i hk
      refine ⟨_, rfl, h0, .inl ?_⟩
      rcases h1 with h1 | h1
      · exact h1
      · rw [hq] at h1
        simp at h1
        exact absurd h1 hk.1
    split
    · rename_i hk
      refine ⟨_, rfl, h0, .inl ?_⟩
      rcases h1 with h1 | h1
      · exact h1
      · rw [hq] at h1
        simp at h1
        omega
    · rename_i hk
      exact ⟨_, rfl, h0, .inl (by dsimp only; omega)⟩

theorem grow_fold {saved : List (PubId × Bytes × Bool)} : ∀ {z : Z}, DiskOk z →
    Grow z (saved.foldl (fun z c => query z c.2.1) z) := by
  induction saved with
  | nil => intro z _; exact .refl _
  | cons c cs ih =>
    intro z hd
    have h1 := grow_query hd c.2.1
    exact h1.trans (ih (hd.same h1.same))

theorem safe_restore {z : Z} (hd : DiskOk z) (hs : Safe z) (hq : z.queue = []) (saved : List (PubId × Bytes × Bool)) :
    Safe (restore z saved) ∧ DiskOk (restore z saved) := by
  have hd' : DiskOk (closeAll z) := hd
  have hs' : Safe (closeAll z) := by
    refine ⟨?_, .inr ?_⟩
    · have := hs.1
      simp only [closeAll, Z.push, List.length_take]
      omega
    · simp [closeAll, Z.push, hq]
  have hg : Grow (closeAll z) (restore z saved) := (grow_fold hd').trans (grow_push _ _ (by simp [JobFits]))
  exact ⟨hg.safe hs', hd'.same hg.same⟩

theorem safe_action {z : Z} (hd : DiskOk z) (hs : Safe z) (hq : z.queue = []) (cmd : Bytes) :
    ∃ z', action z cmd = some z' ∧ Safe z' ∧ DiskOk z' := by
  have ha : z.active < z.conv.length := by
    rcases hs.2 with h | h
    · exact h
    · rw [hq] at h
      cases h
  have hsome : (action z cmd).isSome := by
    have hdis : ∀ c, (dispatch z c).isSome := by
      intro c
      unfold dispatch
      have hme : ∀ a b, (cmdMe z a b).isSome := by
        intro a b
        unfold cmdMe
        split
        · rfl
        rw [List.getElem?_eq_getElem ha]
        dsimp only
        split <;> rfl
      repeat' split
      all_goals first | rfl | exact hme _ _
    unfold action
    split
    · rfl
    have hexp : (expand z cmd).isSome := by
      unfold expand
      split
      · rfl
      split
      · rfl
      rw [List.getElem?_eq_getElem ha]
      rfl
    obtain ⟨c', hc'⟩ := Option.isSome_iff_exists.1 hexp
    rw [hc']
    exact hdis _
  obtain ⟨z', hz⟩ := Option.isSome_iff_exists.1 hsome
  refine ⟨z', hz, ?_⟩
  by_cases hw : cmd = wc
  · subst hw
    have : action z wc = some (cmdWc z) := by
      unfold action
      rw [if_neg (by decide)]
      have : expand z wc = some wc := rfl
      rw [this]
      rfl
    rw [this] at hz
    injection hz with hz
    subst hz
    unfold cmdWc
    split
    · exact ⟨hs, hd⟩
    · refine ⟨⟨?_, .inr ?_⟩, hd⟩
      · simp only [Z.push, List.length_append, List.length_take, List.length_drop]
        omega
      · simp [Z.push, hq]
  · have hg := grow_action hd hw hz
    exact ⟨hg.safe hs, hd.same hg.same⟩

theorem safe_step {z : Z} (hs : Safe z) (hd : DiskOk z) (ev : Ev) (hp : Patient z ev) :
    ∃ z', step z ev = some z' ∧ Safe z' ∧ DiskOk z' := by
  cases ev with
  | learn p =>
    refine ⟨_, rfl, ?_, diskOk_learn hd p⟩
    unfold learn
    split
    · exact hs
    split <;> exact hs
  | forget id order =>
    refine ⟨_, rfl, ?_, diskOk_forget hd id order⟩
    unfold forget
    split
    · split <;> exact hs
    · exact hs
  | setGroup n ms => exact ⟨_, rfl, hs, hd⟩
  | delGroup n => exact ⟨_, rfl, hs, hd⟩
  | pm src text =>
    have hg := grow_pm hd src text
    exact ⟨_, rfl, hg.safe hs, hd.same hg.same⟩
  | gm g src text =>
    have hg := grow_gm z g src text
    exact ⟨_, rfl, hg.safe hs, hd.same hg.same⟩
  | enter cmd => exact safe_action hd hs hp cmd
  | focus k =>
    have hg := grow_push z [.focus k] (by simp [JobFits])
    exact ⟨_, rfl, hg.safe hs, hd⟩
  | restore saved =>
    obtain ⟨h1, h2⟩ := safe_restore hd hs hp saved
    exact ⟨_, rfl, h1, h2⟩
  | work =>
    obtain ⟨z', h1, h2⟩ := safe_work hs
    exact ⟨z', h1, h2, diskOk_work hd h1⟩

theorem patient_safe {own : PubId} {z : Z} (h : Runs Patient own z) : Safe z ∧ DiskOk z := by
  induction h with
  | init => exact ⟨⟨by simp [init], .inl (by simp [init])⟩, fun id p hp => by simp [init] at hp⟩
  | step hr hok hs ih =>
    obtain ⟨z1, h1, h2⟩ := safe_step ih.1 ih.2 _ hok
    rw [hs] at h1
    injection h1 with h1
    exact h1 ▸ h2

/-- A client never crashes because of a window that is not there, if commands are given and windows are restored only when
nothing is waiting to be shown; messages may arrive at any time. Missing for the full claim: the rest (next theorem). -/
theorem C75_no_crash_partial {own : PubId} {z : Z} (h : Runs Patient own z) (ev : Ev) (hp : Patient z ev) :
    (step z ev).isSome := by
  obtain ⟨hs, hd⟩ := patient_safe h
  obtain ⟨z', h1, -⟩ := safe_step hs hd ev hp
  rw [h1]
  rfl

/-- **Violated.** A message is waiting to be printed when the user closes the last window. The client crashes when it is
printed. -/
theorem C75_close_violated : ∃ z, Reach me z ∧ step z .work = none :=
  reach_of [.learn bob1, .pm [1] hi, .work, .work, .work, .focus 1, .work, .pm [1] hi, .enter wc] _ (by decide +kernel)

/-- **Violated.** The user closes the last window and types on, before the client has changed to window 0: it crashes. -/
theorem C75_type_violated : ∃ z, Reach me z ∧ step z (.enter hi) = none :=
  reach_of [.learn bob1, .pm [1] hi, .work, .work, .work, .focus 1, .work, .enter wc] _ (by decide +kernel)

/-- An instance of `C75_no_crash_partial`: the last window is closed, and a message arrives before window 0 is active. -/
example : ∃ z, Runs Patient me z ∧ z.conv.length = 2 ∧ z.active = 0 ∧ z.queue = [] :=
  reach_of [.learn bob1, .pm [1] hi, .work, .work, .work, .focus 1, .work, .enter wc, .pm [1] hi, .work, .work, .work, .work]
    _ (by decide +kernel)

/-! ## C76: saved windows are restored -/

/-- Window 0 is the console. -/
def Head (z : Z) : Prop := ∃ ls rest, z.conv = ⟨z.own, consoleText, false, ls⟩ :: rest

theorem Same.own {z z' : Z} (h : Same z z') : z'.own = z.own := by
  simp only [Same, Prod.mk.injEq] at h
  exact h.1

theorem Grow.head {z z' : Z} (h : Grow z z') (hh : Head z) : Head z' := by
  have := h.same.own
  obtain ⟨cs, js, h1, -⟩ := h
  obtain ⟨ls, rest, hr⟩ := hh
  exact ⟨ls, rest ++ cs, by rw [h1, hr, this]; rfl⟩

theorem head_work {z z' : Z} (hh : Head z) (h : work z = some z') : Head z' ∧ z'.own = z.own := by
  unfold work at h
  split at h
  · injection h with h
    subst h
    exact ⟨hh, rfl⟩
  · dsimp only at h
    split at h
    · injection h with h
      subst h
      refine ⟨?_, rfl⟩
      obtain ⟨ls, rest, hr⟩ := hh
      unfold Head Z.write
      dsimp only
      rw [hr]
      rename_i w l r _ _
      cases w.getD z.active with
      | zero => exact ⟨_, _, rfl⟩
      | succ n => exact ⟨_, _, rfl⟩
    · cases h
  · dsimp only at h
    split at h
    · injection h with h
      subst h
      exact ⟨hh, rfl⟩
    split at h <;> injection h with h <;> subst h <;> exact ⟨hh, rfl⟩

theorem reach_head {own : PubId} {z : Z} (h : Reach own z) : Head z ∧ DiskOk z ∧ z.own = own := by
  induction h with
  | init => exact ⟨⟨[], [], rfl⟩, fun id p hp => by simp [init] at hp, rfl⟩
  | step hr hok hs ih =>
    obtain ⟨hh, hd, ho⟩ := ih
    rename_i z ev z'
    have grow : Grow z z' → Head z' ∧ DiskOk z' ∧ z'.own = own := fun h =>
      ⟨h.head hh, hd.same h.same, h.same.own.trans ho⟩
    cases ev with
    | learn p =>
      injection hs with hs
      subst hs
      have hd' := diskOk_learn hd p
      revert hd'
      unfold learn
      split
      · exact fun _ => ⟨hh, hd, ho⟩
      split
      · exact fun _ => ⟨hh, hd, ho⟩
      · exact fun hd' => ⟨hh, hd', ho⟩
    | forget id order =>
      injection hs with hs
      subst hs
      have hd' := diskOk_forget hd id order
      revert hd'
      unfold forget
      split
      · split
        · exact fun _ => ⟨hh, hd, ho⟩
        · exact fun hd' => ⟨hh, hd', ho⟩
      · exact fun _ => ⟨hh, hd, ho⟩
    | setGroup n ms =>
      injection hs with hs
      subst hs
      exact ⟨hh, hd, ho⟩
    | delGroup n =>
      injection hs with hs
      subst hs
      exact ⟨hh, hd, ho⟩
    | pm src text =>
      injection hs with hs
      subst hs
      exact grow (grow_pm hd src text)
    | gm g src text =>
      injection hs with hs
      subst hs
      exact grow (grow_gm z g src text)
    | enter cmd =>
      by_cases hw : cmd = wc
      · subst hw
        have hs : action z wc = some z' := hs
        have : action z wc = some (cmdWc z) := by
          unfold action
          rw [if_neg (by decide)]
          have : expand z wc = some wc := rfl
          rw [this]
          rfl
        rw [this] at hs
        injection hs with hs
        subst hs
        unfold cmdWc
        split
        · exact ⟨hh, hd, ho⟩
        · rename_i hn
          refine ⟨?_, hd, ho⟩
          obtain ⟨ls, rest, hr⟩ := hh
          refine ⟨ls, rest.take (z.active - 1) ++ rest.drop z.active, ?_⟩
          obtain ⟨n, hn⟩ : ∃ n, z.active = n + 1 := ⟨z.active - 1, by omega⟩
          simp only [Z.push, hr, hn]
          simp
      · exact grow (grow_action hd hw hs)
    | focus k =>
      injection hs with hs
      subst hs
      exact grow (grow_push _ _ (by simp [JobFits]))
    | restore saved =>
      injection hs with hs
      subst hs
      have hd' : DiskOk (closeAll z) := hd
      have hg : Grow (closeAll z) (restore z saved) := (grow_fold hd').trans (grow_push _ _ (by simp [JobFits]))
      have hh' : Head (closeAll z) := by
        obtain ⟨ls, rest, hr⟩ := hh
        exact ⟨ls, [], by simp [closeAll, Z.push, hr]⟩
      exact ⟨hg.head hh', hd'.same hg.same, hg.same.own.trans ho⟩
    | work =>
      obtain ⟨h1, h2⟩ := head_work hh hs
      exact ⟨h1, diskOk_work hd hs, h2.trans ho⟩

/-- What `restore` needs to find the window again: the group still exists; or the contact is still in the address book
under the nick of the window, is stored, and no group and not the user has that nick. -/
def Found (z : Z) (c : PubId × Bytes × Bool) : Prop :=
  c.2.1 ≠ consoleText ∧ c.2.1 ≠ z.own.nick ∧
  (c.2.2 = true → c.2.1 ≠ [] ∧ (z.groups.get c.2.1).isSome ∧ c.1 = groupId c.2.1) ∧
  (c.2.2 = false → z.groups.get c.2.1 = none ∧ z.disk.get c.1.identity = some c.1 ∧ c.2.1 = nickOf c.1 c.1.identity ∧
    c.1.identity ≠ z.own.identity ∧ c.1.identity ≠ List.replicate 32 0 ∧
    ∃ p, findNick z.book c.2.1 = some p ∧ p.identity = c.1.identity)

/-- The windows that `restore` makes. -/
def blank (c : PubId × Bytes × Bool) : Conv := ⟨c.1, c.2.1, c.2.2, []⟩

theorem find_none_iff {z : Z} {test : Conv → Bool} : z.find test = none ↔ ∀ c ∈ z.conv, test c = false := by
  unfold Z.find
  rw [List.findIdx?_eq_none_iff]

theorem query_found {z : Z} {c0 : Conv} {done : List (PubId × Bytes × Bool)} {c : PubId × Bytes × Bool}
    (h0 : c0.id = z.own ∧ c0.nick = consoleText) (hc : z.conv = c0 :: done.map blank)
    (hdone : ∀ d ∈ done, Found z d) (hf : Found z c) (hn : ∀ d ∈ done, d.2.1 ≠ c.2.1)
    (hid : c.2.2 = false → ∀ d ∈ done, d.2.2 = false → d.1.identity ≠ c.1.identity) :
    (query z c.2.1).conv = c0 :: (done ++ [c]).map blank ∧ Same z (query z c.2.1) := by
  obtain ⟨f1, f2, f3, f4⟩ := hf
  have hq : z.find (fun v => decide (v.nick = c.2.1)) = none := by
    rw [find_none_iff, hc]
    intro v hv
    rcases List.mem_cons.1 hv with rfl | hv
    · simp [h0.2, Ne.symm f1]
    · obtain ⟨d, hd, rfl⟩ := List.mem_map.1 hv
      exact decide_eq_false (hn d hd)
  unfold query
  rw [hq]
  dsimp only
  cases hg : c.2.2 with
  | true =>
    obtain ⟨g1, g2, g3⟩ := f3 hg
    obtain ⟨ms, hms⟩ := Option.isSome_iff_exists.1 g2
    have hk : z.find (fun v => decide (v.id.nick = c.2.1)) = none := by
      rw [find_none_iff, hc]
      intro v hv
      rcases List.mem_cons.1 hv with rfl | hv
      · simp [h0.1, Ne.symm f2]
      · obtain ⟨d, hd, rfl⟩ := List.mem_map.1 hv
        apply decide_eq_false
        change ¬ d.1.nick = c.2.1
        intro hne
        obtain ⟨-, -, e3, e4⟩ := hdone d hd
        apply hn d hd
        cases hdg : d.2.2 with
        | true =>
          have := (e3 hdg).2.2
          rw [this] at hne
          exact hne
        | false =>
          have := (e4 hdg).2.2.1
          rw [this, nickOf, if_neg (by rw [hne]; exact g1)]
          exact hne
    have : groupConversation z c.2.1 = some (z.addConv ⟨groupId c.2.1, c.2.1, true, []⟩, z.conv.length) := by
      unfold groupConversation
      rw [hms]
      dsimp only
      rw [hk]
    rw [this]
    refine ⟨?_, rfl⟩
    simp only [Z.push, Z.addConv, hc, List.map_append, List.map_cons, List.map_nil, List.cons_append, blank, hg, g3]
  | false =>
    obtain ⟨g1, g2, g3, g4, g5, p, g6, g7⟩ := f4 hg
    have hgr : groupConversation z c.2.1 = none := by
      unfold groupConversation
      rw [g1]
    have hk : z.find (fun v => decide (v.id.identity = c.1.identity)) = none := by
      rw [find_none_iff, hc]
      intro v hv
      rcases List.mem_cons.1 hv with rfl | hv
      · simp [h0.1, Ne.symm g4]
      · obtain ⟨d, hd, rfl⟩ := List.mem_map.1 hv
        apply decide_eq_false
        change ¬ d.1.identity = c.1.identity
        cases hdg : d.2.2 with
        | true =>
          obtain ⟨-, -, e3, -⟩ := hdone d hd
          rw [(e3 hdg).2.2]
          exact Ne.symm g5
        | false => exact hid hg d hd hdg
    have : addressBookConversation z c.2.1 = some (z.addConv ⟨c.1, nickOf c.1 c.1.identity, false, []⟩, z.conv.length) := by
      unfold addressBookConversation
      rw [if_neg f2, g6]
      dsimp only
      unfold getConversation
      rw [g7, g2]
      dsimp only
      rw [hk]
    rw [hgr, this]
    refine ⟨?_, rfl⟩
    simp only [Z.push, Z.addConv, hc, List.map_append, List.map_cons, List.map_nil, List.cons_append, blank, hg, ← g3]

theorem Found.same {z z' : Z} (h : Same z z') {c : PubId × Bytes × Bool} (hf : Found z c) : Found z' c := by
  simp only [Same, Prod.mk.injEq] at h
  obtain ⟨h1, h2, h3, h4⟩ := h
  unfold Found
  rw [h1, h2, h3, h4]
  exact hf

theorem restore_fold {c0 : Conv} : ∀ (todo done : List (PubId × Bytes × Bool)) {z : Z},
    (c0.id = z.own ∧ c0.nick = consoleText) → z.conv = c0 :: done.map blank → (∀ d ∈ done ++ todo, Found z d) →
    ((done ++ todo).map (·.2.1)).Nodup →
    (((done ++ todo).filter (fun c => !c.2.2)).map (·.1.identity)).Nodup →
    (todo.foldl (fun z c => query z c.2.1) z).conv = c0 :: (done ++ todo).map blank := by
  intro todo
  induction todo with
  | nil =>
    intro done z _ hc _ _ _
    simpa using hc
  | cons c todo ih =>
    intro done z h0 hc hf hn hi
    have hd : ∀ d ∈ done, d.2.1 ≠ c.2.1 := by
      intro d hd he
      rw [List.map_append, List.nodup_append] at hn
      exact hn.2.2 d.2.1 (List.mem_map_of_mem hd) c.2.1 (by simp) he
    have hid : c.2.2 = false → ∀ d ∈ done, d.2.2 = false → d.1.identity ≠ c.1.identity := by
      intro hg d hd hdg he
      rw [List.filter_append, List.map_append, List.nodup_append] at hi
      exact hi.2.2 d.1.identity (List.mem_map.2 ⟨d, List.mem_filter.2 ⟨hd, by simp [hdg]⟩, rfl⟩)
        c.1.identity (List.mem_map.2 ⟨c, List.mem_filter.2 ⟨by simp, by simp [hg]⟩, rfl⟩) he
    obtain ⟨q1, q2⟩ := query_found h0 hc (fun d hd => hf d (List.mem_append_left _ hd)) (hf c (by simp)) hd hid
    have happ : done ++ c :: todo = (done ++ [c]) ++ todo := by simp
    rw [List.foldl_cons, happ]
    refine ih (done ++ [c]) ⟨h0.1.trans q2.own.symm, h0.2⟩ q1 ?_ (by rw [← happ]; exact hn) (by rw [← happ]; exact hi)
    intro d hd'
    rw [← happ] at hd'
    exact (hf d hd').same q2

/-- Windows that were saved are restored, in the same order, for the same parties: if every one of them can still be found
by its nick, all nicks differ, and no two windows are for the same identity. Missing for the full claim: the other cases
(next theorems). -/
theorem C76_restore_partial {own : PubId} {z0 z : Z} (h0 : Reach own z0) (h : Reach own z)
    (hf : ∀ c ∈ (save z0).drop 1, Found z c) (hn : (((save z0).drop 1).map (·.2.1)).Nodup)
    (hi : ((((save z0).drop 1).filter (fun c => !c.2.2)).map (·.1.identity)).Nodup) :
    save (restore z (save z0)) = save z0 := by
  obtain ⟨⟨ls, rest, hr⟩, -, ho⟩ := reach_head h
  obtain ⟨⟨ls0, rest0, hr0⟩, -, ho0⟩ := reach_head h0
  have hc : (closeAll z).conv = ⟨z.own, consoleText, false, ls⟩ :: ([] : List (PubId × Bytes × Bool)).map blank := by
    simp [closeAll, Z.push, hr]
  have hfold := restore_fold (c0 := ⟨z.own, consoleText, false, ls⟩) ((save z0).drop 1) [] (z := closeAll z)
    ⟨rfl, rfl⟩ hc hf hn hi
  have : (restore z (save z0)).conv = ⟨z.own, consoleText, false, ls⟩ :: ((save z0).drop 1).map blank := hfold
  unfold save at this ⊢
  rw [this, hr0]
  simp [blank, ho, ho0]

/-- **Violated.** Two contacts have the same nick, and both have a window. After saving and restoring there is only a
window of the first. -/
theorem C76_nick_violated : ∃ z, Reach me z ∧ z.queue = [] ∧
    save z = [(me, consoleText, false), (bob1, bob1.nick, false), (bob2, bob2.nick, false)] ∧
    save (restore z (save z)) = [(me, consoleText, false), (bob1, bob1.nick, false)] :=
  reach_of twoBobs _ (by decide +kernel)

/-- **Violated.** A contact has the same nick as a group. Instead of the window of the contact, one of the group is
restored. -/
theorem C76_group_violated : ∃ z, Reach me z ∧ z.queue = [] ∧
    save z = [(me, consoleText, false), (bob1, bob1.nick, false)] ∧
    save (restore z (save z)) = [(me, consoleText, false), (groupId bob1.nick, bob1.nick, true)] :=
  reach_of [.learn bob1, .pm [1] hi, .setGroup bob1.nick [[0xaa]], .work, .work, .work] _ (by decide +kernel)

instance (z : Z) (c : PubId × Bytes × Bool) : Decidable (Found z c) := by
  unfold Found
  have : Decidable (∃ p, findNick z.book c.2.1 = some p ∧ p.identity = c.1.identity) :=
    decidable_of_iff ((findNick z.book c.2.1).any fun p => p.identity = c.1.identity) (by simp [Option.any_eq_true])
  infer_instance

/-- An instance of `C76_restore_partial`: a contact and a group. -/
example : ∃ z, Reach me z ∧ (∀ c ∈ (save z).drop 1, Found z c) ∧ (((save z).drop 1).map (·.2.1)).Nodup ∧
    ((((save z).drop 1).filter (fun c => !c.2.2)).map (·.1.identity)).Nodup ∧
    save z = [(me, consoleText, false), (bob1, bob1.nick, false), (groupId [103], [103], true)] :=
  reach_of [.learn bob1, .setGroup [103] [[0xaa], [7]], .pm [1] hi, .gm [103] [7] hi] _ (by decide +kernel)

/-! ## C77: a nick means the same contact after a restart -/

/-- Contacts come with nicks that are not in use. -/
def FreshNicks (z : Z) : Ev → Prop
  | .learn p => z.book.get p.nick = none
  | _ => True

instance (z : Z) (e : Ev) : Decidable (FreshNicks z e) := by
  cases e <;> unfold FreshNicks <;> infer_instance

/-- The address book is exactly what is stored. -/
def Synced (z : Z) : Prop :=
  GoMap.WF z.disk ∧ GoMap.WF z.book ∧ DiskOk z ∧ (∀ p, z.disk.get p.identity = some p → p.identity ≠ z.own.identity) ∧
    ∀ n p, z.book.get n = some p ↔ z.disk.get p.identity = some p ∧ p.nick = n

theorem Synced.same {z z' : Z} (h : Synced z) (hs : Same z z') : Synced z' := by
  have hd := h.2.2.1.same hs
  simp only [Same, Prod.mk.injEq] at hs
  obtain ⟨h1, h2, h3, h4⟩ := hs
  refine ⟨by rw [h2]; exact h.1, by rw [h3]; exact h.2.1, hd, by rw [h1, h2]; exact h.2.2.2.1, ?_⟩
  rw [h2, h3]
  exact h.2.2.2.2

theorem add_fresh {b : Book} {p : PubId} (h : b.get p.nick = none) : add b p = some ((p.nick, false), b.set p.nick p) := by
  unfold add
  rw [addLoop, h]
  rfl

theorem synced_learn {z : Z} (h : Synced z) {p : PubId} (hf : z.book.get p.nick = none) : Synced (learn z p) := by
  unfold learn
  split
  · exact h
  rename_i hn
  rw [not_or] at hn
  obtain ⟨hn1, hn2⟩ := hn
  rw [Option.not_isSome_iff_eq_none] at hn2
  have hdl : DiskOk (learn z p) := diskOk_learn h.2.2.1 p
  unfold learn at hdl
  rw [if_neg (by rw [not_or]; exact ⟨hn1, by simp [hn2]⟩), add_fresh hf] at hdl
  rw [add_fresh hf]
  dsimp only at hdl ⊢
  obtain ⟨h1, h2, h3, h4, h5⟩ := h
  refine ⟨GoMap.wf_set h1 _ _, GoMap.wf_set h2 _ _, hdl, ?_, ?_⟩
  · intro q hq
    dsimp only at hq ⊢
    rw [GoMap.get_set] at hq
    split at hq
    · injection hq with hq
      exact hq ▸ hn1
    · exact h4 q hq
  · intro n q
    dsimp only
    rw [GoMap.get_set, GoMap.get_set]
    constructor
    · intro hq
      split at hq
      · rename_i hpn
        injection hq with hq
        subst hq
        exact ⟨by rw [if_pos rfl], hpn⟩
      · obtain ⟨g1, g2⟩ := (h5 n q).1 hq
        refine ⟨?_, g2⟩
        rw [if_neg]
        · exact g1
        · intro he
          rw [← he, hn2] at g1
          cases g1
    · rintro ⟨g1, g2⟩
      split at g1
      · injection g1 with g1
        subst g1
        rw [if_pos g2]
      · have := (h5 n q).2 ⟨g1, g2⟩
        rw [if_neg]
        · exact this
        · intro he
          rw [← he, hf] at this
          cases this

theorem synced_forget {z : Z} (h : Synced z) (id : Bytes) (order : List (Bytes × PubId)) : Synced (forget z id order) := by
  unfold forget
  split
  rotate_left
  · exact h
  rename_i hp
  split
  · exact h
  rename_i b hb
  obtain ⟨h1, h2, h3, h4, h5⟩ := h
  obtain ⟨k, v, hkv, hv, rfl⟩ := del_spec hb
  have hmem : (k, v) ∈ z.book := hp.mem_iff.1 hkv
  have hget : z.book.get k = some v := GoMap.get_of_mem h2 hmem
  obtain ⟨hv1, hv2⟩ := (h5 k v).1 hget
  refine ⟨GoMap.wf_del h1 _, GoMap.wf_del h2 _, ?_, ?_, ?_⟩
  · intro i q hq
    dsimp only at hq
    rw [GoMap.get_del] at hq
    split at hq
    · cases hq
    · exact h3 i q hq
  · intro q hq
    dsimp only at hq ⊢
    rw [GoMap.get_del] at hq
    split at hq
    · cases hq
    · exact h4 q hq
  · intro n q
    dsimp only
    rw [GoMap.get_del, GoMap.get_del]
    constructor
    · intro hq
      split at hq
      · cases hq
      · rename_i hkn
        obtain ⟨g1, g2⟩ := (h5 n q).1 hq
        refine ⟨?_, g2⟩
        rw [if_neg]
        · exact g1
        · intro he
          rw [← he, ← hv, hv1] at g1
          injection g1 with g1
          subst g1
          exact hkn (hv2 ▸ g2)
    · rintro ⟨g1, g2⟩
      split at g1
      · cases g1
      · rename_i hne
        have := (h5 n q).2 ⟨g1, g2⟩
        rw [if_neg]
        · exact this
        · intro he
          rw [← he, hget] at this
          injection this with this
          exact hne (by rw [← this, hv])

theorem same_work {z z' : Z} (h : work z = some z') : Same z z' := by
  unfold work at h
  split at h
  · injection h with h
    exact h ▸ rfl
  · dsimp only at h
    split at h
    · injection h with h
      exact h ▸ rfl
    · cases h
  · dsimp only at h
    split at h
    · injection h with h
      exact h ▸ rfl
    split at h <;> injection h with h <;> exact h ▸ rfl

theorem same_action {z z' : Z} {cmd : Bytes} (hd : DiskOk z) (h : action z cmd = some z') : Same z z' := by
  by_cases hw : cmd = wc
  · subst hw
    have : action z wc = some (cmdWc z) := by
      unfold action
      rw [if_neg (by decide)]
      have : expand z wc = some wc := rfl
      rw [this]
      rfl
    rw [this] at h
    injection h with h
    subst h
    unfold cmdWc
    split <;> rfl
  · exact (grow_action hd hw h).same

theorem synced_runs {own : PubId} {z : Z} (h : Runs FreshNicks own z) : Synced z := by
  induction h with
  | init =>
    refine ⟨GoMap.wf_nil, GoMap.wf_nil, fun id p hp => by simp [init] at hp, fun p hp => by simp [init] at hp, ?_⟩
    intro n p
    simp [init]
  | step hr hok hs ih =>
    rename_i z ev z'
    cases ev with
    | learn p =>
      injection hs with hs
      exact hs ▸ synced_learn ih hok
    | forget id order =>
      injection hs with hs
      exact hs ▸ synced_forget ih id order
    | setGroup n ms =>
      injection hs with hs
      exact hs ▸ ih
    | delGroup n =>
      injection hs with hs
      exact hs ▸ ih
    | pm src text =>
      injection hs with hs
      exact hs ▸ ih.same (grow_pm ih.2.2.1 src text).same
    | gm g src text =>
      injection hs with hs
      exact hs ▸ ih.same (grow_gm z g src text).same
    | enter cmd => exact ih.same (same_action ih.2.2.1 hs)
    | focus k =>
      injection hs with hs
      exact hs ▸ ih
    | restore saved =>
      injection hs with hs
      subst hs
      have hd' : DiskOk (closeAll z) := ih.2.2.1
      have ih' : Synced (closeAll z) := ih
      exact ih'.same ((grow_fold hd').trans (grow_push _ _ (by simp [JobFits]))).same
    | work => exact ih.same (same_work hs)

theorem load_fold {own : PubId} : ∀ (order : List PubId) (b : Book), (∀ p ∈ order, p.identity ≠ own.identity) →
    (order.map (·.nick)).Nodup → (∀ p ∈ order, b.get p.nick = none) → ∀ n,
    (order.foldl (addressBookAdd own) b).get n = (order.find? (fun p => decide (p.nick = n))).or (b.get n) := by
  intro order
  induction order with
  | nil => intro b _ _ _ n; rfl
  | cons p order ih =>
    intro b ho hn hb n
    rw [List.map_cons, List.nodup_cons] at hn
    have hadd : addressBookAdd own b p = b.set p.nick p := by
      unfold addressBookAdd
      rw [if_neg (ho p (by simp)), add_fresh (hb p (by simp))]
    rw [List.foldl_cons, hadd, ih (b.set p.nick p) (fun q hq => ho q (by simp [hq])) hn.2 ?_ n]
    · rw [List.find?_cons]
      by_cases hpn : p.nick = n
      · have : order.find? (fun q => decide (q.nick = n)) = none := by
          rw [List.find?_eq_none]
          intro q hq
          simp only [decide_eq_true_eq]
          intro he
          exact hn.1 (List.mem_map.2 ⟨q, hq, by rw [he, hpn]⟩)
        rw [this]
        simp [hpn]
      · rw [GoMap.get_set_ne _ _ hpn]
        simp [hpn]
    · intro q hq
      rw [GoMap.get_set_ne]
      · exact hb q (by simp [hq])
      · intro he
        exact hn.1 (List.mem_map.2 ⟨q, hq, he.symm⟩)

/-- If every contact came with a nick that was not in use then, every nick means the same contact after a restart,
in whatever order the directory is read. Missing for the full claim: duplicate nicks (next theorem). -/
theorem C77_restart_partial {own : PubId} {z : Z} (h : Runs FreshNicks own z) (order : List PubId)
    (ho : order.Perm (z.disk.map Prod.snd)) (n : Bytes) : findNick (restart z order).book n = findNick z.book n := by
  obtain ⟨h1, h2, h3, h4, h5⟩ := synced_runs h
  have hmem : ∀ p, p ∈ order ↔ z.disk.get p.identity = some p := by
    intro p
    rw [ho.mem_iff, List.mem_map]
    constructor
    · rintro ⟨⟨k, v⟩, hkv, rfl⟩
      have := GoMap.get_of_mem h1 hkv
      have hk := h3 _ _ this
      dsimp only at hk ⊢
      rw [hk]
      exact this
    · intro hp
      exact ⟨_, GoMap.mem_of_get hp, rfl⟩
  have hinj : ∀ p ∈ order, ∀ q ∈ order, p.nick = q.nick → p = q := by
    intro p hp q hq he
    have e1 := (h5 q.nick p).2 ⟨(hmem p).1 hp, he⟩
    have e2 := (h5 q.nick q).2 ⟨(hmem q).1 hq, rfl⟩
    rw [e1] at e2
    injection e2
  have hnd : order.Nodup := by
    rw [ho.nodup_iff]
    have : (z.disk.map Prod.snd).map (·.identity) = z.disk.map Prod.fst := by
      rw [List.map_map]
      refine List.map_congr_left ?_
      rintro ⟨k, v⟩ hkv
      exact h3 _ _ (GoMap.get_of_mem h1 hkv)
    refine List.Nodup.of_map (·.identity) ?_
    rw [this]
    exact h1
  have hnn : (order.map (·.nick)).Nodup := by
    unfold List.Nodup
    rw [List.pairwise_map]
    exact List.Pairwise.imp_of_mem (fun {a b} ha hb hab he => hab (hinj a ha b hb he)) hnd
  unfold restart loadIdentities findNick
  dsimp only
  rw [load_fold order new (fun p hp => h4 p ((hmem p).1 hp)) hnn (fun p _ => rfl) n]
  cases hf : order.find? (fun p => decide (p.nick = n)) with
  | some p =>
    have hm := List.mem_of_find?_eq_some hf
    have hn := List.find?_some hf
    exact ((h5 n p).2 ⟨(hmem p).1 hm, by simpa using hn⟩).symm
  | none =>
    rw [List.find?_eq_none] at hf
    cases hb : z.book.get n with
    | none => rfl
    | some p =>
      obtain ⟨g1, g2⟩ := (h5 n p).1 hb
      exact absurd (by simp [g2]) (hf p ((hmem p).2 g1))

/-- The order in which `ioutil.ReadDir` lists the identities: by name, which is the identity in hexadecimal. -/
def DirOrder (order : List PubId) : Prop := order.Pairwise fun a b => a.identity < b.identity

instance (order : List PubId) : Decidable (DirOrder order) := by
  unfold DirOrder
  infer_instance

/-- "/m bob hi" -/
def mBobHi : Bytes := [47, 109, 32] ++ bob1.nick ++ [32] ++ hi

/-- **Violated.** A first bob is a contact; a second one, whose identity comes first in the directory, becomes one and is
called "bob_". After a restart "bob" is the second: the same command sends a message to somebody else. -/
theorem C77_restart_violated : ∃ z, Reach me z ∧ DirOrder [bob1, bob2] ∧ [bob1, bob2].Perm (z.disk.map Prod.snd) ∧
    (findNick z.book bob1.nick).map (·.identity) = some bob2.identity ∧
    (action z mBobHi).map (·.sent) = some [(bob2.identity, .pm hi)] ∧
    (findNick (restart z [bob1, bob2]).book bob1.nick).map (·.identity) = some bob1.identity ∧
    (action (restart z [bob1, bob2]) mBobHi).map (·.sent) = some [(bob1.identity, .pm hi)] :=
  reach_of [.learn bob2, .learn bob1] _ (by decide +kernel)

/-- An instance of `C77_restart_partial`: three contacts, one of them deleted. -/
example : ∃ z, Runs FreshNicks me z ∧ z.disk.map Prod.snd = [alx, ⟨[100], [0], 0⟩] ∧
    (findNick z.book alx.nick).map (·.identity) = some [2] ∧
    (findNick (restart z [⟨[100], [0], 0⟩, alx]).book alx.nick).map (·.identity) = some [2] :=
  reach_of [.learn ⟨[100], [0], 0⟩, .learn alx, .learn al, .forget [1] [(alx.nick, alx), (al.nick, al),
    ([100], ⟨[100], [0], 0⟩)]] _ (by decide +kernel)

end Verif.Windows
