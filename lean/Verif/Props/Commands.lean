import Verif.Model.Commands
import Verif.Proofs.Text
import Verif.Props.Welcome

/-! # C98, C99: what the user types -/

namespace Verif.Commands

open Verif Text

/-! ## C98: the lines of the help -/

/-- Words with a space between each two. -/
def sp : List Bytes → Bytes
  | [] => []
  | [w] => w
  | w :: ws => w ++ 32 :: sp ws

/-- A word: not empty, no spaces, and no white space of other kinds at its ends. -/
structure Word (w : Bytes) : Prop where
  nonempty : w ≠ []
  blank : (32 : UInt8) ∉ w
  begins : ∀ x ∈ spaces, ¬ x <+: w
  ends : ∀ x ∈ spaces, ¬ x <:+ w

/-- A text: not empty, and no white space at its end. -/
structure Prose (t : Bytes) : Prop where
  nonempty : t ≠ []
  ends : ∀ x ∈ spaces, ¬ x <:+ t

/-- A number in decimal. -/
abbrev dec (n : Nat) : Bytes := Rendezvous.format n

/-- The lines that ask for this according to /repo/zkclient/help.go:47-234. -/
def Req.lines : Req → List Bytes
  | .nothing => [[]]
  | .acceptCert => [c_acceptnewcert]
  | .online => [c_online]
  | .offline => [c_offline]
  | .kx => [c_kx]
  | .fetch p => [sp [c_fetch, p]]
  | .send n f [] => [sp [c_send, n, f]]
  | .send n f d => [sp [c_send, n, f, d]]
  | .me t => [sp [c_me, t]]
  | .msg n t => [sp [c_msg, n, t], sp [c_m, n, t]]
  | .infoSelf => [c_info]
  | .info w => [sp [c_info, w]]
  | .gcNew g => [sp [c_gc, s_new, g]]
  | .gcInvite g n => [sp [c_gc, s_invite, g, n]]
  | .gcJoin g t => [sp [c_gc, s_join, g, dec t]]
  | .gcKick g n => [sp [c_gc, s_kick, g, n]]
  | .gcUpdate g => [sp [c_gc, s_update, g]]
  | .gcMe g t => [sp [c_gc, s_me, g, t]]
  | .gcMsg g t => [sp [c_gc, s_m, g, t]]
  | .gcPart g => [sp [c_gc, s_part, g]]
  | .gcPartForce g => [sp [c_gc, s_part, g, s_force]]
  | .gcKill g => [sp [c_gc, s_kill, g]]
  | .listWindows => [sp [c_list, s_c], sp [c_list, s_conversations]]
  | .listBook => [sp [c_list, s_a], sp [c_list, s_addressbook]]
  | .listGroups => [sp [c_list, s_gc], sp [c_list, s_groupchat]]
  | .listGroup g => [sp [c_list, s_gc, g], sp [c_list, s_groupchat, g]]
  | .listInvites => [sp [c_list, s_invites]]
  | .listJoins => [sp [c_list, s_joins]]
  | .win n => [sp [c_w, dec n.toNat], sp [c_win, dec n.toNat]]
  | .close => [c_wc]
  | .restore => [c_restore]
  | .query n => [sp [c_q, n], sp [c_query, n]]
  | .quit false => [c_quit]
  | .quit true => [sp [c_quit, s_force]]
  | .version => [c_version]
  | .help => [c_help]
  | .helpOn c => [sp [c_help, c], sp [c_help, c.drop 1]]
  | .del n => [sp [c_addressbook, s_del, n], sp [c_ab, s_del, n]]
  | .save => [c_save]
  | .find n => [sp [c_find, n]]
  | .reset n => [sp [c_reset, n]]
  | .usage _ => []
  | .refuse => []

/-- What can be asked for: arguments are words, messages and descriptions are texts, numbers are in range. -/
def Req.sane : Req → Prop
  | .fetch p => Word p
  | .send n f d => Word n ∧ Word f ∧ (d = [] ∨ Prose d)
  | .me t => Prose t ∧ ∀ x ∈ spaces, ¬ x <+: t
  | .msg n t => Word n ∧ Prose t
  | .info w => Word w
  | .gcNew g => Word g
  | .gcInvite g n => Word g ∧ Word n
  | .gcJoin g t => Word g ∧ t < 2 ^ 64
  | .gcKick g n => Word g ∧ Word n
  | .gcUpdate g => Word g
  | .gcMe g t => Word g ∧ Prose t
  | .gcMsg g t => Word g ∧ Prose t
  | .gcPart g => Word g
  | .gcPartForce g => Word g
  | .gcKill g => Word g
  | .listGroup g => Word g
  | .win n => 0 ≤ n ∧ n < 2 ^ 63
  | .query n => Word n
  | .helpOn c => c ∈ table
  | .del n => Word n
  | .find n => Word n
  | .reset n => Word n
  | _ => True

/-- `strings.ToLower` leaves these words alone. -/
def Lower (low : Bytes → Bytes) : Prop :=
  ∀ w ∈ [s_c, s_conversations, s_a, s_addressbook, s_gc, s_groupchat, s_invites, s_joins], low w = w

/-- The full claim: what can be asked for is done when one of its lines is typed. -/
def Obeyed (low : Bytes → Bytes) (r : Req) : Prop := ∀ l ∈ r.lines, parse low l = r

/-- What is left out of the full claim. -/
def Req.odd : Req → Prop
  | .send _ f d => d = f
  | .gcUpdate _ => True
  | _ => False

theorem split_word {w : Bytes} (h : (32 : UInt8) ∉ w) : split w = [w] := by
  induction w with
  | nil => rfl
  | cons c w ih =>
    have hc : c ≠ 32 := fun e => h (e ▸ List.mem_cons_self)
    simp only [split]
    rw [if_neg hc, ih (fun hm => h (List.mem_cons_of_mem _ hm))]

theorem split_sp : ∀ (ws : List Bytes), ws ≠ [] → (∀ w ∈ ws, (32 : UInt8) ∉ w) → split (sp ws) = ws
  | [], h, _ => absurd rfl h
  | [w], _, h => split_word (h w List.mem_cons_self)
  | w :: v :: ws, _, h => by
    show split (w ++ 32 :: sp (v :: ws)) = _
    rw [split_append (h w List.mem_cons_self), split_sp (v :: ws) (by simp) (fun x hx => h x (List.mem_cons_of_mem _ hx))]

theorem sp_ne {w : Bytes} (h : w ≠ []) (ws : List Bytes) : sp (w :: ws) ≠ [] := by
  cases ws with
  | nil => exact h
  | cons v ws =>
    intro e
    have := congrArg List.length e
    simp [sp] at this

theorem parse_sp (low : Bytes → Bytes) (a0 : Bytes) (as : List Bytes) (h0 : a0 ≠ []) (h : ∀ w ∈ a0 :: as, (32 : UInt8) ∉ w) :
    parse low (sp (a0 :: as)) = act low (sp (a0 :: as)) a0 as := by
  unfold parse
  rw [if_neg (sp_ne h0 as), split_sp _ (by simp) h]

/-- The last part is a text, which may contain spaces. -/
theorem parse_text (low : Bytes → Bytes) (a0 : Bytes) (as : List Bytes) (t : Bytes) (h0 : a0 ≠ [])
    (h : ∀ w ∈ a0 :: as, (32 : UInt8) ∉ w) :
    parse low (sp (a0 :: (as ++ [t]))) = act low (sp (a0 :: (as ++ [t]))) a0 (as ++ split t) := by
  have key : ∀ (ws : List Bytes), (∀ w ∈ ws, (32 : UInt8) ∉ w) → split (sp (ws ++ [t])) = ws ++ split t := by
    intro ws
    induction ws with
    | nil => intro _; rfl
    | cons w ws ih =>
      intro hw
      have : sp (w :: ws ++ [t]) = w ++ 32 :: sp (ws ++ [t]) := by cases ws <;> rfl
      rw [this, split_append (hw w List.mem_cons_self), ih fun x hx => hw x (List.mem_cons_of_mem _ hx)]
      rfl
  unfold parse
  rw [if_neg (sp_ne h0 _)]
  have := key (a0 :: as) h
  rw [List.cons_append] at this
  rw [this, List.cons_append]

theorem text_words (t : Bytes) : ∃ w ws, split t = w :: ws := by
  cases h : split t with
  | nil => exact absurd h (split_ne_nil t)
  | cons w ws => exact ⟨w, ws, rfl⟩

theorem Prose.trim {t : Bytes} (h : Prose t) : trimRightSpace t = t := trimRightSpace_none h.ends

theorem Word.prose {w : Bytes} (h : Word w) : Prose w := ⟨h.nonempty, h.ends⟩

theorem blank_ends {t : Bytes} (h : ∀ x ∈ spaces, ¬ x <:+ t) : trimRightBlank t = t :=
  trimRightBlank_none (h [32] (by decide))

/-- A word and a text, with a space before. -/
theorem trim_word_text {n t : Bytes} (hn : Word n) (ht : Prose t) : trimSpace (32 :: (n ++ 32 :: t)) = n ++ 32 :: t := by
  rw [trimSpace_cons hn.nonempty hn.begins (by rw [ht.trim]; exact ht.nonempty), ht.trim]

/-- A word with a space before. -/
theorem trim_word {n : Bytes} (hn : Word n) : trimSpace (32 :: n) = n := by
  unfold trimSpace
  rw [trimLeftSpace_cons hn.begins, trimRightSpace_none hn.ends]

theorem msgText_eq (a0 n t : Bytes) (hn : Word n) (ht : Prose t) : msgText (a0 ++ 32 :: (n ++ 32 :: t)) a0 n = t := by
  unfold msgText
  rw [trimPrefix_append, trim_word_text hn ht, show n ++ 32 :: t = (n ++ [32]) ++ t by simp, trimPrefix_append,
    blank_ends ht.ends]

theorem gcText_eq (sub g t : Bytes) (hs : Word sub) (hg : Word g) (ht : Prose t) :
    gcText (c_gc ++ 32 :: (sub ++ 32 :: (g ++ 32 :: t))) sub g = t := by
  have hgt : Prose (g ++ 32 :: t) := by
    refine ⟨by simp, fun x hx hsuf => ?_⟩
    have h1 : trimRightSpace (g ++ 32 :: t) = g ++ 32 :: t := by
      rw [trimRightSpace_append (by rw [ht.trim]; exact ht.nonempty), ht.trim]
    obtain ⟨_, _, _, h⟩ := trimRightSpace_spec (g ++ 32 :: t)
    rw [h1] at h
    exact h x hx hsuf
  unfold gcText
  rw [trimPrefix_append, trim_word_text hs hgt, trimPrefix_append, trim_word_text hg ht,
    show g ++ 32 :: t = (g ++ [32]) ++ t by simp, trimPrefix_append, blank_ends ht.ends]

theorem sendDesc_eq (n f d : Bytes) (hn : Word n) (hf : Word f) (hd : Prose d) (hne : d ≠ f) :
    sendDesc (c_send ++ 32 :: (n ++ 32 :: (f ++ 32 :: d))) n f = d := by
  have hfd : Prose (f ++ 32 :: d) := by
    refine ⟨by simp, fun x hx hsuf => ?_⟩
    have h1 : trimRightSpace (f ++ 32 :: d) = f ++ 32 :: d := by
      rw [trimRightSpace_append (by rw [hd.trim]; exact hd.nonempty), hd.trim]
    obtain ⟨_, _, _, h⟩ := trimRightSpace_spec (f ++ 32 :: d)
    rw [h1] at h
    exact h x hx hsuf
  unfold sendDesc
  dsimp only
  rw [trimPrefix_append, trim_word_text hn hfd, trimPrefix_append, trim_word_text hf hd,
    show f ++ 32 :: d = (f ++ [32]) ++ d by simp, trimPrefix_append, blank_ends hd.ends, if_neg hne]

theorem sendDesc_none (n f : Bytes) (hn : Word n) (hf : Word f) : sendDesc (c_send ++ 32 :: (n ++ 32 :: f)) n f = [] := by
  unfold sendDesc
  dsimp only
  rw [trimPrefix_append, trim_word_text hn hf.prose, trimPrefix_append, trim_word hf]
  have : trimPrefix f (f ++ [32]) = f := by
    unfold trimPrefix
    rw [if_neg]
    rw [List.isPrefixOf_iff_prefix]
    intro h
    have := h.length_le
    simp at this
    omega
  rw [this, blank_ends hf.ends, if_pos rfl]

theorem dec_blank (n : Nat) : (32 : UInt8) ∉ dec n := by
  have key : ∀ k n, (32 : UInt8) ∉ Rendezvous.formatAux k n := by
    intro k
    induction k with
    | zero => intro n; simp [Rendezvous.formatAux]
    | succ k ih =>
      intro n
      have h : ∀ m < 10, (32 : UInt8) ≠ UInt8.ofNat (48 + m) := by decide
      unfold Rendezvous.formatAux
      split
      · simpa using h n (by omega)
      · simp only [List.mem_append, List.mem_singleton, not_or]
        exact ⟨ih _, h _ (Nat.mod_lt _ (by omega))⟩
  exact key 20 n

theorem parseInt_dec {n : Nat} (h : n < 2 ^ 63) : Policy.parseInt64 (dec n) = some (n : Int) := by
  have h1 := Welcome.parseUint_format (n := n) (by omega)
  have h2 := Welcome.format_head (n := n)
  unfold Policy.parseInt64
  split
  · rename_i r e; exact absurd rfl (h2 _ _ e).1
  · rename_i r e; exact absurd rfl (h2 _ _ e).2
  · rw [h1]; dsimp only; rw [if_pos h]

theorem act_list (low : Bytes → Bytes) (cmd a1 : Bytes) (as : List Bytes) : act low cmd c_list (a1 :: as) = list low a1 as := rfl

/-- **C98.** There is help about every command: the first word of every line that asks for something. -/
theorem C98_helped (low : Bytes → Bytes) (r : Req) (hr : r ≠ .nothing) (l : Bytes) (hl : l ∈ r.lines) :
    ∃ w ws, l = sp (w :: ws) ∧ (32 : UInt8) ∉ w ∧ parse low (sp [c_help, w]) = .helpOn w := by
  have key : ∀ w ws, l = sp (w :: ws) → w ∈ table →
      ∃ w ws, l = sp (w :: ws) ∧ (32 : UInt8) ∉ w ∧ parse low (sp [c_help, w]) = .helpOn w := by
    intro w ws e hw
    have h1 : ∀ w ∈ table, (32 : UInt8) ∉ w ∧ doHelp [w] = .helpOn w := by decide
    refine ⟨w, ws, e, (h1 w hw).1, ?_⟩
    rw [parse_sp _ _ _ (by decide) (by simp [(h1 w hw).1])]
    exact (h1 w hw).2
  have one : ∀ w, l = w → w ∈ table →
      ∃ w ws, l = sp (w :: ws) ∧ (32 : UInt8) ∉ w ∧ parse low (sp [c_help, w]) = .helpOn w := fun w e hw => key w [] e hw
  cases r with
  | nothing => exact absurd rfl hr
  | quit b =>
    cases b <;> simp only [Req.lines, List.mem_cons, List.not_mem_nil, or_false] at hl
    · exact one _ hl (by decide)
    · exact key _ _ hl (by decide)
  | send n f d =>
    cases d <;> simp only [Req.lines, List.mem_cons, List.not_mem_nil, or_false] at hl <;> exact key _ _ hl (by decide)
  | _ =>
    simp only [Req.lines, List.mem_cons, List.not_mem_nil, or_false] at hl <;>
    first
      | exact one _ hl (by decide)
      | exact key _ _ hl (by decide)
      | exact hl.elim (fun h => key _ _ h (by decide)) (fun h => key _ _ h (by decide))

example : ∃ w ws, sp [c_kx] = sp (w :: ws) ∧ (32 : UInt8) ∉ w ∧ parse id (sp [c_help, w]) = .helpOn w :=
  C98_helped id .kx (by decide) _ (by decide)

/-- **C98.** What can be asked for is done when one of the lines given by the help is typed.  Missing for the full claim:
descriptions equal to the name of the file, and `/gc update`. -/
theorem C98_obeyed_partial (low : Bytes → Bytes) (hl : Lower low) (r : Req) (hs : r.sane) (ho : ¬ r.odd) : Obeyed low r := by
  have b0 : ∀ w ∈ table, (32 : UInt8) ∉ w := by decide
  intro l hm
  cases r with
  | nothing => obtain rfl : l = [] := by simpa [Req.lines] using hm
               rfl
  | acceptCert =>
    obtain rfl : l = c_acceptnewcert := by simpa [Req.lines] using hm
    rfl
  | online =>
    obtain rfl : l = c_online := by simpa [Req.lines] using hm
    rfl
  | offline =>
    obtain rfl : l = c_offline := by simpa [Req.lines] using hm
    rfl
  | kx =>
    obtain rfl : l = c_kx := by simpa [Req.lines] using hm
    rfl
  | infoSelf =>
    obtain rfl : l = c_info := by simpa [Req.lines] using hm
    rfl
  | close =>
    obtain rfl : l = c_wc := by simpa [Req.lines] using hm
    rfl
  | restore =>
    obtain rfl : l = c_restore := by simpa [Req.lines] using hm
    rfl
  | version =>
    obtain rfl : l = c_version := by simpa [Req.lines] using hm
    rfl
  | help =>
    obtain rfl : l = c_help := by simpa [Req.lines] using hm
    rfl
  | save =>
    obtain rfl : l = c_save := by simpa [Req.lines] using hm
    rfl
  | listWindows =>
    obtain rfl | rfl : l = sp [c_list, s_c] ∨ l = sp [c_list, s_conversations] := by simpa [Req.lines] using hm
    · rw [parse_sp _ _ _ (by decide) (by decide)]
      rw [act_list]
      unfold list
      rw [hl _ (by decide)]
      rfl
    · rw [parse_sp _ _ _ (by decide) (by decide)]
      rw [act_list]
      unfold list
      rw [hl _ (by decide)]
      rfl
  | listBook =>
    obtain rfl | rfl : l = sp [c_list, s_a] ∨ l = sp [c_list, s_addressbook] := by simpa [Req.lines] using hm
    · rw [parse_sp _ _ _ (by decide) (by decide)]
      rw [act_list]
      unfold list
      rw [hl _ (by decide)]
      rfl
    · rw [parse_sp _ _ _ (by decide) (by decide)]
      rw [act_list]
      unfold list
      rw [hl _ (by decide)]
      rfl
  | listGroups =>
    obtain rfl | rfl : l = sp [c_list, s_gc] ∨ l = sp [c_list, s_groupchat] := by simpa [Req.lines] using hm
    · rw [parse_sp _ _ _ (by decide) (by decide)]
      rw [act_list]
      unfold list
      rw [hl _ (by decide)]
      rfl
    · rw [parse_sp _ _ _ (by decide) (by decide)]
      rw [act_list]
      unfold list
      rw [hl _ (by decide)]
      rfl
  | listInvites =>
    obtain rfl : l = sp [c_list, s_invites] := by simpa [Req.lines] using hm
    rw [parse_sp _ _ _ (by decide) (by decide)]
    rw [act_list]
    unfold list
    rw [hl _ (by decide)]
    rfl
  | listJoins =>
    obtain rfl : l = sp [c_list, s_joins] := by simpa [Req.lines] using hm
    rw [parse_sp _ _ _ (by decide) (by decide)]
    rw [act_list]
    unfold list
    rw [hl _ (by decide)]
    rfl
  | fetch p =>
    obtain rfl : l = sp [c_fetch, p] := by simpa [Req.lines] using hm
    rw [parse_sp _ _ _ (by decide) (by simp [hs.blank])]
    rfl
  | info w =>
    obtain rfl : l = sp [c_info, w] := by simpa [Req.lines] using hm
    rw [parse_sp _ _ _ (by decide) (by simp [hs.blank])]
    rfl
  | gcNew g =>
    obtain rfl : l = sp [c_gc, s_new, g] := by simpa [Req.lines] using hm
    rw [parse_sp _ _ _ (by decide) (by simp [hs.blank])]
    rfl
  | gcInvite g n =>
    obtain rfl : l = sp [c_gc, s_invite, g, n] := by simpa [Req.lines] using hm
    rw [parse_sp _ _ _ (by decide) (by simp [hs.1.blank, hs.2.blank])]
    rfl
  | gcJoin g t =>
    obtain rfl : l = sp [c_gc, s_join, g, dec t] := by simpa [Req.lines] using hm
    rw [parse_sp _ _ _ (by decide) (by simp [hs.1.blank, dec_blank])]
    show (match Policy.parseUint64 (dec t) with | some n => Req.gcJoin g n | none => .refuse) = _
    rw [Welcome.parseUint_format hs.2]
  | gcKick g n =>
    obtain rfl : l = sp [c_gc, s_kick, g, n] := by simpa [Req.lines] using hm
    rw [parse_sp _ _ _ (by decide) (by simp [hs.1.blank, hs.2.blank])]
    show Req.gcKick g (trimSpace n) = _
    unfold trimSpace
    rw [trimLeftSpace_none hs.2.begins, trimRightSpace_none hs.2.ends]
  | gcPart g =>
    obtain rfl : l = sp [c_gc, s_part, g] := by simpa [Req.lines] using hm
    rw [parse_sp _ _ _ (by decide) (by simp [hs.blank])]
    rfl
  | gcPartForce g =>
    obtain rfl : l = sp [c_gc, s_part, g, s_force] := by simpa [Req.lines] using hm
    rw [parse_sp _ _ _ (by decide) (by simp [hs.blank])]
    rfl
  | gcKill g =>
    obtain rfl : l = sp [c_gc, s_kill, g] := by simpa [Req.lines] using hm
    rw [parse_sp _ _ _ (by decide) (by simp [hs.blank])]
    rfl
  | listGroup g =>
    obtain rfl | rfl : l = sp [c_list, s_gc, g] ∨ l = sp [c_list, s_groupchat, g] := by simpa [Req.lines] using hm
    · rw [parse_sp _ _ _ (by decide) (by simp [hs.blank])]
      rw [act_list]
      unfold list
      rw [hl _ (by decide)]
      rfl
    · rw [parse_sp _ _ _ (by decide) (by simp [hs.blank])]
      rw [act_list]
      unfold list
      rw [hl _ (by decide)]
      rfl
  | query n =>
    obtain rfl | rfl : l = sp [c_q, n] ∨ l = sp [c_query, n] := by simpa [Req.lines] using hm
    · rw [parse_sp _ _ _ (by decide) (by simp [hs.blank])]
      rfl
    · rw [parse_sp _ _ _ (by decide) (by simp [hs.blank])]
      rfl
  | del n =>
    obtain rfl | rfl : l = sp [c_addressbook, s_del, n] ∨ l = sp [c_ab, s_del, n] := by simpa [Req.lines] using hm
    · rw [parse_sp _ _ _ (by decide) (by simp [hs.blank])]
      rfl
    · rw [parse_sp _ _ _ (by decide) (by simp [hs.blank])]
      rfl
  | find n =>
    obtain rfl : l = sp [c_find, n] := by simpa [Req.lines] using hm
    rw [parse_sp _ _ _ (by decide) (by simp [hs.blank])]
    rfl
  | reset n =>
    obtain rfl : l = sp [c_reset, n] := by simpa [Req.lines] using hm
    rw [parse_sp _ _ _ (by decide) (by simp [hs.blank])]
    rfl
  | win n =>
    obtain rfl | rfl : l = sp [c_w, dec n.toNat] ∨ l = sp [c_win, dec n.toNat] := by simpa [Req.lines] using hm
    · rw [parse_sp _ _ _ (by decide) (by simp [dec_blank])]
      show (match Policy.parseInt64 (dec n.toNat) with | some x => Req.win x | none => .refuse) = _
      rw [parseInt_dec (by have := hs.1; have := hs.2; omega)]
      exact congrArg Req.win (Int.toNat_of_nonneg hs.1)
    · rw [parse_sp _ _ _ (by decide) (by simp [dec_blank])]
      show (match Policy.parseInt64 (dec n.toNat) with | some x => Req.win x | none => .refuse) = _
      rw [parseInt_dec (by have := hs.1; have := hs.2; omega)]
      exact congrArg Req.win (Int.toNat_of_nonneg hs.1)
  | quit b =>
    cases b with
    | false =>
      obtain rfl : l = c_quit := by simpa [Req.lines] using hm
      rfl
    | true =>
      obtain rfl : l = sp [c_quit, s_force] := by simpa [Req.lines] using hm
      rfl
  | helpOn c =>
    have key : ∀ c ∈ table, parse low (sp [c_help, c]) = .helpOn c ∧ parse low (sp [c_help, c.drop 1]) = .helpOn c := by
      intro c hc
      have h1 := b0 c hc
      have h2 : (32 : UInt8) ∉ c.drop 1 := fun h => h1 (List.mem_of_mem_drop h)
      rw [parse_sp _ _ _ (by decide) (by simp [h1]), parse_sp _ _ _ (by decide) (by simpa using h2)]
      have : ∀ c ∈ table, doHelp [c] = .helpOn c ∧ doHelp [c.drop 1] = .helpOn c := by decide
      exact this c hc
    obtain rfl | rfl : l = sp [c_help, c] ∨ l = sp [c_help, c.drop 1] := by simpa [Req.lines] using hm
    · exact (key c hs).1
    · exact (key c hs).2
  | send n f d =>
    obtain ⟨hn, hf, hd⟩ := hs
    by_cases h0 : d = []
    · subst h0
      obtain rfl : l = sp [c_send, n, f] := by simpa [Req.lines] using hm
      rw [parse_sp _ _ _ (by decide) (by simp [hn.blank, hf.blank])]
      show Req.send n f (sendDesc (c_send ++ 32 :: (n ++ 32 :: f)) n f) = _
      rw [sendDesc_none n f hn hf]
    · have hl : l = sp (c_send :: ([n, f] ++ [d])) := by
        cases d with
        | nil => exact absurd rfl h0
        | cons x d => simpa [Req.lines] using hm
      subst hl
      rw [parse_text _ _ _ _ (by decide) (by simp [hn.blank, hf.blank])]
      show Req.send n f (sendDesc (c_send ++ 32 :: (n ++ 32 :: (f ++ 32 :: d))) n f) = _
      rw [sendDesc_eq n f d hn hf (hd.resolve_left h0) ho]
  | me t =>
    obtain rfl : l = sp (c_me :: ([] ++ [t])) := by simpa [Req.lines] using hm
    rw [parse_text _ _ _ _ (by decide) (by simp)]
    obtain ⟨w, ws, e⟩ := text_words t
    rw [e]
    show Req.me (trimSpace (trimPrefix (c_me ++ 32 :: t) c_me)) = _
    rw [trimPrefix_append]
    unfold trimSpace
    rw [trimLeftSpace_cons hs.2, hs.1.trim]
  | msg n t =>
    obtain ⟨hn, ht⟩ := hs
    obtain ⟨w, ws, e⟩ := text_words t
    obtain rfl | rfl : l = sp (c_msg :: ([n] ++ [t])) ∨ l = sp (c_m :: ([n] ++ [t])) := by simpa [Req.lines] using hm
    · rw [parse_text _ _ _ _ (by decide) (by simp [hn.blank]), e]
      show Req.msg n (msgText (c_msg ++ 32 :: (n ++ 32 :: t)) c_msg n) = _
      rw [msgText_eq _ _ _ hn ht]
    · rw [parse_text _ _ _ _ (by decide) (by simp [hn.blank]), e]
      show Req.msg n (msgText (c_m ++ 32 :: (n ++ 32 :: t)) c_m n) = _
      rw [msgText_eq _ _ _ hn ht]
  | gcMe g t =>
    obtain ⟨hg, ht⟩ := hs
    obtain ⟨w, ws, e⟩ := text_words t
    obtain rfl : l = sp (c_gc :: ([s_me, g] ++ [t])) := by simpa [Req.lines] using hm
    rw [parse_text _ _ _ _ (by decide) (by simp [hg.blank]), e]
    show Req.gcMe g (gcText (c_gc ++ 32 :: (s_me ++ 32 :: (g ++ 32 :: t))) s_me g) = _
    rw [gcText_eq _ _ _ ⟨by decide, by decide, by decide, by decide⟩ hg ht]
  | gcMsg g t =>
    obtain ⟨hg, ht⟩ := hs
    obtain ⟨w, ws, e⟩ := text_words t
    obtain rfl : l = sp (c_gc :: ([s_m, g] ++ [t])) := by simpa [Req.lines] using hm
    rw [parse_text _ _ _ _ (by decide) (by simp [hg.blank]), e]
    show Req.gcMsg g (gcText (c_gc ++ 32 :: (s_m ++ 32 :: (g ++ 32 :: t))) s_m g) = _
    rw [gcText_eq _ _ _ ⟨by decide, by decide, by decide, by decide⟩ hg ht]
  | gcUpdate g => exact absurd trivial ho
  | usage b => simp [Req.lines] at hm
  | refuse => simp [Req.lines] at hm

/-- **C98, negation.** A description that is the name of the file is not sent. -/
theorem C98_desc_violated (low : Bytes → Bytes) : ∃ n f d, (Req.send n f d).sane ∧ ∀ l ∈ (Req.send n f d).lines,
    parse low l = .send n f [] ∧ d ≠ [] := by
  refine ⟨[98], [102], [102], ⟨?_, ?_, Or.inr ?_⟩, ?_⟩
  · exact ⟨by decide, by decide, by decide, by decide⟩
  · exact ⟨by decide, by decide, by decide, by decide⟩
  · exact ⟨by decide, by decide⟩
  · intro l hl
    obtain rfl : l = sp [c_send, [98], [102], [102]] := by simpa [Req.lines] using hl
    exact ⟨rfl, by decide⟩

/-- **C98, negation.** `/gc update` is described and always refused. -/
theorem C98_update_violated (low : Bytes → Bytes) (g : Bytes) (hg : Word g) :
    ∀ l ∈ (Req.gcUpdate g).lines, parse low l = .refuse := by
  intro l hl
  obtain rfl : l = sp [c_gc, s_update, g] := by simpa [Req.lines] using hl
  rw [parse_sp _ _ _ (by decide) (by simp [hg.blank])]
  rfl

/-- **C98, negation.** The usage of `/gc` names `message`, /repo/zkclient/help.go:81; it is refused. -/
theorem C98_message_violated (low : Bytes → Bytes) (g t : Bytes) (hg : Word g) :
    parse low (sp [c_gc, s_message, g, t]) = .refuse := by
  have := parse_text low c_gc [s_message, g] t (by decide) (by simp [hg.blank])
  simp only [List.cons_append, List.nil_append] at this
  rw [this]
  rfl

/-! ## Nothing is done that was not asked for -/

/-- What must have been typed. -/
def Asked (low : Bytes → Bytes) (cmd : Bytes) : Req → Prop
  | .nothing => cmd = []
  | .acceptCert => ∃ r, split cmd = c_acceptnewcert :: r
  | .online => ∃ r, split cmd = c_online :: r
  | .offline => ∃ r, split cmd = c_offline :: r
  | .kx => ∃ r, split cmd = c_kx :: r
  | .fetch p => split cmd = [c_fetch, p]
  | .send n f d => (∃ r, split cmd = c_send :: n :: f :: r) ∧ d <:+: cmd
  | .me t => (∃ r, split cmd = c_me :: r) ∧ t <:+: cmd
  | .msg n t => (∃ c r, split cmd = c :: n :: r ∧ c ∈ [c_m, c_msg]) ∧ t <:+: cmd
  | .infoSelf => split cmd = [c_info]
  | .info w => split cmd = [c_info, w]
  | .gcNew g => split cmd = [c_gc, s_new, g]
  | .gcInvite g n => split cmd = [c_gc, s_invite, g, n]
  | .gcJoin g t => ∃ d, split cmd = [c_gc, s_join, g, d] ∧ Policy.parseUint64 d = some t
  | .gcKick g n => ∃ m, split cmd = [c_gc, s_kick, g, m] ∧ n = trimSpace m
  | .gcUpdate _ => False
  | .gcMe g t => (∃ r, split cmd = c_gc :: s_me :: g :: r) ∧ t <:+: cmd
  | .gcMsg g t => (∃ r, split cmd = c_gc :: s_m :: g :: r) ∧ t <:+: cmd
  | .gcPart g => split cmd = [c_gc, s_part, g]
  | .gcPartForce g => split cmd = [c_gc, s_part, g, s_force]
  | .gcKill g => split cmd = [c_gc, s_kill, g]
  | .listWindows => ∃ a r, split cmd = c_list :: a :: r ∧ low a ∈ [s_c, s_conversations]
  | .listBook => ∃ a r, split cmd = c_list :: a :: r ∧ low a ∈ [s_a, s_addressbook]
  | .listGroups => ∃ a, split cmd = [c_list, a] ∧ low a ∈ [s_gc, s_groupchat]
  | .listGroup g => ∃ a, split cmd = [c_list, a, g] ∧ low a ∈ [s_gc, s_groupchat]
  | .listInvites => ∃ a r, split cmd = c_list :: a :: r ∧ low a ∈ [s_invites]
  | .listJoins => ∃ a r, split cmd = c_list :: a :: r ∧ low a ∈ [s_joins]
  | .win n => ∃ c d, split cmd = [c, d] ∧ c ∈ [c_w, c_win] ∧ Policy.parseInt64 d = some n
  | .close => split cmd = [c_wc]
  | .restore => ∃ r, split cmd = c_restore :: r
  | .query n => ∃ c, split cmd = [c, n] ∧ c ∈ [c_q, c_query]
  | .quit true => split cmd = [c_quit, s_force]
  | .quit false => ∃ r, split cmd = c_quit :: r ∧ r ≠ [s_force]
  | .version => ∃ r, split cmd = c_version :: r
  | .help => split cmd = [c_help]
  | .helpOn c => ∃ a, split cmd = [c_help, a] ∧ c ∈ table ∧ (a = c ∨ a = c.drop 1)
  | .del n => ∃ c, split cmd = [c, s_del, n] ∧ c ∈ [c_addressbook, c_ab]
  | .save => ∃ r, split cmd = c_save :: r
  | .find n => split cmd = [c_find, n]
  | .reset n => split cmd = [c_reset, n]
  | .usage b => b = true ∧ ∃ c r, split cmd = c :: r ∧ c ∈ table
  | .refuse => True

theorem trimPrefix_suffix (s p : Bytes) : trimPrefix s p <:+ s := by
  unfold trimPrefix
  split
  · exact List.drop_suffix _ _
  · exact List.suffix_refl _

theorem dropWords_suffix (ws : List Bytes) : ∀ (n : Nat) (s : Bytes), dropWords ws n s <:+ s
  | 0, s => List.suffix_refl _
  | n + 1, s => by
    unfold dropWords
    split
    · exact List.suffix_refl _
    · exact (dropWords_suffix ws n _).trans (List.drop_suffix _ _)

theorem trimSpace_infix (s : Bytes) : trimSpace s <:+: s := by
  have h1 : trimLeftSpace s <:+ s := dropWords_suffix _ _ _
  have h2 : ∀ t, trimRightSpace t <+: t := by
    intro t
    unfold trimRightSpace
    rw [← List.reverse_suffix, List.reverse_reverse]
    exact dropWords_suffix _ _ _
  exact (h2 _).isInfix.trans h1.isInfix

theorem trimRightBlank_infix (s : Bytes) : trimRightBlank s <:+: s := by
  unfold trimRightBlank
  refine List.IsPrefix.isInfix ?_
  rw [← List.reverse_suffix, List.reverse_reverse]
  exact List.dropWhile_suffix _

theorem msgText_infix (cmd a0 a1 : Bytes) : msgText cmd a0 a1 <:+: cmd :=
  (trimRightBlank_infix _).trans ((trimPrefix_suffix _ _).isInfix.trans ((trimSpace_infix _).trans (trimPrefix_suffix _ _).isInfix))

theorem gcText_infix (cmd sub a2 : Bytes) : gcText cmd sub a2 <:+: cmd :=
  (trimRightBlank_infix _).trans ((trimPrefix_suffix _ _).isInfix.trans ((trimSpace_infix _).trans
    ((trimPrefix_suffix _ _).isInfix.trans ((trimSpace_infix _).trans (trimPrefix_suffix _ _).isInfix))))

theorem sendDesc_infix (cmd a1 a2 : Bytes) : sendDesc cmd a1 a2 <:+: cmd := by
  unfold sendDesc
  dsimp only
  split
  · exact List.nil_infix
  · exact (trimRightBlank_infix _).trans ((trimPrefix_suffix _ _).isInfix.trans ((trimSpace_infix _).trans
      ((trimPrefix_suffix _ _).isInfix.trans ((trimSpace_infix _).trans (trimPrefix_suffix _ _).isInfix))))

theorem usage_asked (low : Bytes → Bytes) {cmd a0 : Bytes} {as : List Bytes} (hc : split cmd = a0 :: as) (h : a0 ∈ table) :
    Asked low cmd (doUsage a0) :=
  ⟨by simpa using h, a0, as, hc, h⟩

theorem asked_gc (low : Bytes → Bytes) {cmd a1 : Bytes} {as : List Bytes} (hc : split cmd = c_gc :: a1 :: as) :
    Asked low cmd (gc cmd a1 as) := by
  unfold gc
  split
  · rename_i e; subst e
    split
    · exact hc
    · trivial
  split
  · rename_i e; subst e
    split
    · exact hc
    · trivial
  split
  · rename_i e; subst e
    split
    · split
      · rename_i hp; exact ⟨_, hc, hp⟩
      · trivial
    · trivial
  split
  · rename_i e; subst e
    split
    · exact ⟨_, hc, rfl⟩
    · trivial
  split
  · trivial
  split
  · rename_i e; subst e
    split
    · exact ⟨⟨_, hc⟩, gcText_infix _ _ _⟩
    · trivial
  split
  · rename_i e; subst e
    split
    · exact ⟨⟨_, hc⟩, gcText_infix _ _ _⟩
    · trivial
  split
  · rename_i e; subst e
    split
    · exact hc
    · split
      · rename_i e; subst e; exact hc
      · trivial
    · trivial
  split
  · rename_i e; subst e
    split
    · exact hc
    · trivial
  · trivial

theorem asked_list (low : Bytes → Bytes) {cmd a1 : Bytes} {as : List Bytes} (hc : split cmd = c_list :: a1 :: as) :
    Asked low cmd (list low a1 as) := by
  unfold list
  dsimp only
  split
  · rename_i e; exact ⟨_, _, hc, by simpa using e⟩
  split
  · rename_i e; exact ⟨_, _, hc, by simpa using e⟩
  split
  · rename_i e
    split
    · exact ⟨_, hc, by simpa using e⟩
    · exact ⟨_, hc, by simpa using e⟩
    · trivial
  split
  · rename_i e; exact ⟨_, _, hc, by simpa using e⟩
  split
  · rename_i e; exact ⟨_, _, hc, by simpa using e⟩
  · trivial

theorem asked_help (low : Bytes → Bytes) {cmd : Bytes} {as : List Bytes} (hc : split cmd = c_help :: as) :
    Asked low cmd (doHelp as) := by
  unfold doHelp
  split
  · exact hc
  · split
    · rename_i c h
      refine ⟨_, hc, List.mem_of_find?_eq_some h, ?_⟩
      have := List.find?_some h
      simpa using this
    · trivial
  · trivial

theorem asked_act (low : Bytes → Bytes) {cmd a0 : Bytes} {as : List Bytes} (hc : split cmd = a0 :: as) :
    Asked low cmd (act low cmd a0 as) := by
  unfold act
  by_cases e : a0 = c_acceptnewcert
  · rw [if_pos e]; subst e; exact ⟨_, hc⟩
  rw [if_neg e]; clear e
  by_cases e : a0 = c_online
  · rw [if_pos e]; subst e; exact ⟨_, hc⟩
  rw [if_neg e]; clear e
  by_cases e : a0 = c_offline
  · rw [if_pos e]; subst e; exact ⟨_, hc⟩
  rw [if_neg e]; clear e
  by_cases e : a0 = c_kx
  · rw [if_pos e]; subst e; exact ⟨_, hc⟩
  rw [if_neg e]; clear e
  by_cases e : a0 = c_fetch
  · rw [if_pos e]; subst e
    split
    · exact hc
    · exact usage_asked low hc (by decide)
  rw [if_neg e]; clear e
  by_cases e : a0 = c_send
  · rw [if_pos e]; subst e
    split
    · exact ⟨⟨_, hc⟩, sendDesc_infix _ _ _⟩
    · exact usage_asked low hc (by decide)
  rw [if_neg e]; clear e
  by_cases e : a0 = c_me
  · rw [if_pos e]; subst e
    split
    · exact ⟨⟨_, hc⟩, (trimSpace_infix _).trans (trimPrefix_suffix _ _).isInfix⟩
    · exact usage_asked low hc (by decide)
  rw [if_neg e]; clear e
  by_cases e : a0 = c_msg ∨ a0 = c_m
  · rw [if_pos e]
    split
    · exact ⟨⟨_, _, hc, by simpa [or_comm] using e⟩, msgText_infix _ _ _⟩
    · refine usage_asked low hc ?_
      rcases e with e | e <;> (subst e; decide)
  rw [if_neg e]; clear e
  by_cases e : a0 = c_info
  · rw [if_pos e]; subst e
    split
    · exact hc
    · exact hc
    · exact usage_asked low hc (by decide)
  rw [if_neg e]; clear e
  by_cases e : a0 = c_gc
  · rw [if_pos e]; subst e
    split
    · exact usage_asked low hc (by decide)
    · exact asked_gc low hc
  rw [if_neg e]; clear e
  by_cases e : a0 = c_list
  · rw [if_pos e]; subst e
    split
    · exact usage_asked low hc (by decide)
    · exact asked_list low hc
  rw [if_neg e]; clear e
  by_cases e : a0 = c_w ∨ a0 = c_win
  · rw [if_pos e]
    split
    · split
      · rename_i hp; exact ⟨_, _, hc, by simpa using e, hp⟩
      · trivial
    · refine usage_asked low hc ?_
      rcases e with e | e <;> (subst e; decide)
  rw [if_neg e]; clear e
  by_cases e : a0 = c_wc
  · rw [if_pos e]; subst e
    split
    · exact hc
    · exact usage_asked low hc (by decide)
  rw [if_neg e]; clear e
  by_cases e : a0 = c_restore
  · rw [if_pos e]; subst e; exact ⟨_, hc⟩
  rw [if_neg e]; clear e
  by_cases e : a0 = c_q ∨ a0 = c_query
  · rw [if_pos e]
    split
    · exact ⟨_, hc, by simpa using e⟩
    · refine usage_asked low hc ?_
      rcases e with e | e <;> (subst e; decide)
  rw [if_neg e]; clear e
  by_cases e : a0 = c_quit
  · rw [if_pos e]; subst e
    by_cases hf : as = [s_force]
    · subst hf
      exact hc
    · rw [decide_eq_false hf]
      exact ⟨_, hc, hf⟩
  rw [if_neg e]; clear e
  by_cases e : a0 = c_version
  · rw [if_pos e]; subst e; exact ⟨_, hc⟩
  rw [if_neg e]; clear e
  by_cases e : a0 = c_help
  · rw [if_pos e]; subst e; exact asked_help low hc
  rw [if_neg e]; clear e
  by_cases e : a0 = c_addressbook ∨ a0 = c_ab
  · rw [if_pos e]
    split
    · split
      · rename_i hd; subst hd; exact ⟨_, hc, by simpa using e⟩
      · trivial
    · refine usage_asked low hc ?_
      rcases e with e | e <;> (subst e; decide)
  rw [if_neg e]; clear e
  by_cases e : a0 = c_save
  · rw [if_pos e]; subst e; exact ⟨_, hc⟩
  rw [if_neg e]; clear e
  by_cases e : a0 = c_find
  · rw [if_pos e]; subst e
    split
    · exact hc
    · exact usage_asked low hc (by decide)
  rw [if_neg e]; clear e
  by_cases e : a0 = c_reset
  · rw [if_pos e]; subst e
    split
    · exact hc
    · exact usage_asked low hc (by decide)
  rw [if_neg e]; trivial

/-- Whatever is typed: nothing is done that was not asked for, to nobody who was not named, and what is sent is part of
what was typed.  A command that is used in a wrong way is answered with its usage. -/
theorem C98_asked (low : Bytes → Bytes) (cmd : Bytes) : Asked low cmd (parse low cmd) := by
  unfold parse
  split
  · rename_i e; exact e
  · split
    · rename_i h; exact absurd h (split_ne_nil cmd)
    · rename_i h; exact asked_act low h

example (low : Bytes → Bytes) : parse low (sp [c_send, [98, 111, 98], [102], [104, 32, 32, 105]]) = .send [98, 111, 98] [102] [104, 32, 32, 105] := rfl
example (low : Bytes → Bytes) : parse low (sp [c_gc, s_join, [103], dec 12]) = .gcJoin [103] 12 := rfl
example (low : Bytes → Bytes) : parse low (sp [c_find]) = .usage true := rfl

/-! ## C99: the history -/

/-- The lines that were entered, in order. -/
def typed : List Key → List Bytes
  | [] => []
  | .enter cmd _ :: ks => if cmd = [] then typed ks else cmd :: typed ks
  | _ :: ks => typed ks

/-- Every line that was entered reached the file, has no newline inside, and does not end in a carriage return. -/
def Whole (ks : List Key) : Prop :=
  ∀ cmd n, Key.enter cmd n ∈ ks → n = none ∧ (10 : UInt8) ∉ cmd ∧ ¬ [13] <:+ cmd

/-- A file no line of which is torn. -/
def Closed (file : Bytes) : Prop := file = [] ∨ [10] <:+ file

theorem readLines_nl (acc r : Bytes) : readLines acc (10 :: r) =
    (acc.reverse.dropWhile (fun x => x = 13 ∨ x = 10)).reverse :: readLines [] r := rfl

theorem readLines_cons {c : UInt8} (h : c ≠ 10) (acc r : Bytes) : readLines acc (c :: r) = readLines (acc ++ [c]) r := by
  rw [readLines, if_neg h]

theorem readLines_append {f : Bytes} : ∀ (acc g : Bytes), readLines acc (f ++ 10 :: g) = readLines acc (f ++ [10]) ++ readLines [] g := by
  induction f with
  | nil => intro acc g; rw [List.nil_append, List.nil_append, readLines_nl, readLines_nl]; rfl
  | cons c f ih =>
    intro acc g
    by_cases h : c = 10
    · subst h
      rw [List.cons_append, List.cons_append, readLines_nl, readLines_nl, ih, List.cons_append]
    · rw [List.cons_append, List.cons_append, readLines_cons h, readLines_cons h, ih]

theorem readLines_one {l : Bytes} (h : (10 : UInt8) ∉ l) : ∀ acc, readLines acc (l ++ [10]) =
    [((acc ++ l).reverse.dropWhile (fun x => x = 13 ∨ x = 10)).reverse] := by
  induction l with
  | nil => intro acc; rw [List.nil_append, readLines_nl, List.append_nil]; rfl
  | cons c l ih =>
    intro acc
    have hc : c ≠ 10 := fun e => h (e ▸ List.mem_cons_self)
    rw [List.cons_append, readLines_cons hc, ih (fun hm => h (List.mem_cons_of_mem _ hm))]
    simp

theorem clean_end {l : Bytes} (h : (10 : UInt8) ∉ l) (h' : ¬ [13] <:+ l) :
    (l.reverse.dropWhile (fun x => x = 13 ∨ x = 10)).reverse = l := by
  rcases List.eq_nil_or_concat l with rfl | ⟨r, x, rfl⟩
  · rfl
  · have h1 : x ≠ 10 := by rintro rfl; simp at h
    have h2 : x ≠ 13 := by rintro rfl; exact h' ⟨r, by simp⟩
    simp [h1, h2]

theorem readLines_snoc {file l : Bytes} (hf : Closed file) (h : (10 : UInt8) ∉ l) (h' : ¬ [13] <:+ l) :
    readLines [] (file ++ (l ++ [10])) = readLines [] file ++ [l] := by
  have h1 : readLines [] (l ++ [10]) = [l] := by rw [readLines_one h, List.nil_append, clean_end h h']
  rcases hf with rfl | ⟨f, rfl⟩
  · simp [readLines, h1]
  · rw [List.append_assoc, List.singleton_append, readLines_append, h1]

theorem keys_inv (Q : Hist → Prop) (hs : ∀ h k h', Q h → h.key k = some h' → Q h') :
    ∀ (ks : List Key) (h h' : Hist), Q h → h.keys ks = some h' → Q h'
  | [], h, h', hq, e => by cases e; exact hq
  | k :: ks, h, h', hq, e => by
    unfold Hist.keys at e
    obtain ⟨h1, e1, e2⟩ := Option.bind_eq_some_iff.1 e
    exact keys_inv Q hs ks h1 h' (hs h k h1 hq e1) e2

theorem key_nil (h : Hist) (n : Option Nat) : h.key (.enter [] n) = some h := rfl

theorem key_enter (h : Hist) {cmd : Bytes} (n : Option Nat) (hc : cmd ≠ []) : h.key (.enter cmd n) =
    some ⟨h.saves, h.lines ++ [cmd], h.lines.length + 1, [],
      if h.saves then h.file ++ (match n with | none => cmd ++ [10] | some n => (cmd ++ [10]).take n) else h.file⟩ := by
  unfold Hist.key
  dsimp only
  rw [if_neg hc]
  rfl

/-- Where one is in the history. -/
def Hist.ok (h : Hist) : Prop := h.pos ≤ h.lines.length ∧ h.edit = h.lines.getD h.pos []

theorem start_ok (saves : Bool) (file : Bytes) : (Hist.start saves file).ok := by
  simp [Hist.start, Hist.ok]

theorem key_ok {h : Hist} (ho : h.ok) (k : Key) : ∃ h', h.key k = some h' ∧ h'.ok := by
  cases k with
  | enter cmd n =>
    by_cases hc : cmd = []
    · exact ⟨h, by rw [hc, key_nil], ho⟩
    · refine ⟨_, key_enter h n hc, ?_⟩
      simp [Hist.ok]
  | up =>
    unfold Hist.key
    by_cases hp : h.pos = 0
    · exact ⟨h, by simp [hp], ho⟩
    · have hl : h.pos - 1 < h.lines.length := by have := ho.1; omega
      refine ⟨{ h with pos := h.pos - 1, edit := h.lines[h.pos - 1] }, by simp [hp, List.getElem?_eq_getElem hl], ?_⟩
      refine ⟨Nat.le_of_lt hl, ?_⟩
      simp [List.getD, List.getElem?_eq_getElem hl]
  | down =>
    unfold Hist.key
    by_cases hp : h.lines.length ≤ h.pos + 1
    · refine ⟨{ h with pos := h.lines.length, edit := [] }, by simp [hp], ?_⟩
      simp [Hist.ok]
    · have hl : h.pos + 1 < h.lines.length := by omega
      refine ⟨{ h with pos := h.pos + 1, edit := h.lines[h.pos + 1] }, by simp [hp, List.getElem?_eq_getElem hl], ?_⟩
      refine ⟨Nat.le_of_lt hl, ?_⟩
      simp [List.getD, List.getElem?_eq_getElem hl]
  | restart => exact ⟨_, rfl, start_ok _ _⟩

theorem keys_ok : ∀ (ks : List Key) (h : Hist), h.ok → ∃ h', h.keys ks = some h' ∧ h'.ok
  | [], h, ho => ⟨h, rfl, ho⟩
  | k :: ks, h, ho => by
    obtain ⟨h1, e1, o1⟩ := key_ok ho k
    obtain ⟨h2, e2, o2⟩ := keys_ok ks h1 o1
    exact ⟨h2, by unfold Hist.keys; rw [e1]; exact e2, o2⟩

theorem keys_append : ∀ (ks ls : List Key) (h : Hist), h.keys (ks ++ ls) = (h.keys ks).bind fun h' => h'.keys ls
  | [], ls, h => rfl
  | k :: ks, ls, h => by
    simp only [List.cons_append, Hist.keys]
    cases h.key k with
    | none => rfl
    | some h1 => simpa using keys_append ks ls h1

/-- Whatever was in the file and whatever keys are pressed: the client survives, and what is shown is the line one is at, or
nothing at the end of the history. -/
theorem C99_shown (saves : Bool) (file : Bytes) (ks : List Key) :
    ∃ h, (Hist.start saves file).keys ks = some h ∧ h.pos ≤ h.lines.length ∧ h.edit = h.lines.getD h.pos [] :=
  keys_ok ks _ (start_ok saves file)

example : ((Hist.start true [97, 10, 98, 10]).keys [.up, .up, .up, .down]).map (·.edit) = some [98] := by decide +kernel

theorem up_n : ∀ (n : Nat) (h : Hist), h.ok → n ≤ h.pos →
    ∃ h', h.keys (List.replicate n .up) = some h' ∧ h'.lines = h.lines ∧ h'.pos = h.pos - n ∧ h'.ok
  | 0, h, ho, _ => ⟨h, rfl, rfl, rfl, ho⟩
  | n + 1, h, ho, hn => by
    obtain ⟨h1, e1, o1⟩ := key_ok ho .up
    have : h1.lines = h.lines ∧ h1.pos = h.pos - 1 := by
      unfold Hist.key at e1
      dsimp only at e1
      rw [if_neg (by omega)] at e1
      split at e1
      · cases e1
      · cases e1; exact ⟨rfl, rfl⟩
    obtain ⟨h2, e2, l2, p2, o2⟩ := up_n n h1 o1 (by omega)
    refine ⟨h2, by rw [List.replicate_succ]; unfold Hist.keys; rw [e1]; exact e2, l2.trans this.1, by omega, o2⟩

theorem down_n : ∀ (n : Nat) (h : Hist), h.ok → h.pos + n ≤ h.lines.length →
    ∃ h', h.keys (List.replicate n .down) = some h' ∧ h'.lines = h.lines ∧ h'.pos = h.pos + n ∧ h'.ok
  | 0, h, ho, _ => ⟨h, rfl, rfl, rfl, ho⟩
  | n + 1, h, ho, hn => by
    obtain ⟨h1, e1, o1⟩ := key_ok ho .down
    have : h1.lines = h.lines ∧ h1.pos = h.pos + 1 := by
      unfold Hist.key at e1
      dsimp only at e1
      split at e1
      · cases e1; exact ⟨rfl, by dsimp only; omega⟩
      · split at e1
        · cases e1
        · cases e1; exact ⟨rfl, rfl⟩
    obtain ⟨h2, e2, l2, p2, o2⟩ := down_n n h1 o1 (by rw [this.1, this.2]; omega)
    refine ⟨h2, by rw [List.replicate_succ]; unfold Hist.keys; rw [e1]; exact e2, l2.trans this.1, by omega, o2⟩

/-- Going up `n` times from the end and down `m` times shows the line `n - m` from the end, the last being the first. -/
theorem C99_back (saves : Bool) (file : Bytes) (ks : List Key) (h : Hist) (hk : (Hist.start saves file).keys ks = some h)
    (hp : h.pos = h.lines.length) (n m : Nat) (hn : n ≤ h.lines.length) (hm : m < n) :
    ∃ h', h.keys (List.replicate n .up ++ List.replicate m .down) = some h' ∧ h'.lines = h.lines ∧
      h.lines.reverse[n - m - 1]? = some h'.edit := by
  have ho : h.ok := by
    obtain ⟨h1, e1, o1⟩ := keys_ok ks _ (start_ok saves file)
    rw [hk] at e1; cases e1; exact o1
  obtain ⟨h1, e1, l1, p1, o1⟩ := up_n n h ho (by omega)
  obtain ⟨h2, e2, l2, p2, o2⟩ := down_n m h1 o1 (by rw [l1]; omega)
  refine ⟨h2, by rw [keys_append, e1]; exact e2, l2.trans l1, ?_⟩
  have hlt : h2.pos < h.lines.length := by omega
  rw [List.getElem?_reverse (by omega), o2.2, l2, l1]
  have : h.lines.length - 1 - (n - m - 1) = h2.pos := by omega
  rw [this, List.getElem?_eq_getElem hlt]
  simp [List.getD, List.getElem?_eq_getElem hlt]

example : ((Hist.start true []).keys ([.enter [97] none, .enter [98] none, .restart] ++ ([.up, .up] ++ [.down]))).map (·.edit) =
    some [98] := by decide +kernel

/-- A line that is entered is the last one, and one is behind it. -/
theorem C99_entered (saves : Bool) (file : Bytes) (ks : List Key) (cmd : Bytes) (n : Option Nat) (hc : cmd ≠ []) :
    ∃ h h', (Hist.start saves file).keys ks = some h ∧ (Hist.start saves file).keys (ks ++ [.enter cmd n]) = some h' ∧
      h'.lines = h.lines ++ [cmd] ∧ h'.pos = h'.lines.length := by
  obtain ⟨h, e, _⟩ := keys_ok ks _ (start_ok saves file)
  refine ⟨h, _, e, by rw [keys_append, e]; show (h.key (.enter cmd n)).bind _ = _; rw [key_enter h n hc]; rfl, rfl, ?_⟩
  simp

example : ([97] : Bytes) ≠ [] := by decide

theorem kept : ∀ (ks : List Key) (h h' : Hist), h.saves = true → Closed h.file → h.lines = readLines [] h.file →
    Whole ks → h.keys ks = some h' →
    h'.lines = h.lines ++ typed ks ∧ h'.saves = true ∧ Closed h'.file ∧ h'.lines = readLines [] h'.file
  | [], h, h', hs, hf, hl, _, e => by cases e; exact ⟨by simp [typed], hs, hf, hl⟩
  | k :: ks, h, h', hs, hf, hl, hw, e => by
    unfold Hist.keys at e
    obtain ⟨h1, e1, e2⟩ := Option.bind_eq_some_iff.1 e
    have hw' : Whole ks := fun cmd n hm => hw cmd n (List.mem_cons_of_mem _ hm)
    have same : h1.saves = true → h1.file = h.file → h1.lines = h.lines → typed (k :: ks) = typed ks →
        h'.lines = h.lines ++ typed (k :: ks) ∧ h'.saves = true ∧ Closed h'.file ∧ h'.lines = readLines [] h'.file := by
      intro a b c d
      have := kept ks h1 h' a (b ▸ hf) (by rw [c, b, hl]) hw' e2
      rw [d, ← c]
      exact this
    cases k with
    | enter cmd n =>
      obtain ⟨hn, h10, h13⟩ := hw cmd n List.mem_cons_self
      subst hn
      by_cases hc : cmd = []
      · rw [hc, key_nil] at e1; cases e1
        exact same hs rfl rfl (by simp [typed, hc])
      · rw [key_enter h none hc] at e1
        have e1 := Option.some.inj e1
        have l1 : h1.lines = h.lines ++ [cmd] := by rw [← e1]
        have f1 : h1.file = h.file ++ (cmd ++ [10]) := by rw [← e1]; simp [hs]
        have s1 : h1.saves = true := by rw [← e1]; exact hs
        have c1 : Closed h1.file := Or.inr ⟨h.file ++ cmd, by rw [f1]; simp⟩
        have r1 : h1.lines = readLines [] h1.file := by rw [l1, f1, readLines_snoc hf h10 h13, hl]
        obtain ⟨a, b⟩ := kept ks h1 h' s1 c1 r1 hw' e2
        exact ⟨by rw [a, l1]; simp [typed, hc], b⟩
    | up =>
      unfold Hist.key at e1
      dsimp only at e1
      split at e1
      · cases e1; exact same hs rfl rfl rfl
      · split at e1
        · cases e1
        · cases e1; exact same hs rfl rfl rfl
    | down =>
      unfold Hist.key at e1
      dsimp only at e1
      split at e1
      · cases e1; exact same hs rfl rfl rfl
      · split at e1
        · cases e1
        · cases e1; exact same hs rfl rfl rfl
    | restart =>
      unfold Hist.key at e1
      cases e1
      exact same hs rfl (by simp [Hist.start, hs, hl]) rfl

/-- The history is what was in the file and every line that was entered since, in order, over any number of restarts, if
it is saved and every line reaches the file whole. -/
theorem C99_kept_partial (file : Bytes) (ks : List Key) (h : Hist) (hf : Closed file) (hw : Whole ks)
    (hk : (Hist.start true file).keys ks = some h) : h.lines = readLines [] file ++ typed ks :=
  (kept ks (Hist.start true file) h rfl hf rfl hw hk).1

example : Closed [97, 10] ∧ Whole [.enter [98] none, .up, .restart, .enter [99] none, .restart] ∧
    ((Hist.start true [97, 10]).keys [.enter [98] none, .up, .restart, .enter [99] none, .restart]).map (·.lines) =
      some [[97], [98], [99]] := by
  refine ⟨Or.inr ⟨[97], rfl⟩, ?_, by decide +kernel⟩
  intro cmd n h
  simp only [List.mem_cons, Key.enter.injEq, reduceCtorEq, List.not_mem_nil, or_false, false_or] at h
  rcases h with ⟨rfl, rfl⟩ | ⟨rfl, rfl⟩ <;> exact ⟨rfl, by decide, by decide⟩

/-- Without the setting nothing is written, and nothing is found after a restart. -/
theorem C99_off (file : Bytes) (ks ls : List Key) (h : Hist) (hl : Key.restart ∉ ls)
    (hk : (Hist.start false file).keys (ks ++ .restart :: ls) = some h) : h.file = file ∧ h.lines = typed ls := by
  have hfile : ∀ (ks : List Key) (h h' : Hist), h.saves = false → h.keys ks = some h' → h'.saves = false ∧ h'.file = h.file := by
    intro ks h h' hs e
    refine keys_inv (fun x => x.saves = false ∧ x.file = h.file) ?_ ks h h' ⟨hs, rfl⟩ e
    rintro a k b ⟨ha, hb⟩ e
    cases k with
    | enter cmd n =>
      by_cases hc : cmd = []
      · rw [hc, key_nil] at e; cases e; exact ⟨ha, hb⟩
      · rw [key_enter a n hc] at e; cases e; exact ⟨ha, by simp [ha, hb]⟩
    | up =>
      unfold Hist.key at e
      dsimp only at e
      split at e
      · cases e; exact ⟨ha, hb⟩
      · split at e
        · cases e
        · cases e; exact ⟨ha, hb⟩
    | down =>
      unfold Hist.key at e
      dsimp only at e
      split at e
      · cases e; exact ⟨ha, hb⟩
      · split at e
        · cases e
        · cases e; exact ⟨ha, hb⟩
    | restart => cases e; exact ⟨ha, hb⟩
  have hlines : ∀ (ls : List Key) (h h' : Hist), Key.restart ∉ ls → h.keys ls = some h' → h'.lines = h.lines ++ typed ls := by
    intro ls
    induction ls with
    | nil => intro h h' _ e; cases e; simp [typed]
    | cons k ls ih =>
      intro h h' hr e
      unfold Hist.keys at e
      obtain ⟨h1, e1, e2⟩ := Option.bind_eq_some_iff.1 e
      have h2 := ih h1 h' (fun hm => hr (List.mem_cons_of_mem _ hm)) e2
      cases k with
      | enter cmd n =>
        by_cases hc : cmd = []
        · rw [hc, key_nil] at e1; cases e1; simpa [typed, hc] using h2
        · rw [key_enter h n hc] at e1; cases e1; simpa [typed, hc] using h2
      | up =>
        unfold Hist.key at e1
        dsimp only at e1
        split at e1
        · cases e1; exact h2
        · split at e1
          · cases e1
          · cases e1; exact h2
      | down =>
        unfold Hist.key at e1
        dsimp only at e1
        split at e1
        · cases e1; exact h2
        · split at e1
          · cases e1
          · cases e1; exact h2
      | restart => exact absurd List.mem_cons_self hr
  refine ⟨(hfile _ _ _ rfl hk).2, ?_⟩
  rw [keys_append] at hk
  obtain ⟨h1, e1, e2⟩ := Option.bind_eq_some_iff.1 hk
  have s1 := (hfile ks _ _ rfl e1).1
  unfold Hist.keys at e2
  have := hlines ls (Hist.start h1.saves h1.file) h hl e2
  rw [this, s1]
  rfl

example : ((Hist.start false [97, 10]).keys ([.enter [98] none] ++ .restart :: [.enter [99] none])).map (fun h => (h.file, h.lines)) =
    some ([97, 10], [[99]]) := by decide +kernel

/-- A line that reached the file in part: the next one is lost in it. -/
theorem C99_torn_violated : ¬ ∀ (ks : List Key) (h : Hist) (l : Bytes), (∃ k, ks = k ++ [.enter l none, .restart]) → (10 : UInt8) ∉ l →
    ¬ [13] <:+ l → (Hist.start true []).keys ks = some h → l ∈ h.lines := by
  intro H
  have := H [.enter [97, 98] (some 1), .enter [99] none, .restart] ⟨true, [[97, 99]], 1, [], [97, 99, 10]⟩ [99]
    ⟨[.enter [97, 98] (some 1)], rfl⟩ (by decide) (by decide) (by decide +kernel)
  revert this
  decide

end Verif.Commands
