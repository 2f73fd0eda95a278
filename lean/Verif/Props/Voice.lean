import Verif.Model.Voice
import Verif.Props.Log

/-! # C131: what the console says while the server talks -/

namespace Verif.Voice

open Verif Log

/-! ## What is meant -/

/-- What the client has to say. -/
inductive Label
  | connected | fingerprint | outer | inner | noConnection | kxFailed | pin | fetchFailed | ratchetError | pushError
  | deleting | resetFrom | resetText | cacheError | noNick | awaiting
  deriving DecidableEq, Repr

def Label.word : Label → Bytes
  | .connected => ascii "Connected to server: "
  | .fingerprint => ascii "Server fingerprint: "
  | .outer => ascii "Outer server fingerprint: "
  | .inner => ascii "Inner server fingerprint: "
  | .noConnection => ascii "Could not connect to server: "
  | .kxFailed => ascii "key exchange failed: "
  | .pin => ascii "key exchange PIN: "
  | .fetchFailed => ascii "fetch failed: "
  | .ratchetError => ascii "push ratchet error from "
  | .pushError => ascii "could not handle push command from "
  | .deleting => ascii "deleting remote message"
  | .resetFrom => ascii "Received ratchet reset command from: "
  | .resetText => ascii "Ratchet reset message: "
  | .cacheError => ascii "cache error: "
  | .noNick => ascii "Server did not return nick"
  | .awaiting => ascii "Awaiting kx "

/-- Whether it is said in red. -/
def Label.isRed : Label → Bool
  | .ratchetError | .pushError | .resetFrom | .resetText | .cacheError | .awaiting => true
  | _ => false

/-- Whom it is about: the nick and a blank, if there is one, and the identity. -/
def about (c : Cfg) (i : Id) : Bytes :=
  ((c.book i).toList.filter (· ≠ [])).flatMap (· ++ ascii " ") ++ Hex.encode i

theorem about_eq (c : Cfg) (i : Id) : called c i ++ Hex.encode i = about c i := by
  have hb : ascii " " = [0x20] := by decide +kernel
  unfold called about
  rw [hb]
  cases c.book i with
  | none => rfl
  | some n => by_cases h : n = [] <;> simp [h]

/-- What an event has the client say, and of what. -/
def meant (c : Cfg) : Ev → List (Label × Bytes)
  | .welcome _ =>
    (.connected, c.addr) :: if c.verbose then [(.outer, c.outer), (.inner, c.inner)] else [(.fingerprint, c.inner)]
  | .unwelcome reason => [(.noConnection, reason)]
  | .rendezvous error token => if error ≠ [] then [(.kxFailed, error)] else [(.pin, token)]
  | .pull error => if error ≠ [] then [(.fetchFailed, error)] else []
  | .push src ratchet why =>
    [(if ratchet then .ratchetError else .pushError, (c.book src).getD (Hex.encode src) ++ ascii ": " ++ why), (.deleting, [])]
  | .reset src text => [(.resetFrom, about c src), (.resetText, text)]
  | .ack error => if error ≠ [] then [(.cacheError, error)] else []
  | .find nick _ => if nick = [] then [(.noNick, [])] else []
  | .proxy dst error => if error ≠ [] then [] else [(.awaiting, about c dst)]

/-- The line for it. -/
def shown (c : Cfg) (x : Label × Bytes) : Bytes :=
  if x.1.isRed then c.red ++ x.1.word ++ x.2 ++ c.reset else x.1.word ++ x.2

/-- The codes of ttk begin with an escape, and have no percent sign. -/
structure Codes (c : Cfg) : Prop where
  esc : c.red.head? = some 0x1b
  red : 0x25 ∉ c.red
  reset : 0x25 ∉ c.reset

/-- The client has something to say for itself: there is no text of the server that it prints as it is. -/
def Plain : Ev → Prop
  | .welcome props => ∀ p ∈ props, p.1 ≠ motdKey
  | .find _ error | .proxy _ error => error = []
  | _ => True

/-- There is no percent sign in what is used as a format. -/
def Clean (c : Cfg) : Ev → Prop
  | .push src _ why => 0x25 ∉ (c.book src).getD (Hex.encode src) ∧ 0x25 ∉ why
  | _ => True

theorem ascii_clean (l : Label) : (0x25 : UInt8) ∉ l.word := by cases l <;> decide +kernel

/-- A format with one argument. -/
theorem one (w a z : Bytes) (hw : 0x25 ∉ w) (hz : 0x25 ∉ z) : sprintf (w ++ pv ++ z) [a] = w ++ a ++ z := by
  have h := sprintf_pieces [.lit w, .arg 0x76, .lit z] [a] (by simp [Piece.ok, isLetter, hw, hz]) rfl
  simpa [fmtOf, render, pv] using h

theorem one' (w a : Bytes) (hw : 0x25 ∉ w) : sprintf (w ++ pv) [a] = w ++ a := by
  simpa using one w a [] hw (by simp)

theorem bare (a : Bytes) : sprintf pv [a] = a := by simpa using one' [] a (by simp)

theorem two (w a b z : Bytes) (hw : 0x25 ∉ w) (hz : 0x25 ∉ z) :
    sprintf (w ++ pv ++ px ++ z) [a, b] = w ++ a ++ b ++ z := by
  have h := sprintf_pieces [.lit w, .arg 0x76, .arg 0x78, .lit z] [a, b] (by simp [Piece.ok, isLetter, hw, hz]) rfl
  simpa [fmtOf, render, pv, px] using h

theorem none_ (w : Bytes) (hw : 0x25 ∉ w) : sprintf w [] = w := by
  have h := sprintf_pieces [.lit w] [] (by simp [Piece.ok, hw]) rfl
  simpa [fmtOf, render] using h

theorem pushText_eq (c : Cfg) (src : Id) (ratchet : Bool) (why : Bytes) :
    pushText c src ratchet why =
      (if ratchet then Label.ratchetError else Label.pushError).word ++ ((c.book src).getD (Hex.encode src) ++ ascii ": " ++ why) := by
  have key : ∀ l : Label, sprintf (l.word ++ pv ++ ascii ": " ++ pv) [(c.book src).getD (Hex.encode src), why] =
      l.word ++ ((c.book src).getD (Hex.encode src) ++ ascii ": " ++ why) := by
    intro l
    have h := sprintf_pieces [.lit l.word, .arg 0x76, .lit (ascii ": "), .arg 0x76]
      [(c.book src).getD (Hex.encode src), why] (by
        have h1 := ascii_clean l
        have h2 : (0x25 : UInt8) ∉ ascii ": " := by decide +kernel
        simp [Piece.ok, isLetter, h1, h2]) rfl
    simpa [fmtOf, render, pv] using h
  cases ratchet
  · exact key .pushError
  · exact key .ratchetError

theorem motd_none {props : List (Bytes × Bytes)} (h : ∀ p ∈ props, p.1 ≠ motdKey) : motd props = [] := by
  unfold motd
  rw [List.find?_eq_none.mpr (by simpa using h)]

theorem plainLine (l : Label) (a : Bytes) : sprintf (l.word ++ pv) [a] = l.word ++ a := one' _ _ (ascii_clean l)

theorem redLine {c : Cfg} (hc : Codes c) (l : Label) (a : Bytes) :
    sprintf (c.red ++ l.word ++ pv ++ c.reset) [a] = c.red ++ l.word ++ a ++ c.reset :=
  one _ _ _ (by simp [hc.red, ascii_clean l]) hc.reset

/-- What the client says for itself when it is welcomed, and then what the server says. -/
theorem console_welcome (c : Cfg) (props : List (Bytes × Bytes)) :
    console c (.welcome props) = (meant c (.welcome props)).map (shown c) ++ motd props := by
  have h1 := plainLine .connected c.addr
  have h2 := plainLine .outer c.outer
  have h3 := plainLine .inner c.inner
  have h4 := plainLine .fingerprint c.inner
  simp only [Label.word] at h1 h2 h3 h4
  simp only [console, meant, h1, h2, h3, h4, bare]
  cases c.verbose <;> simp [shown, Label.isRed, Label.word]

/-- **C131** (partial: nothing of the server is printed bare, and there is no percent sign in the nick of a contact whose
message failed, nor in the reason; see `C131_motd_violated` and the ones after it) What the console shows is what the
client means, in its own words, with the text of others after them. -/
theorem C131_shown_partial {c : Cfg} {e : Ev} (hc : Codes c) (hp : Plain e) (hq : Clean c e) :
    console c e = (meant c e).map (shown c) := by
  cases e with
  | welcome props => rw [console_welcome, motd_none hp, List.append_nil]
  | unwelcome reason =>
    have h := plainLine .noConnection reason
    simp only [Label.word] at h
    simp [console, meant, h, shown, Label.isRed, Label.word]
  | rendezvous error token =>
    have h := plainLine .kxFailed error
    have h' := plainLine .pin token
    simp only [Label.word] at h h'
    simp only [console, meant, h, h']
    split <;> simp [shown, Label.isRed, Label.word]
  | pull error =>
    have h := plainLine .fetchFailed error
    simp only [Label.word] at h
    simp only [console, meant, h]
    split <;> simp [shown, Label.isRed, Label.word]
  | push src ratchet why =>
    have h := none_ (ascii "deleting remote message") (ascii_clean .deleting)
    have h' := none_ (c.red ++ pushText c src ratchet why ++ c.reset) (by
      rw [pushText_eq]
      have h1 := ascii_clean (if ratchet then Label.ratchetError else Label.pushError)
      have h2 : (0x25 : UInt8) ∉ ascii ": " := by decide +kernel
      simp [hc.red, hc.reset, h1, h2, hq.1, hq.2])
    simp only [console, meant, h]
    rw [h', pushText_eq]
    cases ratchet <;> simp [shown, Label.isRed, Label.word]
  | reset src text =>
    have h := two (c.red ++ Label.resetFrom.word) (called c src) (Hex.encode src) c.reset
      (by simp [hc.red, ascii_clean .resetFrom]) hc.reset
    have h' := redLine hc .resetText text
    simp only [Label.word] at h h'
    simp only [console, meant]
    rw [h, h', ← about_eq]
    simp [shown, Label.isRed, Label.word]
  | ack error =>
    have h := redLine hc .cacheError error
    simp only [Label.word] at h
    simp only [console, meant, h]
    split <;> simp [shown, Label.isRed, Label.word]
  | find nick error =>
    have h := none_ (ascii "Server did not return nick") (ascii_clean .noNick)
    have he : error = [] := hp
    simp only [console, meant, h, he]
    split <;> simp [shown, Label.isRed, Label.word]
  | proxy dst error =>
    have h := two (c.red ++ Label.awaiting.word) (called c dst) (Hex.encode dst) c.reset
      (by simp [hc.red, ascii_clean .awaiting]) hc.reset
    have he : error = [] := hp
    simp only [Label.word] at h
    simp only [console, meant, h, he, ← about_eq]
    simp [shown, Label.isRed, Label.word]

/-- No two of the words are the beginning of one another. -/
theorem word_prefix (l l' : Label) (h : l.word.isPrefixOf l'.word = true) : l = l' := by
  revert h
  cases l <;> cases l' <;> decide +kernel

theorem word_free (l l' : Label) (a b : Bytes) (h : l.word ++ a = l'.word ++ b) : l = l' := by
  rcases List.prefix_or_prefix_of_prefix (List.prefix_append l.word a) (h ▸ List.prefix_append l'.word b) with h1 | h1
  · exact word_prefix _ _ (List.isPrefixOf_iff_prefix.mpr h1)
  · exact (word_prefix _ _ (List.isPrefixOf_iff_prefix.mpr h1)).symm

theorem word_esc (l : Label) (a : Bytes) : (l.word ++ a).head? ≠ some 0x1b := by
  have h : ∃ x, l.word.head? = some x ∧ x ≠ 0x1b := by
    cases l <;> exact ⟨_, rfl, by decide +kernel⟩
  obtain ⟨x, h1, h2⟩ := h
  rw [List.head?_append, h1]
  simpa using h2

/-- **C131** A line in the words of the client can be read: it tells what is meant and of what. -/
theorem C131_read {c : Cfg} (hc : Codes c) {x y : Label × Bytes} (h : shown c x = shown c y) : x = y := by
  obtain ⟨l, a⟩ := x
  obtain ⟨l', b⟩ := y
  have hesc : ∀ z : Bytes, (c.red ++ z).head? = some 0x1b := by
    intro z
    rw [List.head?_append, hc.esc]
    rfl
  cases hl : l.isRed <;> cases hl' : l'.isRed <;> simp only [shown, hl, hl', if_true, Bool.false_eq_true, if_false] at h
  · have := word_free l l' a b h
    subst this
    rw [List.append_cancel_left h]
  · rw [List.append_assoc, List.append_assoc] at h
    exact absurd ((congrArg List.head? h).trans (hesc _)) (word_esc l a)
  · rw [List.append_assoc, List.append_assoc] at h
    exact absurd ((congrArg List.head? h).symm.trans (hesc _)) (word_esc l' b)
  · simp only [List.append_assoc] at h
    have h1 := List.append_cancel_left h
    have := word_free l l' _ _ h1
    subst this
    rw [List.append_cancel_right (List.append_cancel_left h1)]

/-- **C131** (partial: as `C131_shown_partial`) Whatever the server says: a line in the words of the client is there
because the client had that to say. -/
theorem C131_said_partial {c : Cfg} {es : List Ev} (hc : Codes c) (hp : ∀ e ∈ es, Plain e) (hq : ∀ e ∈ es, Clean c e)
    {x : Label × Bytes} (h : shown c x ∈ run c es) : ∃ e ∈ es, x ∈ meant c e := by
  obtain ⟨e, he, hx⟩ := List.mem_flatMap.mp h
  rw [C131_shown_partial hc (hp e he) (hq e he)] at hx
  obtain ⟨y, hy, h1⟩ := List.mem_map.mp hx
  exact ⟨e, he, C131_read hc h1 ▸ hy⟩

/-- **C131** (partial: as `C131_shown_partial`) A fingerprint in the console is that of the server with which the client
has done its key exchange. -/
theorem C131_fingerprint_partial {c : Cfg} {es : List Ev} (hc : Codes c) (hp : ∀ e ∈ es, Plain e)
    (hq : ∀ e ∈ es, Clean c e) {x : Bytes} :
    (ascii "Server fingerprint: " ++ x ∈ run c es → x = c.inner) ∧
    (ascii "Inner server fingerprint: " ++ x ∈ run c es → x = c.inner) ∧
    (ascii "Outer server fingerprint: " ++ x ∈ run c es → x = c.outer) := by
  refine ⟨fun h => ?_, fun h => ?_, fun h => ?_⟩
  · obtain ⟨e, -, hm⟩ := C131_said_partial hc hp hq (x := (.fingerprint, x)) h
    cases e <;> simp only [meant] at hm
    all_goals (try split at hm) <;> simp_all
  · obtain ⟨e, -, hm⟩ := C131_said_partial hc hp hq (x := (.inner, x)) h
    cases e <;> simp only [meant] at hm
    all_goals (try split at hm) <;> simp_all
  · obtain ⟨e, -, hm⟩ := C131_said_partial hc hp hq (x := (.outer, x)) h
    cases e <;> simp only [meant] at hm
    all_goals (try split at hm) <;> simp_all

theorem hex_colon (i : Bytes) : (0x3a : UInt8) ∉ Hex.encode i := by
  have hd : ∀ n < 16, Hex.digit n ≠ 0x3a := by decide
  induction i with
  | nil => simp [Hex.encode]
  | cons b bs ih =>
    have hb := b.toNat_lt
    simp only [Hex.encode, List.mem_cons, not_or]
    exact ⟨Ne.symm (hd _ (by omega)), Ne.symm (hd _ (by omega)), ih⟩

/-- **C131** (partial: as `C131_shown_partial`) A failure that is put down to a contact is of a message that came from
someone of that name. -/
theorem C131_blame_partial {c : Cfg} {es : List Ev} (hc : Codes c) (hp : ∀ e ∈ es, Plain e) (hq : ∀ e ∈ es, Clean c e)
    {n why : Bytes} (hn : 0x3a ∉ n) (hb : ∀ i m, c.book i = some m → 0x3a ∉ m)
    (h : shown c (.pushError, n ++ ascii ": " ++ why) ∈ run c es) :
    ∃ src, .push src false why ∈ es ∧ (c.book src).getD (Hex.encode src) = n := by
  obtain ⟨e, he, hm⟩ := C131_said_partial hc hp hq h
  cases e <;> simp only [meant] at hm
  case push src r w =>
    cases r
    · have hm' : n ++ ascii ": " ++ why = (c.book src).getD (Hex.encode src) ++ ascii ": " ++ w := by
        simpa using hm
      have hs : (0x3a : UInt8) ∉ (c.book src).getD (Hex.encode src) := by
        cases hbs : c.book src with
        | some m => exact hb _ _ hbs
        | none => exact hex_colon src
      have key : ∀ (a b x y : Bytes), (0x3a : UInt8) ∉ a → (0x3a : UInt8) ∉ b →
          a ++ 0x3a :: x = b ++ 0x3a :: y → a = b ∧ x = y := by
        intro a
        induction a with
        | nil =>
          intro b x y _ hb h
          cases b with
          | nil => simpa using h
          | cons d b => simp only [List.nil_append, List.cons_append, List.cons.injEq] at h; simp [← h.1] at hb
        | cons d a ih =>
          intro b x y ha hb h
          cases b with
          | nil => simp only [List.nil_append, List.cons_append, List.cons.injEq] at h; simp [h.1] at ha
          | cons d' b =>
            simp only [List.cons_append, List.cons.injEq] at h
            obtain ⟨h1, h2⟩ := ih b x y (fun hm => ha (List.mem_cons_of_mem _ hm)) (fun hm => hb (List.mem_cons_of_mem _ hm)) h.2
            exact ⟨by rw [h.1, h1], h2⟩
      have hco : ascii ": " = [0x3a, 0x20] := by decide +kernel
      rw [hco] at hm'
      obtain ⟨h1, h2⟩ := key n _ (0x20 :: why) (0x20 :: w) hn hs (by simpa using hm')
      simp only [List.cons.injEq, true_and] at h2
      exact ⟨src, h2 ▸ he, h1.symm⟩
    · simp at hm
  all_goals (try split at hm) <;> simp_all

theorem split_ne (v : Bytes) : splitLines v ≠ [] := by
  cases v with
  | nil => simp [splitLines]
  | cons c r =>
    simp only [splitLines]
    split
    · simp
    · split <;> simp

theorem split_clean (v : Bytes) : ∀ l ∈ splitLines v, (0x0a : UInt8) ∉ l := by
  induction v with
  | nil => simp [splitLines]
  | cons c r ih =>
    simp only [splitLines]
    split
    · intro l hl
      rcases List.mem_cons.mp hl with rfl | hl
      · simp
      · exact ih l hl
    · rename_i hc
      split
      · simp [Ne.symm hc]
      · rename_i l ls he
        rw [he] at ih
        intro x hx
        rcases List.mem_cons.mp hx with rfl | hx
        · have := ih l List.mem_cons_self
          simp [Ne.symm hc, this]
        · exact ih x (List.mem_cons_of_mem _ hx)

theorem split_join (v : Bytes) : List.intercalate [0x0a] (splitLines v) = v := by
  induction v with
  | nil => simp [splitLines, List.intercalate]
  | cons c r ih =>
    simp only [splitLines]
    have hne := split_ne r
    cases hs : splitLines r with
    | nil => exact absurd hs hne
    | cons l ls =>
      rw [hs] at ih
      split
      · rename_i hc
        rw [hc]
        simp only [List.intercalate, List.intersperse] at ih ⊢
        simp [ih]
      · cases ls <;> simp_all [List.intercalate, List.intersperse]

theorem split_one (v : Bytes) (h : (0x0a : UInt8) ∉ v) : splitLines v = [v] := by
  induction v with
  | nil => rfl
  | cons c r ih =>
    simp only [List.mem_cons, not_or] at h
    simp [splitLines, Ne.symm h.1, ih h.2]

/-- **C131** The message of the day is the first one that the server sends, and comes after what the client says for
itself: its lines, as they are, and nothing else. -/
theorem C131_motd (c : Cfg) (pre post : List (Bytes × Bytes)) (v : Bytes) (hp : ∀ p ∈ pre, p.1 ≠ motdKey) :
    ∃ ls, console c (.welcome (pre ++ (motdKey, v) :: post)) = (meant c (.welcome [])).map (shown c) ++ ls ∧
      (∀ l ∈ ls, 0x0a ∉ l) ∧ List.intercalate [0x0a] ls = v := by
  refine ⟨splitLines v, ?_, ?_, ?_⟩
  · rw [console_welcome]
    have : motd (pre ++ (motdKey, v) :: post) = splitLines v := by
      unfold motd
      rw [List.find?_append, List.find?_eq_none.mpr (by simpa using hp)]
      simp
    rw [this]
    rfl
  · exact split_clean v
  · exact split_join v

/-! ## What goes wrong -/

/-- **C131, negation.** The server can have the client print any line, right after the true fingerprint: also one that
says that the fingerprint is another one. -/
theorem C131_motd_violated (c : Cfg) (x : Bytes) (hx : 0x0a ∉ x) :
    ascii "Server fingerprint: " ++ x ∈ run c [.welcome [(motdKey, ascii "Server fingerprint: " ++ x)]] := by
  have h : ascii "Server fingerprint: " ++ x ∈ motd [(motdKey, ascii "Server fingerprint: " ++ x)] := by
    simp only [motd, List.find?_cons, decide_true]
    rw [split_one]
    · simp
    · have : (0x0a : UInt8) ∉ ascii "Server fingerprint: " := by decide +kernel
      simp [this, hx]
  simp only [run, List.flatMap_cons, List.flatMap_nil, List.append_nil, console_welcome]
  exact List.mem_append_right _ h

/-- **C131, negation.** At any time during the session it can do so with an answer to a name that was looked up, or to a
reset, whether or not there was one: in any words of the client, in red or not. -/
theorem C131_error_violated (c : Cfg) (x : Label × Bytes) (hx : x.2 ≠ []) (nick : Bytes) (hn : nick ≠ []) (dst : Id) :
    console c (.find nick (shown c x)) = [shown c x] ∧ console c (.proxy dst (shown c x)) = [shown c x] := by
  have h : shown c x ≠ [] := by
    unfold shown
    split <;> simp [hx]
  simp [console, h, hn, bare]

/-- **C131, negation.** A contact who calls themself like another one, but with the percent signs doubled, is shown as
the other one when a message of theirs fails. -/
theorem C131_percent_violated {c : Cfg} (hc : Codes c) (i j : Id) (r : Bool) (why n : Bytes) (hw : 0x25 ∉ why)
    (hi : c.book i = some (escape n)) (hj : c.book j = some n) :
    console c (.push i r why) = (meant c (.push j r why)).map (shown c) := by
  have hd := none_ (ascii "deleting remote message") (ascii_clean .deleting)
  have key : ∀ (pre s : Bytes), 0x25 ∉ pre → 0x25 ∉ s → sprintf (pre ++ (escape n ++ s)) [] = pre ++ (n ++ s) := by
    intro pre s hp hs
    unfold sprintf
    have h1 := printf_lit [] pre ((escape n).length + s.length) (escape n ++ s) 0 false hp
    have h2 := printf_escape s hs n 0 0 false
    rw [Nat.add_zero] at h2
    rw [List.length_append, List.length_append, h1, h2]
  have h2 : (0x25 : UInt8) ∉ ascii ": " := by decide +kernel
  have hl : ∀ l : Label, sprintf (c.red ++ (l.word ++ (escape n ++ ascii ": " ++ why)) ++ c.reset) [] =
      c.red ++ l.word ++ (n ++ ascii ": " ++ why) ++ c.reset := by
    intro l
    have := key (c.red ++ l.word) (ascii ": " ++ why ++ c.reset) (by simp [hc.red, ascii_clean l])
      (by simp [h2, hw, hc.reset])
    simpa using this
  simp only [console, meant, hd, pushText_eq, hi, hj, Option.getD_some]
  rw [hl]
  cases r <;> simp [shown, Label.isRed, Label.word]

/-- Escape, and "[1m", "[0m". -/
def demo : Cfg where
  addr := ascii "example.com:12345"
  outer := ascii "0a"
  inner := ascii "0b"
  verbose := false
  book i := if i = [1] then some (ascii "50%%") else if i = [2] then some (ascii "50%") else none
  red := [0x1b, 0x5b, 0x31, 0x6d]
  reset := [0x1b, 0x5b, 0x30, 0x6d]

/-- A session: a message of the day of two lines, of which the second lies, an answer without an error, and a message of
one contact that fails. -/
example : Codes demo ∧ run demo [.welcome [(ascii "tagdepth", ascii "10"),
      (motdKey, ascii "hello\nServer fingerprint: 0c")], .ack [], .push [1] false (ascii "xdr")] =
    [ascii "Connected to server: example.com:12345", ascii "Server fingerprint: 0b", ascii "hello",
      ascii "Server fingerprint: 0c",
      [0x1b, 0x5b, 0x31, 0x6d] ++ ascii "could not handle push command from 50%: xdr" ++ [0x1b, 0x5b, 0x30, 0x6d],
      ascii "deleting remote message"] ∧
    demo.book [2] = some (ascii "50%") :=
  ⟨⟨rfl, by decide, by decide⟩, by decide +kernel, rfl⟩

/-- A session of which `C131_said_partial` tells. -/
example : Plain (.welcome [(ascii "tagdepth", ascii "10")]) ∧ Clean demo (.push [3] true (ascii "xdr")) ∧
    run demo [.welcome [(ascii "tagdepth", ascii "10")], .push [3] true (ascii "xdr"), .rendezvous [] (ascii "1234")] =
      [ascii "Connected to server: example.com:12345", ascii "Server fingerprint: 0b",
        [0x1b, 0x5b, 0x31, 0x6d] ++ ascii "push ratchet error from 03: xdr" ++ [0x1b, 0x5b, 0x30, 0x6d],
        ascii "deleting remote message", ascii "key exchange PIN: 1234"] := by
  refine ⟨?_, ⟨by decide +kernel, by decide +kernel⟩, by decide +kernel⟩
  intro p hp
  rw [List.mem_singleton.mp hp]
  decide +kernel

end Verif.Voice
