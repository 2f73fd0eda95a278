import Verif.Model.Mention
import Verif.Proofs.Text

/-! # Highlighting the own nick: C79 -/

namespace Verif.Mention

open Verif Text

/-- What is known about `unicode.ToUpper`: bytes below 128 and U+FFFD. -/
def Upper (up : Nat → Nat) : Prop := (∀ b : UInt8, b < 128 → up b.toNat = (asciiUpper b).toNat) ∧ up 0xfffd = 0xfffd

/-- Bytes below 128. -/
def Ascii (s : Bytes) : Prop := ∀ b ∈ s, b < 128

theorem forall_byte {P : UInt8 → Prop} (h : ∀ n : Fin 256, P (UInt8.ofNat n)) (b : UInt8) : P b := by
  have := h ⟨b.toNat, b.toNat_lt⟩
  simpa using this

theorem toUpper_ascii (up : Nat → Nat) {s : Bytes} (h : Ascii s) : toUpper up s = s.map asciiUpper := by
  unfold toUpper
  rw [if_pos (by simpa [List.all_eq_true, Ascii] using h)]

theorem index_some {sub s : Bytes} {x : Nat} (h : index sub s = some x) :
    sub <+: s.drop x ∧ x + sub.length ≤ s.length ∧ ∀ y, y < x → ¬ sub <+: s.drop y := by
  induction s generalizing x with
  | nil =>
    unfold index at h
    split at h
    · rename_i hs
      injection h with h
      subst h hs
      exact ⟨by simp, by simp, fun y hy => absurd hy (by omega)⟩
    · cases h
  | cons c r ih =>
    unfold index at h
    split at h
    · rename_i hp
      injection h with h
      subst h
      have hp' : sub <+: c :: r := by simpa [List.isPrefixOf_iff_prefix] using hp
      exact ⟨hp', by have := hp'.length_le; omega, fun y hy => absurd hy (by omega)⟩
    · rename_i hp
      obtain ⟨x', h', rfl⟩ := Option.map_eq_some_iff.1 h
      obtain ⟨h1, h2, h3⟩ := ih h'
      refine ⟨by simpa using h1, by simp only [List.length_cons]; omega, ?_⟩
      intro y hy
      cases y with
      | zero => simpa [List.isPrefixOf_iff_prefix] using hp
      | succ y => simpa using h3 y (by omega)

theorem index_none {sub s : Bytes} (h : index sub s = none) : ∀ y, ¬ sub <+: s.drop y := by
  induction s with
  | nil =>
    unfold index at h
    split at h
    · cases h
    · rename_i hs
      intro y hp
      simp at hp
      exact hs hp
  | cons c r ih =>
    unfold index at h
    split at h
    · cases h
    · rename_i hp
      intro y
      cases y with
      | zero => simpa [List.isPrefixOf_iff_prefix] using hp
      | succ y => simpa using ih (by simpa using h) y

/-- The part of `msg` at `x` is the nick, up to the case of letters. -/
def MentionAt (nick msg : Bytes) (x : Nat) : Prop :=
  x ≤ msg.length ∧ nick.map asciiUpper <+: (msg.drop x).map asciiUpper

/-- Messages and nicks of bytes below 128 are never a problem: a message without the nick is shown as it is; otherwise the first
place where it occurs is marked, and without the marks it is the message. Missing for the full claim: other messages (next
theorems). -/
theorem C79_ascii_partial (up : Nat → Nat) (on off nick msg : Bytes) (normal : Bool) (hn : Ascii nick) (hm : Ascii msg) :
    (colour up on off nick normal msg = .ok msg ∧ (normal = true → ∀ x, ¬ MentionAt nick msg x)) ∨
    (normal = true ∧ ∃ a b c, msg = a ++ b ++ c ∧ b.map asciiUpper = nick.map asciiUpper ∧
      (∀ x, x < a.length → ¬ MentionAt nick msg x) ∧ colour up on off nick normal msg = .ok (a ++ on ++ b ++ off ++ c)) := by
  unfold colour
  rw [toUpper_ascii up hn, toUpper_ascii up hm]
  cases hi : index (nick.map asciiUpper) (msg.map asciiUpper) with
  | none =>
    left
    refine ⟨rfl, fun _ x hx => ?_⟩
    refine index_none hi x ?_
    rw [← List.map_drop]
    exact hx.2
  | some x =>
    obtain ⟨h1, h2, h3⟩ := index_some hi
    rw [List.length_map, List.length_map] at h2
    cases normal with
    | false =>
      left
      exact ⟨rfl, nofun⟩
    | true =>
      right
      refine ⟨rfl, msg.take x, (msg.drop x).take nick.length, msg.drop (x + nick.length), ?_, ?_, ?_, ?_⟩
      · rw [List.append_assoc, ← List.drop_drop, List.take_append_drop, List.take_append_drop]
      · rw [List.map_take, List.map_drop]
        have := List.prefix_iff_eq_take.1 h1
        rw [List.length_map] at this
        exact this.symm
      · intro y hy hmy
        rw [List.length_take] at hy
        refine h3 y (by omega) ?_
        rw [← List.map_drop]
        exact hmy.2
      · dsimp only
        rw [if_pos rfl, if_pos h2]

theorem mapRunes_ascii {up : Nat → Nat} (hu : Upper up) {s : Bytes} (h : Ascii s) : ∀ n, s.length ≤ n →
    mapRunes up n s = s.map asciiUpper := by
  induction s with
  | nil => intro n _; cases n <;> rfl
  | cons c s ih =>
    intro n hn
    have hc : c < 128 := h c (by simp)
    cases n with
    | zero => simp at hn
    | succ n =>
      have hd : decodeRune (c :: s) = (c.toNat, 1) := by
        unfold decodeRune
        dsimp only
        rw [if_pos hc]
      have hlt : (asciiUpper c).toNat < 128 := by
        have : ∀ b : UInt8, b < 128 → (asciiUpper b).toNat < 128 :=
          forall_byte (by decide +kernel)
        exact this c hc
      have hce : c.toNat < 128 := by simpa using UInt8.lt_iff_toNat_lt.1 hc
      rw [mapRunes, hd]
      dsimp only
      rw [List.drop_one, List.tail_cons, ih (fun b hb => h b (by simp [hb])) n (by simpa using hn), List.map_cons,
        ← List.singleton_append]
      congr 1
      rw [hu.1 c hc]
      split
      · rename_i he
        have : asciiUpper c = c := UInt8.toNat_inj.1 he.1
        rw [this]
        rfl
      · unfold encodeRune
        rw [if_pos hlt]
        simp

theorem mapRunes_bad {up : Nat → Nat} (hu : Upper up) (n : Nat) (s : Bytes) :
    mapRunes up (n + 1) (0xff :: s) = [0xef, 0xbf, 0xbd] ++ mapRunes up n s := by
  have hd : decodeRune (0xff :: s) = (0xfffd, 1) := rfl
  rw [mapRunes, hd]
  dsimp only
  rw [hu.2, if_neg (by simp)]
  rfl

/-- `n` bytes 0xff, in upper case. -/
def bad (n : Nat) : Bytes := (List.replicate n [0xef, 0xbf, 0xbd]).flatten

theorem toUpper_bad {up : Nat → Nat} (hu : Upper up) (n : Nat) {s : Bytes} (h : Ascii s) :
    toUpper up (List.replicate (n + 1) 0xff ++ s) = bad (n + 1) ++ s.map asciiUpper := by
  unfold toUpper
  rw [if_neg (by simp [List.replicate_succ])]
  have key : ∀ k, mapRunes up (List.replicate k 0xff ++ s).length (List.replicate k 0xff ++ s) =
      bad k ++ s.map asciiUpper := by
    intro k
    induction k with
    | zero => exact mapRunes_ascii hu h _ (by simp)
    | succ k ih =>
      rw [List.replicate_succ, List.cons_append, List.length_cons, mapRunes_bad hu, ih]
      simp [bad, List.replicate_succ]
  exact key (n + 1)

theorem index_skip {sub e s : Bytes} (hs : sub ≠ []) (hsub : Ascii sub) (he : ∀ b ∈ e, 128 ≤ b) :
    index sub (e ++ (sub ++ s)) = some e.length := by
  induction e with
  | nil =>
    cases sub with
    | nil => exact absurd rfl hs
    | cons c r =>
      rw [List.nil_append, List.cons_append, index, if_pos (by simp)]
      rfl
  | cons c e ih =>
    rw [List.cons_append, index, if_neg, ih (fun b hb => he b (by simp [hb]))]
    · rfl
    · cases sub with
      | nil => exact absurd rfl hs
      | cons d r =>
        simp only [List.isPrefixOf, Bool.and_eq_true, beq_iff_eq, not_and]
        intro hdc
        exfalso
        have h1 : d < 128 := hsub d (by simp)
        have h2 : 128 ≤ c := he c (by simp)
        rw [hdc] at h1
        rw [UInt8.lt_iff_toNat_lt] at h1
        rw [UInt8.le_iff_toNat_le] at h2
        omega

/-! ## Text that is UTF-8 -/

/-- The UTF-8 of a text. -/
def utf8 (cs : List Char) : Bytes := cs.flatMap String.utf8EncodeChar

theorem utf8_cons (c : Char) (cs : List Char) : utf8 (c :: cs) = String.utf8EncodeChar c ++ utf8 cs := by
  simp [utf8]

theorem utf8_append (a b : List Char) : utf8 (a ++ b) = utf8 a ++ utf8 b := by
  simp [utf8]

theorem encodeRune_char (c : Char) : encodeRune c.val.toNat = String.utf8EncodeChar c := by
  have hv := c.valid
  simp only [UInt32.isValidChar, Nat.isValidChar] at hv
  simp only [encodeRune, String.utf8EncodeChar]
  generalize c.val.toNat = v at *
  by_cases h1 : v ≤ 0x7f
  · rw [if_pos (by omega), if_pos h1]
  rw [if_neg (by omega), if_neg h1]
  by_cases h2 : v ≤ 0x7ff
  · rw [if_pos (by omega), if_pos h2]
    rw [show (0xc0 + v / 64) = v / 64 % 32 + 0xc0 by omega, Nat.add_comm 0x80]
  rw [if_neg (by omega), if_neg h2]
  by_cases h3 : v ≤ 0xffff
  · rw [if_pos (by omega), if_pos h3]
    rw [show (0xe0 + v / 4096) = v / 4096 % 16 + 0xe0 by omega, Nat.add_comm 0x80, Nat.add_comm 0x80]
  rw [if_neg (by omega), if_neg h3, if_pos (by omega)]
  rw [show (0xf0 + v / 262144) = v / 262144 % 8 + 0xf0 by omega, Nat.add_comm 0x80, Nat.add_comm 0x80,
    Nat.add_comm 0x80]

/-- What is written for a number: the UTF-8 of the character it is, or that of U+FFFD if it is none. -/
theorem C79_rune (n : Nat) : (∀ c : Char, c.val.toNat = n → encodeRune n = String.utf8EncodeChar c) ∧
    ((∀ c : Char, c.val.toNat ≠ n) → encodeRune n = String.utf8EncodeChar (Char.ofNat 0xfffd)) := by
  constructor
  · rintro c rfl
    exact encodeRune_char c
  · intro h
    have hv : ¬ n.isValidChar := by
      intro hv
      refine h (Char.ofNat n) ?_
      rw [Char.ofNat, dif_pos hv]
      rfl
    simp only [Nat.isValidChar] at hv
    rw [encodeRune, if_neg (by omega), if_neg (by omega), if_neg (by omega), if_neg (by omega)]
    decide +kernel

theorem toNat_byte {n : Nat} (h : n < 256) : (UInt8.ofNat n).toNat = n := by
  simp; omega

theorem between_ofNat {lo hi : UInt8} {n : Nat} (h : n < 256) :
    between lo hi (UInt8.ofNat n) = (decide (lo.toNat ≤ n) && decide (n ≤ hi.toNat)) := by
  simp only [between, UInt8.le_iff_toNat_le, toNat_byte h]

theorem decode_encode (c : Char) (r : Bytes) : decodeRune (String.utf8EncodeChar c ++ r) =
    (c.val.toNat, (String.utf8EncodeChar c).length) := by
  have hv := c.valid
  rw [← encodeRune_char]
  simp only [UInt32.isValidChar, Nat.isValidChar] at hv
  generalize c.val.toNat = v at *
  simp only [encodeRune]
  split
  · next h =>
    simp only [List.cons_append, decodeRune, UInt8.lt_iff_toNat_lt, toNat_byte (show v < 256 by omega)]
    rw [if_pos (by simpa using h)]; simp
  split
  · have a := toNat_byte (show 0xc0 + v / 64 < 256 by omega)
    simp only [List.cons_append, decodeRune, UInt8.lt_iff_toNat_lt, a]
    rw [if_neg (by simp; omega), between_ofNat (by omega), if_pos (by simp; omega), between_ofNat (by omega),
      if_pos (by simp; omega), toNat_byte (by omega)]
    simp; omega
  split
  · have a := toNat_byte (show 0xe0 + v / 4096 < 256 by omega)
    simp only [List.cons_append, decodeRune, UInt8.lt_iff_toNat_lt, a, ← UInt8.toNat_inj]
    rw [if_neg (by simp; omega), between_ofNat (by omega), if_neg (by simp; omega), between_ofNat (by omega),
      if_pos (by simp; omega), between_ofNat (by omega), between_ofNat (by omega), toNat_byte (by omega),
      toNat_byte (by omega), if_pos]
    · simp; omega
    · split <;> split <;> simp_all <;> omega
  split
  · have a := toNat_byte (show 0xf0 + v / 262144 < 256 by omega)
    simp only [List.cons_append, decodeRune, UInt8.lt_iff_toNat_lt, a, ← UInt8.toNat_inj]
    rw [if_neg (by simp; omega), between_ofNat (by omega), if_neg (by simp; omega), between_ofNat (by omega),
      if_neg (by simp; omega), between_ofNat (by omega), if_pos (by simp; omega), between_ofNat (by omega),
      between_ofNat (by omega), between_ofNat (by omega), toNat_byte (by omega), toNat_byte (by omega),
      toNat_byte (by omega), if_pos]
    · simp; omega
    · split <;> split <;> simp_all <;> omega
  · omega

theorem mapRunes_utf8 {up : Nat → Nat} {u : Char → Char} (hu : ∀ c : Char, up c.val.toNat = (u c).val.toNat)
    (cs : List Char) (n : Nat) (hn : (utf8 cs).length ≤ n) : mapRunes up n (utf8 cs) = utf8 (cs.map u) := by
  induction cs generalizing n with
  | nil => cases n <;> rfl
  | cons c cs ih =>
    rw [utf8_cons, List.map_cons, utf8_cons]
    rw [utf8_cons, List.length_append] at hn
    have hd := decode_encode c (utf8 cs)
    obtain ⟨x, xs, hx⟩ : ∃ x xs, String.utf8EncodeChar c = x :: xs := by
      cases h : String.utf8EncodeChar c with
      | nil => exact absurd h String.utf8EncodeChar_ne_nil
      | cons x xs => exact ⟨x, xs, rfl⟩
    have hl : (String.utf8EncodeChar c).length = xs.length + 1 := by rw [hx]; rfl
    obtain ⟨n, rfl⟩ : ∃ m, n = m + 1 := ⟨n - 1, by omega⟩
    have step : mapRunes up (n + 1) (String.utf8EncodeChar c ++ utf8 cs) =
      (let (r, w) := decodeRune (String.utf8EncodeChar c ++ utf8 cs)
      (if up r = r ∧ ¬ (r = 0xfffd ∧ w = 1) then (String.utf8EncodeChar c ++ utf8 cs).take w else encodeRune (up r)) ++
      mapRunes up n ((String.utf8EncodeChar c ++ utf8 cs).drop w)) := by rw [hx]; rfl
    rw [step, hd]
    simp only [List.drop_left, List.take_left]
    rw [ih n (by omega)]
    congr 1
    split
    · next h =>
      rw [hu] at h
      have : u c = c := Char.ext (UInt32.toNat_inj.1 h.1)
      rw [this]
    · rw [hu, encodeRune_char]

/-- The upper case of a text is that of its characters, one after the other. -/
theorem C79_upper {up : Nat → Nat} {u : Char → Char} (ha : Upper up)
    (hu : ∀ c : Char, up c.val.toNat = (u c).val.toNat) (cs : List Char) : toUpper up (utf8 cs) = utf8 (cs.map u) := by
  rw [← mapRunes_utf8 hu cs _ (Nat.le_refl _)]
  unfold toUpper
  split
  · next h =>
    have : Ascii (utf8 cs) := by simpa [List.all_eq_true, Ascii] using h
    exact (mapRunes_ascii ha this _ (Nat.le_refl _)).symm
  · rfl

/-- A byte that is in the middle of a character. -/
def inner (b : UInt8) : Bool := between 0x80 0xbf b

theorem encode_shape (c : Char) : ∃ b r, String.utf8EncodeChar c = b :: r ∧ inner b = false ∧ ∀ x ∈ r, inner x = true := by
  have hv := c.valid
  rw [← encodeRune_char]
  simp only [UInt32.isValidChar, Nat.isValidChar] at hv
  generalize c.val.toNat = v at *
  simp only [encodeRune]
  split
  · refine ⟨_, _, rfl, ?_, by simp⟩
    rw [inner, between_ofNat (by omega)]; simp; omega
  split
  · refine ⟨_, _, rfl, ?_, ?_⟩
    · rw [inner, between_ofNat (by omega)]; simp; omega
    · intro x hx
      simp only [List.mem_singleton] at hx
      subst hx
      rw [inner, between_ofNat (by omega)]; simp; omega
  split
  · refine ⟨_, _, rfl, ?_, ?_⟩
    · rw [inner, between_ofNat (by omega)]; simp; omega
    · intro x hx
      simp only [List.mem_cons, List.not_mem_nil, or_false] at hx
      rcases hx with rfl | rfl <;> (rw [inner, between_ofNat (by omega)]; simp; omega)
  split
  · refine ⟨_, _, rfl, ?_, ?_⟩
    · rw [inner, between_ofNat (by omega)]; simp; omega
    · intro x hx
      simp only [List.mem_cons, List.not_mem_nil, or_false] at hx
      rcases hx with rfl | rfl | rfl <;> (rw [inner, between_ofNat (by omega)]; simp; omega)
  · omega

/-- Where a character begins is between two characters. -/
theorem boundary {m : List Char} {x : Nat} {b : UInt8} {r : Bytes} (h : (utf8 m).drop x = b :: r) (hb : inner b = false) :
    ∃ a c, m = a ++ c ∧ (utf8 a).length = x := by
  induction m generalizing x with
  | nil => simp [utf8] at h
  | cons d m ih =>
    by_cases hx : x = 0
    · exact ⟨[], d :: m, rfl, hx.symm⟩
    rw [utf8_cons] at h
    obtain ⟨f, t, hd, hf, ht⟩ := encode_shape d
    have hl : (String.utf8EncodeChar d).length = t.length + 1 := by rw [hd]; rfl
    by_cases hlt : x < (String.utf8EncodeChar d).length
    · exfalso
      obtain ⟨y, rfl⟩ : ∃ y, x = y + 1 := ⟨x - 1, by omega⟩
      rw [hd, List.cons_append, List.drop_succ_cons, List.drop_append_of_le_length (by omega)] at h
      obtain ⟨z, zs, hz⟩ : ∃ z zs, t.drop y = z :: zs := by
        cases h' : t.drop y with
        | nil => rw [List.drop_eq_nil_iff] at h'; omega
        | cons z zs => exact ⟨z, zs, rfl⟩
      rw [hz, List.cons_append] at h
      injection h with h1 _
      have := ht z (List.mem_of_mem_drop (by rw [hz]; exact List.mem_cons_self))
      rw [h1, hb] at this
      cases this
    · rw [List.drop_append, List.drop_eq_nil_of_le (by omega), List.nil_append] at h
      obtain ⟨a, c, rfl, ha⟩ := ih h
      exact ⟨d :: a, c, rfl, by rw [utf8_cons, List.length_append]; omega⟩

theorem utf8_prefix {a b : List Char} (h : utf8 a <+: utf8 b) : a <+: b := by
  induction a generalizing b with
  | nil => exact List.nil_prefix
  | cons c a ih =>
    cases b with
    | nil =>
      obtain ⟨f, t, hd, _, _⟩ := encode_shape c
      rw [utf8_cons, hd] at h
      simp [utf8] at h
    | cons d b =>
      rw [utf8_cons, utf8_cons] at h
      obtain ⟨r, hr⟩ := h
      have h1 := decode_encode c (utf8 a ++ r)
      rw [← List.append_assoc, hr, decode_encode d] at h1
      have : d = c := Char.ext (UInt32.toNat_inj.1 (congrArg Prod.fst h1))
      subst this
      rw [List.append_assoc, List.append_cancel_left_eq] at hr
      exact List.cons_prefix_cons.2 ⟨rfl, ih ⟨r, hr⟩⟩

/-- The nick is in the message after `a`, in whatever case. -/
def After (u : Char → Char) (nick msg a : List Char) : Prop := ∃ b c, msg = a ++ b ++ c ∧ b.map u = nick.map u

theorem length_map_utf8 {u : Char → Char} {cs : List Char}
    (h : ∀ c ∈ cs, (u c).utf8Size = c.utf8Size) : (utf8 (cs.map u)).length = (utf8 cs).length := by
  induction cs with
  | nil => rfl
  | cons c cs ih =>
    rw [List.map_cons, utf8_cons, utf8_cons, List.length_append, List.length_append,
      ih (fun d hd => h d (List.mem_cons_of_mem _ hd)), String.length_utf8EncodeChar, String.length_utf8EncodeChar,
      h c List.mem_cons_self]

theorem utf8_mono {a b : List Char} (h : a <+: b) (hl : a.length < b.length) : (utf8 a).length < (utf8 b).length := by
  obtain ⟨r, rfl⟩ := h
  cases r with
  | nil => simp at hl
  | cons c r =>
    obtain ⟨f, t, hd, _, _⟩ := encode_shape c
    rw [utf8_append, utf8_cons, hd]
    simp

/-- Text that is UTF-8 and whose characters take as many bytes in upper case: a message without the nick is shown as it is;
otherwise the first place where it occurs is marked, and without the marks it is the message. Missing for the full claim:
other messages (next theorems). -/
theorem C79_utf8_partial {up : Nat → Nat} {u : Char → Char} (ha : Upper up)
    (hu : ∀ c : Char, up c.val.toNat = (u c).val.toNat) (on off : Bytes) (nick msg : List Char) (normal : Bool)
    (hs : ∀ c ∈ nick ++ msg, (u c).utf8Size = c.utf8Size) :
    (colour up on off (utf8 nick) normal (utf8 msg) = .ok (utf8 msg) ∧ (normal = true → ∀ a, ¬ After u nick msg a)) ∨
    (normal = true ∧ ∃ a b c, msg = a ++ b ++ c ∧ b.map u = nick.map u ∧
      (∀ a', After u nick msg a' → a.length ≤ a'.length) ∧
      colour up on off (utf8 nick) normal (utf8 msg) = .ok (utf8 a ++ on ++ utf8 b ++ off ++ utf8 c)) := by
  unfold colour
  rw [C79_upper ha hu, C79_upper ha hu]
  have hsn : ∀ c ∈ nick, (u c).utf8Size = c.utf8Size := fun c hc => hs c (List.mem_append_left _ hc)
  have hsm : ∀ c ∈ msg, (u c).utf8Size = c.utf8Size := fun c hc => hs c (List.mem_append_right _ hc)
  have hat : ∀ a, After u nick msg a → utf8 (nick.map u) <+: (utf8 (msg.map u)).drop (utf8 a).length ∧ a <+: msg := by
    rintro a ⟨b, c, rfl, hb⟩
    refine ⟨?_, ⟨b ++ c, by simp⟩⟩
    have : (utf8 (a.map u)).length = (utf8 a).length := length_map_utf8 fun d hd => hsm d (by simp [hd])
    rw [List.map_append, List.map_append, hb, utf8_append, utf8_append, List.append_assoc, ← this, List.drop_left]
    exact List.prefix_append _ _
  cases hi : index (utf8 (nick.map u)) (utf8 (msg.map u)) with
  | none => exact .inl ⟨rfl, fun _ a h => index_none hi _ (hat a h).1⟩
  | some x =>
    cases normal with
    | false => exact .inl ⟨rfl, nofun⟩
    | true =>
      right
      refine ⟨rfl, ?_⟩
      obtain ⟨h1, h2, h3⟩ := index_some hi
      obtain ⟨A, C, hAC, hA⟩ : ∃ A C, msg.map u = A ++ C ∧ (utf8 A).length = x := by
        cases nick with
        | nil =>
          have : x = 0 := by
            cases x with
            | zero => rfl
            | succ y => exact absurd (by simp [utf8]) (h3 0 (by omega))
          exact ⟨[], _, rfl, this.symm⟩
        | cons c nick =>
          obtain ⟨f, t, hd, hf, _⟩ := encode_shape (u c)
          obtain ⟨r, hr⟩ := h1
          rw [List.map_cons, utf8_cons, hd] at hr
          exact boundary hr.symm hf
      rw [hAC, utf8_append, ← hA, List.drop_left] at h1
      obtain ⟨C', hC⟩ := utf8_prefix h1
      obtain ⟨a, bc, rfl, hA', hbc⟩ := List.map_eq_append_iff.1 hAC
      rw [← hC] at hbc
      obtain ⟨b, c, rfl, hb, hc⟩ := List.map_eq_append_iff.1 hbc
      have la : (utf8 a).length = x := by
        rw [← hA, ← hA', length_map_utf8 fun d hd => hsm d (by simp [hd])]
      have lb : (utf8 b).length = (utf8 nick).length := by
        rw [← length_map_utf8 hsn, ← hb, length_map_utf8 fun d hd => hsm d (by simp [hd])]
      refine ⟨a, b, c, by simp, hb, ?_, ?_⟩
      · intro a' h'
        refine Decidable.byContradiction fun hlt => ?_
        obtain ⟨hp, hpre⟩ := hat a' h'
        have : a' <+: a := List.prefix_of_prefix_length_le hpre (List.prefix_append _ _) (by omega)
        have := utf8_mono this (by omega)
        exact h3 _ (by omega) hp
      · dsimp only
        rw [if_pos rfl, utf8_append, utf8_append, ← la, ← lb, if_pos (by simp only [List.length_append]; omega)]
        rw [List.take_left, List.drop_left, List.take_left, ← List.drop_drop, List.drop_left, List.drop_left]

/-- **Violated.** For every nick of bytes below 128 there is a message that crashes the client: some bytes that are no UTF-8, and the
nick. In upper case each of them becomes three bytes, so that the place of the nick is outside of the message. Every member of a
group can send it. -/
theorem C79_crash_violated (up : Nat → Nat) (hu : Upper up) (on off nick : Bytes) (hn : Ascii nick) (h0 : nick ≠ []) (n : Nat) :
    colour up on off nick true (List.replicate (n + 1) 0xff ++ nick) = .panic := by
  unfold colour
  have hup : Ascii (nick.map asciiUpper) := by
    intro b hb
    obtain ⟨c, hc, rfl⟩ := List.mem_map.1 hb
    have : ∀ b : UInt8, b < 128 → asciiUpper b < 128 := forall_byte (by decide +kernel)
    exact this c (hn c hc)
  have hbad : ∀ b ∈ bad (n + 1), 128 ≤ b := by
    intro b hb
    obtain ⟨l, hl, hbl⟩ := List.mem_flatten.1 hb
    rw [List.eq_of_mem_replicate hl] at hbl
    simp at hbl
    rcases hbl with rfl | rfl | rfl <;> decide
  have hlen : (bad (n + 1)).length = 3 * (n + 1) := by
    simp [bad, List.length_flatten]
    omega
  have hi := index_skip (s := []) (by simpa using h0) hup hbad
  rw [List.append_nil] at hi
  rw [toUpper_ascii up hn, toUpper_bad hu n hn, hi, hlen]
  dsimp only
  rw [if_pos rfl, if_neg]
  simp
  try omega

/-- "bob" -/
def bob : Bytes := [98, 111, 98]

/-- `unicode.ToUpper` on bytes below 128 and on U+0250, whose upper case U+2C6F takes three bytes instead of two. -/
def up0 (r : Nat) : Nat :=
  if r = 0x250 then 0x2c6f else if 97 ≤ r ∧ r ≤ 122 then r - 32 else r

theorem upper_up0 : Upper up0 := by
  constructor
  · exact forall_byte (by decide +kernel)
  · decide

/-- **Violated.** A message in valid UTF-8, U+0250 and " bob!": instead of "bob" the client marks "ob!". -/
theorem C79_place_violated : Upper up0 ∧
    colour up0 [1] [2] bob true ([0xc9, 0x90, 32] ++ bob ++ [33]) =
      .ok ([0xc9, 0x90, 32, 98] ++ [1] ++ [111, 98, 33] ++ [2]) := ⟨upper_up0, by decide +kernel⟩

/-- An instance of `C79_ascii_partial`: "hi Bob!" -/
example : Ascii bob ∧ Ascii [104, 105, 32, 66, 111, 98, 33] ∧
    colour up0 [1] [2] bob true [104, 105, 32, 66, 111, 98, 33] =
      .ok ([104, 105, 32] ++ [1] ++ [66, 111, 98] ++ [2] ++ [33]) := by
  refine ⟨by unfold Ascii; decide, by unfold Ascii; decide, by decide +kernel⟩

/-- Upper case of the letters below 128, and of U+00F6. -/
def u1 (c : Char) : Char :=
  if c = Char.ofNat 0xf6 then Char.ofNat 0xd6 else if 97 ≤ c.val ∧ c.val ≤ 122 then Char.ofNat (c.val.toNat - 32) else c

def up1 (r : Nat) : Nat := if h : r.isValidChar then (u1 (Char.ofNatAux r h)).val.toNat else r

/-- An instance of `C79_utf8_partial`, `C79_upper` and `C79_rune`: the nick "jörg" in the message "é JÖRG!". -/
example : Upper up1 ∧ (∀ c : Char, up1 c.val.toNat = (u1 c).val.toNat) ∧
    (∀ c ∈ "jörg".toList ++ "é JÖRG!".toList, (u1 c).utf8Size = c.utf8Size) ∧
    colour up1 [1] [2] (utf8 "jörg".toList) true (utf8 "é JÖRG!".toList) =
      .ok (utf8 "é ".toList ++ [1] ++ utf8 "JÖRG".toList ++ [2] ++ utf8 "!".toList) := by
  refine ⟨⟨forall_byte (by decide +kernel), by decide +kernel⟩, ?_, by decide +kernel, by decide +kernel⟩
  intro c
  have : c.val.toNat.isValidChar := c.valid
  rw [up1, dif_pos this]
  rfl

end Verif.Mention
