import Verif.Model.Journal
import Verif.Props.Log
import Verif.Props.Hex
import Verif.Props.Policy

/-! # C144: what the log of the server tells of its users

With debugging on, the operator can read from the log who left a message for whom; without it, there is nothing in the log
about that.  Contents, nicks, PINs and tokens that could still be used are never in it. -/

namespace Verif.Journal

open Verif Log
open Verif.Voice (ascii)

/-! ## Specification -/

/-- A message that was left: as it is or not, by whom, for whom, and the name of its file. -/
structure Left where
  asIs : Bool
  sender : Bytes
  recipient : Bytes
  name : Bytes
  deriving DecidableEq, Repr

/-- What was left. -/
def left : Ev → Option Left
  | .cache src dst _ (.stored n) => some ⟨false, src, dst, n⟩
  | .proxy src dst _ (.stored n) => some ⟨true, src, dst, n⟩
  | _ => none

/-- "A -> B: name", with two identities in hexadecimal. -/
def arrow (t : Bytes) : Option (Bytes × Bytes × Bytes) :=
  if (t.drop 64).take 4 = ascii " -> " ∧ (t.drop 132).take 2 = ascii ": " then
    match Hex.decode (t.take 64), Hex.decode ((t.drop 68).take 64) with
    | some a, some b => some (a, b, t.drop 134)
    | _, _ => none
  else none

/-- The text after the given words. -/
def after (w t : Bytes) : Option Bytes := if t.take w.length = w then some (t.drop w.length) else none

/-- The two identities of an entry about a message that was left, in the order in which they are written. -/
def pointed (e : Entry) : Option (Bool × Bytes × Bytes × Bytes) :=
  if e.1 = .dbg then
    match after (ascii "handleCache: ") e.2 with
    | some t => (arrow t).map fun x => (false, x)
    | none => ((after (ascii "handleProxy: ") e.2).bind arrow).map fun x => (true, x)
  else none

/-- How the entry is to be read: the one at the point of the arrow is the sender, and a message of the name "." was not
left at all. -/
def reading (e : Entry) : Option Left :=
  (pointed e).bind fun x => if x.2.2.2 = ascii "." then none else some ⟨x.1, x.2.2.1, x.2.1, x.2.2.2⟩

/-- Who logged in, and from where. -/
def came : Ev → Option (Bytes × Bytes)
  | .login a i .welcome => some (a, i)
  | _ => none

/-- "connection from A identity I". -/
def readLogin (e : Entry) : Option (Bytes × Bytes) :=
  if e.1 = .info then
    (after (ascii "connection from ") e.2).bind fun t =>
      (Hex.decode (t.drop (t.length - 64))).map fun i => (t.take (t.length - 74), i)
  else none

/-- What is true of what the server itself makes: identities have 32 bytes, names of files are made from the time. -/
def Proper : Ev → Prop
  | .cache src dst _ r | .proxy src dst _ r => src.length = 32 ∧ dst.length = 32 ∧ ∀ n, r = .stored n → n ≠ ascii "."
  | .create a _ _ _ _ _ _ => a.head? ≠ some 0x68
  | .login _ i _ => i.length = 32
  | _ => True

/-- What users do once they are logged in. -/
def private' : Ev → Bool
  | .begun _ | .ended _ | .request _ _ _ | .cache _ _ _ _ | .proxy _ _ _ _ | .leave _ _ | .fetch _ _ | .find _ _ => true
  | _ => false

/-- The same but for contents, nicks and PINs. -/
inductive Alike : Ev → Ev → Prop
  | same (e) : Alike e e
  | cache (src dst p p' r) : Alike (.cache src dst p r) (.cache src dst p' r)
  | proxy (src dst p p' r) : Alike (.proxy src dst p r) (.proxy src dst p' r)
  | leave (tag b b') : Alike (.leave tag b) (.leave tag b')
  | fetch (tag p p') : Alike (.fetch tag p) (.fetch tag p')
  | find (tag tag' n n') : Alike (.find tag n) (.find tag' n')

/-! ## Formats -/

theorem two_v (f w x : String) (a b : Bytes) (hf : ascii f = fmtOf [.lit (ascii w), .arg 0x76, .lit (ascii x), .arg 0x76])
    (h1 : 0x25 ∉ ascii w) (h2 : 0x25 ∉ ascii x) : sprintf (ascii f) [a, b] = ascii w ++ a ++ ascii x ++ b := by
  rw [hf, sprintf_pieces _ _ (by simp [Piece.ok, isLetter, h1, h2]) rfl]
  simp [render]

theorem three_v (f w : String) (a b n : Bytes)
    (hf : ascii f = fmtOf [.lit (ascii w), .arg 0x76, .lit (ascii " -> "), .arg 0x76, .lit (ascii ": "), .arg 0x76])
    (h1 : 0x25 ∉ ascii w) : sprintf (ascii f) [a, b, n] = ascii w ++ (a ++ ascii " -> " ++ b ++ ascii ": " ++ n) := by
  have h2 : (0x25 : UInt8) ∉ ascii " -> " := by decide +kernel
  have h3 : (0x25 : UInt8) ∉ ascii ": " := by decide +kernel
  rw [hf, sprintf_pieces _ _ (by simp [Piece.ok, isLetter, h1, h2, h3]) rfl]
  simp [render]

theorem cacheText (a b n : Bytes) : sprintf (ascii "handleCache: %v -> %v: %v") [a, b, n] =
    ascii "handleCache: " ++ (a ++ ascii " -> " ++ b ++ ascii ": " ++ n) :=
  three_v _ _ a b n (by decide +kernel) (by decide +kernel)

theorem proxyText (a b n : Bytes) : sprintf (ascii "handleProxy: %v -> %v: %v") [a, b, n] =
    ascii "handleProxy: " ++ (a ++ ascii " -> " ++ b ++ ascii ": " ++ n) :=
  three_v _ _ a b n (by decide +kernel) (by decide +kernel)

/-- A text begins with the words its format begins with. -/
theorem sprintf_words (w z : Bytes) (args : List Bytes) (hw : 0x25 ∉ w) : ∃ t, sprintf (w ++ z) args = w ++ t := by
  unfold sprintf
  rw [List.length_append, printf_lit args w _ z 0 false hw]
  exact ⟨_, rfl⟩

theorem encode_length (b : Bytes) : (Hex.encode b).length = 2 * b.length := by
  induction b with
  | nil => rfl
  | cons x r ih => simp only [Hex.encode, List.length_cons, ih]; omega

theorem arrow_text (a b n : Bytes) (ha : a.length = 32) (hb : b.length = 32) :
    arrow (Hex.encode a ++ ascii " -> " ++ Hex.encode b ++ ascii ": " ++ n) = some (a, b, n) := by
  have la : (Hex.encode a).length = 64 := by rw [encode_length, ha]
  have lb : (Hex.encode b).length = 64 := by rw [encode_length, hb]
  have lw : (ascii " -> ").length = 4 := by decide +kernel
  have lx : (ascii ": ").length = 2 := by decide +kernel
  have e1 : ∀ r : Bytes, (Hex.encode a ++ r).drop 64 = r := fun r => by rw [← la, List.drop_left]
  have e2 : ∀ r : Bytes, (Hex.encode a ++ r).take 64 = Hex.encode a := fun r => by rw [← la, List.take_left]
  have e3 : ∀ r : Bytes, (Hex.encode b ++ r).drop 64 = r := fun r => by rw [← lb, List.drop_left]
  have e4 : ∀ r : Bytes, (Hex.encode b ++ r).take 64 = Hex.encode b := fun r => by rw [← lb, List.take_left]
  have e5 : ∀ r : Bytes, (ascii " -> " ++ r).drop 4 = r := fun r => by rw [← lw, List.drop_left]
  have e6 : ∀ r : Bytes, (ascii " -> " ++ r).take 4 = ascii " -> " := fun r => by rw [← lw, List.take_left]
  have e7 : ∀ r : Bytes, (ascii ": " ++ r).drop 2 = r := fun r => by rw [← lx, List.drop_left]
  have e8 : ∀ r : Bytes, (ascii ": " ++ r).take 2 = ascii ": " := fun r => by rw [← lx, List.take_left]
  simp only [List.append_assoc]
  generalize ht : Hex.encode a ++ (ascii " -> " ++ (Hex.encode b ++ (ascii ": " ++ n))) = t
  have d64 : t.drop 64 = ascii " -> " ++ (Hex.encode b ++ (ascii ": " ++ n)) := by rw [← ht, e1]
  have d68 : t.drop 68 = Hex.encode b ++ (ascii ": " ++ n) := by
    rw [show 68 = 64 + 4 from rfl, ← List.drop_drop, d64, e5]
  have d132 : t.drop 132 = ascii ": " ++ n := by
    rw [show 132 = 68 + 64 from rfl, ← List.drop_drop, d68, e3]
  have d134 : t.drop 134 = n := by
    rw [show 134 = 132 + 2 from rfl, ← List.drop_drop, d132, e7]
  have t64 : t.take 64 = Hex.encode a := by rw [← ht, e2]
  unfold arrow
  rw [d64, d68, d132, d134, t64, e6, e4, e8, if_pos ⟨rfl, rfl⟩, Hex.decode_encode, Hex.decode_encode]

theorem after_self (w t : Bytes) : after w (w ++ t) = some t := by
  unfold after
  rw [List.take_left, if_pos rfl, List.drop_left]

/-- Texts that begin otherwise are not about messages. -/
theorem pointed_other {l : Level} {t : Bytes}
    (h : l ≠ .dbg ∨ (t.take 13 ≠ ascii "handleCache: " ∧ t.take 13 ≠ ascii "handleProxy: ")) : pointed (l, t) = none := by
  unfold pointed
  by_cases hl : l = .dbg
  · have h := h.resolve_left (fun g => g hl)
    have l1 : (ascii "handleCache: ").length = 13 := by decide +kernel
    have l2 : (ascii "handleProxy: ").length = 13 := by decide +kernel
    simp [hl, after, l1, l2, h.1, h.2]
  · simp [hl]

theorem pointed_words {l : Level} (f : Bytes) (args : List Bytes) (k : Nat) (h0 : 0x25 ∉ f.take k)
    (h1 : (f.take k).take 13 ≠ (ascii "handleCache: ").take (min 13 k)) (h2 : (f.take k).take 13 ≠ (ascii "handleProxy: ").take (min 13 k))
    (hk : k ≤ f.length) : pointed (l, sprintf f args) = none := by
  obtain ⟨t, ht⟩ := sprintf_words (f.take k) (f.drop k) args h0
  rw [List.take_append_drop] at ht
  rw [ht]
  have hl : (f.take k).length = k := by rw [List.length_take]; omega
  have key : ∀ w : Bytes, (f.take k ++ t).take 13 = w → (f.take k).take 13 = w.take (min 13 k) := by
    intro w hw
    rw [← hw, List.take_take, List.take_take, show min (min 13 k) 13 = min 13 k by omega,
      List.take_append_of_le_length (by omega), List.take_take]
    congr 1
    omega
  exact pointed_other (.inr ⟨fun h => h1 (key _ h), fun h => h2 (key _ h)⟩)

theorem pointed_addr {l : Level} {a : Bytes} (ha : a.head? ≠ some 0x68) (f x : String) (b : Bytes)
    (hf : ascii f = fmtOf [.lit (ascii ""), .arg 0x76, .lit (ascii x), .arg 0x76]) (h2 : 0x25 ∉ ascii x)
    (h3 : (ascii x).head? ≠ some 0x68) (h4 : ascii x ≠ []) : pointed (l, sprintf (ascii f) [a, b]) = none := by
  rw [two_v f "" x a b hf (by decide +kernel) h2]
  have hh : (ascii "" ++ a ++ ascii x ++ b).head? ≠ some 0x68 := by
    have h0 : ascii "" = [] := by decide +kernel
    rw [h0, List.nil_append]
    cases a with
    | nil =>
      cases hx : ascii x with
      | nil => exact absurd hx h4
      | cons c r => rw [hx] at h3; simpa using h3
    | cons c r => simpa using ha
  refine pointed_other (.inr ⟨fun h => hh ?_, fun h => hh ?_⟩)
  · have := congrArg List.head? h
    rw [List.head?_take, if_neg (by decide)] at this
    rw [this]; decide +kernel
  · have := congrArg List.head? h
    rw [List.head?_take, if_neg (by decide)] at this
    rw [this]; decide +kernel

theorem pointed_cache (src dst n : Bytes) (hs : src.length = 32) (hd : dst.length = 32) :
    pointed (.dbg, sprintf (ascii "handleCache: %v -> %v: %v") [Hex.encode dst, Hex.encode src, n]) = some (false, dst, src, n) := by
  unfold pointed
  rw [if_pos rfl]
  simp only [cacheText]
  rw [after_self]
  simp only [arrow_text dst src n hd hs]
  rfl

theorem pointed_proxy (src dst n : Bytes) (hs : src.length = 32) (hd : dst.length = 32) :
    pointed (.dbg, sprintf (ascii "handleProxy: %v -> %v: %v") [Hex.encode dst, Hex.encode src, n]) = some (true, dst, src, n) := by
  unfold pointed
  rw [if_pos rfl]
  simp only [proxyText]
  have h : after (ascii "handleCache: ") (ascii "handleProxy: " ++ (Hex.encode dst ++ ascii " -> " ++ Hex.encode src ++ ascii ": " ++ n)) =
      none := by
    unfold after
    rw [show (ascii "handleCache: ").length = (ascii "handleProxy: ").length by decide +kernel, List.take_left,
      if_neg (by decide +kernel)]
  rw [h, after_self]
  simp only [Option.bind_some, arrow_text dst src n hd hs]
  rfl

/-! ## Who left what for whom -/

/-- Of the entries of one event, those about messages. -/
theorem reading_note {addr : Bytes} (ha : addr.head? ≠ some 0x68) (n : Note) : reading (n.entry addr) = none := by
  have key : pointed (n.entry addr) = none := by
    cases n with
    | invalid t =>
      exact pointed_addr ha "%v invalid token %v" " invalid token " t (by decide +kernel) (by decide +kernel) (by decide +kernel)
        (by decide +kernel)
    | expired t =>
      exact pointed_addr ha "%v token expired %v" " token expired " t (by decide +kernel) (by decide +kernel) (by decide +kernel)
        (by decide +kernel)
    | _ => exact pointed_other (.inl (by decide))
  simp [reading, key]

theorem reading_of_pointed {e : Entry} (h : pointed e = none) : reading e = none := by simp [reading, h]

theorem kept_debug {c : Cfg} (hc : c.debug = true) {es : List Entry} :
    (es.filter fun e => kept c e.1).filterMap reading = es.filterMap reading := by
  induction es with
  | nil => rfl
  | cons e es ih =>
    by_cases hk : kept c e.1 = true
    · rw [List.filter_cons, if_pos hk, List.filterMap_cons, List.filterMap_cons, ih]
    · rw [List.filter_cons, if_neg hk, ih, List.filterMap_cons]
      have : reading e = none := by
        apply reading_of_pointed
        obtain ⟨l, t⟩ := e
        refine pointed_other (.inl ?_)
        intro hl
        subst hl
        exact hk hc
      rw [this]

theorem filterMap_none {es : List Entry} (h : ∀ e ∈ es, reading e = none) : es.filterMap reading = [] :=
  List.filterMap_eq_nil_iff.2 h

theorem reading_calls {c : Cfg} (hc : c.debug = true) {e : Ev} (he : Proper e) :
    (calls c e).filterMap reading = (left e).toList := by
  have other : ∀ {l : Level} {t : Bytes}, l ≠ .dbg → reading (l, t) = none := fun h => reading_of_pointed (pointed_other (.inl h))
  cases e with
  | opened a => exact filterMap_none (by
      simp only [calls, List.mem_singleton, forall_eq]
      exact reading_of_pointed (pointed_words _ _ 3 (by decide +kernel) (by decide +kernel) (by decide +kernel) (by decide +kernel)))
  | closed a => exact filterMap_none (by simp only [calls, List.mem_singleton, forall_eq]; exact other (by decide))
  | mute a => exact filterMap_none (by
      simp only [calls, List.mem_singleton, forall_eq]
      exact reading_of_pointed (pointed_words _ _ 3 (by decide +kernel) (by decide +kernel) (by decide +kernel) (by decide +kernel)))
  | mode a m => exact filterMap_none (by simp only [calls, List.mem_singleton, forall_eq]; exact other (by decide))
  | identify a =>
    apply filterMap_none
    simp only [calls, List.mem_cons]
    rintro x (rfl | hx)
    · exact other (by decide)
    · split at hx
      · rw [List.mem_singleton] at hx
        subst hx
        exact reading_of_pointed (pointed_words _ _ 3 (by decide +kernel) (by decide +kernel) (by decide +kernel) (by decide +kernel))
      · rw [List.mem_singleton] at hx
        subst hx
        exact other (by decide)
  | create a fp token db now later error =>
    have hcr : ∀ x ∈ creation a fp error, reading x = none := by
      intro x hx
      cases error <;> simp only [creation, List.mem_singleton] at hx <;> subst hx <;> exact other (by decide)
    have hre : ∀ w, ∀ x ∈ refusal a fp w, reading x = none := by
      intro w x hx
      simp only [refusal, List.mem_cons, List.not_mem_nil, or_false] at hx
      rcases hx with rfl | rfl <;> exact other (by decide)
    apply filterMap_none
    simp only [calls, List.mem_cons]
    rintro x (rfl | rfl | hx)
    · exact other (by decide)
    · exact other (by decide)
    · split at hx
      · exact hre _ _ hx
      · rcases List.mem_append.1 hx with hx | hx
        · obtain ⟨n, _, rfl⟩ := List.mem_map.1 hx
          exact reading_note he n
        · split at hx
          · exact hcr _ hx
          · exact hre _ _ hx
      · exact hcr _ hx
  | noKx a why =>
    apply filterMap_none
    simp only [calls, List.mem_cons, List.not_mem_nil, or_false]
    rintro x (rfl | rfl) <;> exact other (by decide)
  | login a i s =>
    apply filterMap_none
    simp only [calls, List.mem_cons, List.not_mem_nil, or_false]
    rintro x (rfl | rfl)
    · exact other (by decide)
    · cases s <;> exact other (by decide)
  | begun i => exact filterMap_none (by
      simp only [calls, List.mem_singleton, forall_eq]
      exact reading_of_pointed (pointed_words _ _ 9 (by decide +kernel) (by decide +kernel) (by decide +kernel) (by decide +kernel)))
  | ended i => exact filterMap_none (by
      simp only [calls, List.mem_singleton, forall_eq]
      exact reading_of_pointed (pointed_words _ _ 9 (by decide +kernel) (by decide +kernel) (by decide +kernel) (by decide +kernel)))
  | request i cmd tag => exact filterMap_none (by simp only [calls, List.mem_singleton, forall_eq]; exact other (by decide))
  | leave tag b => exact filterMap_none (by simp only [calls, List.mem_singleton, forall_eq]; exact other (by decide))
  | fetch tag b => exact filterMap_none (by simp only [calls, List.mem_singleton, forall_eq]; exact other (by decide))
  | find tag b => rfl
  | stays i n w => exact filterMap_none (by simp only [calls, List.mem_singleton, forall_eq]; exact other (by decide))
  | failed a w => exact filterMap_none (by simp only [calls, List.mem_singleton, forall_eq]; exact other (by decide))
  | cache src dst p r =>
    obtain ⟨hs, hd, hn⟩ := he
    have hfail : ∀ x, reading (.dbg, sprintf (ascii "delivery failed: %v") x) = none := fun x =>
      reading_of_pointed (pointed_words _ _ 3 (by decide +kernel) (by decide +kernel) (by decide +kernel) (by decide +kernel))
    cases r with
    | stored n =>
      have h := pointed_cache src dst n hs hd
      have hr : reading (.dbg, sprintf (ascii "handleCache: %v -> %v: %v") [Hex.encode dst, Hex.encode src, n]) =
          some ⟨false, src, dst, n⟩ := by
        unfold reading
        rw [h, Option.bind_some, if_neg (hn n rfl)]
      simp only [calls, Result.error, hc, if_true, Result.base, left, List.filterMap_cons, hr, List.filterMap_nil, Option.toList]
    | duplicate n => simp only [calls, Result.error, left, List.filterMap_cons, hfail, List.filterMap_nil, Option.toList]
    | unwritable w => simp only [calls, Result.error, left, List.filterMap_cons, hfail, List.filterMap_nil, Option.toList]
  | proxy src dst p r =>
    obtain ⟨hs, hd, hn⟩ := he
    have hfail : ∀ x, reading (.dbg, sprintf (ascii "proxy delivery failed %x -> %x: %v") x) = none := fun x =>
      reading_of_pointed (pointed_words _ _ 3 (by decide +kernel) (by decide +kernel) (by decide +kernel) (by decide +kernel))
    have hdot : reading (.dbg, sprintf (ascii "handleProxy: %v -> %v: %v") [Hex.encode dst, Hex.encode src, ascii "."]) = none := by
      unfold reading
      rw [pointed_proxy src dst _ hs hd, Option.bind_some, if_pos rfl]
    cases r with
    | stored n =>
      have hr : reading (.dbg, sprintf (ascii "handleProxy: %v -> %v: %v") [Hex.encode dst, Hex.encode src, n]) =
          some ⟨true, src, dst, n⟩ := by
        unfold reading
        rw [pointed_proxy src dst n hs hd, Option.bind_some, if_neg (hn n rfl)]
      simp only [calls, Result.error, hc, if_true, Result.base, left, List.nil_append, List.filterMap_cons, hr, List.filterMap_nil,
        Option.toList]
    | duplicate n =>
      simp only [calls, Result.error, hc, if_true, Result.base, left, List.singleton_append, List.filterMap_cons, hfail, hdot,
        List.filterMap_nil, Option.toList]
    | unwritable w =>
      simp only [calls, Result.error, hc, if_true, Result.base, left, List.singleton_append, List.filterMap_cons, hfail, hdot,
        List.filterMap_nil, Option.toList]

/-- With debugging, what was left by whom for whom can be read from the log, each once and in order, and nothing else: if
one knows that the arrows point to the senders, and that messages of the name "." are none. -/
theorem C144_noted_partial {c : Cfg} (hc : c.debug = true) {es : List Ev} (hp : ∀ e ∈ es, Proper e) :
    (log c es).filterMap reading = es.filterMap left := by
  unfold log
  rw [kept_debug hc]
  induction es with
  | nil => rfl
  | cons e es ih =>
    rw [List.flatMap_cons, List.filterMap_append, reading_calls hc (hp e List.mem_cons_self),
      ih (fun x hx => hp x (List.mem_cons_of_mem _ hx)), List.filterMap_cons]
    cases left e <;> rfl

theorem readLogin_other {l : Level} {t : Bytes} (h : l ≠ .info ∨ t.take 16 ≠ ascii "connection from ") : readLogin (l, t) = none := by
  unfold readLogin after
  have l1 : (ascii "connection from ").length = 16 := by decide +kernel
  rcases h with h | h
  · simp [h]
  · simp [l1, h]

theorem readLogin_words {l : Level} (f : Bytes) (args : List Bytes) (k : Nat) (h0 : 0x25 ∉ f.take k)
    (h1 : (f.take k).take 16 ≠ (ascii "connection from ").take (min 16 k)) (hk : k ≤ f.length) :
    readLogin (l, sprintf f args) = none := by
  obtain ⟨t, ht⟩ := sprintf_words (f.take k) (f.drop k) args h0
  rw [List.take_append_drop] at ht
  rw [ht]
  have hl : (f.take k).length = k := by rw [List.length_take]; omega
  refine readLogin_other (.inr fun hw => h1 ?_)
  rw [← hw, List.take_take, List.take_take, show min (min 16 k) 16 = min 16 k by omega,
    List.take_append_of_le_length (by omega), List.take_take]
  congr 1
  omega

theorem readLogin_text (a i : Bytes) (hi : i.length = 32) :
    readLogin (.info, sprintf (ascii "connection from %v identity %x") [a, Hex.encode i]) = some (a, i) := by
  have hf : ascii "connection from %v identity %x" =
      fmtOf [.lit (ascii "connection from "), .arg 0x76, .lit (ascii " identity "), .arg 0x78] := by decide +kernel
  have h1 : (0x25 : UInt8) ∉ ascii "connection from " := by decide +kernel
  have h2 : (0x25 : UInt8) ∉ ascii " identity " := by decide +kernel
  have ht : sprintf (ascii "connection from %v identity %x") [a, Hex.encode i] =
      ascii "connection from " ++ (a ++ (ascii " identity " ++ Hex.encode i)) := by
    rw [hf, sprintf_pieces _ _ (by simp [Piece.ok, isLetter, h1, h2]) rfl]
    simp [render]
  have li : (Hex.encode i).length = 64 := by rw [encode_length, hi]
  have lw : (ascii " identity ").length = 10 := by decide +kernel
  unfold readLogin
  rw [if_pos rfl]
  simp only [ht]
  rw [after_self, Option.bind_some]
  have hlen : (a ++ (ascii " identity " ++ Hex.encode i)).length = a.length + 74 := by
    simp only [List.length_append, li, lw]
  have hd : (a ++ (ascii " identity " ++ Hex.encode i)).drop (a.length + 74 - 64) = Hex.encode i := by
    rw [← List.append_assoc, show a.length + 74 - 64 = (a ++ ascii " identity ").length by simp only [List.length_append, lw]; omega,
      List.drop_left]
  rw [hlen, hd, show a.length + 74 - 74 = a.length by omega, List.take_left, Hex.decode_encode]
  rfl

/-- Who logged in, and from where, can always be read from the log. -/
theorem C144_logins (c : Cfg) {es : List Ev} (hp : ∀ e ∈ es, Proper e) :
    (log c es).filterMap readLogin = es.filterMap came := by
  have key : ∀ e, Proper e → ((calls c e).filter fun x => kept c x.1).filterMap readLogin = (came e).toList := by
    intro e he
    by_cases hw : ∃ a i, e = .login a i .welcome
    · obtain ⟨a, i, rfl⟩ := hw
      have h := readLogin_text a i he
      have ht : readLogin (.trace, sprintf (ascii "InitialCmdSession: %v") [a]) = none := readLogin_other (.inl (by decide))
      simp only [calls, came, List.filter_cons, kept, List.filter_nil, if_true]
      split <;> simp only [List.filterMap_cons, List.filterMap_nil, ht, h, Option.toList]
    · have hn : came e = none := by
        cases e with
        | login a i s =>
          cases s with
          | welcome => exact absurd ⟨a, i, rfl⟩ hw
          | _ => rfl
        | _ => rfl
      rw [hn]
      refine List.filterMap_eq_nil_iff.2 fun x hx => ?_
      have hx := (List.mem_filter.1 hx).1
      have other : ∀ {l : Level} {t : Bytes}, l ≠ .info → readLogin (l, t) = none := fun h => readLogin_other (.inl h)
      cases e with
      | closed a =>
        simp only [calls, List.mem_singleton] at hx
        subst hx
        exact readLogin_words _ _ 12 (by decide +kernel) (by decide +kernel) (by decide +kernel)
      | create a fp token db now later error =>
        have hcr : ∀ x ∈ creation a fp error, readLogin x = none := by
          intro x hx
          cases error <;> simp only [creation, List.mem_singleton] at hx <;> subst hx
          · exact readLogin_words _ _ 2 (by decide +kernel) (by decide +kernel) (by decide +kernel)
          · exact other (by decide)
        have hre : ∀ w, ∀ x ∈ refusal a fp w, readLogin x = none := by
          intro w x hx
          simp only [refusal, List.mem_cons, List.not_mem_nil, or_false] at hx
          rcases hx with rfl | rfl <;> exact other (by decide)
        simp only [calls, List.mem_cons] at hx
        rcases hx with rfl | rfl | hx
        · exact other (by decide)
        · exact other (by decide)
        · split at hx
          · exact hre _ _ hx
          · rcases List.mem_append.1 hx with hx | hx
            · obtain ⟨n, _, rfl⟩ := List.mem_map.1 hx
              cases n <;> exact other (by decide)
            · split at hx
              · exact hcr _ hx
              · exact hre _ _ hx
          · exact hcr _ hx
      | login a i s =>
        simp only [calls, List.mem_cons, List.not_mem_nil, or_false] at hx
        rcases hx with rfl | rfl
        · exact other (by decide)
        · cases s with
          | welcome => exact absurd ⟨a, i, rfl⟩ hw
          | _ => exact other (by decide)
      | identify a =>
        simp only [calls, List.mem_cons] at hx
        rcases hx with rfl | hx
        · exact other (by decide)
        · split at hx <;> rw [List.mem_singleton] at hx <;> subst hx <;> exact other (by decide)
      | cache src dst p r =>
        cases r <;> simp only [calls, Result.error] at hx
        · split at hx
          · rw [List.mem_singleton] at hx; subst hx; exact other (by decide)
          · cases hx
        · rw [List.mem_singleton] at hx; subst hx; exact other (by decide)
        · rw [List.mem_singleton] at hx; subst hx; exact other (by decide)
      | proxy src dst p r =>
        have : x.1 = .dbg := by
          cases r <;> simp only [calls, Result.error, List.nil_append, List.mem_append, List.mem_singleton] at hx
          · split at hx
            · rw [List.mem_singleton] at hx; subst hx; rfl
            · cases hx
          all_goals
            rcases hx with hx | hx
            · subst hx; rfl
            · split at hx
              · rw [List.mem_singleton] at hx; subst hx; rfl
              · cases hx
        obtain ⟨l, t⟩ := x
        subst this
        exact other (by decide)
      | noKx a why =>
        simp only [calls, List.mem_cons, List.not_mem_nil, or_false] at hx
        rcases hx with rfl | rfl <;> exact other (by decide)
      | find tag n => cases hx
      | _ =>
        simp only [calls, List.mem_singleton] at hx
        subst hx
        exact other (by decide)
  unfold log
  induction es with
  | nil => rfl
  | cons e es ih =>
    rw [List.flatMap_cons, List.filter_append, List.filterMap_append, key e (hp e List.mem_cons_self),
      ih (fun x hx => hp x (List.mem_cons_of_mem _ hx)), List.filterMap_cons]
    cases came e <;> rfl

/-- Without debugging, it is as if users did nothing once they are logged in. -/
theorem C144_private {c : Cfg} (hc : c.debug = false) (es : List Ev) :
    log c es = log c (es.filter fun e => !private' e) := by
  have key : ∀ e, private' e = true → (calls c e).filter (fun x => kept c x.1) = [] := by
    intro e he
    cases e with
    | cache src dst p r => cases r <;> simp [calls, Result.error, kept, hc]
    | proxy src dst p r => cases r <;> simp [calls, Result.error, kept, hc]
    | begun i => simp [calls, kept, hc]
    | ended i => simp [calls, kept, hc]
    | request i cmd tag => simp [calls, kept, hc]
    | leave tag b => simp [calls, kept, hc]
    | fetch tag b => simp [calls, kept, hc]
    | find tag b => rfl
    | _ => cases he
  unfold log
  induction es with
  | nil => rfl
  | cons e es ih =>
    rw [List.flatMap_cons, List.filter_append, ih]
    by_cases hp : private' e = true
    · rw [key e hp, List.nil_append, List.filter_cons, if_neg (by simp [hp])]
    · rw [List.filter_cons, if_pos (by simp [hp]), List.flatMap_cons, List.filter_append]

/-- Contents, nicks and PINs are not in the log, whatever is switched on. -/
theorem C144_contents (c : Cfg) {es es' : List Ev} (h : List.Forall₂ Alike es es') : log c es = log c es' := by
  have key : es.flatMap (calls c) = es'.flatMap (calls c) := by
    induction h with
    | nil => rfl
    | cons h _ ih =>
      rw [List.flatMap_cons, List.flatMap_cons, ih]
      cases h <;> rfl
  unfold log
  rw [key]

/-! ## Tokens -/

theorem get_prune_none {db : Policy.DB} {now : Bytes → Policy.Time} {t : Bytes} (h : GoMap.get db t = none) :
    GoMap.get (Policy.prune db now) t = none := by
  rw [← GoMap.not_mem_keys_iff] at h ⊢
  intro hm
  apply h
  unfold Policy.prune at hm
  simp only [GoMap.keys, List.mem_map] at hm ⊢
  obtain ⟨kv, hkv, rfl⟩ := hm
  exact ⟨kv, (List.mem_filter.1 hkv).1, rfl⟩

theorem get_prune_corrupt {db : Policy.DB} (hw : GoMap.WF db) {now : Bytes → Policy.Time} {n : Note} (hn : n ∈ pruneNotes db) :
    GoMap.get (Policy.prune db now) n.token = none := by
  unfold pruneNotes at hn
  obtain ⟨kv, hkv, rfl⟩ := List.mem_map.1 hn
  obtain ⟨hm, hc⟩ := List.mem_filter.1 hkv
  rw [← GoMap.not_mem_keys_iff]
  intro hk
  unfold Policy.prune at hk
  simp only [GoMap.keys, List.mem_map] at hk
  obtain ⟨kv', hkv', he⟩ := hk
  obtain ⟨hm', hs⟩ := List.mem_filter.1 hkv'
  have h1 := GoMap.get_of_mem hw (show (kv.1, kv.2) ∈ db from hm)
  have h2 := GoMap.get_of_mem hw (show (kv'.1, kv'.2) ∈ db from hm')
  have he' : kv'.1 = kv.1 := he
  rw [he', h1] at h2
  have h3 : kv.2 = kv'.2 := Option.some.inj h2
  rw [← h3] at hs
  have h4 : Policy.parseInt64 kv.2 = none := by
    cases hp : Policy.parseInt64 kv.2 with
    | none => rfl
    | some t => simp [hp] at hc
  simp [Policy.stale, h4] at hs

/-- A token that is named in the log is not in the file any more. -/
theorem C144_tokens {db : Policy.DB} (hw : GoMap.WF db) (token : Bytes) (now : Policy.Time) (later : Bytes → Policy.Time)
    {n : Note} (hn : n ∈ tokenNotes db token now) :
    GoMap.get (Policy.validToken db token now later).2.1 n.token = none := by
  unfold tokenNotes at hn
  unfold Policy.validToken
  cases hg : GoMap.get db token with
  | none =>
    rw [hg] at hn
    simp only [List.mem_cons] at hn ⊢
    rcases hn with rfl | hn
    · exact get_prune_none hg
    · exact get_prune_corrupt hw hn
  | some v =>
    rw [hg] at hn
    have hself : GoMap.get (Policy.prune (GoMap.del db token) later) token = none := get_prune_none (GoMap.get_del_self _ _)
    have hd := GoMap.wf_del hw token
    simp only at hn ⊢
    cases hp : Policy.parseInt64 v with
    | none =>
      rw [hp] at hn
      simp only [List.mem_cons] at hn ⊢
      rcases hn with rfl | hn
      · exact hself
      · exact get_prune_corrupt hd hn
    | some t =>
      rw [hp] at hn
      simp only at hn ⊢
      split at hn
      · rcases List.mem_cons.1 hn with rfl | hn
        · exact hself
        · exact get_prune_corrupt hd hn
      · exact get_prune_corrupt hd hn

/-- A token that is accepted is not named. -/
theorem C144_accepted {db : Policy.DB} {token : Bytes} {now : Policy.Time} {later : Bytes → Policy.Time}
    (h : (Policy.validToken db token now later).1 = true) {n : Note} (hn : n ∈ tokenNotes db token now) : n.token ≠ token := by
  unfold tokenNotes at hn
  unfold Policy.validToken at h
  cases hg : GoMap.get db token with
  | none => rw [hg] at h; cases h
  | some v =>
    rw [hg] at h hn
    simp only at h hn
    cases hp : Policy.parseInt64 v with
    | none => rw [hp] at h; cases h
    | some t =>
      rw [hp] at h hn
      simp only [Bool.not_eq_true'] at h hn
      rw [h] at hn
      simp only [Bool.false_eq_true, if_false, pruneNotes, List.mem_map] at hn
      obtain ⟨kv, hkv, rfl⟩ := hn
      intro he
      have hm := (List.mem_filter.1 hkv).1
      have : token ∈ GoMap.keys (GoMap.del db token) := by
        simp only [GoMap.keys, List.mem_map]
        exact ⟨kv, hm, he⟩
      exact (GoMap.not_mem_keys_iff _ _).2 (GoMap.get_del_self _ _) this

theorem pruneNotes_del {db : Policy.DB} (hw : GoMap.WF db) {t v : Bytes} (hg : GoMap.get db t = some v)
    (hv : (Policy.parseInt64 v).isSome = true) : pruneNotes (GoMap.del db t) = pruneNotes db := by
  have hdel : ∀ m : Policy.DB, GoMap.del m t = m.filter fun kv => kv.1 ≠ t := by
    intro m
    induction m with
    | nil => rfl
    | cons kv r ih => by_cases hk : kv.1 = t <;> simp [GoMap.del, hk, ih]
  unfold pruneNotes
  rw [hdel, List.filter_filter]
  congr 1
  refine List.filter_congr fun kv hkv => ?_
  by_cases hk : kv.1 = t
  · have h1 := GoMap.get_of_mem hw (show (kv.1, kv.2) ∈ db from hkv)
    rw [hk, hg] at h1
    have h2 : v = kv.2 := Option.some.inj h1
    rw [← h2]
    cases hp : Policy.parseInt64 v with
    | none => rw [hp] at hv; cases hv
    | some x => simp
  · simp [hk]

/-- Which of the good tokens somebody has cannot be seen from the log. -/
theorem C144_used (c : Cfg) (addr fp : Bytes) {db : Policy.DB} (hw : GoMap.WF db) {t t' : Bytes} {now : Policy.Time}
    {later : Bytes → Policy.Time} (error : Option Bytes) (h : (Policy.validToken db t now later).1 = true)
    (h' : (Policy.validToken db t' now later).1 = true) :
    log c [.create addr fp t db now later error] = log c [.create addr fp t' db now later error] := by
  have key : ∀ x, (Policy.validToken db x now later).1 = true → tokenNotes db x now = pruneNotes db := by
    intro x hx
    unfold Policy.validToken at hx
    unfold tokenNotes
    cases hg : GoMap.get db x with
    | none => rw [hg] at hx; cases hx
    | some v =>
      rw [hg] at hx
      simp only at hx ⊢
      cases hp : Policy.parseInt64 v with
      | none => rw [hp] at hx; cases hx
      | some n =>
        rw [hp] at hx
        simp only [Bool.not_eq_true'] at hx ⊢
        rw [hx]
        simp only [Bool.false_eq_true, if_false]
        exact pruneNotes_del hw hg (by rw [hp]; rfl)
  have : calls c (.create addr fp t db now later error) = calls c (.create addr fp t' db now later error) := by
    simp only [calls, key t h, key t' h', h, h']
  simp only [log, List.flatMap_cons, this]

/-! ## Where the code says otherwise -/

/-- The arrow points from the recipient to the sender. -/
theorem C144_direction_violated {c : Cfg} (hc : c.debug = true) {src dst : Bytes} (hs : src.length = 32) (hd : dst.length = 32)
    (payload name : Bytes) :
    (log c [.cache src dst payload (.stored name)]).map pointed = [some (false, dst, src, name)] ∧
      (log c [.proxy src dst payload (.stored name)]).map pointed = [some (true, dst, src, name)] := by
  constructor
  · simp only [log, List.flatMap_cons, List.flatMap_nil, List.append_nil, calls, Result.error, hc, if_true, Result.base,
      List.filter_cons, kept, List.filter_nil, List.map_cons, List.map_nil, pointed_cache src dst name hs hd]
  · simp only [log, List.flatMap_cons, List.flatMap_nil, List.append_nil, calls, Result.error, hc, if_true, Result.base,
      List.filter_cons, kept, List.filter_nil, List.map_cons, List.map_nil, List.nil_append, pointed_proxy src dst name hs hd]

/-- Of a message that could not be left, the log does not say who wrote it. -/
theorem C144_sender_violated (c : Cfg) (src src' dst payload : Bytes) {r : Result} (hr : ∀ n, r ≠ .stored n) :
    log c [.cache src dst payload r] = log c [.cache src' dst payload r] := by
  cases r with
  | stored n => exact absurd rfl (hr n)
  | duplicate n => rfl
  | unwritable w => rfl

/-- A message that was to be left as it is and could not be has the entry of those that were. -/
theorem C144_failed_violated {c : Cfg} (hc : c.debug = true) {src dst : Bytes} (hs : src.length = 32) (hd : dst.length = 32)
    (payload why : Bytes) :
    some (true, dst, src, ascii ".") ∈ (log c [.proxy src dst payload (.unwritable why)]).map pointed := by
  simp only [log, List.flatMap_cons, List.flatMap_nil, List.append_nil, calls, Result.error, hc, if_true, Result.base,
    List.filter_cons, kept, List.filter_nil, List.map_cons, List.map_nil, List.singleton_append, pointed_proxy src dst _ hs hd,
    List.mem_cons, true_or, or_true]

/-- A token that is not in the file is written to the log as it was typed, be it for another server. -/
theorem C144_token_violated {c : Cfg} (hc : c.debug = true) (ht : c.policy = Policy.sToken) (addr fp token : Bytes)
    {db : Policy.DB} (hg : GoMap.get db token = none) (now : Policy.Time) (later : Bytes → Policy.Time) (error : Option Bytes) :
    (.dbg, addr ++ ascii " invalid token " ++ token) ∈ log c [.create addr fp token db now later error] := by
  have h := two_v "%v invalid token %v" "" " invalid token " addr token (by decide +kernel) (by decide +kernel) (by decide +kernel)
  rw [show ascii "" = [] by decide +kernel, List.nil_append] at h
  have hv : Policy.verdict Policy.sToken = .askToken := by decide
  unfold log
  refine List.mem_filter.2 ⟨?_, hc⟩
  rw [← h]
  simp [calls, ht, hv, tokenNotes, hg, Note.entry]

/-! ## Examples -/

private def alice : Bytes := List.replicate 32 1
private def bob : Bytes := List.replicate 32 2
private def cfg (debug : Bool) : Cfg := ⟨debug, false, true, Policy.sToken, fun _ => ascii "dir"⟩

/-- Debugging: one message is left, another is not. -/
example : (log (cfg true) [.opened (ascii "1.2.3.4:5"), .login (ascii "1.2.3.4:5") alice .welcome, .cache alice bob [7] (.stored (ascii "2016")),
    .cache alice bob [7] (.duplicate (ascii "2016"))]).filterMap reading = [⟨false, alice, bob, ascii "2016"⟩] := by decide +kernel

example : (log (cfg false) [.login (ascii "1.2.3.4:5") alice .welcome, .login (ascii "1.2.3.4:6") bob .unknown]).filterMap readLogin =
    [(ascii "1.2.3.4:5", alice)] := by decide +kernel

/-- No debugging: two entries. -/
example : (log (cfg false) [.opened (ascii "1.2.3.4:5"), .login (ascii "1.2.3.4:5") alice .welcome, .cache alice bob [7] (.stored (ascii "2016")),
    .closed (ascii "1.2.3.4:5")]).length = 2 := by decide +kernel

/-- A token without a proper time is named, and gone. -/
example : tokenNotes [(ascii "11", ascii "x"), (ascii "12", ascii "99")] (ascii "12") ⟨5, 0⟩ = [.corrupt (ascii "11")] := by
  decide +kernel

example : Proper (.cache alice bob [] (.stored (ascii "2016"))) :=
  ⟨rfl, rfl, fun n h => by cases h; decide +kernel⟩

end Verif.Journal
