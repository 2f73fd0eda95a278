import Verif.Model.Admin
import Verif.Props.Hex
import Verif.Proofs.Text

/-! # JSON strings are read back as they were written -/

namespace Verif.Admin

open Verif Text

/-- Valid UTF-8: bytes that are none become U+FFFD. -/
def valid (s : Bytes) : Bytes := mapRunes (fun r => r) s.length s

theorem ofNat_eq {n : Nat} {b : UInt8} (h : n = b.toNat) : UInt8.ofNat n = b := by
  subst h
  simp

/-- The first rune of a string that does not begin with ASCII. -/
theorem rune_cases (c : UInt8) (s : Bytes) (hc : ¬ c < 128) : decodeRune (c :: s) = (0xfffd, 1) ∨
    ∃ r p q, c :: s = p ++ q ∧ 2 ≤ p.length ∧ p.head? = some c ∧ (∀ x, decodeRune (p ++ x) = (r, p.length)) ∧
      encodeRune r = p ∧ 128 ≤ r := by
  have hc' : 128 ≤ c.toNat := by simpa [UInt8.lt_iff_toNat_lt] using hc
  by_cases h : decodeRune (c :: s) = (0xfffd, 1)
  · exact .inl h
  · right
    unfold decodeRune at h
    simp only [hc, if_false] at h
    split at h
    · next h2 =>
      split at h
      · next b q =>
        split at h
        · next hb =>
          simp only [between, Bool.and_eq_true, decide_eq_true_eq, UInt8.le_iff_toNat_le] at h2 hb
          simp only [UInt8.reduceToNat] at h2 hb
          refine ⟨(c.toNat - 0xc0) * 64 + (b.toNat - 0x80), [c, b], q, rfl, by simp, rfl, ?_, ?_, by omega⟩
          · intro x
            simp only [List.cons_append, List.nil_append, decodeRune, hc, if_false]
            rw [if_pos, if_pos]
            · rfl
            · simp only [between, Bool.and_eq_true, decide_eq_true_eq, UInt8.le_iff_toNat_le]; simp only [UInt8.reduceToNat]; omega
            · simp only [between, Bool.and_eq_true, decide_eq_true_eq, UInt8.le_iff_toNat_le]; simp only [UInt8.reduceToNat]; omega
          · unfold encodeRune
            rw [if_neg (by omega), if_pos (by omega), ofNat_eq (b := c) (by omega), ofNat_eq (b := b) (by omega)]
        · exact absurd rfl h
      · exact absurd rfl h
    · split at h
      · next h1 h2 =>
        split at h
        · next b d q =>
          by_cases hb : (between (if c = 0xe0 then 0xa0 else 0x80) (if c = 0xed then 0x9f else 0xbf) b &&
              between 0x80 0xbf d) = true
          · have hb' := hb
            have hlo : (if c = 0xe0 then (0xa0 : UInt8) else 0x80).toNat = if c.toNat = 0xe0 then 0xa0 else 0x80 := by
              by_cases e : c = 0xe0
              · subst e; rfl
              · have : c.toNat ≠ 0xe0 := fun x => e (UInt8.toNat_inj.1 x)
                rw [if_neg e, if_neg this]; rfl
            have hhi : (if c = 0xed then (0x9f : UInt8) else 0xbf).toNat = if c.toNat = 0xed then 0x9f else 0xbf := by
              by_cases e : c = 0xed
              · subst e; rfl
              · have : c.toNat ≠ 0xed := fun x => e (UInt8.toNat_inj.1 x)
                rw [if_neg e, if_neg this]; rfl
            have h2' := h2
            simp only [between, Bool.and_eq_true, decide_eq_true_eq, UInt8.le_iff_toNat_le, hlo, hhi] at h2 hb
            simp only [UInt8.reduceToNat] at h2 hb
            have hb1 : 128 ≤ b.toNat ∧ b.toNat ≤ 191 ∧ (c.toNat = 0xe0 → 160 ≤ b.toNat) ∧
                (c.toNat = 0xed → b.toNat ≤ 159) ∧ 128 ≤ d.toNat ∧ d.toNat ≤ 191 := by
              split at hb <;> split at hb <;> omega
            clear hb h
            refine ⟨(c.toNat - 0xe0) * 4096 + (b.toNat - 0x80) * 64 + (d.toNat - 0x80), [c, b, d], q, rfl, by simp, rfl,
              ?_, ?_, by omega⟩
            · intro x
              simp only [List.cons_append, List.nil_append, decodeRune, hc, if_false]
              rw [if_neg h1, if_pos h2', if_pos hb']
              rfl
            · unfold encodeRune
              rw [if_neg (by omega), if_neg (by omega),
                if_pos (by omega), ofNat_eq (b := c) (by omega),
                ofNat_eq (b := b) (by omega), ofNat_eq (b := d) (by omega)]
          · exact absurd (if_neg hb) h
        · exact absurd rfl h
      · split at h
        · next h0 h1 h2 =>
          split at h
          · next b d e q =>
            by_cases hb : (between (if c = 0xf0 then 0x90 else 0x80) (if c = 0xf4 then 0x8f else 0xbf) b &&
                between 0x80 0xbf d && between 0x80 0xbf e) = true
            · have hb' := hb
              have hlo : (if c = 0xf0 then (0x90 : UInt8) else 0x80).toNat = if c.toNat = 0xf0 then 0x90 else 0x80 := by
                by_cases e : c = 0xf0
                · subst e; rfl
                · have : c.toNat ≠ 0xf0 := fun x => e (UInt8.toNat_inj.1 x)
                  rw [if_neg e, if_neg this]; rfl
              have hhi : (if c = 0xf4 then (0x8f : UInt8) else 0xbf).toNat = if c.toNat = 0xf4 then 0x8f else 0xbf := by
                by_cases e : c = 0xf4
                · subst e; rfl
                · have : c.toNat ≠ 0xf4 := fun x => e (UInt8.toNat_inj.1 x)
                  rw [if_neg e, if_neg this]; rfl
              have h2' := h2
              simp only [between, Bool.and_eq_true, decide_eq_true_eq, UInt8.le_iff_toNat_le, hlo, hhi] at h2 hb
              simp only [UInt8.reduceToNat] at h2 hb
              have hb1 : 128 ≤ b.toNat ∧ b.toNat ≤ 191 ∧ (c.toNat = 0xf0 → 144 ≤ b.toNat) ∧
                  (c.toNat = 0xf4 → b.toNat ≤ 143) ∧ 128 ≤ d.toNat ∧ d.toNat ≤ 191 ∧ 128 ≤ e.toNat ∧
                  e.toNat ≤ 191 := by
                split at hb <;> split at hb <;> omega
              clear hb h
              refine ⟨(c.toNat - 0xf0) * 262144 + (b.toNat - 0x80) * 4096 + (d.toNat - 0x80) * 64 + (e.toNat - 0x80),
                [c, b, d, e], q, rfl, by simp, rfl, ?_, ?_, by omega⟩
              · intro x
                simp only [List.cons_append, List.nil_append, decodeRune, hc, if_false]
                rw [if_neg h0, if_neg h1, if_pos h2', if_pos hb']
                rfl
              · unfold encodeRune
                rw [if_neg (by omega), if_neg (by omega),
                  if_neg (by omega),
                  if_pos (by omega), ofNat_eq (b := c) (by omega),
                  ofNat_eq (b := b) (by omega), ofNat_eq (b := d) (by omega),
                  ofNat_eq (b := e) (by omega)]
            · exact absurd (if_neg hb) h
          · exact absurd rfl h
        · exact absurd rfl h

theorem decode_ascii {c : UInt8} (s : Bytes) (hc : c < 128) : decodeRune (c :: s) = (c.toNat, 1) := by
  unfold decodeRune
  dsimp only
  rw [if_pos hc]

theorem map_ascii {c : UInt8} (n : Nat) (s : Bytes) (hc : c < 128) :
    mapRunes (fun r => r) (n + 1) (c :: s) = c :: mapRunes (fun r => r) n s := by
  have h : c.toNat < 128 := by simpa using UInt8.lt_iff_toNat_lt.1 hc
  rw [mapRunes, decode_ascii s hc]
  simp only
  rw [if_pos ⟨trivial, by omega⟩]
  rfl

theorem map_bad {c : UInt8} (n : Nat) (s : Bytes) (hd : decodeRune (c :: s) = (0xfffd, 1)) :
    mapRunes (fun r => r) (n + 1) (c :: s) = encodeRune 0xfffd ++ mapRunes (fun r => r) n s := by
  rw [mapRunes, hd]
  simp only
  rw [if_neg (by simp)]
  rfl

theorem map_rune {p q : Bytes} {r : Nat} (n : Nat) (hp : 2 ≤ p.length) (hd : decodeRune (p ++ q) = (r, p.length)) :
    mapRunes (fun r => r) (n + 1) (p ++ q) = p ++ mapRunes (fun r => r) n q := by
  cases p with
  | nil => simp at hp
  | cons c p =>
    rw [List.cons_append, mapRunes, ← List.cons_append, hd]
    simp only
    rw [if_pos ⟨trivial, by omega⟩]
    simp

theorem four_hex {a b c d : Nat} (ha : a < 16) (hb : b < 16) (hc : c < 16) (hd : d < 16) (x : Bytes) :
    four (Hex.digit a :: Hex.digit b :: Hex.digit c :: Hex.digit d :: x) =
      some (a * 4096 + b * 256 + c * 16 + d, x) := by
  have h : ∀ n, n < 16 → Hex.fromHexChar (Hex.digit n) = some n := fun n hn => Hex.fromHexChar_digit ⟨n, hn⟩
  simp [four, h _ ha, h _ hb, h _ hc, h _ hd]

theorem unquote_u (m : Nat) (s x : Bytes) (r : Nat) (h : four s = some (r, x)) (hr : ¬ (0xd800 ≤ r ∧ r < 0xdc00)) :
    unquote (m + 1) (92 :: 117 :: s) = before (encodeRune r) (unquote m x) := by
  conv => lhs; unfold unquote
  simp only [h]
  rw [if_neg (by decide), if_neg (by decide), if_pos trivial, if_pos trivial, if_neg hr]

theorem unquote_simple (m : Nat) (s : Bytes) (e b : UInt8) (he : e ≠ 117) (h : simple e = some b) :
    unquote (m + 1) (92 :: e :: s) = before [b] (unquote m s) := by
  conv => lhs; unfold unquote
  simp only [h]
  rw [if_neg (by decide), if_neg (by decide), if_pos trivial, if_neg he]

theorem before_some (b t r : Bytes) : before b (some (t, r)) = some (b ++ t, r) := rfl

/-- A byte below 128 is read back. -/
theorem unquote_byte (m : Nat) (c : UInt8) (hc : c < 128) (x : Bytes) :
    unquote (m + 1) (escByte c ++ x) = before [c] (unquote m x) := by
  have hn : c.toNat < 128 := by simpa using UInt8.lt_iff_toNat_lt.1 hc
  unfold escByte
  split
  · next h =>
    refine unquote_simple m x c c (by rintro rfl; exact absurd h (by decide)) ?_
    rcases h with rfl | rfl <;> rfl
  · next h1 =>
    split
    · next h => subst h; exact unquote_simple m x 110 10 (by decide) rfl
    · split
      · next h => subst h; exact unquote_simple m x 114 13 (by decide) rfl
      · split
        · next h => subst h; exact unquote_simple m x 116 9 (by decide) rfl
        · split
          · have h4 := four_hex (a := 0) (b := 0) (c := c.toNat / 16) (d := c.toNat % 16) (by omega) (by omega)
              (by omega) (by omega) x
            have e : 0 * 4096 + 0 * 256 + c.toNat / 16 * 16 + c.toNat % 16 = c.toNat := by omega
            rw [e] at h4
            have := unquote_u m _ x _ h4 (by omega)
            have er : encodeRune c.toNat = [c] := by simp [encodeRune, hn]
            rw [er] at this
            exact this
          · next h5 =>
            simp only [not_or] at h1 h5
            conv => lhs; unfold unquote
            simp only [List.cons_append, List.nil_append]
            rw [if_neg h1.1, if_neg h5.1, if_neg h1.2, if_pos hc]

/-- A string is read back as it was written, as far as it is valid UTF-8. -/
theorem unquote_escape (rest : Bytes) : ∀ (n : Nat) (s : Bytes) (m : Nat), s.length ≤ n →
    (escape n s).length < m → unquote m (escape n s ++ 34 :: rest) = some (mapRunes (fun r => r) n s, rest) := by
  intro n
  induction n with
  | zero =>
    intro s m _ hm
    cases m with
    | zero => omega
    | succ m => rfl
  | succ n ih =>
    intro s m hs hm
    cases m with
    | zero => omega
    | succ m =>
      cases s with
      | nil => rfl
      | cons c s =>
        simp only [List.length_cons] at hs
        by_cases hc : c < 128
        · have he : escape (n + 1) (c :: s) = escByte c ++ escape n s := by
            rw [escape, if_pos hc]
          have hl : 1 ≤ (escByte c).length := by
            unfold escByte
            repeat' split
            all_goals simp
          rw [he] at hm ⊢
          rw [List.length_append] at hm
          rw [List.append_assoc, unquote_byte m c hc, ih s m (by omega) (by omega), before_some, map_ascii n s hc]
          rfl
        · rcases rune_cases c s hc with hd | ⟨r, p, q, hpq, hp, hh, hd, her, hr⟩
          · have he : escape (n + 1) (c :: s) = [92, 117, 102, 102, 102, 100] ++ escape n s := by
              rw [escape, if_neg hc, hd]
              rfl
            rw [he] at hm ⊢
            rw [List.length_append] at hm
            have h4 : four ([102, 102, 102, 100] ++ (escape n s ++ 34 :: rest)) =
                some (0xfffd, escape n s ++ 34 :: rest) :=
              four_hex (a := 15) (b := 15) (c := 15) (d := 13) (by omega) (by omega) (by omega) (by omega) _
            have := unquote_u m _ _ _ h4 (by omega)
            rw [map_bad n s hd, List.append_assoc]
            refine this.trans ?_
            rw [ih s m (by omega) (by simp at hm; omega), before_some]
          · have hlen : q.length ≤ n := by
              have := congrArg List.length hpq
              simp at this
              omega
            rw [hpq, map_rune n hp (hd q)]
            have hne : p ++ q ≠ [] := by rw [← hpq]; simp
            have he : escape (n + 1) (p ++ q) =
                (if r = 0x2028 ∨ r = 0x2029 then [92, 117, 50, 48, 50, Hex.digit (r % 16)] else p) ++ escape n q := by
              rw [← hpq, escape, if_neg hc, hpq, hd q]
              simp only
              rw [if_neg (by omega)]
              simp
            rw [hpq, he] at hm
            rw [he]
            rw [List.length_append] at hm
            split at hm
            · next h28 =>
              rw [if_pos h28]
              have h4 : four ([50, 48, 50, Hex.digit (r % 16)] ++ (escape n q ++ 34 :: rest)) =
                  some (r, escape n q ++ 34 :: rest) := by
                have := four_hex (a := 2) (b := 0) (c := 2) (d := r % 16) (by omega) (by omega) (by omega) (by omega)
                  (escape n q ++ 34 :: rest)
                have e : 2 * 4096 + 0 * 256 + 2 * 16 + r % 16 = r := by omega
                rw [e] at this
                exact this
              have := unquote_u m _ _ _ h4 (by omega)
              rw [List.append_assoc]
              refine this.trans ?_
              rw [ih q m hlen (by simp at hm; omega), before_some, her]
            · next h28 =>
              rw [if_neg h28, List.append_assoc]
              cases p with
              | nil => simp at hp
              | cons c' p =>
                simp only [List.head?_cons, Option.some.injEq] at hh
                subst hh
                have h34 : c' ≠ 34 := by rintro rfl; exact hc (by decide)
                have h92 : c' ≠ 92 := by rintro rfl; exact hc (by decide)
                have h32 : ¬ c' < 32 := fun x => hc (UInt8.lt_trans x (by decide))
                have hd' := hd (escape n q ++ 34 :: rest)
                conv => lhs; unfold unquote
                rw [List.cons_append] at hd' ⊢
                simp only [hd']
                rw [if_neg h34, if_neg h32, if_neg h92, if_neg hc, her, ← List.cons_append, List.drop_left,
                  ih q m hlen (by simp at hm; omega), before_some]

end Verif.Admin
