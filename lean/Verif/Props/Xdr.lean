import Verif.Model.Xdr
import Mathlib.Tactic.Common

/-! # C23: wire encoding -/

namespace Verif.Xdr

open Verif

theorem beVal_append (a b : Bytes) : beVal (a ++ b) = 256 ^ b.length * beVal a + beVal b := by
  suffices ∀ acc : Nat, b.foldl (fun acc x => 256 * acc + x.toNat) acc = 256 ^ b.length * acc + beVal b by
    rw [beVal, List.foldl_append]; exact this _
  induction b with
  | nil => intro acc; simp [beVal]
  | cons x b ih =>
    intro acc
    have h1 := ih (256 * acc + x.toNat)
    have h2 := ih (256 * 0 + x.toNat)
    simp only [List.foldl_cons, List.length_cons, beVal] at *
    rw [h1, h2, Nat.pow_succ]
    generalize 256 ^ b.length = p
    rw [Nat.mul_add, Nat.mul_assoc]
    simp only [Nat.mul_zero, Nat.zero_add]
    omega

theorem beVal_be32 {n : Nat} (h : n < 2 ^ 32) : beVal (be32 n) = n := by
  simp only [beVal, be32, List.foldl_cons, List.foldl_nil, UInt8.toNat_ofNat']
  omega

theorem be32_length (n : Nat) : (be32 n).length = 4 := rfl

theorem beVal_be64 {n : Nat} (h : n < 2 ^ 64) : beVal (be64 n) = n := by
  rw [be64, beVal_append, be32_length, beVal_be32 (by omega), beVal_be32 (by omega)]
  omega

theorem be64_length (n : Nat) : (be64 n).length = 8 := rfl

theorem readFull_append {a : Bytes} {n : Nat} (h : a.length = n) (rest : Bytes) :
    readFull n (a ++ rest) = .ok a rest := by
  unfold readFull
  split
  · next h0 =>
    have : a = [] := List.length_eq_zero_iff.1 (by omega)
    subst this; rfl
  · next h0 =>
    rw [if_neg, if_neg]
    · subst h; simp
    · simp; omega
    · intro e
      have : (a ++ rest).length = 0 := by rw [e]; rfl
      simp at this
      have : a.length = 0 := by rw [this.1]; rfl
      omega

theorem readU32_be32 {n : Nat} (h : n < 2 ^ 32) (rest : Bytes) : readU32 (be32 n ++ rest) = .ok n rest := by
  rw [readU32, readFull_append (be32_length n)]
  simp [Res.bind, beVal_be32 h]

theorem readU64_be64 {n : Nat} (h : n < 2 ^ 64) (rest : Bytes) : readU64 (be64 n ++ rest) = .ok n rest := by
  rw [readU64, readFull_append (be64_length n)]
  simp [Res.bind, beVal_be64 h]

theorem padLen_zero : padLen 0 = 0 := rfl

theorem readFixed_encFixed (b rest : Bytes) : readFixed b.length (encFixed b ++ rest) = .ok b rest := by
  rw [readFixed]
  have hl : (encFixed b).length = if b.length = 0 then 0 else b.length + padLen b.length := by
    split
    · next h => simp [encFixed, h, padLen_zero]
    · simp [encFixed]
  rw [readFull_append hl]
  simp [Res.bind, encFixed]

theorem signed_mod {bits : Nat} {x : Int} (hb : bits = 32 ∨ bits = 64)
    (h : -2 ^ (bits - 1) ≤ x ∧ x < 2 ^ (bits - 1)) : signed bits (x % 2 ^ bits).toNat = x := by
  unfold signed
  rcases hb with rfl | rfl
  · simp only [Nat.reduceSub, Int.reducePow, Nat.reducePow] at h ⊢
    split <;> omega
  · simp only [Nat.reduceSub, Int.reducePow, Nat.reducePow] at h ⊢
    split <;> omega

theorem readMany_flatMap {α : Type} {f : Bytes → Res α} {e : α → Bytes} (l : List α)
    (h : ∀ v ∈ l, ∀ rest, f (e v ++ rest) = .ok v rest) (rest : Bytes) :
    readMany f l.length (l.flatMap e ++ rest) = .ok l rest := by
  induction l with
  | nil => rfl
  | cons v l ih =>
    rw [List.flatMap_cons, List.append_assoc, List.length_cons, readMany, h v (by simp)]
    simp only [Res.bind]
    rw [ih (fun x hx => h x (by simp [hx]))]

theorem not_tooLong {limit n : Nat} (h1 : n < 2 ^ 31) (h2 : limit ≠ 0 → n ≤ limit) :
    tooLong limit n = false := by
  unfold tooLong
  by_cases h0 : limit = 0
  · simp [h0]; omega
  · have := h2 h0
    simp; omega

/-- **C23**: every value that exists in Go decodes to itself, and exactly its encoding is consumed,
whatever follows. This holds for every message type (the definitions `Xdr.message`, `Xdr.cache`,
`Xdr.push`, ...). -/
theorem C23_roundtrip (limit : Nat) (t : Ty) (v : Val t) (h : Fits limit t v) (rest : Bytes) :
    dec limit t (enc t v ++ rest) = .ok v rest := by
  induction t generalizing rest with
  | u32 => exact readU32_be32 h rest
  | i32 =>
    have : (v % 2 ^ 32).toNat < 2 ^ 32 := by omega
    simp only [dec, enc, readU32_be32 this, Res.bind]
    rw [signed_mod (Or.inl rfl) h]
  | u64 => exact readU64_be64 h rest
  | i64 =>
    have : (v % 2 ^ 64).toNat < 2 ^ 64 := by omega
    simp only [dec, enc, readU64_be64 this, Res.bind]
    rw [signed_mod (Or.inr rfl) h]
  | bool =>
    have : (if v = true then 1 else 0) < 2 ^ 32 := by split <;> omega
    simp only [dec, enc, readU32_be32 this, Res.bind]
    cases v <;> simp
  | «opaque» =>
    have h1 : v.length < 2 ^ 32 := by have := h.1; omega
    simp only [dec, enc, List.append_assoc, readU32_be32 h1, Res.bind]
    rw [not_tooLong (by have := h.1; omega) h.2]
    exact readFixed_encFixed v rest
  | fixed n =>
    obtain ⟨b, rfl⟩ := v
    simp only [dec, enc, readFixed_encFixed, Res.bind, dite_true]
  | unit => rfl
  | pair a b iha ihb =>
    simp only [dec, enc, List.append_assoc, iha v.1 h.1, Res.bind, ihb v.2 h.2]
  | list a ih =>
    have h1 : v.length < 2 ^ 32 := by have := h.1; omega
    simp only [dec, enc, List.append_assoc, readU32_be32 h1, Res.bind]
    rw [not_tooLong h.1 h.2.1]
    exact readMany_flatMap v (fun x hx rest => ih x (h.2.2 x hx) rest) rest

/-! ### Prefixes -/

/-- A decoder that, having succeeded, is not influenced by what follows. -/
def Stable {α : Type} (f : Bytes → Res α) : Prop :=
  ∀ buf a rest x, f buf = .ok a rest → f (buf ++ x) = .ok a (rest ++ x)

theorem stable_readFull (n : Nat) : Stable (readFull n) := by
  intro buf a rest x h
  unfold readFull at h
  split at h
  · next h0 => cases h; simp [readFull, h0]
  · next h0 =>
    split at h
    · cases h
    · next hne =>
      split at h
      · cases h
      · next hl =>
        cases h
        rw [readFull, if_neg h0, if_neg (by simp [hne]), if_neg (by simp; omega)]
        rw [List.take_append_of_le_length (by omega), List.drop_append_of_le_length (by omega)]

theorem Stable.bind {α β : Type} {f : Bytes → Res α} {g : α → Bytes → Res β} (hf : Stable f)
    (hg : ∀ a, Stable (g a)) : Stable (fun buf => (f buf).bind g) := by
  intro buf b rest x h
  cases hfb : f buf with
  | ok a r =>
    simp only [hfb, Res.bind] at h
    simp only [hf buf a r x hfb, Res.bind]
    exact hg a r b rest x h
  | eof => simp [hfb, Res.bind] at h
  | unexpected => simp [hfb, Res.bind] at h
  | bad => simp [hfb, Res.bind] at h

theorem stable_ok {α : Type} (a : α) : Stable (fun r => Res.ok a r) := by
  intro buf b rest x h; cases h; rfl

theorem stable_bad {α : Type} : Stable (fun _ => (Res.bad : Res α)) := by
  intro buf b rest x h; cases h

theorem stable_u32 : Stable readU32 := (stable_readFull 4).bind (fun _ => stable_ok _)

theorem stable_u64 : Stable readU64 := (stable_readFull 8).bind (fun _ => stable_ok _)

theorem stable_fixed (n : Nat) : Stable (readFixed n) := (stable_readFull _).bind (fun _ => stable_ok _)

theorem stable_many {α : Type} {f : Bytes → Res α} (hf : Stable f) (n : Nat) : Stable (readMany f n) := by
  induction n with
  | zero => exact stable_ok _
  | succ n ih => exact hf.bind (fun a => ih.bind (fun l => stable_ok _))

theorem stable_dec (limit : Nat) (t : Ty) : Stable (dec limit t) := by
  induction t with
  | u32 => exact stable_u32
  | i32 => exact stable_u32.bind (fun _ => stable_ok _)
  | u64 => exact stable_u64
  | i64 => exact stable_u64.bind (fun _ => stable_ok _)
  | bool =>
    refine stable_u32.bind (fun n => ?_)
    by_cases h0 : n = 0
    · simp only [h0, if_true]; exact stable_ok _
    · by_cases h1 : n = 1
      · simp only [h1, if_true]; exact stable_ok _
      · simp only [h0, h1, if_false]; exact stable_bad
  | «opaque» =>
    refine stable_u32.bind (fun n => ?_)
    cases tooLong limit n
    · exact stable_fixed n
    · exact stable_bad
  | fixed n =>
    refine (stable_fixed n).bind (fun b => ?_)
    by_cases hb : b.length = n
    · simp only [hb, dite_true]; exact stable_ok _
    · simp only [hb, dite_false]; exact stable_bad
  | unit => exact stable_ok _
  | pair a b iha ihb => exact iha.bind (fun x => ihb.bind (fun y => stable_ok _))
  | list a ih =>
    refine stable_u32.bind (fun n => ?_)
    cases tooLong limit n
    · exact stable_many ih n
    · exact stable_bad

/-- **C23**: a strict prefix of an encoding never decodes successfully. -/
theorem C23_prefix_fails (limit : Nat) (t : Ty) (v : Val t) (h : Fits limit t v) (p x : Bytes)
    (hp : enc t v = p ++ x) (hx : x ≠ []) : ∀ v' rest, dec limit t p ≠ .ok v' rest := by
  intro v' rest hd
  have h1 := stable_dec limit t p v' rest x hd
  have h2 := C23_roundtrip limit t v h []
  rw [List.append_nil, hp, h1] at h2
  simp only [Res.ok.injEq, List.append_eq_nil_iff] at h2
  exact hx h2.2.2

/-- **C23**: different values have different encodings, and one encoding is never the beginning of
another, so a stream of messages is read in exactly one way. -/
theorem C23_prefix_free (limit : Nat) (t : Ty) (v w : Val t) (hv : Fits limit t v) (hw : Fits limit t w)
    (r s : Bytes) (h : enc t v ++ r = enc t w ++ s) : v = w ∧ r = s := by
  have h1 := C23_roundtrip limit t v hv r
  have h2 := C23_roundtrip limit t w hw s
  rw [h, h2] at h1
  simp only [Res.ok.injEq] at h1
  exact ⟨h1.1.symm, h1.2.symm⟩

/-- Encoding of several messages one after the other. -/
def encAll (ms : List ((t : Ty) × Val t)) : Bytes := ms.flatMap fun m => enc m.1 m.2

/-- Decoding messages of given types one after the other. -/
def decAll (limit : Nat) : List Ty → Bytes → Option (List ((t : Ty) × Val t) × Bytes)
  | [], buf => some ([], buf)
  | t :: ts, buf =>
    match dec limit t buf with
    | .ok v r => (decAll limit ts r).map fun q => (⟨t, v⟩ :: q.1, q.2)
    | _ => none

/-- **C23**: a header and payload (or any sequence of messages of known types) are read back in order. -/
theorem C23_sequence (limit : Nat) (ms : List ((t : Ty) × Val t)) (h : ∀ m ∈ ms, Fits limit m.1 m.2)
    (rest : Bytes) : decAll limit (ms.map Sigma.fst) (encAll ms ++ rest) = some (ms, rest) := by
  induction ms with
  | nil => rfl
  | cons m ms ih =>
    have hi := ih (fun x hx => h x (by simp [hx]))
    simp only [encAll, List.flatMap_cons, List.append_assoc, List.map_cons, decAll] at hi ⊢
    rw [C23_roundtrip limit m.1 m.2 (h m (by simp))]
    simp only [hi, Option.map_some]

/-- A message header with a negative time stamp and a tag, followed by a cached payload. -/
example : Fits 0 message ([99, 97, 99, 104, 101], -5, true, (7 : Nat)) := by
  simp only [message, struct, Fits]
  decide

example : enc message ([99, 97], -1, true, (7 : Nat)) =
    [0, 0, 0, 2, 99, 97, 0, 0, 255, 255, 255, 255, 255, 255, 255, 255, 0, 0, 0, 1, 0, 0, 0, 7] := by decide

example : Fits 0 groupList ([103], 5, 100, [⟨List.replicate 32 7, by decide⟩, ⟨List.replicate 32 9, by decide⟩]) := by
  simp only [groupList, struct, Fits]
  decide

example : dec 0 groupList (enc groupList ([103], 5, 100, [⟨List.replicate 32 7, by decide⟩]) ++ [1, 2]) =
    .ok ([103], 5, 100, [⟨List.replicate 32 7, by decide⟩]) [1, 2] :=
  C23_roundtrip _ _ _ (by simp only [groupList, struct, Fits]; decide) _

/-- **C23**: how a list of the members of a group is sent: the name, the generation, the time as 64 bits of which the first is
the sign, and the members, 32 bytes each. -/
theorem C23_group_list (name : Bytes) (gen : Nat) (time : Int) (members : List { b : Bytes // b.length = 32 }) :
    enc groupList (name, gen, time, members) =
      be32 name.length ++ (name ++ List.replicate (padLen name.length) 0) ++ be64 gen ++ be64 (time % 2 ^ 64).toNat ++
        be32 members.length ++ (members.map (·.1)).flatten := by
  have h : ∀ l : List { b : Bytes // b.length = 32 },
      l.flatMap (fun x => x.1 ++ List.replicate (padLen x.1.length) 0) = (l.map (·.1)).flatten := by
    intro l
    induction l with
    | nil => rfl
    | cons a l ih =>
      rw [List.flatMap_cons, ih, List.map_cons, List.flatten_cons, a.2]
      simp [padLen]
  simp only [groupList, struct, enc, encFixed, List.append_assoc]
  rw [h]

/-- A time before 1970. -/
example : enc groupList ([103, 104, 105, 106], (5 : Nat), (-2 : Int), []) = [0, 0, 0, 4, 103, 104, 105, 106, 0, 0, 0, 0, 0, 0, 0, 5,
    255, 255, 255, 255, 255, 255, 255, 254, 0, 0, 0, 0] := by decide

/-! ### What is read -/

/-- The size of a value on the wire: everything takes a multiple of four bytes (RFC 4506). -/
def wire : (t : Ty) → Val t → Nat
  | .u32, _ => 4
  | .i32, _ => 4
  | .u64, _ => 8
  | .i64, _ => 8
  | .bool, _ => 4
  | .opaque, b => 4 + 4 * ((b.length + 3) / 4)
  | .fixed n, _ => 4 * ((n + 3) / 4)
  | .unit, _ => 0
  | .pair a b, v => wire a v.1 + wire b v.2
  | .list a, l => 4 + (l.map (wire a)).sum

/-- The values that a decoder may give: numbers are in their ranges, and nothing is longer than the limit. -/
def Taken (limit : Nat) : (t : Ty) → Val t → Prop
  | .u32, n => n < 2 ^ 32
  | .i32, x => -2 ^ 31 ≤ x ∧ x < 2 ^ 31
  | .u64, n => n < 2 ^ 64
  | .i64, x => -2 ^ 63 ≤ x ∧ x < 2 ^ 63
  | .bool, _ => True
  | .opaque, b => b.length < 2 ^ 31 ∧ (limit ≠ 0 → b.length ≤ limit)
  | .fixed _, _ => True
  | .unit, _ => True
  | .pair a b, v => Taken limit a v.1 ∧ Taken limit b v.2
  | .list a, l => l.length < 2 ^ 31 ∧ (limit ≠ 0 → l.length ≤ limit) ∧ ∀ v ∈ l, Taken limit a v

theorem padded (n : Nat) : n + padLen n = 4 * ((n + 3) / 4) := by unfold padLen; omega

/-- **C23**: what a value takes on the wire. -/
theorem C23_size (t : Ty) (v : Val t) : (enc t v).length = wire t v := by
  induction t with
  | u32 => rfl
  | i32 => rfl
  | u64 => rfl
  | i64 => rfl
  | bool => rfl
  | «opaque» =>
    have := padded v.length
    simp only [enc, encFixed, wire, List.length_append, List.length_replicate, be32_length]
    omega
  | fixed n =>
    obtain ⟨b, rfl⟩ := v
    have := padded b.length
    simp only [enc, encFixed, wire, List.length_append, List.length_replicate]
    omega
  | unit => rfl
  | pair a b iha ihb => simp only [enc, wire, List.length_append, iha, ihb]
  | list a ih =>
    simp only [enc, wire, List.length_append, be32_length, List.length_flatMap]
    congr 2
    exact List.map_congr_left fun x _ => ih x

theorem bind_ok {α β : Type} {r : Res α} {f : α → Bytes → Res β} {b : β} {rest : Bytes} (h : r.bind f = .ok b rest) :
    ∃ a r', r = .ok a r' ∧ f a r' = .ok b rest := by
  cases r with
  | ok a r' => exact ⟨a, r', rfl, h⟩
  | eof => cases h
  | unexpected => cases h
  | bad => cases h

theorem readFull_ok {n : Nat} {buf b rest : Bytes} (h : readFull n buf = .ok b rest) : buf = b ++ rest ∧ b.length = n := by
  unfold readFull at h
  split at h
  · next h0 => cases h; exact ⟨rfl, h0.symm⟩
  · split at h
    · cases h
    · split at h
      · cases h
      · cases h
        exact ⟨(List.take_append_drop _ _).symm, by simp; omega⟩

theorem beVal_lt (b : Bytes) : beVal b < 256 ^ b.length := by
  induction b with
  | nil => simp [beVal]
  | cons x b ih =>
    have h1 : beVal (x :: b) = 256 ^ b.length * x.toNat + beVal b := by
      have := beVal_append [x] b
      simpa [beVal] using this
    have h2 : 256 ^ b.length * x.toNat ≤ 256 ^ b.length * 255 :=
      Nat.mul_le_mul_left _ (by have := x.toNat_lt; omega)
    rw [h1, List.length_cons, Nat.pow_succ]
    omega

theorem readU32_ok {buf rest : Bytes} {n : Nat} (h : readU32 buf = .ok n rest) :
    n < 2 ^ 32 ∧ ∃ used, buf = used ++ rest ∧ used.length = 4 := by
  obtain ⟨b, r, h1, h2⟩ := bind_ok h
  cases h2
  obtain ⟨h3, h4⟩ := readFull_ok h1
  have := beVal_lt b
  rw [h4] at this
  exact ⟨this, b, h3, h4⟩

theorem readU64_ok {buf rest : Bytes} {n : Nat} (h : readU64 buf = .ok n rest) :
    n < 2 ^ 64 ∧ ∃ used, buf = used ++ rest ∧ used.length = 8 := by
  obtain ⟨b, r, h1, h2⟩ := bind_ok h
  cases h2
  obtain ⟨h3, h4⟩ := readFull_ok h1
  have := beVal_lt b
  rw [h4] at this
  exact ⟨this, b, h3, h4⟩

theorem readFixed_ok {n : Nat} {buf b rest : Bytes} (h : readFixed n buf = .ok b rest) :
    b.length = n ∧ ∃ used, buf = used ++ rest ∧ used.length = 4 * ((n + 3) / 4) ∧ used.take n = b := by
  obtain ⟨c, r, h1, h2⟩ := bind_ok h
  cases h2
  obtain ⟨h3, h4⟩ := readFull_ok h1
  have := padded n
  have hl : c.length = n + padLen n := by
    rw [h4]; split
    · next h0 => subst h0; rfl
    · rfl
  exact ⟨by simp; omega, c, h3, by omega, rfl⟩

theorem tooLong_false {limit n : Nat} (h : ¬ tooLong limit n = true) : n < 2 ^ 31 ∧ (limit ≠ 0 → n ≤ limit) := by
  simp only [tooLong, Bool.or_eq_true, decide_eq_true_eq, Bool.and_eq_true, bne_iff_ne, ne_eq, not_or, not_and] at h
  refine ⟨by omega, fun h0 => ?_⟩
  have := h.2 h0
  omega

theorem signed_range (n : Nat) : (n < 2 ^ 32 → -2 ^ 31 ≤ signed 32 n ∧ signed 32 n < 2 ^ 31) ∧
    (n < 2 ^ 64 → -2 ^ 63 ≤ signed 64 n ∧ signed 64 n < 2 ^ 63) := by
  simp only [signed, Nat.reduceSub, Int.reducePow, Nat.reducePow, Int.reduceNeg]
  constructor
  · intro h; split <;> omega
  · intro h; split <;> omega

theorem readMany_ok {α : Type} {f : Bytes → Res α} {P : α → Prop} {size : α → Nat}
    (hf : ∀ buf a rest, f buf = .ok a rest → P a ∧ ∃ used, buf = used ++ rest ∧ used.length = size a) (n : Nat)
    (buf : Bytes) (l : List α) (rest : Bytes) (h : readMany f n buf = .ok l rest) :
    l.length = n ∧ (∀ a ∈ l, P a) ∧ ∃ used, buf = used ++ rest ∧ used.length = (l.map size).sum := by
  induction n generalizing buf l with
  | zero => cases h; exact ⟨rfl, by simp, [], rfl, rfl⟩
  | succ n ih =>
    obtain ⟨a, r, h1, h2⟩ := bind_ok h
    obtain ⟨m, r', h3, h4⟩ := bind_ok h2
    cases h4
    obtain ⟨p1, u1, q1, l1⟩ := hf _ _ _ h1
    obtain ⟨e2, p2, u2, q2, l2⟩ := ih _ _ h3
    refine ⟨by simp [e2], ?_, u1 ++ u2, by rw [q1, q2, List.append_assoc], by simp [l1, l2]⟩
    intro x hx
    rcases List.mem_cons.1 hx with rfl | hx
    · exact p1
    · exact p2 x hx

/-- **C23**: whatever bytes come, what is read from them is in its range and within the limit, and exactly as many bytes are
taken as its encoding has. -/
theorem C23_read (limit : Nat) (t : Ty) (buf : Bytes) (v : Val t) (rest : Bytes) (h : dec limit t buf = .ok v rest) :
    Taken limit t v ∧ ∃ used, buf = used ++ rest ∧ used.length = wire t v := by
  induction t generalizing buf rest with
  | u32 => exact readU32_ok h
  | i32 =>
    obtain ⟨n, r, h1, h2⟩ := bind_ok h
    cases h2
    obtain ⟨h3, h4⟩ := readU32_ok h1
    exact ⟨(signed_range n).1 h3, h4⟩
  | u64 => exact readU64_ok h
  | i64 =>
    obtain ⟨n, r, h1, h2⟩ := bind_ok h
    cases h2
    obtain ⟨h3, h4⟩ := readU64_ok h1
    exact ⟨(signed_range n).2 h3, h4⟩
  | bool =>
    obtain ⟨n, r, h1, h2⟩ := bind_ok h
    obtain ⟨h3, h4⟩ := readU32_ok h1
    split at h2
    · cases h2; exact ⟨trivial, h4⟩
    · split at h2
      · cases h2; exact ⟨trivial, h4⟩
      · cases h2
  | «opaque» =>
    obtain ⟨n, r, h1, h2⟩ := bind_ok h
    obtain ⟨h3, u, h4, h5⟩ := readU32_ok h1
    split at h2
    · cases h2
    · next hl =>
      obtain ⟨h6, u', h7, h8, -⟩ := readFixed_ok h2
      subst h6
      exact ⟨tooLong_false hl, u ++ u', by rw [h4, h7, List.append_assoc], by simp [wire, h5, h8]⟩
  | fixed n =>
    obtain ⟨b, r, h1, h2⟩ := bind_ok h
    obtain ⟨h6, u, h7, h8, -⟩ := readFixed_ok h1
    rw [dif_pos h6] at h2
    cases h2
    exact ⟨trivial, u, h7, h8⟩
  | unit => cases h; exact ⟨trivial, [], rfl, rfl⟩
  | pair a b iha ihb =>
    obtain ⟨x, r, h1, h2⟩ := bind_ok h
    obtain ⟨y, r', h3, h4⟩ := bind_ok h2
    cases h4
    obtain ⟨p1, u1, q1, l1⟩ := iha _ _ _ h1
    obtain ⟨p2, u2, q2, l2⟩ := ihb _ _ _ h3
    exact ⟨⟨p1, p2⟩, u1 ++ u2, by rw [q1, q2, List.append_assoc], by simp [wire, l1, l2]⟩
  | list a ih =>
    obtain ⟨n, r, h1, h2⟩ := bind_ok h
    obtain ⟨h3, u, h4, h5⟩ := readU32_ok h1
    split at h2
    · cases h2
    · next hl =>
      obtain ⟨rfl, p, u', h7, h8⟩ := readMany_ok (P := Taken limit a) (size := wire a) (fun b x r hx => ih b x r hx) _ _ _ _ h2
      exact ⟨⟨(tooLong_false hl).1, (tooLong_false hl).2, p⟩, u ++ u', by rw [h4, h7, List.append_assoc],
        by simp [wire, h5, h8]⟩

/-- Padding that is not zero is read all the same; what is over the limit is not. -/
example : dec 4 .opaque [0, 0, 0, 3, 7, 8, 9, 255, 1] = .ok [7, 8, 9] [1] ∧
    dec 2 .opaque [0, 0, 0, 3, 7, 8, 9, 255, 1] = .bad := by decide

end Verif.Xdr
