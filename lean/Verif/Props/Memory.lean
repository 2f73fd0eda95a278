import Verif.Model.Memory
import Verif.Props.Crpc

/-! # C137: what others send does not need more memory than its length explains -/

namespace Verif.Memory

open Verif Xdr Crpc

/-! ## With a limit -/

/-- The most that can be asked for: each text or slice is as long as the limit allows. -/
def bound (limit : Nat) : Ty → Nat
  | .opaque => limit + 3
  | .fixed n => n + 3
  | .pair a b => bound limit a + bound limit b
  | .list a => limit * goSize a + limit * bound limit a
  | _ => 0

theorem pad_le (n : Nat) : padLen n ≤ 3 := by
  unfold padLen
  omega

theorem allocMany_le {α : Type} {d : Bytes → Res α} {f : Bytes → Nat} {b : Nat} (h : ∀ buf, f buf ≤ b) :
    ∀ (n : Nat) (buf : Bytes), allocMany d f n buf ≤ n * b
  | 0, _ => Nat.zero_le _
  | n + 1, buf => by
    rw [allocMany]
    have h1 := h buf
    split
    · rename_i r _
      have h2 := allocMany_le (d := d) h n r
      rw [Nat.succ_mul]
      omega
    · rw [Nat.succ_mul]
      omega

/-- **C137** With a limit, what is asked for is bounded, whatever is sent. -/
theorem C137_bound (limit : Nat) (hl : limit ≠ 0) (t : Ty) : ∀ buf : Bytes, alloc limit t buf ≤ bound limit t := by
  induction t with
  | «opaque» =>
    intro buf
    rw [alloc, bound]
    split
    · split
      · exact Nat.zero_le _
      · rename_i n _ _ h
        have h1 := (tooLong_false h).2 hl
        have h2 := pad_le n
        omega
    · exact Nat.zero_le _
  | fixed n =>
    intro buf
    rw [alloc, bound]
    have := pad_le n
    omega
  | pair a b iha ihb =>
    intro buf
    rw [alloc, bound]
    have h1 := iha buf
    split
    · rename_i r _
      have h2 := ihb r
      omega
    · omega
  | list a iha =>
    intro buf
    rw [alloc, bound]
    split
    · split
      · exact Nat.zero_le _
      · rename_i n r _ h
        have h1 := (tooLong_false h).2 hl
        have h2 := allocMany_le (d := dec limit a) iha n r
        have h3 := Nat.mul_le_mul_right (goSize a) h1
        have h4 := Nat.mul_le_mul_right (bound limit a) h1
        omega
    · exact Nat.zero_le _
  | _ => intro buf; simp [alloc]

/-- **C137** The server asks for less than 800000 bytes for anything that it reads from anybody, whatever is sent. -/
theorem C137_server (t : Ty) (ht : t ∈ serverTypes) (buf : Bytes) : alloc 263168 t buf < 800000 := by
  refine Nat.lt_of_le_of_lt (C137_bound 263168 (by decide) t buf) ?_
  have : ∀ t ∈ serverTypes, bound 263168 t < 800000 := by
    simp only [serverTypes, List.mem_cons, List.not_mem_nil, or_false, forall_eq_or_imp, forall_eq]
    decide
  exact this t ht

/-! ## What can be read -/

/-- How many bytes of memory there are to a byte that was sent: one, and four more for each slice around it. -/
def factor : Ty → Nat
  | .pair a b => max (factor a) (factor b)
  | .list a => factor a + 4
  | _ => 1

/-- A value takes at least a quarter of the room on the wire that it takes as an element of a slice. -/
theorem goSize_le (t : Ty) : ∀ {v : Val t}, goSize t ≤ 4 * wire t v := by
  induction t with
  | pair a b iha ihb =>
    intro v
    have h1 := @iha v.1
    have h2 := @ihb v.2
    simp only [goSize, wire]
    omega
  | fixed n => intro v; simp only [goSize, wire]; omega
  | _ => intro v; simp only [goSize, wire]; omega

theorem allocMany_ok {α : Type} {d : Bytes → Res α} {f : Bytes → Nat} {size : α → Nat} {k g : Nat}
    (h : ∀ buf v rest, d buf = .ok v rest → f buf ≤ k * size v ∧ g ≤ 4 * size v) :
    ∀ (n : Nat) (buf : Bytes) (l : List α) (rest : Bytes), readMany d n buf = .ok l rest →
      n * g + allocMany d f n buf ≤ (k + 4) * (l.map size).sum
  | 0, buf, l, rest, e => by
    cases e
    simp [allocMany]
  | n + 1, buf, l, rest, e => by
    obtain ⟨a, r, h1, h2⟩ := bind_ok e
    obtain ⟨m, r', h3, h4⟩ := bind_ok h2
    cases h4
    obtain ⟨h5, h6⟩ := h _ _ _ h1
    have h7 := allocMany_ok h n r m _ h3
    rw [allocMany, h1]
    simp only [List.map_cons, List.sum_cons, Nat.mul_add, Nat.succ_mul] at *
    omega

/-- **C137** What can be read at all needs no more memory than `factor` times the bytes that were taken for it, with a limit or
without. -/
theorem C137_used (limit : Nat) (t : Ty) : ∀ (buf : Bytes) (v : Val t) (rest : Bytes), dec limit t buf = .ok v rest →
    alloc limit t buf ≤ factor t * (buf.length - rest.length) := by
  have key : ∀ (buf : Bytes) (v : Val t) (rest : Bytes), dec limit t buf = .ok v rest →
      alloc limit t buf ≤ factor t * wire t v := by
    induction t with
    | «opaque» =>
      intro buf v rest h
      obtain ⟨n, r, h1, h2⟩ := bind_ok h
      have hw : v.length = n ∨ tooLong limit n = true := by
        split at h2
        · exact .inr ‹_›
        · exact .inl (readFixed_ok h2).1
      simp only [alloc, h1, factor, wire]
      split
      · exact Nat.zero_le _
      · rename_i ht
        have hv : v.length = n := hw.resolve_right ht
        rw [padded n, hv]
        omega
    | fixed n =>
      intro buf v rest _
      simp only [alloc, factor, wire, padded]
      omega
    | pair a b iha ihb =>
      intro buf v rest h
      obtain ⟨x, r, h1, h2⟩ := bind_ok h
      obtain ⟨y, r', h3, h4⟩ := bind_ok h2
      cases h4
      have h5 := iha _ _ _ h1
      have h6 := ihb _ _ _ h3
      simp only [alloc, h1, factor, wire]
      have h7 := Nat.mul_le_mul_right (wire a x) (Nat.le_max_left (factor a) (factor b))
      have h8 := Nat.mul_le_mul_right (wire b y) (Nat.le_max_right (factor a) (factor b))
      rw [Nat.mul_add]
      omega
    | list a iha =>
      intro buf v rest h
      obtain ⟨n, r, h1, h2⟩ := bind_ok h
      simp only [alloc, h1, factor, wire]
      split
      · exact Nat.zero_le _
      · rename_i ht
        rw [if_neg ht] at h2
        have h3 := allocMany_ok (f := alloc limit a) (size := wire a) (k := factor a) (g := goSize a)
          (fun buf v rest e => ⟨iha buf v rest e, goSize_le a⟩) n r v rest h2
        rw [Nat.mul_add]
        omega
    | _ => intro buf v rest _; simp [alloc]
  intro buf v rest h
  obtain ⟨_, used, h1, h2⟩ := C23_read limit t buf v rest h
  have h3 := key buf v rest h
  have : buf.length - rest.length = wire t v := by rw [h1, List.length_append, h2]; omega
  rw [this]
  exact h3

/-- What a value takes: its texts and bytes, rounded up to a multiple of four, and for each of its slices `elem` for an
element. -/
def cost (elem : Ty → Nat) : (t : Ty) → Val t → Nat
  | .opaque, b => 4 * ((b.length + 3) / 4)
  | .fixed n, _ => 4 * ((n + 3) / 4)
  | .pair a b, v => cost elem a v.1 + cost elem b v.2
  | .list a, l => l.length * elem a + (l.map (cost elem a)).sum
  | _, _ => 0

theorem allocMany_eq {α : Type} {d : Bytes → Res α} {f : Bytes → Nat} {size : α → Nat}
    (h : ∀ buf v rest, d buf = .ok v rest → f buf = size v) :
    ∀ (n : Nat) (buf : Bytes) (l : List α) (rest : Bytes), readMany d n buf = .ok l rest →
      l.length = n ∧ allocMany d f n buf = (l.map size).sum
  | 0, buf, l, rest, e => by
    cases e
    exact ⟨rfl, rfl⟩
  | n + 1, buf, l, rest, e => by
    obtain ⟨a, r, h1, h2⟩ := bind_ok e
    obtain ⟨m, r', h3, h4⟩ := bind_ok h2
    cases h4
    obtain ⟨h5, h6⟩ := allocMany_eq h n r m _ h3
    refine ⟨by rw [List.length_cons, h5], ?_⟩
    rw [allocMany, h1]
    simp only [List.map_cons, List.sum_cons, h _ _ _ h1, h6]

/-- **C137** What can be read asks for just what the value takes. -/
theorem C137_exact (limit : Nat) (t : Ty) : ∀ (buf : Bytes) (v : Val t) (rest : Bytes), dec limit t buf = .ok v rest →
    alloc limit t buf = cost goSize t v := by
  induction t with
  | «opaque» =>
    intro buf v rest h
    obtain ⟨n, r, h1, h2⟩ := bind_ok h
    split at h2
    · cases h2
    · rename_i ht
      have hv : v.length = n := (readFixed_ok h2).1
      simp only [alloc, h1, if_neg ht, cost, hv, padded]
  | fixed n =>
    intro buf v rest _
    simp only [alloc, cost, padded]
  | pair a b iha ihb =>
    intro buf v rest h
    obtain ⟨x, r, h1, h2⟩ := bind_ok h
    obtain ⟨y, r', h3, h4⟩ := bind_ok h2
    cases h4
    simp only [alloc, h1, cost, iha _ _ _ h1, ihb _ _ _ h3]
  | list a iha =>
    intro buf v rest h
    obtain ⟨n, r, h1, h2⟩ := bind_ok h
    split at h2
    · cases h2
    · rename_i ht
      obtain ⟨h3, h4⟩ := allocMany_eq (f := alloc limit a) (size := cost goSize a) iha n r v rest h2
      simp only [alloc, h1, if_neg ht, cost, h3, h4]
  | _ => intro buf v rest _; rfl

/-- What the elements of the slices of the protocol take: names, identities, and the settings in the welcome. -/
theorem C137_elements : goSize .opaque = 16 ∧ goSize (.fixed 32) = 32 ∧ goSize serverProperty = 33 := by decide

/-- **C137** A message of a contact that can be read makes the client ask for what its command, its compression and its
contents take, and nothing else. -/
theorem C137_message (z : Zlib) (now : Int) (cmd comp body rd rest' : Bytes) (hn : -2 ^ 63 ≤ now ∧ now < 2 ^ 63)
    (hc : cmd.length ≤ 1000) (hk : comp.length ≤ 1000) (t : Ty) (v : Val t) (ht : tyOf cmd = some t)
    (hr : reader z comp body = some (some rd)) (hd : dec 0 t rd = .ok v rest') :
    handled z (.plain (enc Xdr.crpc (now, cmd, comp) ++ body)) =
      4 * ((cmd.length + 3) / 4) + 4 * ((comp.length + 3) / 4) + cost goSize t v := by
  have h1 : dec 0 Xdr.crpc (enc Xdr.crpc (now, cmd, comp) ++ body) = .ok (now, cmd, comp) body :=
    C23_roundtrip 0 Xdr.crpc (now, cmd, comp)
      ⟨hn, ⟨by show cmd.length + 3 < 2 ^ 31; omega, fun h => absurd rfl h⟩,
        ⟨by show comp.length + 3 < 2 ^ 31; omega, fun h => absurd rfl h⟩⟩ body
  have h2 := C137_exact 0 Xdr.crpc _ _ _ h1
  rw [handled, h1]
  simp only [hr, ht]
  rw [C137_exact 0 t _ _ _ hd, h2]
  show 0 + (4 * ((cmd.length + 3) / 4) + 4 * ((comp.length + 3) / 4)) + _ = _
  omega

theorem decodeCall_iff (buf : Bytes) (t : Ty) (f : Val t → Call) :
    decodeCall (some buf) t f ≠ .err .invalidCommand ∧
    ((∃ c, decodeCall (some buf) t f = .ok c) ↔ ∃ v rest, dec 0 t buf = .ok v rest) := by
  rw [decodeCall]
  cases h : dec 0 t buf with
  | ok v r => exact ⟨by simp, ⟨fun _ => ⟨v, r, rfl⟩, fun _ => ⟨_, rfl⟩⟩⟩
  | _ => exact ⟨by simp, ⟨fun ⟨c, hc⟩ => (by cases hc), fun ⟨v, r, hv⟩ => (by cases hv)⟩⟩

/-- An answer of `dispatch` and a type belong together. -/
def Agree (buf : Bytes) (d : Outcome PushError Call) (o : Option Ty) : Prop :=
  (d = .err .invalidCommand ↔ o = none) ∧
    ∀ t, o = some t → ((∃ c, d = .ok c) ↔ ∃ v rest, dec 0 t buf = .ok v rest)

theorem agree_if (buf cmd c : Bytes) (t : Ty) (f : Val t → Call) {d : Outcome PushError Call} {o : Option Ty}
    (h : Agree buf d o) :
    Agree buf (if cmd = c then decodeCall (some buf) t f else d) (if cmd = c then some t else o) := by
  by_cases hc : cmd = c
  · rw [if_pos hc, if_pos hc]
    exact ⟨⟨fun h => absurd h (decodeCall_iff buf t f).1, fun h => by cases h⟩,
      fun t' h' => by cases h'; exact (decodeCall_iff buf t f).2⟩
  · rw [if_neg hc, if_neg hc]
    exact h

/-- **C137** The types that are counted are those by which the client reads (C25): commands without a type are refused, and a
message is handled just if what is in it can be read with the type of its command. -/
theorem C137_same (cmd buf : Bytes) :
    (dispatch cmd (some buf) = .err .invalidCommand ↔ tyOf cmd = none) ∧
    ∀ t, tyOf cmd = some t → ((∃ c, dispatch cmd (some buf) = .ok c) ↔ ∃ v rest, dec 0 t buf = .ok v rest) := by
  have h : Agree buf (.err .invalidCommand) none := ⟨⟨fun _ => rfl, fun _ => rfl⟩, fun t h => by cases h⟩
  unfold dispatch tyOf
  iterate 12 refine agree_if buf cmd _ _ _ ?_
  exact h

/-- **C137** Of a message with a command that nobody knows only the command and the compression are read. -/
theorem C137_unknown (z : Zlib) (now : Int) (cmd comp body : Bytes) (hn : -2 ^ 63 ≤ now ∧ now < 2 ^ 63)
    (hc : cmd.length ≤ 1000) (hk : comp.length ≤ 1000) (ht : tyOf cmd = none) :
    handled z (.plain (enc Xdr.crpc (now, cmd, comp) ++ body)) =
      4 * ((cmd.length + 3) / 4) + 4 * ((comp.length + 3) / 4) := by
  have h1 : dec 0 Xdr.crpc (enc Xdr.crpc (now, cmd, comp) ++ body) = .ok (now, cmd, comp) body :=
    C23_roundtrip 0 Xdr.crpc (now, cmd, comp)
      ⟨hn, ⟨by show cmd.length + 3 < 2 ^ 31; omega, fun h => absurd rfl h⟩,
        ⟨by show comp.length + 3 < 2 ^ 31; omega, fun h => absurd rfl h⟩⟩ body
  have h2 := C137_exact 0 Xdr.crpc _ _ _ h1
  rw [handled, h1]
  have h3 : ∀ r : Option (Option Bytes), (match r, tyOf cmd with
      | some (some rd), some t => alloc 0 Xdr.crpc (enc Xdr.crpc (now, cmd, comp) ++ body) + alloc 0 t rd
      | _, _ => alloc 0 Xdr.crpc (enc Xdr.crpc (now, cmd, comp) ++ body)) =
      alloc 0 Xdr.crpc (enc Xdr.crpc (now, cmd, comp) ++ body) := by
    intro r
    rw [ht]
    rcases r with _ | _ | _ <;> rfl
  refine (h3 _).trans (h2.trans ?_)
  show 0 + (4 * ((cmd.length + 3) / 4) + 4 * ((comp.length + 3) / 4)) = _
  omega

/-! ## The client -/

theorem alloc_opaque {n : Nat} (h : n < 2 ^ 31) (rest : Bytes) : n ≤ alloc 0 .opaque (be32 n ++ rest) := by
  rw [alloc, readU32_be32 (by omega)]
  have : tooLong 0 n = false := by simp [tooLong]; omega
  simp only [this, Bool.false_eq_true, if_false]
  omega

theorem alloc_list {n : Nat} (h : n < 2 ^ 31) (a : Ty) (rest : Bytes) :
    n * goSize a ≤ alloc 0 (.list a) (be32 n ++ rest) := by
  rw [alloc, readU32_be32 (by omega)]
  have : tooLong 0 n = false := by simp [tooLong]; omega
  simp only [this, Bool.false_eq_true, if_false]
  omega

/-- **C137** Violated: eight bytes that anybody who has an account sends without encrypting them make the client ask for any
amount below two gigabytes. -/
theorem C137_stranger_violated (z : Zlib) (n : Nat) (h : n < 2 ^ 31) :
    ∃ p : Bytes, p.length = 8 ∧ n ≤ handled z (.clear p) := by
  refine ⟨be32 0 ++ be32 n, by simp [be32], ?_⟩
  have h1 := alloc_opaque h []
  rw [List.append_nil] at h1
  rw [handled, show proxyCmd = .pair .u32 .opaque from rfl]
  have h2 : dec 0 .u32 (be32 0 ++ be32 n) = .ok (0 : Nat) (be32 n) := readU32_be32 (by decide) _
  rw [alloc, h2]
  show n ≤ alloc 0 .u32 _ + alloc 0 .opaque (be32 n)
  omega

/-- **C137** Violated: so do the first twelve bytes of a message from a contact, of which nothing can be read: the length of
its command is enough. -/
theorem C137_header_violated (z : Zlib) (n : Nat) (h0 : 0 < n) (h : n < 2 ^ 31) (time : Int)
    (ht : -2 ^ 63 ≤ time ∧ time < 2 ^ 63) :
    (enc .i64 time ++ be32 n).length = 12 ∧
    handled z (.plain (enc .i64 time ++ be32 n)) = 4 * ((n + 3) / 4) ∧
    receive z (enc .i64 time ++ be32 n) = .err .unmarshalCrpc := by
  have e1 : dec 0 .i64 (enc .i64 time ++ be32 n) = .ok time (be32 n) := C23_roundtrip 0 .i64 time ht (be32 n)
  have e2 : readU32 (be32 n) = .ok n [] := by
    have := readU32_be32 (n := n) (by omega) []
    rwa [List.append_nil] at this
  have hf : tooLong 0 n = false := by simp [tooLong]; omega
  have e3 : ∀ v r, dec 0 .opaque (be32 n) ≠ .ok v r := by
    intro v r hd
    have h1 := C137_used 0 .opaque (be32 n) v r hd
    rw [alloc, e2] at h1
    simp only [hf, Bool.false_eq_true, if_false, factor, Nat.one_mul] at h1
    obtain ⟨_, used, h2, h3⟩ := C23_read 0 .opaque (be32 n) v r hd
    have h4 : (be32 n).length = 4 := by simp [be32]
    obtain ⟨m, r', h5, h6⟩ := bind_ok hd
    rw [e2] at h5
    cases h5
    rw [if_neg (by simp [hf])] at h6
    have h7 := (readFixed_ok h6).1
    simp only [wire, h7] at h3
    rw [h2, List.length_append] at h4
    omega
  have e4 : ∀ v r, dec 0 Xdr.crpc (enc .i64 time ++ be32 n) ≠ .ok v r := by
    intro v r hd
    have hd' : dec 0 (.pair .i64 (.pair .opaque .opaque)) (enc .i64 time ++ be32 n) = .ok v r := hd
    obtain ⟨x, r1, h1, h2⟩ := bind_ok hd'
    rw [e1] at h1
    cases h1
    obtain ⟨y, r2, h3, h4⟩ := bind_ok h2
    obtain ⟨a, r3, h5, h6⟩ := bind_ok h3
    exact e3 _ _ h5
  have e5 : alloc 0 Xdr.crpc (enc .i64 time ++ be32 n) = 4 * ((n + 3) / 4) := by
    show alloc 0 (.pair .i64 (.pair .opaque .opaque)) (enc .i64 time ++ be32 n) = _
    rw [alloc, e1]
    simp only
    rw [alloc]
    have h1 : alloc 0 .opaque (be32 n) = 4 * ((n + 3) / 4) := by
      rw [alloc, e2]
      simp only [hf, Bool.false_eq_true, if_false]
      exact padded n
    cases h2 : dec 0 .opaque (be32 n) with
    | ok v r => exact absurd h2 (e3 v r)
    | _ => simp only [h1]; simp [alloc]
  refine ⟨by simp [enc, be64, be32], ?_, ?_⟩
  · rw [handled]
    cases h2 : dec 0 Xdr.crpc (enc .i64 time ++ be32 n) with
    | ok v r => exact absurd h2 (e4 v r)
    | _ => exact e5
  · rw [receive]
    cases h2 : dec 0 Xdr.crpc (enc .i64 time ++ be32 n) with
    | ok v r => exact absurd h2 (e4 v r)
    | _ => rfl

/-- What is asked for on account of a command that is not compressed. -/
theorem handled_plain (z : Zlib) {cmd : Bytes} (hc : cmd.length ≤ 20) {t : Ty} (ht : tyOf cmd = some t) (body : Bytes) :
    alloc 0 t body ≤ handled z (.plain (enc Xdr.crpc ((0 : Int), cmd, compNone) ++ body)) := by
  have h1 := dec_header (now := 0) (by decide) hc (comp := compNone) (by decide) body
  rw [handled, h1]
  have h2 : reader z compNone body = some (some body) := by simp [reader]
  simp only [h2, ht]
  omega

/-- **C137** Violated: a message of 28 bytes from a contact makes the client ask for any amount below two gigabytes. -/
theorem C137_contact_violated (z : Zlib) (n : Nat) (h : n < 2 ^ 31) :
    ∃ d : Bytes, d.length = 28 ∧ n ≤ handled z (.plain d) := by
  refine ⟨enc Xdr.crpc ((0 : Int), cmdPrivateMessage, compNone) ++ be32 n, ?_, ?_⟩
  · rw [List.length_append]
    have : (enc Xdr.crpc ((0 : Int), cmdPrivateMessage, compNone)).length = 24 := by decide
    rw [this]
    simp [be32]
  · refine Nat.le_trans ?_ (handled_plain z (by decide) (t := Xdr.privateMessage) rfl (be32 n))
    have h1 := alloc_opaque h []
    rw [List.append_nil] at h1
    show n ≤ alloc 0 (.pair .opaque .u32) _
    rw [alloc]
    split <;> omega

/-- **C137** Violated: a message of 52 bytes about a group makes it ask for any multiple of 32 bytes below 64 gigabytes. -/
theorem C137_group_violated (z : Zlib) (n : Nat) (h : n < 2 ^ 31) :
    ∃ d : Bytes, d.length = 52 ∧ n * 32 ≤ handled z (.plain d) := by
  refine ⟨enc Xdr.crpc ((0 : Int), cmdGroupList, compNone) ++
    (be32 0 ++ List.replicate 16 0 ++ be32 n), ?_, ?_⟩
  · rw [List.length_append]
    have : (enc Xdr.crpc ((0 : Int), cmdGroupList, compNone)).length = 28 := by decide
    rw [this]
    simp [be32]
  · refine Nat.le_trans ?_ (handled_plain z (by decide) (t := Xdr.groupList) rfl _)
    have h1 := alloc_list h (.fixed 32) []
    rw [List.append_nil] at h1
    show n * 32 ≤ alloc 0 (.pair .opaque (.pair .u64 (.pair .i64 (.list (.fixed 32))))) _
    have e1 : dec 0 .opaque (be32 0 ++ List.replicate 16 0 ++ be32 n) = .ok [] (List.replicate 16 0 ++ be32 n) := by
      rfl
    have e2 : dec 0 .u64 (List.replicate 16 0 ++ be32 n) = .ok (0 : Nat) (List.replicate 8 0 ++ be32 n) := by
      rfl
    have e3 : dec 0 .i64 (List.replicate 8 0 ++ be32 n) = .ok (0 : Int) (be32 n) := by
      rfl
    simp only [alloc, e1, e2, e3] at h1 ⊢
    simp only [goSize] at h1 ⊢
    omega

/-! ## What becomes of the client -/

/-- Messages that come from nobody but contacts: they are encrypted. -/
def In.Encrypted : In → Prop
  | .clear _ => False
  | _ => True

/-- A message that the ratchet can decrypt. -/
def In.fresh : In → Nat
  | .plain _ => 1
  | _ => 0

/-- How many messages come that the ratchet can decrypt. -/
def come : List Ev → Nat
  | [] => 0
  | .deliver m :: es => m.fresh + come es
  | _ :: es => come es

/-- **C137** A message that is encrypted ends the client at most once: however often it is started, it ends no more often than
there are such messages. -/
theorem C137_once_partial (z : Zlib) (mem : Nat) (es : List Ev) (he : ∀ m, Ev.deliver m ∈ es → m.Encrypted) (s : Box)
    (hs : ∀ m ∈ s.box, m.Encrypted) :
    (run z mem s es).ended + ((run z mem s es).box.map In.fresh).sum ≤ s.ended + (s.box.map In.fresh).sum + come es := by
  induction es generalizing s with
  | nil => exact Nat.le_refl _
  | cons e es ih =>
    have he' : ∀ m, Ev.deliver m ∈ es → m.Encrypted := fun m h => he m (List.mem_cons_of_mem _ h)
    cases e with
    | deliver m =>
      have h := ih he' (step z mem s (.deliver m)) (by
        intro x hx
        rcases List.mem_append.1 hx with hx | hx
        · exact hs x hx
        · rw [List.mem_singleton.1 hx]; exact he m (List.mem_cons_self ..))
      refine Nat.le_trans h ?_
      simp only [step, come, List.map_append, List.sum_append, List.map_cons, List.map_nil, List.sum_cons, List.sum_nil]
      omega
    | start => exact ih he' (step z mem s .start) hs
    | next =>
      by_cases hr : s.runs = true
      case neg =>
        have e1 : step z mem s .next = s := by simp [step, hr]
        have h := ih he' s hs
        rw [run, List.foldl_cons, e1]
        exact h
      case pos =>
        cases hb : s.box with
        | nil =>
          have e1 : step z mem s .next = s := by simp [step, hb]
          have h := ih he' s hs
          rw [run, List.foldl_cons, e1, ← hb]
          exact h
        | cons m r =>
          by_cases hE : Ends z mem m
          · have e1 : step z mem s .next = { s with box := left m :: r, runs := false, ended := s.ended + 1 } := by
              simp [step, hb, hr, hE]
            have hm : m.Encrypted := hs m (by rw [hb]; exact List.mem_cons_self ..)
            have hl : (left m).Encrypted := by cases m <;> exact hm
            have h := ih he' (step z mem s .next) (by
              rw [e1]
              intro x hx
              rcases List.mem_cons.1 hx with rfl | hx
              · exact hl
              · exact hs x (by rw [hb]; exact List.mem_cons_of_mem _ hx))
            rw [run, List.foldl_cons]
            refine Nat.le_trans h ?_
            rw [e1]
            have hf : (left m).fresh + 1 ≤ m.fresh := by
              cases m with
              | clear p => exact hm.elim
              | plain d => exact Nat.le_refl _
              | stale =>
                rcases hE with hE | ⟨d, hd, _⟩
                · exact absurd hE (Nat.not_lt_zero _)
                · cases hd
            simp only [List.map_cons, List.sum_cons, come]
            omega
          · have e1 : step z mem s .next = { s with box := r, done := s.done ++ [m] } := by
              simp [step, hb, hr, hE]
            have h := ih he' (step z mem s .next) (by
              rw [e1]
              exact fun x hx => hs x (by rw [hb]; exact List.mem_cons_of_mem _ hx))
            rw [run, List.foldl_cons]
            refine Nat.le_trans h ?_
            rw [e1]
            simp only [List.map_cons, List.sum_cons, come]
            omega

/-- **C137** A message that does not end the client is acknowledged when its turn comes. -/
theorem C137_handled_partial (z : Zlib) (mem : Nat) (s : Box) (m : In) (r : List In) (hr : s.runs = true)
    (hb : s.box = m :: r) (h : ¬ Ends z mem m) :
    step z mem s .next = { s with box := r, done := s.done ++ [m] } := by
  simp [step, hb, hr, h]

/-- **C137** Violated: if the client is given less than two gigabytes, then anybody who has an account can send eight bytes
after which nothing is ever acknowledged again, whatever comes and however often the client is started; and each time that it
is started and asks for messages it ends. -/
theorem C137_for_good_violated (z : Zlib) (mem : Nat) (h : mem < 2 ^ 31 - 1) :
    ∃ p : Bytes, p.length = 8 ∧ ∀ (s : Box), s.box.head? = some (.clear p) →
      (∀ es, (run z mem s es).box.head? = some (.clear p) ∧ (run z mem s es).done = s.done) ∧
      ∀ es, (run z mem s (es ++ [.start, .next])).runs = false := by
  obtain ⟨p, hp, hn⟩ := C137_stranger_violated z (mem + 1) (by omega)
  have hE : Ends z mem (.clear p) := .inl (by omega)
  refine ⟨p, hp, fun s hs => ?_⟩
  have key : ∀ es (s : Box), s.box.head? = some (.clear p) →
      (run z mem s es).box.head? = some (.clear p) ∧ (run z mem s es).done = s.done := by
    intro es
    induction es with
    | nil => exact fun s h => ⟨h, rfl⟩
    | cons e es ih =>
      intro s hs
      cases hb : s.box with
      | nil => rw [hb] at hs; cases hs
      | cons m r =>
        have hm : m = .clear p := by rw [hb] at hs; exact Option.some.inj hs
        subst hm
        have : (step z mem s e).box.head? = some (.clear p) ∧ (step z mem s e).done = s.done := by
          cases e with
          | deliver m => simp [step, hb]
          | start => exact ⟨hs, rfl⟩
          | next =>
            by_cases hr : s.runs = true
            · simp [step, hb, hr, hE, left]
            · simp [step, hb, hr]
        have h2 := ih _ this.1
        exact ⟨h2.1, h2.2.trans this.2⟩
  refine ⟨fun es => key es s hs, fun es => ?_⟩
  have h1 := (key es s hs).1
  rw [run, List.foldl_append]
  show (step z mem (step z mem (run z mem s es) .start) .next).runs = false
  cases hb : (run z mem s es).box with
  | nil => rw [hb] at h1; cases h1
  | cons m r =>
    have hm : m = .clear p := by rw [hb] at h1; exact Option.some.inj h1
    subst hm
    simp [step, hb, hE]

/-! ## Instances -/

/-- A message to create an account asks for what it has. -/
example : alloc 263168 .opaque (be32 5 ++ [104, 101, 108, 108, 111, 0, 0, 0]) = 8 ∧
    alloc 263168 .opaque (be32 263169) = 0 ∧ alloc 263168 .opaque (be32 263168) = 263168 ∧
    alloc 0 .opaque (be32 2147483647) = 2147483648 := by decide

/-- A text from a contact is handled in 16 bytes. -/
example : handled toy (.plain (enc Xdr.crpc ((0 : Int), cmdPrivateMessage, compNone) ++
    enc Xdr.privateMessage ([104, 101, 108, 108, 111], (0 : Nat)))) = 16 := by decide

/-- What a contact sends with a broken compression ends the client once, and then it is acknowledged. -/
example : ∃ m, m.Encrypted ∧ Ends toy 1000000 m ∧
    run toy 1000000 ⟨[m], false, 0, []⟩ [.start, .next, .start, .next] = ⟨[], true, 1, [.stale]⟩ := by
  have h1 : Ends toy 1000000 (.plain (enc Xdr.crpc ((0 : Int), cmdPrivateMessage, compZlib) ++ [9])) :=
    .inr ⟨_, rfl, by rfl⟩
  have h2 : ¬ Ends toy 1000000 .stale := by
    rintro (h | ⟨_, h, _⟩)
    · exact absurd h (Nat.not_lt_zero _)
    · cases h
  exact ⟨.plain _, trivial, h1, by simp [run, step, h1, h2, left]⟩

/-- The factors of some types. -/
example : factor Xdr.groupInvite = 5 ∧ factor Xdr.groupList = 5 ∧ factor Xdr.privateMessage = 1 ∧ factor Xdr.cache = 1 := by
  decide

end Verif.Memory
