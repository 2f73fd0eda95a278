import Verif.Model.Welcome
import Verif.Props.Xdr
import Verif.Props.Rendezvous

/-! # C53 and C62: the welcome message -/

namespace Verif.Welcome

open Verif Verif.Crpc

/-! ## What should be accepted -/

/-- The value of the last property with this key. -/
def lastOf (key : Bytes) (l : List Prop') : Option Bytes :=
  ((l.filter fun v => v.1 = key).getLast?).map fun v => v.2.1

/-- A known property with a value of the right form. -/
def WellFormed (v : Prop') : Prop :=
  ((v.1 = kTagDepth ∨ v.1 = kServerTime) ∧ (Policy.parseInt64 v.2.1).isSome) ∨
  ((v.1 = kMaxChunkSize ∨ v.1 = kMaxMsgSize ∨ v.1 = kMaxAttachmentSize) ∧ (Policy.parseUint64 v.2.1).isSome) ∨
  v.1 = kMOTD ∨ (v.1 = kDirectory ∧ (parseBool v.2.1).isSome)

/-- The announced values are `p` and in range, except that nothing is said about the tag depth being negative. -/
structure Announced (l : List Prop') (p : Params) : Prop where
  td : (lastOf kTagDepth l).bind Policy.parseInt64 = some p.td
  tdMax : p.td ≤ 32
  tdSet : p.td ≠ -1
  pt : (lastOf kServerTime l).bind Policy.parseInt64 = some p.pt
  ptSet : p.pt ≠ -1
  as : (lastOf kMaxAttachmentSize l).bind Policy.parseUint64 = some p.as
  asPos : 0 < p.as
  cs : (lastOf kMaxChunkSize l).bind Policy.parseUint64 = some p.cs
  csPos : 0 < p.cs
  ms : (lastOf kMaxMsgSize l).bind Policy.parseUint64 = some p.ms
  msMin : p.cs ≤ p.ms
  dir : p.dir = ((lastOf kDirectory l).bind parseBool).getD false

/-! ## The loop -/

theorem lastOf_nil (key : Bytes) : lastOf key [] = none := rfl

theorem lastOf_cons (key : Bytes) (v : Prop') (l : List Prop') :
    lastOf key (v :: l) = (lastOf key l).or (if v.1 = key then some v.2.1 else none) := by
  unfold lastOf
  by_cases h : v.1 = key
  · rw [List.filter_cons_of_pos (by simpa using h), List.getLast?_cons, if_pos h]
    cases (l.filter fun v => decide (v.1 = key)).getLast? <;> rfl
  · rw [List.filter_cons_of_neg (by simpa using h), if_neg h]
    simp

theorem lastOf_mem {key b : Bytes} {l : List Prop'} (h : lastOf key l = some b) :
    ∃ v ∈ l, v.1 = key ∧ v.2.1 = b := by
  unfold lastOf at h
  rw [Option.map_eq_some_iff] at h
  obtain ⟨v, hv, rfl⟩ := h
  have := List.mem_of_getLast? hv
  rw [List.mem_filter] at this
  exact ⟨v, this.1, by simpa using this.2, rfl⟩

/-- The last value, or `d`. -/
def val {α : Type} (parse : Bytes → Option α) (key : Bytes) (l : List Prop') (d : α) : α :=
  ((lastOf key l).bind parse).getD d

theorem val_nil {α : Type} (parse : Bytes → Option α) (key : Bytes) (d : α) : val parse key [] d = d := rfl

theorem val_cons {α : Type} {parse : Bytes → Option α} {key : Bytes} {v : Prop'} {l : List Prop'} (d : α)
    (h : ∀ w ∈ l, w.1 = key → (parse w.2.1).isSome) :
    val parse key (v :: l) d = val parse key l (if v.1 = key then (parse v.2.1).getD d else d) := by
  unfold val
  rw [lastOf_cons]
  cases hl : lastOf key l with
  | none =>
    split <;> rfl
  | some b =>
    obtain ⟨w, hw, hk, rfl⟩ := lastOf_mem hl
    obtain ⟨x, hx⟩ := Option.isSome_iff_exists.mp (h w hw hk)
    simp [hx]

/-- The values that the loop ends with. -/
def vals (p : Params) (l : List Prop') : Params :=
  ⟨val Policy.parseInt64 kTagDepth l p.td, val Policy.parseInt64 kServerTime l p.pt,
   val Policy.parseUint64 kMaxChunkSize l p.cs, val Policy.parseUint64 kMaxMsgSize l p.ms,
   val Policy.parseUint64 kMaxAttachmentSize l p.as, val parseBool kDirectory l p.dir⟩

/-- Keys are different. -/
theorem keys_ne : kTagDepth ≠ kServerTime ∧ kTagDepth ≠ kMaxChunkSize ∧ kTagDepth ≠ kMaxMsgSize ∧
    kTagDepth ≠ kMaxAttachmentSize ∧ kTagDepth ≠ kMOTD ∧ kTagDepth ≠ kDirectory ∧
    kServerTime ≠ kMaxChunkSize ∧ kServerTime ≠ kMaxMsgSize ∧ kServerTime ≠ kMaxAttachmentSize ∧
    kServerTime ≠ kMOTD ∧ kServerTime ≠ kDirectory ∧ kMaxChunkSize ≠ kMaxMsgSize ∧
    kMaxChunkSize ≠ kMaxAttachmentSize ∧ kMaxChunkSize ≠ kMOTD ∧ kMaxChunkSize ≠ kDirectory ∧
    kMaxMsgSize ≠ kMaxAttachmentSize ∧ kMaxMsgSize ≠ kMOTD ∧ kMaxMsgSize ≠ kDirectory ∧
    kMaxAttachmentSize ≠ kMOTD ∧ kMaxAttachmentSize ≠ kDirectory ∧ kMOTD ≠ kDirectory := by decide

theorem wf_int {v : Prop'} (h : WellFormed v) (hk : v.1 = kTagDepth ∨ v.1 = kServerTime) :
    (Policy.parseInt64 v.2.1).isSome := by
  rcases h with h | h | h | h
  · exact h.2
  · exfalso
    revert hk h
    generalize v.1 = k
    rintro (rfl | rfl) ⟨h | h | h, _⟩ <;> revert h <;> decide
  · exfalso
    rw [h] at hk
    revert hk
    decide
  · exfalso
    rw [h.1] at hk
    revert hk
    decide

theorem wf_uint {v : Prop'} (h : WellFormed v)
    (hk : v.1 = kMaxChunkSize ∨ v.1 = kMaxMsgSize ∨ v.1 = kMaxAttachmentSize) :
    (Policy.parseUint64 v.2.1).isSome := by
  rcases h with h | h | h | h
  · exfalso
    revert hk h
    generalize v.1 = k
    rintro (rfl | rfl | rfl) ⟨h | h, _⟩ <;> revert h <;> decide
  · exact h.2
  · exfalso
    rw [h] at hk
    revert hk
    decide
  · exfalso
    rw [h.1] at hk
    revert hk
    decide

theorem wf_bool {v : Prop'} (h : WellFormed v) (hk : v.1 = kDirectory) : (parseBool v.2.1).isSome := by
  rcases h with h | h | h | h
  · exfalso
    rw [hk] at h
    revert h
    rintro ⟨h | h, _⟩ <;> revert h <;> decide
  · exfalso
    rw [hk] at h
    revert h
    rintro ⟨h | h | h, _⟩ <;> revert h <;> decide
  · exfalso
    rw [hk] at h
    revert h
    decide
  · exact h.2

theorem take_wf {p : Params} {v : Prop'} (h : WellFormed v) : take p v = .ok (vals p [v]) := by
  obtain ⟨n1, n2, n3, n4, n5, n6, n7, n8, n9, n10, n11, n12, n13, n14, n15, n16, n17, n18, n19, n20, n21⟩ := keys_ne
  have hv : ∀ {α : Type} (parse : Bytes → Option α) (key : Bytes) (d : α),
      val parse key [v] d = if v.1 = key then (parse v.2.1).getD d else d := by
    intro α parse key d
    rw [val_cons _ (fun w hw => by cases hw), val_nil]
  obtain ⟨k, b, r⟩ := v
  have h0 := h
  rcases h with ⟨rfl | rfl, h⟩ | ⟨rfl | rfl | rfl, h⟩ | rfl | ⟨rfl, h⟩
  all_goals
    simp only [vals, take, *, if_true, if_false, Ne.symm n1, Ne.symm n2, Ne.symm n3, Ne.symm n4, Ne.symm n5,
      Ne.symm n6, Ne.symm n7, Ne.symm n8, Ne.symm n9, Ne.symm n10, Ne.symm n11, Ne.symm n12, Ne.symm n13,
      Ne.symm n14, Ne.symm n15, Ne.symm n16, Ne.symm n17, Ne.symm n18, Ne.symm n19, Ne.symm n20, Ne.symm n21]
  all_goals
    obtain ⟨x, hx⟩ := Option.isSome_iff_exists.mp h
    simp only [] at hx
    simp [hx]

theorem take_not_wf {p : Params} {v : Prop'} (h : ¬ WellFormed v) : ∃ e, take p v = .err e := by
  unfold WellFormed at h
  simp only [not_or, not_and, Bool.not_eq_true, Option.isSome_eq_false_iff, Option.isNone_iff_eq_none] at h
  obtain ⟨h1, h2, h3, h4⟩ := h
  unfold take
  by_cases k1 : v.1 = kTagDepth
  · rw [if_pos k1, h1 (.inl k1)]; exact ⟨_, rfl⟩
  rw [if_neg k1]
  by_cases k2 : v.1 = kServerTime
  · rw [if_pos k2, h1 (.inr k2)]; exact ⟨_, rfl⟩
  rw [if_neg k2]
  by_cases k3 : v.1 = kMaxChunkSize
  · rw [if_pos k3, h2 (.inl k3)]; exact ⟨_, rfl⟩
  rw [if_neg k3]
  by_cases k4 : v.1 = kMaxMsgSize
  · rw [if_pos k4, h2 (.inr (.inl k4))]; exact ⟨_, rfl⟩
  rw [if_neg k4]
  by_cases k5 : v.1 = kMaxAttachmentSize
  · rw [if_pos k5, h2 (.inr (.inr k5))]; exact ⟨_, rfl⟩
  rw [if_neg k5, if_neg h3]
  by_cases k6 : v.1 = kDirectory
  · rw [if_pos k6, h4 k6]; exact ⟨_, rfl⟩
  rw [if_neg k6]
  exact ⟨_, rfl⟩

theorem vals_cons {p : Params} {v : Prop'} {l : List Prop'} (hl : ∀ w ∈ l, WellFormed w) :
    vals p (v :: l) = vals (vals p [v]) l := by
  have one : ∀ {α : Type} (parse : Bytes → Option α) (key : Bytes) (d : α),
      val parse key [v] d = if v.1 = key then (parse v.2.1).getD d else d := by
    intro α parse key d
    rw [val_cons _ (fun w hw => by cases hw), val_nil]
  unfold vals
  dsimp only
  rw [val_cons p.td fun w hw hk => wf_int (hl w hw) (.inl hk),
    val_cons p.pt fun w hw hk => wf_int (hl w hw) (.inr hk),
    val_cons p.cs fun w hw hk => wf_uint (hl w hw) (.inl hk),
    val_cons p.ms fun w hw hk => wf_uint (hl w hw) (.inr (.inl hk)),
    val_cons p.as fun w hw hk => wf_uint (hl w hw) (.inr (.inr hk)),
    val_cons p.dir fun w hw hk => wf_bool (hl w hw) hk, one, one, one, one, one, one]

theorem takeAll_eq (p : Params) (l : List Prop') :
    (∀ v ∈ l, WellFormed v) ∧ takeAll p l = .ok (vals p l) ∨
    (¬ ∀ v ∈ l, WellFormed v) ∧ ∃ e, takeAll p l = .err e := by
  induction l generalizing p with
  | nil => exact .inl ⟨(fun v hv => by cases hv), rfl⟩
  | cons v l ih =>
    by_cases hv : WellFormed v
    · simp only [takeAll, take_wf hv]
      rcases ih (vals p [v]) with ⟨h1, h2⟩ | ⟨h1, h2⟩
      · left
        refine ⟨fun w hw => ?_, by rw [h2, vals_cons h1]⟩
        rcases List.mem_cons.mp hw with rfl | hw
        · exact hv
        · exact h1 w hw
      · exact .inr ⟨fun h => h1 fun w hw => h w (List.mem_cons_of_mem _ hw), h2⟩
    · right
      refine ⟨fun h => hv (h v List.mem_cons_self), ?_⟩
      obtain ⟨e, he⟩ := take_not_wf (p := p) hv
      exact ⟨e, by simp only [takeAll, he]⟩

/-- A default that is refused tells that the value was announced. -/
theorem val_some {α : Type} {parse : Bytes → Option α} {key : Bytes} {l : List Prop'} {d x : α}
    (h : val parse key l d = x) (hx : x ≠ d) : (lastOf key l).bind parse = some x := by
  unfold val at h
  cases hb : (lastOf key l).bind parse with
  | none => rw [hb] at h; exact absurd h.symm hx
  | some y => rw [hb] at h; exact congrArg some h

theorem val_of_some {α : Type} {parse : Bytes → Option α} {key : Bytes} {l : List Prop'} {d x : α}
    (h : (lastOf key l).bind parse = some x) : val parse key l d = x := by
  unfold val
  rw [h]
  rfl

theorem announced_iff {l : List Prop'} {p : Params} :
    Announced l p ↔ vals .start l = p ∧ p.td ≤ 32 ∧ p.td ≠ -1 ∧ p.pt ≠ -1 ∧ 0 < p.as ∧ 0 < p.cs ∧ p.cs ≤ p.ms := by
  constructor
  · rintro ⟨h1, h2, h3, h4, h5, h6, h7, h8, h9, h10, h11, h12⟩
    refine ⟨?_, h2, h3, h5, h7, h9, h11⟩
    unfold vals Params.start
    dsimp only
    rw [val_of_some h1, val_of_some h4, val_of_some h6, val_of_some h8, val_of_some h10]
    unfold val
    rw [← h12]
  · rintro ⟨rfl, h2, h3, h5, h7, h9, h11⟩
    exact ⟨val_some rfl h3, h2, h3, val_some rfl h5, h5, val_some rfl (Nat.pos_iff_ne_zero.mp h7), h7,
      val_some rfl (Nat.pos_iff_ne_zero.mp h9), h9,
      val_some (x := (vals .start l).ms) rfl (by change _ ≠ 0; omega), h11, rfl⟩

/-! ## C53 -/

/-- **C53** The client goes on, with the parameters `p`, exactly if the version is that of the protocol, every
property is known and well formed, all that is needed is announced, and (last value of each key) the tag depth is at
most 32 and not negative, the sizes are positive and a message may be as long as a chunk. -/
theorem C53_accepts_iff (ver : Int) (l : List Prop') (p : Params) :
    accept ver l = .ok p ↔ ver = 9 ∧ (∀ v ∈ l, WellFormed v) ∧ Announced l p ∧ 0 ≤ p.td := by
  unfold accept
  by_cases hv : ver = version
  · rw [if_neg (by simpa using hv)]
    rcases takeAll_eq .start l with ⟨h1, h2⟩ | ⟨h1, e, h2⟩
    · rw [h2]
      dsimp only
      rw [announced_iff]
      have key : ∀ q : Params, check q = .ok p ↔ q = p ∧ (p.td ≤ 32 ∧ p.td ≠ -1 ∧ p.pt ≠ -1 ∧ 0 < p.as ∧
          0 < p.cs ∧ p.cs ≤ p.ms) ∧ 0 ≤ p.td := by
        intro q
        unfold check tagDepth
        constructor
        · intro h
          repeat' split at h
          all_goals first | cases h; done | skip
          cases h
          refine ⟨rfl, ⟨?_, ?_, ?_, ?_, ?_, ?_⟩, ?_⟩ <;> omega
        · rintro ⟨rfl, ⟨h1, h2, h3, h4, h5, h6⟩, h7⟩
          rw [if_neg h2, if_neg (by omega), if_neg h3, if_neg (by omega), if_neg (by omega), if_neg (by omega),
            if_neg (by omega), if_neg (by omega)]
      rw [key]
      have hv9 : ver = 9 := hv
      tauto
    · rw [h2]
      constructor
      · intro h; cases h
      · intro h; exact absurd h.2.1 h1
  · rw [if_pos hv]
    constructor
    · intro h; cases h
    · intro h; exact absurd h.1 hv

/-- **C53** (partial: see `C53_crash_violated`) The only way a welcome message crashes the client is a tag depth
below -1. -/
theorem C53_no_crash_partial (ver : Int) (l : List Prop')
    (h : ∀ x, (lastOf kTagDepth l).bind Policy.parseInt64 = some x → -1 ≤ x) : accept ver l ≠ .panic := by
  unfold accept
  split
  · intro h; cases h
  rcases takeAll_eq .start l with ⟨h1, h2⟩ | ⟨h1, e, h2⟩
  · rw [h2]
    dsimp only
    unfold check
    intro hp
    repeat' split at hp
    all_goals first | cases hp; done | skip
    next g1 g2 g3 g4 g5 g6 g7 g8 =>
    have := h _ (val_some (x := (vals .start l).td) rfl g1)
    omega
  · rw [h2]
    intro h; cases h

/-- **C53** (partial, as before) Nor does anything else that is received instead of a welcome message. -/
theorem C53_bytes_partial (buf : Bytes)
    (h : ∀ m w r r', Xdr.dec 0 Xdr.message buf = .ok m r → Xdr.dec 0 Xdr.welcome r = .ok w r' →
      ∀ x, (lastOf kTagDepth w.2.2).bind Policy.parseInt64 = some x → -1 ≤ x) : welcomePhase buf ≠ .panic := by
  unfold welcomePhase
  split
  next m rest hm =>
    split
    · split
      next w r' hw => exact C53_no_crash_partial w.1 w.2.2 (h m w rest r' hm hw)
      · intro h; cases h
    · split
      · split <;> (intro h; cases h)
      · intro h; cases h
  · intro h; cases h

/-- Properties of a server that announces a tag depth. -/
def withDepth (d : Bytes) : List Prop' :=
  [(kTagDepth, d, true), (kMaxAttachmentSize, [49], true), (kMaxChunkSize, [49], true), (kMaxMsgSize, [49], true),
   (kServerTime, [49], true)]

/-- A message that is accepted, with tag depth 7. -/
example : accept 9 (withDepth [55]) = .ok ⟨7, 1, 1, 1, 1, false⟩ := by decide

/-- **C53, negation.** Tag depth "-2": the client crashes. -/
theorem C53_crash_violated : ∃ l, accept 9 l = .panic :=
  ⟨withDepth [45, 50], by decide⟩

/-! ## C62 -/

theorem parseUint_format {n : Nat} (h : n < 2 ^ 64) : Policy.parseUint64 (Rendezvous.format n) = some n := by
  have hne : Rendezvous.format n ≠ [] := Rendezvous.formatAux_ne_nil 19 n
  have hd : Policy.digits 0 (Rendezvous.format n) = some n := Rendezvous.digits_format 20 n (by omega)
  unfold Policy.parseUint64
  rw [if_neg hne, hd]
  dsimp only
  rw [if_pos h]

theorem format_head {n : Nat} : ∀ c r, Rendezvous.format n = c :: r → c ≠ 43 ∧ c ≠ 45 := by
  intro c r h
  have := Rendezvous.formatAux_digits 20 n c (by
    change c ∈ Rendezvous.format n
    rw [h]
    exact List.mem_cons_self)
  constructor <;> (rintro rfl; revert this; decide)

theorem parseInt_format {x : Int} (h1 : -2 ^ 63 ≤ x) (h2 : x < 2 ^ 63) :
    Policy.parseInt64 (formatInt x) = some x := by
  unfold formatInt
  split
  next hx =>
    change (match Policy.parseUint64 (Rendezvous.format x.natAbs) with
      | none => none
      | some n => if n ≤ 2 ^ 63 then some (-(n : Int)) else none) = some x
    rw [parseUint_format (by omega)]
    dsimp only
    rw [if_pos (by omega)]
    congr 1
    omega
  next hx =>
    have key : ∀ s : Bytes, (∀ c r, s = c :: r → c ≠ 43 ∧ c ≠ 45) → Policy.parseInt64 s =
        match Policy.parseUint64 s with
        | none => none
        | some n => if n < 2 ^ 63 then some (n : Int) else none := by
      intro s hs
      unfold Policy.parseInt64
      split
      · exact absurd rfl (hs _ _ rfl).1
      · exact absurd rfl (hs _ _ rfl).2
      · rfl
    rw [key _ format_head, parseUint_format (by omega)]
    dsimp only
    rw [if_pos (by omega)]
    congr 1
    omega

theorem parseBool_format (b : Bool) : parseBool (formatBool b) = some b := by cases b <;> decide

theorem takeAll_properties {s : Settings} {now : Int} {motd : Bytes} (ha : s.maxAttachmentSize < 2 ^ 64)
    (hc : s.maxChunkSize < 2 ^ 64) (hm : s.maxMsgSize < 2 ^ 64) (h1 : -2 ^ 63 ≤ now) (h2 : now < 2 ^ 63) :
    takeAll .start (properties s now motd) =
      .ok ⟨32, now, s.maxChunkSize, s.maxMsgSize, s.maxAttachmentSize, s.directory⟩ := by
  have t32 : Policy.parseInt64 (Rendezvous.format tagDepth) = some 32 := by decide
  obtain ⟨n1, n2, n3, n4, n5, n6, n7, n8, n9, n10, n11, n12, n13, n14, n15, n16, n17, n18, n19, n20, n21⟩ := keys_ne
  simp only [properties, takeAll, take, if_true, if_false, Ne.symm n1, Ne.symm n2, Ne.symm n3, Ne.symm n4,
    Ne.symm n5, Ne.symm n6, Ne.symm n7, Ne.symm n8, Ne.symm n9, Ne.symm n10, Ne.symm n11, Ne.symm n12, Ne.symm n13,
    Ne.symm n14, Ne.symm n15, Ne.symm n16, Ne.symm n17, Ne.symm n18, Ne.symm n19, Ne.symm n20, Ne.symm n21,
    n1, n2, n3, n4, n5, n6, n7, n8, n9, n10, n11, n12, n13, n14, n15, n16, n17, n18, n19, n20, n21,
    t32, parseUint_format ha, parseUint_format hc, parseUint_format hm, parseInt_format h1 h2, parseBool_format,
    Params.start]

theorem formatAux_length (k n : Nat) : (Rendezvous.formatAux k n).length ≤ k := by
  induction k generalizing n with
  | zero => simp [Rendezvous.formatAux]
  | succ k ih =>
    simp only [Rendezvous.formatAux]
    split
    · simp
    · have := ih (n / 10)
      rw [List.length_append]
      simp
      omega

theorem format_length (n : Nat) : (Rendezvous.format n).length ≤ 20 := formatAux_length 20 n

theorem fits_properties {s : Settings} {now : Int} {motd : Bytes} (hl : motd.length + 3 < 2 ^ 31) :
    Xdr.Fits 0 Xdr.welcome (version, (0 : Int), properties s now motd) := by
  have hf := format_length
  have hi : (formatInt now).length ≤ 21 := by
    unfold formatInt
    split
    · have := hf now.natAbs; simp; omega
    · have := hf now.natAbs; omega
  have hb : (formatBool s.directory).length ≤ 5 := by cases s.directory <;> decide
  refine ⟨(by decide : (-2 ^ 31 : Int) ≤ 9 ∧ (9 : Int) < 2 ^ 31),
    (by decide : (-2 ^ 63 : Int) ≤ 0 ∧ (0 : Int) < 2 ^ 63), (by decide : 7 < 2 ^ 31), by simp, ?_⟩
  have hk : ∀ k : Bytes, k ∈ [kTagDepth, kMaxAttachmentSize, kMaxChunkSize, kMaxMsgSize, kServerTime, kDirectory,
      kMOTD] → k.length + 3 < 2 ^ 31 := by decide
  have all : ∀ v : Prop', v ∈ properties s now motd → v.1.length + 3 < 2 ^ 31 ∧ v.2.1.length + 3 < 2 ^ 31 := by
    intro v hv
    simp only [properties, List.mem_cons, List.not_mem_nil, or_false] at hv
    rcases hv with rfl | rfl | rfl | rfl | rfl | rfl | rfl
    · exact ⟨hk _ (by simp), by have := hf tagDepth; dsimp only; omega⟩
    · exact ⟨hk _ (by simp), by have := hf s.maxAttachmentSize; dsimp only; omega⟩
    · exact ⟨hk _ (by simp), by have := hf s.maxChunkSize; dsimp only; omega⟩
    · exact ⟨hk _ (by simp), by have := hf s.maxMsgSize; dsimp only; omega⟩
    · exact ⟨hk _ (by simp), by dsimp only; omega⟩
    · exact ⟨hk _ (by simp), by dsimp only; omega⟩
    · exact ⟨hk _ (by simp), hl⟩
  intro v hv
  have := all v hv
  exact ⟨⟨this.1, by simp⟩, ⟨this.2, by simp⟩, trivial⟩

theorem phase_welcome {s : Settings} {now : Int} {motd : Bytes} (hl : motd.length + 3 < 2 ^ 31) :
    welcomePhase (welcome s now motd) = accept version (properties s now motd) := by
  unfold welcomePhase welcome
  have hm : Xdr.Fits 0 Xdr.message (welcomeCmd, (0 : Int), false, (0 : Nat)) := by
    exact ⟨⟨by decide, by decide⟩, (by decide : (-2 ^ 63 : Int) ≤ 0 ∧ (0 : Int) < 2 ^ 63), trivial,
      (by decide : 0 < 2 ^ 32)⟩
  rw [Xdr.C23_roundtrip 0 Xdr.message _ hm]
  dsimp only
  have := Xdr.C23_roundtrip 0 Xdr.welcome _ (fits_properties (s := s) (now := now) hl) []
  rw [List.append_nil] at this
  rw [if_pos rfl, this]

/-- **C62** (partial: a configuration with a larger chunk size is taken by the server, see `C62_refused_violated`)
The client accepts the welcome message of the server exactly if the configured sizes are positive and chunks fit
into messages, whatever the message of the day, and then it has the parameters of the server. The time of the
server is not the last second of 1969. -/
theorem C62_agree_partial {s : Settings} {now : Int} {motd : Bytes} (ha : s.maxAttachmentSize < 2 ^ 64)
    (hc : s.maxChunkSize < 2 ^ 64) (hm : s.maxMsgSize < 2 ^ 64) (h1 : -2 ^ 63 ≤ now) (h2 : now < 2 ^ 63)
    (h3 : now ≠ -1) (hl : motd.length + 3 < 2 ^ 31) (p : Params) :
    welcomePhase (welcome s now motd) = .ok p ↔
      (0 < s.maxAttachmentSize ∧ 0 < s.maxChunkSize ∧ s.maxChunkSize ≤ s.maxMsgSize) ∧
      p = ⟨32, now, s.maxChunkSize, s.maxMsgSize, s.maxAttachmentSize, s.directory⟩ := by
  rw [phase_welcome hl]
  unfold accept
  rw [if_neg (by simp)]
  rw [takeAll_properties ha hc hm h1 h2]
  dsimp only
  unfold check tagDepth
  dsimp only
  rw [if_neg (by decide), if_neg (by decide), if_neg h3]
  constructor
  · intro h
    repeat' split at h
    all_goals first | cases h; done | skip
    cases h
    exact ⟨⟨by omega, by omega, by omega⟩, rfl⟩
  · rintro ⟨⟨g1, g2, g3⟩, rfl⟩
    rw [if_neg (by omega), if_neg (by omega), if_neg (by omega), if_neg (by omega), if_neg (by decide)]

/-- **C62** The server's refusal reaches the client with its reason. -/
theorem C62_unwelcome {reason : Bytes} (hl : reason.length + 3 < 2 ^ 31) :
    welcomePhase (unwelcome reason) = .err (.unwelcome reason) := by
  unfold welcomePhase unwelcome
  have hm : Xdr.Fits 0 Xdr.message (unwelcomeCmd, (0 : Int), false, (0 : Nat)) := by
    exact ⟨⟨by decide, by decide⟩, (by decide : (-2 ^ 63 : Int) ≤ 0 ∧ (0 : Int) < 2 ^ 63), trivial,
      (by decide : 0 < 2 ^ 32)⟩
  rw [Xdr.C23_roundtrip 0 Xdr.message _ hm]
  dsimp only
  rw [if_neg (by decide), if_pos rfl]
  have := Xdr.C23_roundtrip 0 Xdr.unwelcome (version, reason)
    ⟨(by decide : (-2 ^ 31 : Int) ≤ 9 ∧ (9 : Int) < 2 ^ 31), hl, by simp⟩ []
  rw [List.append_nil] at this
  rw [this]

/-- The defaults are accepted. -/
example : welcomePhase (welcome .default 1479369600 [104, 105]) =
    .ok ⟨32, 1479369600, 262144, 263168, 10485760, false⟩ := by
  rw [C62_agree_partial (by decide) (by decide) (by decide) (by decide) (by decide) (by decide) (by decide)]
  decide

/-- The value of an entry that may be missing: `none` if it is there and no number. -/
def configured (entry : Option Bytes) (standard : Nat) : Option Nat :=
  match entry with
  | none => some standard
  | some b => Policy.parseUint64 b

/-- **C62** The server starts exactly with the entries that are numbers, and uses those numbers; what is not configured,
and the size of messages in any case, stays. -/
theorem C62_configured (s s' : Settings) (asz csz : Option Bytes) :
    Settings.load s asz csz = some s' ↔
      configured asz s.maxAttachmentSize = some s'.maxAttachmentSize ∧
      configured csz s.maxChunkSize = some s'.maxChunkSize ∧
      s'.maxMsgSize = s.maxMsgSize ∧ s'.directory = s.directory := by
  obtain ⟨a, b, c, d⟩ := s
  obtain ⟨a', b', c', d'⟩ := s'
  unfold Settings.load configured
  cases asz with
  | none =>
    cases csz with
    | none => simp; grind
    | some y =>
      cases hy : Policy.parseUint64 y with
      | none => simp [hy]
      | some m => simp [hy]; grind
  | some x =>
    cases hx : Policy.parseUint64 x with
    | none => simp [hx]
    | some n =>
      cases csz with
      | none => simp [hx]; grind
      | some y =>
        cases hy : Policy.parseUint64 y with
        | none => simp [hx, hy]
        | some m => simp [hx, hy]; grind

/-- Both sizes configured; a size that is no number. -/
example : Settings.load .default (some [57]) (some [56]) = some ⟨9, 8, 263168, false⟩ :=
  (C62_configured _ _ _ _).mpr ⟨by decide, by decide, rfl, rfl⟩
example : ¬ ∃ s, Settings.load .default (some [57, 97]) (some [56]) = some s := by
  rintro ⟨s, h⟩
  have h1 := ((C62_configured _ _ _ _).mp h).1
  have h2 : configured (some [57, 97]) Settings.default.maxAttachmentSize = none := by decide
  rw [h2] at h1
  cases h1

/-- **C62, negation.** The server starts with `maxchunksize = 300000`, but no client can use it: the size of
messages can not be configured. -/
theorem C62_refused_violated : ∃ csz s, Settings.load .default none (some csz) = some s ∧
    ∀ now motd, -2 ^ 63 ≤ now → now < 2 ^ 63 → motd.length + 3 < 2 ^ 31 →
      ∃ e, welcomePhase (welcome s now motd) = .err e := by
  refine ⟨[51, 48, 48, 48, 48, 48], ⟨10485760, 300000, 263168, false⟩, by decide, fun now motd h1 h2 hl => ?_⟩
  rw [phase_welcome hl]
  unfold accept
  rw [if_neg (by simp)]
  rw [takeAll_properties (by decide) (by decide) (by decide) h1 h2]
  dsimp only
  unfold check tagDepth
  dsimp only
  rw [if_neg (by decide), if_neg (by decide)]
  split
  · exact ⟨_, rfl⟩
  · exact ⟨_, rfl⟩

end Verif.Welcome
