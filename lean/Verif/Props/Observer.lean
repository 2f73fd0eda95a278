import Verif.Model.Observer
import Verif.Props.Crpc
import Mathlib.Data.Fintype.BigOperators

/-! # C133: the server learns of a message for whom it is and how long it is, and nothing else -/

namespace Verif.Observer

open Verif Xdr Crpc

/-! ## Lengths -/

/-- The next multiple of four. -/
def up4 (n : Nat) : Nat := n + padLen n

theorem xor_length {a b : Bytes} (h : b.length = a.length) : (xor a b).length = a.length := by
  simp [xor, h]

theorem xor_xor : ∀ {a b : Bytes}, b.length = a.length → xor a (xor a b) = b
  | [], [], _ => rfl
  | x :: a, y :: b, h => by
    have h' : b.length = a.length := by simpa using h
    have := xor_xor h'
    simp only [xor, List.zipWith_cons_cons] at this ⊢
    rw [this, ← UInt8.xor_assoc, UInt8.xor_self, UInt8.zero_xor]
  | [], _ :: _, h => by cases h
  | _ :: _, [], h => by cases h

theorem seal_length (M : Mac) (p : Pad M) {m : Bytes} (h : p.stream.length = m.length) :
    (seal_ M p m).length = m.length + 16 := by
  simp only [seal_, List.length_append, M.size, xor_length h]
  omega

theorem opaque_length (b : Bytes) : (enc .opaque b).length = 4 + up4 b.length := by
  simp [enc, be32_length, encFixed, up4]

/-- The coins of one message fit it. -/
def Fit (M : Mac) (msg : Bytes) (c : Coins M) : Prop := c.head.stream.length = 64 ∧ c.body.stream.length = msg.length

theorem encrypt_length (M : Mac) (c : Coins M) (h : { b : Bytes // b.length = 64 }) {msg : Bytes} (hf : Fit M msg c) :
    (encrypt M c h msg).length = msg.length + 120 := by
  simp only [encrypt, List.length_append, c.nonce.2, seal_length M c.head (hf.1.trans h.2.symm),
    seal_length M c.body hf.2, h.2]
  omega

/-- The header of the plaintext. -/
theorem crpc_length {z : Zlib} {now : Int} {p : Payload} {m body comp cmd : Bytes} (hm : crpc z now p = some m)
    (hc : compress z p = some (body, comp)) (hd : command p = some cmd) :
    m.length = 16 + up4 cmd.length + up4 comp.length + body.length := by
  simp only [Crpc.crpc, hc, hd, Option.some.injEq] at hm
  rw [← hm, List.length_append]
  have : (enc Xdr.crpc (now, cmd, comp)).length = 8 + ((4 + up4 cmd.length) + (4 + up4 comp.length)) := by
    show (be64 _ ++ (enc .opaque cmd ++ enc .opaque comp)).length = _
    rw [List.length_append, List.length_append, be64_length, opaque_length, opaque_length]
  rw [this]
  omega

/-! ## The contents are hidden -/

/-- What the server may learn: for whom, the tag, when, and how long the plaintext is. -/
def Alike (z : Zlib) (o o' : Out) : Prop :=
  o.to_ = o'.to_ ∧ o.tag = o'.tag ∧ o.time = o'.time ∧
    ∃ m m', crpc z o.now o.payload = some m ∧ crpc z o'.now o'.payload = some m' ∧ m.length = m'.length

/-- The coins of several messages fit them. -/
def Fits_ (z : Zlib) (M : Mac) (os : List Out) (cs : List (Coins M)) : Prop :=
  List.Forall₂ (fun o c => ∃ m, crpc z o.now o.payload = some m ∧ Fit M m c) os cs

/-- The coins with which another message looks the same. -/
def recoin {M : Mac} (h h' : { b : Bytes // b.length = 64 }) (m m' : Bytes) (c : Coins M) : Coins M :=
  ⟨c.nonce, ⟨c.head.key, xor h'.1 (xor h.1 c.head.stream)⟩, ⟨c.body.key, xor m' (xor m c.body.stream)⟩⟩

theorem recoin_fit {M : Mac} {h h' : { b : Bytes // b.length = 64 }} {m m' : Bytes} {c : Coins M}
    (hl : m.length = m'.length) (hf : Fit M m c) : Fit M m' (recoin h h' m m' c) := by
  have h1 : (xor h.1 c.head.stream).length = 64 := (xor_length (hf.1.trans h.2.symm)).trans h.2
  have h2 : (xor m c.body.stream).length = m.length := xor_length hf.2
  exact ⟨(xor_length (h1.trans h'.2.symm)).trans h'.2, xor_length (h2.trans hl)⟩

theorem recoin_same {M : Mac} {h h' : { b : Bytes // b.length = 64 }} {m m' : Bytes} {c : Coins M}
    (hl : m.length = m'.length) (hf : Fit M m c) : encrypt M (recoin h h' m m' c) h' m' = encrypt M c h m := by
  have h1 : (xor h.1 c.head.stream).length = h'.1.length := ((xor_length (hf.1.trans h.2.symm)).trans h.2).trans h'.2.symm
  have h2 : (xor m c.body.stream).length = m'.length := (xor_length hf.2).trans hl
  simp only [encrypt, recoin, seal_, xor_xor h1, xor_xor h2]

theorem recoin_back {M : Mac} {h h' : { b : Bytes // b.length = 64 }} {m m' : Bytes} {c : Coins M}
    (hl : m.length = m'.length) (hf : Fit M m c) : recoin h' h m' m (recoin h h' m m' c) = c := by
  have h1 : (xor h.1 c.head.stream).length = h'.1.length := ((xor_length (hf.1.trans h.2.symm)).trans h.2).trans h'.2.symm
  have h2 : (xor m c.body.stream).length = m'.length := (xor_length hf.2).trans hl
  simp only [recoin, xor_xor h1, xor_xor h2, xor_xor (hf.1.trans h.2.symm), xor_xor hf.2]

/-- The plaintext of a message that is sent. -/
def plain (z : Zlib) (o : Out) : Bytes := (crpc z o.now o.payload).getD []

/-- The coins of several messages with which others look the same. -/
def recoins {M : Mac} (z : Zlib) : List Out → List Out → List (Coins M) → List (Coins M)
  | o :: os, o' :: os', c :: cs => recoin o.header o'.header (plain z o) (plain z o') c :: recoins z os os' cs
  | _, _, _ => []

theorem recoins_spec {z : Zlib} {M : Mac} {os os' : List Out} (h : List.Forall₂ (Alike z) os os') :
    ∀ cs : List (Coins M), Fits_ z M os cs → Fits_ z M os' (recoins z os os' cs) ∧
      view z M os' (recoins z os os' cs) = view z M os cs ∧ recoins z os' os (recoins z os os' cs) = cs := by
  induction h with
  | nil => intro cs hc; cases hc; exact ⟨.nil, rfl, rfl⟩
  | @cons o o' os os' ha _ ih =>
    intro cs hc
    cases hc with
    | @cons _ c _ cs hf hr =>
      obtain ⟨h1, h2, h3, m, m', hm, hm', hl⟩ := ha
      obtain ⟨m0, hm0, hf⟩ := hf
      rw [hm] at hm0
      cases hm0
      obtain ⟨i1, i2, i3⟩ := ih cs hr
      have p1 : plain z o = m := by simp [plain, hm]
      have p2 : plain z o' = m' := by simp [plain, hm']
      refine ⟨?_, ?_, ?_⟩
      · rw [recoins, p1, p2]
        exact .cons ⟨m', hm', recoin_fit hl hf⟩ i1
      · rw [recoins, p1, p2]
        show wire z M o' _ :: view z M os' _ = wire z M o c :: view z M os cs
        rw [i2]
        simp only [wire, hm, hm', h1, h2, h3, recoin_same hl hf]
      · rw [recoins, recoins, p1, p2, recoin_back hl hf, i3]

/-- **C133** What the server reads depends on nothing but for whom messages are, their tags and times, and their lengths:
if two sequences of messages agree in these, then for whatever keys, nonces and streams there were with the first, there are
some with which the second gives the same bytes; this is one to one, so that all that the server can read is as likely with
the one as with the other. -/
theorem C133_blind (z : Zlib) (M : Mac) (os os' : List Out) (h : List.Forall₂ (Alike z) os os') :
    ∃ f g : List (Coins M) → List (Coins M),
      (∀ cs, Fits_ z M os cs → Fits_ z M os' (f cs) ∧ view z M os' (f cs) = view z M os cs ∧ g (f cs) = cs) ∧
      ∀ cs, Fits_ z M os' cs → Fits_ z M os (g cs) ∧ view z M os (g cs) = view z M os' cs ∧ f (g cs) = cs := by
  refine ⟨recoins z os os', recoins z os' os, recoins_spec h, recoins_spec ?_⟩
  refine List.Forall₂.flip (h.imp ?_)
  rintro a b ⟨h1, h2, h3, m, m', hm, hm', hl⟩
  exact ⟨h1.symm, h2.symm, h3.symm, m', m, hm', hm, hl.symm⟩

/-! ## What the length tells -/

/-- **C133** (partial: of what zlib does not make shorter; see `C133_compression_violated`) Of two payloads that are not
compressed, of kinds with names that are equally long when padded, the lengths tell the difference only if the encodings
differ in length. -/
theorem C133_length_partial (z : Zlib) (o o' : Out) (raw raw' cmd cmd' : Bytes) (hr : marshal o.payload = some raw)
    (hr' : marshal o'.payload = some raw') (hc : command o.payload = some cmd) (hc' : command o'.payload = some cmd')
    (h : raw.length < (z.deflate raw).length) (h' : raw'.length < (z.deflate raw').length)
    (hl : raw.length = raw'.length) (hk : up4 cmd.length = up4 cmd'.length)
    (ht : o.to_ = o'.to_ ∧ o.tag = o'.tag ∧ o.time = o'.time) : Alike z o o' := by
  have e : compress z o.payload = some (raw, compNone) := by simp [compress, hr, h]
  have e' : compress z o'.payload = some (raw', compNone) := by simp [compress, hr', h']
  have hm : crpc z o.now o.payload = some (enc Xdr.crpc (o.now, cmd, compNone) ++ raw) := by
    rw [Crpc.crpc, e]
    dsimp only
    rw [hc]
  have hm' : crpc z o'.now o'.payload = some (enc Xdr.crpc (o'.now, cmd', compNone) ++ raw') := by
    rw [Crpc.crpc, e']
    dsimp only
    rw [hc']
  refine ⟨ht.1, ht.2.1, ht.2.2, _, _, hm, hm', ?_⟩
  rw [crpc_length hm e hc, crpc_length hm' e' hc', hl, hk]

theorem text_length (t : Bytes) (mode : Nat) : (enc Xdr.privateMessage (t, mode)).length = 8 + up4 t.length := by
  show (enc .opaque t ++ be32 mode).length = _
  rw [List.length_append, opaque_length, be32_length]
  omega

/-- **C133** (partial: of texts that zlib does not make shorter) Of a text the server learns its length, rounded up to a
multiple of four: not the text, nor whether it is a remark. -/
theorem C133_text_partial (z : Zlib) (o o' : Out) (t t' : Bytes) (mode mode' : Nat)
    (hp : o.payload = .privateMessage (t, mode)) (hp' : o'.payload = .privateMessage (t', mode'))
    (h : (enc Xdr.privateMessage (t, mode)).length < (z.deflate (enc Xdr.privateMessage (t, mode))).length)
    (h' : (enc Xdr.privateMessage (t', mode')).length < (z.deflate (enc Xdr.privateMessage (t', mode'))).length)
    (hl : up4 t.length = up4 t'.length) (ht : o.to_ = o'.to_ ∧ o.tag = o'.tag ∧ o.time = o'.time) : Alike z o o' :=
  C133_length_partial z o o' _ _ _ _ (by rw [hp]; rfl) (by rw [hp']; rfl) (by rw [hp]; rfl) (by rw [hp']; rfl) h h'
    (by rw [text_length, text_length, hl]) rfl ht

/-- How long what the server reads is. -/
theorem wire_length {z : Zlib} {M : Mac} {o : Out} {c : Coins M} {m b : Bytes} (hm : crpc z o.now o.payload = some m)
    (hf : Fit M m c) (hw : wire z M o c = some b) : b.length = 64 + up4 (m.length + 120) := by
  simp only [wire, hm, Option.some.injEq] at hw
  rw [← hw, List.length_append]
  have h1 : (enc Xdr.message (cmdCache, o.time, false, o.tag)).length = 28 := by
    show (enc .opaque cmdCache ++ (be64 _ ++ (be32 _ ++ be32 _))).length = 28
    simp only [List.length_append, opaque_length, be64_length, be32_length]
    rfl
  have h2 : (enc Xdr.cache (o.to_, encrypt M c o.header m)).length = 36 + up4 (m.length + 120) := by
    show (encFixed o.to_.1 ++ enc .opaque (encrypt M c o.header m)).length = _
    rw [List.length_append, opaque_length, encrypt_length M c o.header hf]
    have : (encFixed o.to_.1).length = 32 := by simp [encFixed, o.to_.2, padLen]
    omega
  omega

/-! ## What is violated -/

theorem up4_bounds (n : Nat) : n ≤ up4 n ∧ up4 n ≤ n + 3 := by
  unfold up4 padLen
  omega

/-- There are more texts of length `n` than results of about the same length that are shorter than that. -/
theorem pigeonhole {n lo : Nat} (f : Bytes → Bytes) (hf : ∀ a b : Bytes, a.length = n → b.length = n → f a = f b → a = b)
    (hlo : ∀ t : Bytes, t.length = n → lo ≤ (f t).length + 3 ∧ (f t).length ≤ lo + 3) : n ≤ lo + 3 := by
  refine Decidable.byContradiction fun hn => ?_
  let g : (Fin n → Fin 256) → Fin 8 × (Fin (lo + 3) → Fin 256) := fun v =>
    let l := f (List.ofFn fun i => UInt8.ofFin (v i))
    (⟨(l.length + 3 - lo) % 8, by omega⟩, fun i => (l[i.1]?.getD 0).toFin)
  have hg : Function.Injective g := by
    intro v w h
    have hv := hlo (List.ofFn fun i => UInt8.ofFin (v i)) (by simp)
    have hw := hlo (List.ofFn fun i => UInt8.ofFin (w i)) (by simp)
    simp only [g, Prod.mk.injEq, Fin.mk.injEq] at h
    obtain ⟨h1, h2⟩ := h
    have hl : (f (List.ofFn fun i => UInt8.ofFin (v i))).length = (f (List.ofFn fun i => UInt8.ofFin (w i))).length := by
      omega
    have he : f (List.ofFn fun i => UInt8.ofFin (v i)) = f (List.ofFn fun i => UInt8.ofFin (w i)) := by
      refine List.ext_getElem hl fun i hi hi' => ?_
      have := congrFun h2 ⟨i, by omega⟩
      simp only [List.getElem?_eq_getElem hi, List.getElem?_eq_getElem hi', Option.getD_some] at this
      exact UInt8.toFin_inj.mp this
    have := List.ofFn_injective (hf _ _ (by simp) (by simp) he)
    funext i
    have h3 := congrFun this i
    exact congrArg UInt8.toFin h3
  have hc := Fintype.card_le_of_injective g hg
  rw [Fintype.card_prod, Fintype.card_fun, Fintype.card_fun, Fintype.card_fin, Fintype.card_fin, Fintype.card_fin,
    Fintype.card_fin] at hc
  have h1 : 256 ^ (lo + 3 + 1) ≤ 256 ^ n := Nat.pow_le_pow_right (by decide) (by omega)
  rw [Nat.pow_succ] at h1
  have h2 : 0 < 256 ^ (lo + 3) := Nat.pow_pos (by decide)
  omega

/-- The plaintext of a private message. -/
theorem text_plain (z : Zlib) (now : Int) (t : Bytes) (mode : Nat) (raw : Bytes)
    (hr : raw = enc Xdr.privateMessage (t, mode)) :
    ∃ m, Crpc.crpc z now (.privateMessage (t, mode)) = some m ∧
      m.length = if raw.length < (z.deflate raw).length then 24 + raw.length else 28 + (z.deflate raw).length := by
  subst hr
  by_cases h : (enc Xdr.privateMessage (t, mode)).length < (z.deflate (enc Xdr.privateMessage (t, mode))).length
  · have e : compress z (.privateMessage (t, mode)) = some (enc Xdr.privateMessage (t, mode), compNone) := by
      rw [compress]; simp only [marshal]; rw [if_pos h]
    refine ⟨enc Xdr.crpc (now, cmdPrivateMessage, compNone) ++ enc Xdr.privateMessage (t, mode), ?_, ?_⟩
    · rw [Crpc.crpc, e]; rfl
    · rw [if_pos h, crpc_length (z := z) (p := .privateMessage (t, mode)) (now := now) (by rw [Crpc.crpc, e]; rfl) e rfl]
      rfl
  · have e : compress z (.privateMessage (t, mode)) = some (z.deflate (enc Xdr.privateMessage (t, mode)), compZlib) := by
      rw [compress]; simp only [marshal]; rw [if_neg h]
    refine ⟨enc Xdr.crpc (now, cmdPrivateMessage, compZlib) ++ z.deflate (enc Xdr.privateMessage (t, mode)), ?_, ?_⟩
    · rw [Crpc.crpc, e]; rfl
    · rw [if_neg h, crpc_length (z := z) (p := .privateMessage (t, mode)) (now := now) (by rw [Crpc.crpc, e]; rfl) e rfl]
      rfl

/-- **C133** (violated) Messages are compressed before they are encrypted, so their lengths depend on what is in them. With
any lossless compression that makes some text shorter (by twelve bytes, of which eight are what the encoding adds), there is
another text of the same length which the server can always tell from it. -/
theorem C133_compression_violated (z : Zlib) (hz : z.Lossless) (M : Mac) (o : Out) (t : Bytes) (mode : Nat)
    (ho : o.payload = .privateMessage (t, mode))
    (hs : (z.deflate (enc Xdr.privateMessage (t, mode))).length + 4 ≤ t.length) :
    ∃ t' : Bytes, t'.length = t.length ∧ ∀ c c', Fits_ z M [o] [c] →
      Fits_ z M [{ o with payload := .privateMessage (t', mode) }] [c'] →
      wire z M o c ≠ wire z M { o with payload := .privateMessage (t', mode) } c' := by
  refine Classical.byContradiction fun hno => ?_
  have hno' : ∀ t' : Bytes, t'.length = t.length → ∃ c c', Fits_ z M [o] [c] ∧
      Fits_ z M [{ o with payload := .privateMessage (t', mode) }] [c'] ∧
      wire z M o c = wire z M { o with payload := .privateMessage (t', mode) } c' := by
    intro t' ht'
    refine Classical.byContradiction fun h => hno ⟨t', ht', fun c c' h1 h2 h3 => h ⟨c, c', h1, h2, h3⟩⟩
  have hinj : ∀ a b : Bytes, a.length = t.length → b.length = t.length →
      z.deflate (enc Xdr.privateMessage (a, mode)) = z.deflate (enc Xdr.privateMessage (b, mode)) → a = b := by
    intro a b ha hb h
    have h1 := hz (enc Xdr.privateMessage (a, mode))
    rw [h, hz] at h1
    have h2 : be32 b.length ++ (b ++ List.replicate (padLen b.length) 0) ++ be32 mode =
      be32 a.length ++ (a ++ List.replicate (padLen a.length) 0) ++ be32 mode := Option.some.inj h1
    rw [ha, hb] at h2
    exact (List.append_cancel_right (List.append_cancel_left (List.append_cancel_right h2))).symm
  have := pigeonhole (n := t.length) (lo := (z.deflate (enc Xdr.privateMessage (t, mode))).length)
    (fun t' => z.deflate (enc Xdr.privateMessage (t', mode))) hinj (by
    intro t' ht'
    obtain ⟨c, c', h1, h2, h3⟩ := hno' t' ht'
    obtain ⟨m, hm, hl⟩ := text_plain z o.now t mode _ rfl
    obtain ⟨m', hm', hl'⟩ := text_plain z o.now t' mode _ rfl
    rw [← ho] at hm
    cases h1 with
    | cons h1 _ =>
    cases h2 with
    | cons h2 _ =>
    obtain ⟨m0, e0, f0⟩ := h1
    obtain ⟨m1, e1, f1⟩ := h2
    rw [hm] at e0
    cases e0
    have e1' : Crpc.crpc z o.now (.privateMessage (t', mode)) = some m1 := e1
    rw [hm'] at e1'
    cases e1'
    have hw : wire z M o c = some (enc Xdr.message (cmdCache, o.time, false, o.tag) ++
        enc Xdr.cache (o.to_, encrypt M c o.header m)) := by rw [wire, hm]
    have w1 := wire_length hm f0 hw
    have w2 := wire_length (o := { o with payload := .privateMessage (t', mode) }) hm' f1 (h3 ▸ hw)
    have b1 := up4_bounds (m.length + 120)
    have b2 := up4_bounds (m'.length + 120)
    have b3 := up4_bounds t.length
    have b4 := up4_bounds t'.length
    rw [text_length] at hl hl'
    split at hl <;> split at hl' <;> omega)
  omega

/-- For whom a message is, from what the server reads. -/
def recipient (b : Bytes) : Option Bytes :=
  match dec 0 Xdr.message b with
  | .ok _ rest =>
    match dec 0 Xdr.cache rest with
    | .ok (to_, _) _ => some to_.1
    | _ => none
  | _ => none

theorem recipient_wire {z : Zlib} {M : Mac} {o : Out} {c : Coins M} {m b : Bytes}
    (hm : Crpc.crpc z o.now o.payload = some m) (hf : Fit M m c) (hw : wire z M o c = some b)
    (ht : o.tag < 2 ^ 32 ∧ -2 ^ 63 ≤ o.time ∧ o.time < 2 ^ 63) (hl : m.length + 123 < 2 ^ 31) :
    recipient b = some o.to_.1 := by
  simp only [wire, hm, Option.some.injEq] at hw
  have h1 := C23_roundtrip 0 Xdr.message (cmdCache, o.time, false, o.tag)
    ⟨⟨by show 5 + 3 < 2 ^ 31; decide, fun h => absurd rfl h⟩, ht.2, trivial, ht.1⟩ (enc Xdr.cache (o.to_, encrypt M c o.header m))
  have h2 := C23_roundtrip 0 Xdr.cache (o.to_, encrypt M c o.header m)
    ⟨by show 32 + 3 < 2 ^ 31; decide, by
      show (encrypt M c o.header m).length + 3 < 2 ^ 31
      rw [encrypt_length M c o.header hf]; omega, fun h => absurd rfl h⟩ []
  rw [List.append_nil] at h2
  rw [← hw, recipient, h1]
  dsimp only
  rw [h2]

/-- **C133** (violated) Who is in a group is told to the server by each message to it: the server reads as many messages as
there are other members, one for each of them, in the order of the list of members, all of the same length. -/
theorem C133_group_violated (z : Zlib) (M : Mac) (me : { b : Bytes // b.length = 32 })
    (members : List { b : Bytes // b.length = 32 })
    (f : { b : Bytes // b.length = 32 } → Nat × Int × { b : Bytes // b.length = 64 } × Int) (v : Val groupMessage)
    (hf : ∀ m, (f m).1 < 2 ^ 32 ∧ -2 ^ 63 ≤ (f m).2.1 ∧ (f m).2.1 < 2 ^ 63)
    (hv : (enc Xdr.groupMessage v).length + 200 < 2 ^ 31) (cs : List (Coins M))
    (hc : Fits_ z M (groupOuts me members f v) cs) :
    ∃ bs : List Bytes, view z M (groupOuts me members f v) cs = bs.map some ∧
      bs.map recipient = (members.filter (· ≠ me)).map (fun m => some m.1) ∧
      ∀ b ∈ bs, ∀ b' ∈ bs, b.length = b'.length := by
  obtain ⟨body, comp, he⟩ : ∃ body comp, compress z (.groupMessage v) = some (body, comp) := by
    simp only [compress, marshal]
    split <;> exact ⟨_, _, rfl⟩
  have hbody : body.length ≤ (enc Xdr.groupMessage v).length := by
    simp only [compress, marshal] at he
    split at he <;> cases he <;> omega
  have hcomp : up4 comp.length ≤ 4 := by
    simp only [compress, marshal] at he
    split at he <;> cases he <;> decide
  have hm : ∀ now, Crpc.crpc z now (.groupMessage v) = some (enc Xdr.crpc (now, cmdGroupMessage, comp) ++ body) := by
    intro now
    rw [Crpc.crpc, he]
    rfl
  have hlen : ∀ now, (enc Xdr.crpc (now, cmdGroupMessage, comp) ++ body).length = 28 + up4 comp.length + body.length := by
    intro now
    rw [crpc_length (hm now) he rfl]
    rfl
  unfold groupOuts at hc ⊢
  generalize members.filter (· ≠ me) = l at hc ⊢
  suffices H : ∃ bs : List Bytes, view z M (l.map fun m => (⟨m, (f m).1, (f m).2.1, (f m).2.2.1, (f m).2.2.2,
      .groupMessage v⟩ : Out)) cs = bs.map some ∧ bs.map recipient = l.map (fun m => some m.1) ∧
      ∀ b ∈ bs, b.length = 64 + up4 (28 + up4 comp.length + body.length + 120) by
    obtain ⟨bs, h1, h2, h3⟩ := H
    exact ⟨bs, h1, h2, fun b hb b' hb' => (h3 b hb).trans (h3 b' hb').symm⟩
  induction l generalizing cs with
  | nil => exact ⟨[], rfl, rfl, by simp⟩
  | cons a l ih =>
    cases hc with
    | @cons _ c _ cs h1 h2 =>
    obtain ⟨bs, i1, i2, i3⟩ := ih cs h2
    obtain ⟨m, hm1, hm2⟩ := h1
    have hm1' : Crpc.crpc z (f a).2.2.2 (.groupMessage v) = some m := hm1
    rw [hm] at hm1'
    cases hm1'
    obtain ⟨b, hb⟩ : ∃ b, wire z M (⟨a, (f a).1, (f a).2.1, (f a).2.2.1, (f a).2.2.2, .groupMessage v⟩ : Out) c = some b := by
      rw [wire, hm1]
      exact ⟨_, rfl⟩
    refine ⟨b :: bs, ?_, ?_, ?_⟩
    · rw [List.map_cons, List.map_cons, ← i1, ← hb]
      rfl
    · rw [List.map_cons, List.map_cons, i2, recipient_wire hm1 hm2 hb (hf a) (by rw [hlen]; omega)]
    · intro b' hb'
      rcases List.mem_cons.mp hb' with rfl | h
      · rw [wire_length hm1 hm2 hb, hlen]
      · exact i3 b' h

/-! ## Examples -/

namespace Wit

/-- An authenticator that says nothing. -/
def M : Mac := ⟨Unit, fun _ _ => List.replicate 16 0, fun _ _ => rfl⟩

def who (n : UInt8) : { b : Bytes // b.length = 32 } := ⟨List.replicate 32 n, rfl⟩
def hd (n : UInt8) : { b : Bytes // b.length = 64 } := ⟨List.replicate 64 n, rfl⟩

/-- A message of text `t` to the first person. -/
def msg (t : Bytes) (mode : Nat) (n : UInt8) : Out := ⟨who 1, 7, 1000, hd n, 1000, .privateMessage (t, mode)⟩

end Wit

open Wit

/-- "yes" and "no!", the one a remark; headers differ as well. -/
example : List.Forall₂ (Alike toy) [msg [121, 101, 115] 0 1] [msg [110, 111, 33] 1 2] :=
  .cons (C133_text_partial toy _ _ _ _ _ _ rfl rfl (by decide +kernel) (by decide +kernel) rfl ⟨rfl, rfl, rfl⟩) .nil

/-- A compression that knows one text. -/
def Wit.one : Zlib where
  deflate b := if b = enc Xdr.privateMessage (List.replicate 40 0, (0 : Nat)) then [1] else 0 :: b
  inflate
    | [1] => some (enc Xdr.privateMessage (List.replicate 40 0, (0 : Nat)))
    | 0 :: b => some b
    | _ => none

theorem Wit.one_lossless : one.Lossless := by
  intro b
  by_cases h : b = enc Xdr.privateMessage (List.replicate 40 0, (0 : Nat))
  · rw [show one.deflate b = [1] from if_pos h, h]
    rfl
  · rw [show one.deflate b = 0 :: b from if_neg h]
    rfl

example : ∃ t' : Bytes, t'.length = 40 ∧ ∀ c c', Fits_ one M [msg (List.replicate 40 0) 0 1] [c] →
    Fits_ one M [msg t' 0 1] [c'] → wire one M (msg (List.replicate 40 0) 0 1) c ≠ wire one M (msg t' 0 1) c' := by
  obtain ⟨t', h1, h2⟩ := C133_compression_violated one one_lossless M (msg (List.replicate 40 0) 0 1)
    (List.replicate 40 0) 0 rfl (by decide +kernel)
  exact ⟨t', h1, h2⟩

/-- A group of three. -/
example : (groupOuts (who 1) [who 1, who 2, who 3] (fun _ => (1, 2, hd 0, 3)) ([103], (1 : Nat), [104], (0 : Nat))).length = 2 := by
  decide +kernel

end Verif.Observer
