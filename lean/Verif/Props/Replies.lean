import Verif.Model.Replies
import Verif.Props.Sizes
import Verif.Props.Rendezvous
import Verif.Props.Xdr

/-! # C139: whatever a client may ask for, the server can answer -/

namespace Verif.Replies

open Verif Xdr Crpc Sizes Observer

/-! ## Lengths -/

/-- A length, and what is added so that it is a multiple of four. -/
theorem up4_eq (n : Nat) : up4 n = 4 * ((n + 3) / 4) := by
  unfold up4 padLen
  omega

theorem hex_length : ∀ b : Bytes, (Hex.encode b).length = 2 * b.length
  | [] => rfl
  | b :: bs => by
    simp only [Hex.encode, List.length_cons, hex_length bs]
    omega

theorem header_length (c : Bytes) (time : Int) (clear : Bool) (tag : Nat) :
    (enc message (c, time, clear, tag)).length = 20 + up4 c.length := by
  refine (C23_size message _).trans ?_
  rw [up4_eq]
  show 4 + 4 * ((c.length + 3) / 4) + (8 + (4 + 4)) = _
  omega

/-- How long the answer to a search is. -/
theorem found_length (tag : Nat) (n e name nick : Bytes) (a : { b : Bytes // b.length = 32 })
    (b : { b : Bytes // b.length = 1218 }) (c d : { b : Bytes // b.length = 32 }) (s : { b : Bytes // b.length = 64 }) :
    ((Rep.found n e (name, nick, a, b, c, d, s)).frame tag).length =
      1436 + up4 n.length + up4 e.length + up4 name.length + up4 nick.length := by
  refine (List.length_append ..).trans ((congr (congrArg _ (header_length ..)) (C23_size identityFindReply _)).trans ?_)
  simp only [up4_eq]
  show 20 + 4 * ((17 + 3) / 4) + (4 + 4 * ((n.length + 3) / 4) + (4 + 4 * ((e.length + 3) / 4) +
    (4 + 4 * ((name.length + 3) / 4) + (4 + 4 * ((nick.length + 3) / 4) + (4 * ((32 + 3) / 4) + (4 * ((1218 + 3) / 4) +
      (4 * ((32 + 3) / 4) + (4 * ((32 + 3) / 4) + 4 * ((64 + 3) / 4))))))))) = _
  omega

theorem pin_length (tag : Nat) (t e : Bytes) :
    ((Rep.pin t e).frame tag).length = 44 + up4 t.length + up4 e.length := by
  refine (List.length_append ..).trans ((congr (congrArg _ (header_length ..)) (C23_size rendezvousReply _)).trans ?_)
  simp only [up4_eq]
  show 20 + 4 * ((15 + 3) / 4) + (4 + 4 * ((t.length + 3) / 4) + (4 + 4 * ((e.length + 3) / 4))) = _
  omega

theorem blob_length (tag : Nat) (e t b : Bytes) :
    ((Rep.blob e t b).frame tag).length = 52 + up4 e.length + up4 t.length + up4 b.length := by
  refine (List.length_append ..).trans ((congr (congrArg _ (header_length ..)) (C23_size rendezvousPullReply _)).trans ?_)
  simp only [up4_eq]
  show 20 + 4 * ((19 + 3) / 4) + (4 + 4 * ((e.length + 3) / 4) + (4 + 4 * ((t.length + 3) / 4) +
    (4 + 4 * ((b.length + 3) / 4)))) = _
  omega

theorem ack_length (tag : Nat) (e : Bytes) (c : Int) : ((Rep.ack e c).frame tag).length = 32 + up4 e.length := by
  refine (List.length_append ..).trans ((congr (congrArg _ (header_length ..)) (C23_size acknowledge _)).trans ?_)
  simp only [up4_eq]
  show 20 + 4 * ((3 + 3) / 4) + (4 + 4 * ((e.length + 3) / 4) + 4) = _
  omega

theorem proxied_length (tag : Nat) (i : Id) (e : Bytes) :
    ((Rep.proxied i e).frame tag).length = 68 + up4 e.length := by
  refine (List.length_append ..).trans ((congr (congrArg _ (header_length ..)) (C23_size proxyReply _)).trans ?_)
  simp only [up4_eq]
  show 20 + 4 * ((10 + 3) / 4) + (4 * ((32 + 3) / 4) + (4 + 4 * ((e.length + 3) / 4))) = _
  omega

theorem find_length (time : Int) (tag : Nat) (n : Bytes) :
    ((Req.find n).frame time tag).length = 36 + up4 n.length := by
  refine (List.length_append ..).trans ((congr (congrArg _ (header_length ..)) (C23_size identityFind _)).trans ?_)
  simp only [up4_eq]
  show 20 + 4 * ((12 + 3) / 4) + (4 + 4 * ((n.length + 3) / 4)) = _
  omega

/-! ## What is stored under PINs -/

/-- The records are those of a server that has been run: they were put there by requests that it read. -/
def Ran (limit : Nat) (db : Rendezvous.DB) : Prop :=
  ∃ es s, Rendezvous.Run limit (Rendezvous.Received limit) Rendezvous.init es s ∧ s.file.getD [] = db

theorem format_length (n : Nat) : (Rendezvous.format n).length ≤ 20 := by
  suffices h : ∀ k n, (Rendezvous.formatAux k n).length ≤ k from h 20 n
  intro k
  induction k with
  | zero => intro n; exact Nat.le_refl _
  | succ k ih =>
    intro n
    rw [Rendezvous.formatAux]
    split
    · simp
    · have := ih (n / 10)
      simp only [List.length_append, List.length_singleton]
      omega

theorem pick_length {db : Rendezvous.DB} {rand : Nat → Option Nat} {k i : Nat} {t : Bytes}
    (h : Rendezvous.pick db rand k i = some t) : t.length ≤ 20 := by
  induction k generalizing i with
  | zero => cases h
  | succ k ih =>
    rw [Rendezvous.pick] at h
    split at h
    · exact ih h
    · split at h
      · exact ih h
      · cases h
        exact format_length _

theorem reply_mem {limit : Nat} {G : Rendezvous.State → Rendezvous.Ev → Prop} {s s' : Rendezvous.State}
    {es : List (Rendezvous.Ev × Rendezvous.Out)} (h : Rendezvous.Run limit G s es s') {c : Rendezvous.Call}
    {rand : Nat → Option Nat} {t : Bytes} (hm : (Rendezvous.Ev.reply c rand, Rendezvous.Out.pin t) ∈ es) :
    c.blob.length ≤ 4096 ∧ t.length ≤ 20 := by
  induction h with
  | nil => cases hm
  | @cons s e o s1 es s2 hg hs hr ih =>
    rcases List.mem_cons.1 hm with h1 | h1
    · cases h1
      rw [Rendezvous.step] at hs
      split at hs
      · have ha : (Rendezvous.answer c rand).1 = .pin t := by
          split at hs
          · rename_i o' he
            rw [he]
            exact (Prod.mk.inj (Option.some.inj hs)).1
          · rename_i o' db he
            rw [he]
            exact (Prod.mk.inj (Option.some.inj hs)).1
        rw [Rendezvous.answer] at ha
        split at ha
        · cases ha
        · rename_i hf
          split at ha
          · cases ha
          · rename_i tok hp
            cases ha
            refine ⟨?_, pick_length hp⟩
            by_contra hc
            exact hf (by simp only [Rendezvous.refused, Bool.or_eq_true, decide_eq_true_eq]; left; omega)
      · cases hs
    · exact ih h1

/-- **C139** What is fetched with a PIN was stored by a client and has at most 4096 bytes. -/
theorem C139_pulled {limit : Nat} {db : Rendezvous.DB} (h : Ran limit db) {t t' b : Bytes}
    (hp : Rendezvous.pull limit db t = .blob t' b) : t.length ≤ 20 ∧ b.length ≤ 4096 := by
  obtain ⟨es, s, hr, hd⟩ := h
  obtain ⟨_, c, rand, hm, hb⟩ := Rendezvous.C41_sound limit es s hr t t' b { s with file := some (s.file.getD []) }
    (by rw [Rendezvous.step, hd, hp])
  have := reply_mem hr hm
  rw [← hb]
  exact ⟨this.2, this.1⟩

/-! ## How long the answers are -/

/-- **C139** All answers but those to searches are short, whatever was asked. -/
theorem C139_short (limit : Nat) (w : World) (hw : Ran limit w.db) (r : Req) (hr : ∀ n, r ≠ .find n) (tag : Nat) :
    ((answer limit w r).frame tag).length ≤ 4168 := by
  cases r with
  | ping =>
    refine Nat.le_trans (Nat.le_of_eq ((List.length_append ..).trans
      (congr (congrArg _ (header_length ..)) (C23_size Xdr.ping _)))) ?_
    exact (by decide : 20 + up4 4 + 0 ≤ 4168)
  | rendezvous b e =>
    simp only [answer]
    split
    · rw [pin_length]
      exact (by decide : 44 + up4 0 + up4 17 ≤ 4168)
    · split
      · rw [pin_length]
        exact (by decide : 44 + up4 0 + up4 18 ≤ 4168)
      · split
        · rw [pin_length]
          exact (by decide : 44 + up4 0 + up4 44 ≤ 4168)
        · rename_i t ht
          have h1 := pick_length ht
          have h2 := up4_bounds t.length
          rw [pin_length]
          show 44 + up4 t.length + 0 ≤ 4168
          omega
  | pull t =>
    simp only [answer]
    split
    · rw [blob_length]
      exact (by decide : 52 + up4 11 + up4 0 + up4 0 ≤ 4168)
    · rename_i v hv
      split
      · rw [blob_length]
        exact (by decide : 52 + up4 27 + up4 0 + up4 0 ≤ 4168)
      · rename_i x hx
        split
        · rename_i rr rest hd
          have h1 := C139_pulled hw (t := t) (t' := t) (b := rr.1) (by simp only [Rendezvous.pull, hv, hx, hd])
          rw [blob_length]
          simp only [up4_eq]
          show 52 + 0 + 4 * ((t.length + 3) / 4) + 4 * ((rr.1.length + 3) / 4) ≤ 4168
          omega
        · rw [blob_length]
          exact (by decide : 52 + up4 24 + up4 0 + up4 0 ≤ 4168)
  | cache i p =>
    simp only [answer]
    split
    · rw [ack_length]
      exact (by decide : 32 + up4 0 ≤ 4168)
    · rw [ack_length]
      exact (by decide : 32 + up4 14 ≤ 4168)
    · rw [ack_length, List.length_append, hex_length, i.2]
      exact (by decide : 32 + up4 (18 + 2 * 32) ≤ 4168)
  | proxy i p =>
    simp only [answer]
    split
    · rw [proxied_length]
      exact (by decide : 68 + up4 0 ≤ 4168)
    · rw [proxied_length, List.length_append, hex_length, i.2]
      exact (by decide : 68 + up4 (26 + 2 * 32) ≤ 4168)
  | find n => exact absurd rfl (hr n)

/-- **C139** The answer to a search that finds somebody can be written just if the names are not too long: the one that was
asked for, and the two of who was found. -/
theorem C139_found (max : Nat) (w : World) (n : Bytes) (p : Pub) (h : w.found n = some p) (tag : Nat) :
    fits max ((answer max w (.find n)).frame tag) = true ↔
      1452 + up4 n.length + up4 (List.length (α := UInt8) p.1) + up4 (List.length (α := UInt8) p.2.1) ≤ max := by
  simp only [answer, h]
  rw [fits_iff]
  obtain ⟨name, nick, a, b, c, d, s⟩ := p
  refine (Iff.of_eq (congrArg (fun x => x + 16 ≤ max) (found_length tag n [] name nick a b c d s))).trans ?_
  show 1436 + up4 n.length + 0 + up4 (List.length (α := UInt8) name) + up4 (List.length (α := UInt8) nick) + 16 ≤ max ↔
    1452 + up4 n.length + up4 (List.length (α := UInt8) name) + up4 (List.length (α := UInt8) nick) ≤ max
  omega

/-- **C139** The answer to a search that finds nobody says the name twice. -/
theorem C139_unknown (max : Nat) (w : World) (n : Bytes) (h : w.found n = none) (tag : Nat) :
    fits max ((answer max w (.find n)).frame tag) = true ↔ 1468 + 2 * up4 n.length ≤ max := by
  simp only [answer, h]
  rw [fits_iff, noIdentity, found_length, List.length_append]
  have h1 : up4 ((ascii "nick not found: ".toList).length + n.length) = 16 + up4 n.length := by
    show up4 (16 + n.length) = _
    simp only [up4_eq]
    omega
  rw [h1]
  show 1436 + up4 n.length + (16 + up4 n.length) + 0 + 0 + 16 ≤ max ↔ _
  omega

/-- **C139** The answers about PINs are those of C41, with the reason for a refusal. -/
theorem C139_same (limit : Nat) (w : World) (b e t : Bytes) :
    (Rendezvous.answer ⟨b, e, w.db⟩ w.rand).1 = (match answer limit w (.rendezvous b e) with
      | .pin t [] => .pin t
      | _ => .failed) ∧
    Rendezvous.pull limit w.db t = (match answer limit w (.pull t) with
      | .blob [] t b => .blob t b
      | _ => .notFound) ∧
    (answer limit w (.rendezvous b e) = .pin [] (ascii "invalid blob size".toList) ↔ 4096 < b.length) ∧
    (answer limit w (.pull t) = .blob (ascii "invalid PIN".toList) [] [] ↔ w.db.get t = none) := by
  refine ⟨?_, ?_, ?_, ?_⟩
  · simp only [Rendezvous.answer, answer]
    by_cases h : b.length > 4096
    · rw [if_pos h, if_pos (by simp [Rendezvous.refused, h])]
      rfl
    · rw [if_neg h]
      split
      · rfl
      · cases Rendezvous.pick w.db w.rand 25 0 <;> rfl
  · simp only [Rendezvous.pull, answer]
    cases w.db.get t with
    | none => rfl
    | some v =>
      simp only
      cases Base64.decode v with
      | none => rfl
      | some x =>
        simp only
        cases dec limit Xdr.rendezvous x <;> rfl
  · simp only [answer]
    by_cases h : b.length > 4096
    · simp [h]
    · rw [if_neg h]
      refine ⟨fun h' => ?_, fun h' => absurd h' h⟩
      split at h'
      · exact absurd (Rep.pin.inj h').2 (by decide)
      · split at h'
        · exact absurd (Rep.pin.inj h').2 (by decide)
        · exact absurd (Rep.pin.inj h').2 (by decide)
  · simp only [answer]
    cases w.db.get t with
    | none => simp
    | some v =>
      refine ⟨fun h' => ?_, fun h' => by cases h'⟩
      simp only at h'
      split at h'
      · exact absurd (Rep.blob.inj h').1 (by decide)
      · split at h'
        · exact absurd (Rep.blob.inj h').1 (by decide)
        · exact absurd (Rep.blob.inj h').1 (by decide)

/-- All bytes of an identity. -/
def bytesOf (p : Pub) : Bytes :=
  let p : Bytes × Bytes × { b : Bytes // b.length = 32 } × { b : Bytes // b.length = 1218 } ×
    { b : Bytes // b.length = 32 } × { b : Bytes // b.length = 32 } × { b : Bytes // b.length = 64 } := p
  p.1 ++ p.2.1 ++ p.2.2.1.1 ++ p.2.2.2.1.1 ++ p.2.2.2.2.1.1 ++ p.2.2.2.2.2.1.1 ++ p.2.2.2.2.2.2.1

/-- **C139** A search that finds nobody is answered with an error and with nobody's identity; one that finds somebody with
theirs and without an error. -/
theorem C139_search (limit : Nat) (w : World) (n : Bytes) :
    ∃ e p, answer limit w (.find n) = .found n e p ∧ (w.found n = some p ↔ e = []) ∧
      (w.found n = none ↔ e ≠ []) ∧ (w.found n = none → ∀ x ∈ bytesOf p, x = 0) := by
  cases h : w.found n with
  | none =>
    refine ⟨ascii "nick not found: ".toList ++ n, noIdentity, by simp only [answer, h], ⟨fun h => (by cases h), fun h => ?_⟩, ⟨fun _ h => ?_, fun _ => rfl⟩, fun _ x hx => ?_⟩
    · exact absurd (List.append_eq_nil_iff.1 h).1 (by decide)
    · exact absurd (List.append_eq_nil_iff.1 h).1 (by decide)
    · simp only [bytesOf, noIdentity, zeros, List.mem_append, List.mem_replicate] at hx
      rcases hx with (((((h | h) | h) | h) | h) | h) | h
      · cases h
      · cases h
      all_goals exact h.2
  | some p =>
    exact ⟨[], p, by simp only [answer, h], by simp, by simp, fun h => by cases h⟩

/-! ## Sessions -/

/-- What was asked is short enough: of searches, the names. -/
def Modest (max : Nat) (x : Nat × World × Req) : Prop :=
  Ran max x.2.1.db ∧ ∀ n, x.2.2 = .find n → n.length ≤ 65536 ∧
    ∀ p, x.2.1.found n = some p → List.length (α := UInt8) p.1 ≤ 65536 ∧ List.length (α := UInt8) p.2.1 ≤ 65536

/-- **C139** Answers are written in the order in which was asked, each with the tag of its request; none is left out before
another. -/
theorem C139_order (max : Nat) (l : List (Nat × World × Req)) :
    serve max l <+: l.map fun x => (answer max x.2.1 x.2.2).frame x.1 := by
  induction l with
  | nil => exact List.prefix_refl _
  | cons x l ih =>
    obtain ⟨tag, w, r⟩ := x
    rw [serve]
    split
    · exact (List.prefix_cons_inj _).2 ih
    · exact List.nil_prefix

/-- **C139** The tag of an answer is what the client reads from it. -/
theorem C139_tag (r : Rep) (tag : Nat) (h : tag < 2 ^ 32) :
    ∃ c body, dec 0 message (r.frame tag) = .ok (c, 0, false, tag) body := by
  have h1 : ∀ (c : Bytes) (body : Bytes), c.length ≤ 100 →
      dec 0 message (enc message (c, 0, false, tag) ++ body) = .ok (c, 0, false, tag) body := by
    intro c body hc
    exact C23_roundtrip 0 message (c, 0, false, tag)
      ⟨⟨by show c.length + 3 < 2 ^ 31; omega, fun hz => absurd rfl hz⟩, (by decide : (-2 ^ 63 : Int) ≤ 0 ∧ (0 : Int) < 2 ^ 63), trivial, h⟩ body
  cases r <;> exact ⟨_, _, h1 _ _ (by decide)⟩

/-- **C139** (partial: names of at most 65536 bytes; see the violations) Every request of a session is answered. -/
theorem C139_all_partial (l : List (Nat × World × Req)) (h : ∀ x ∈ l, Modest maxMsgSize x) :
    serve maxMsgSize l = l.map fun x => (answer maxMsgSize x.2.1 x.2.2).frame x.1 := by
  induction l with
  | nil => rfl
  | cons x l ih =>
    obtain ⟨tag, w, r⟩ := x
    have hm : maxMsgSize = 263168 := rfl
    have hx := h _ List.mem_cons_self
    have hf : fits maxMsgSize ((answer maxMsgSize w r).frame tag) = true := by
      by_cases hr : ∃ n, r = .find n
      · obtain ⟨n, rfl⟩ := hr
        obtain ⟨h1, h2⟩ := hx.2 n rfl
        have b1 := up4_bounds n.length
        cases hw : w.found n with
        | none =>
          rw [C139_unknown _ _ _ hw]
          omega
        | some p =>
          have h3 := h2 p hw
          have b2 := up4_bounds (List.length (α := UInt8) p.1)
          have b3 := up4_bounds (List.length (α := UInt8) p.2.1)
          rw [C139_found _ _ _ _ hw]
          omega
      · have := C139_short maxMsgSize w hx.1 r (fun n e => hr ⟨n, e⟩) tag
        rw [fits_iff]
        omega
    rw [serve]
    simp only [hf, if_true, List.map_cons]
    rw [ih fun y hy => h y (List.mem_cons_of_mem _ hy)]

theorem serve_stops (max : Nat) (l m : List (Nat × World × Req)) (tag : Nat) (w : World) (r : Req)
    (h : fits max ((answer max w r).frame tag) = false) : serve max (l ++ (tag, w, r) :: m) = serve max l := by
  induction l with
  | nil => simp [serve, h]
  | cons x l ih =>
    obtain ⟨t, w', r'⟩ := x
    simp only [List.cons_append, serve, ih]

/-- An identity of that nick with a long name. -/
def longName (nick : Bytes) : Pub :=
  (List.replicate 262000 0, nick, zeros 32, zeros 1218, zeros 32, zeros 32, zeros 64)

/-- **C139** (violated) An identity with a name of 262000 bytes is read by the server when an account is made. Whoever looks
up its nick then loses the session: neither this request nor any later one of the session is answered. -/
theorem C139_ends_violated (nick token : Bytes) (hn : nick.length ≤ 1000) (ht : token.length ≤ 1000) :
    dec maxMsgSize createAccount (enc createAccount (token, longName nick)) = .ok (token, longName nick) [] ∧
    (∀ time tag, fits maxMsgSize ((Req.find nick).frame time tag) = true) ∧
    ∀ (w : World) (tag : Nat) (earlier later : List (Nat × World × Req)), w.found nick = some (longName nick) →
      serve maxMsgSize (earlier ++ (tag, w, .find nick) :: later) = serve maxMsgSize earlier := by
  have hm : maxMsgSize = 263168 := rfl
  refine ⟨?_, fun time tag => ?_, fun w tag earlier later hw => serve_stops _ _ _ _ _ _ ?_⟩
  · have := C23_roundtrip maxMsgSize createAccount (token, longName nick) ?_ []
    · rwa [List.append_nil] at this
    · refine ⟨⟨by show token.length + 3 < 2 ^ 31; omega, fun _ => by show token.length ≤ _; omega⟩, ⟨?_, ?_⟩, ⟨?_, ?_⟩, ?_⟩
      · show (List.replicate 262000 (0 : UInt8)).length + 3 < 2 ^ 31
        rw [List.length_replicate]
        omega
      · intro _
        show (List.replicate 262000 (0 : UInt8)).length ≤ _
        rw [List.length_replicate]
        omega
      · show nick.length + 3 < 2 ^ 31
        omega
      · intro _
        show nick.length ≤ _
        omega
      · exact ⟨(by decide : 32 + 3 < 2 ^ 31), (by decide : 1218 + 3 < 2 ^ 31), (by decide : 32 + 3 < 2 ^ 31),
          (by decide : 32 + 3 < 2 ^ 31), (by decide : 64 + 3 < 2 ^ 31)⟩
  · have b := up4_bounds nick.length
    rw [fits_iff, find_length]
    omega
  · rw [← Bool.not_eq_true, C139_found _ _ _ _ hw]
    show ¬ (1452 + up4 nick.length + up4 (List.replicate 262000 (0 : UInt8)).length + up4 nick.length ≤ maxMsgSize)
    rw [List.length_replicate]
    have b := up4_bounds 262000
    omega

/-- **C139** (violated) A client may look up a name that nobody has and lose its session by this: it is so for just the names
of 130849 to 263116 bytes. -/
theorem C139_unknown_violated (w : World) (n : Bytes) (h : w.found n = none) (time : Int) (tag tag' : Nat) :
    (fits maxMsgSize ((Req.find n).frame time tag) = true ∧
      fits maxMsgSize ((answer maxMsgSize w (.find n)).frame tag') = false) ↔ 130849 ≤ n.length ∧ n.length ≤ 263116 := by
  rw [← Bool.not_eq_true, C139_unknown _ _ _ h, fits_iff, find_length]
  have hm : maxMsgSize = 263168 := rfl
  simp only [up4_eq]
  omega

/-! ## Instances -/

namespace Wit

def who : Id := zeros 32
/-- Nobody is in the directory but one with the nick `[97]`. -/
def world : World := ⟨fun _ => .stored, [], fun _ => some 1234567, fun n => if n = [97] then some (longName [97]) else none⟩

/-- A session with all kinds of requests. -/
example : serve maxMsgSize [(1, world, .ping), (2, world, .rendezvous [1] [49]), (3, world, .pull [49]),
      (4, world, .cache who [1]), (5, world, .proxy who [1]), (6, world, .find [98])] =
    [(1, Rep.pong), (2, .pin (ascii "234567".toList) []), (3, .blob (ascii "invalid PIN".toList) [] []), (4, .ack [] 0),
      (5, .proxied who []), (6, .found [98] (ascii "nick not found: b".toList) noIdentity)].map fun x => x.2.frame x.1 := by
  rw [C139_all_partial]
  · rfl
  · intro x hx
    have hr : Ran maxMsgSize [] := ⟨[], Rendezvous.init, .nil _, rfl⟩
    simp only [List.mem_cons, List.not_mem_nil, or_false] at hx
    rcases hx with rfl | rfl | rfl | rfl | rfl | rfl <;> refine ⟨hr, fun n hn => ?_⟩ <;> cases hn
    exact ⟨by decide, fun p hp => by cases hp⟩

/-- The search for `[97]` is the last thing that is asked. -/
example : serve maxMsgSize [(1, world, .ping), (2, world, .find [97]), (3, world, .ping)] = [Rep.pong.frame 1] := by
  have := (C139_ends_violated [97] [] (by decide) (by decide)).2.2 world 2 [(1, world, .ping)] [(3, world, .ping)] (by rfl)
  exact this.trans (by rfl)

end Wit

end Verif.Replies
