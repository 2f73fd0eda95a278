import Verif.Model.Sizes
import Verif.Props.Observer

/-! # C135: what a client may send can be sent, and what the server takes can be given to the recipient -/

namespace Verif.Sizes

open Verif Xdr Crpc Observer

/-! ## Lengths -/

theorem fits_iff (max : Nat) (b : Bytes) : fits max b = true ↔ b.length + 16 ≤ max := by
  simp [fits]

theorem up4_mul (n : Nat) : up4 n % 4 = 0 := by
  unfold up4 padLen
  omega

theorem up_length (clear : Bool) (time : Int) (tag : Nat) (to_ : { b : Bytes // b.length = 32 }) (payload : Bytes) :
    (upFrame clear time tag to_ payload).length = 64 + up4 payload.length := by
  rw [upFrame, List.length_append]
  have h1 : (enc Xdr.message (if clear then cmdProxy else cmdCache, time, clear, tag)).length = 28 := by
    show (enc .opaque (if clear then cmdProxy else cmdCache) ++ (be64 _ ++ (be32 _ ++ be32 _))).length = 28
    simp only [List.length_append, opaque_length, be64_length, be32_length]
    cases clear <;> rfl
  have h2 : (enc Xdr.cache (to_, payload)).length = 36 + up4 payload.length := by
    show (encFixed to_.1 ++ enc .opaque payload).length = _
    rw [List.length_append, opaque_length]
    have : (encFixed to_.1).length = 32 := by simp [encFixed, to_.2, padLen]
    omega
  omega

theorem down_length (tag : Nat) (m : Stored) : (downFrame tag m).length = 68 + up4 m.payload.length := by
  rw [downFrame, List.length_append]
  have h1 : (enc Xdr.message (cmdPush, 0, m.clear, tag)).length = 24 := by
    show (enc .opaque cmdPush ++ (be64 _ ++ (be32 _ ++ be32 _))).length = 24
    simp only [List.length_append, opaque_length, be64_length, be32_length]
    rfl
  have h2 : (enc Xdr.push (m.sender, m.received, m.payload)).length = 44 + up4 m.payload.length := by
    show (encFixed m.sender.1 ++ (be64 _ ++ enc .opaque m.payload)).length = _
    rw [List.length_append, List.length_append, opaque_length, be64_length]
    have : (encFixed m.sender.1).length = 32 := by simp [encFixed, m.sender.2, padLen]
    omega
  omega

/-! ## What the server takes and cannot give -/

/-- What is given to the recipient is four bytes longer than what came from the sender. -/
theorem C135_longer (clear : Bool) (time : Int) (tag tag' : Nat) (to_ : { b : Bytes // b.length = 32 }) (m : Stored) :
    (downFrame tag' m).length = (upFrame clear time tag to_ m.payload).length + 4 := by
  rw [up_length, down_length]
  omega

/-- **C135** (partial: of what is four bytes shorter than it might be; see `C135_poison_violated`) What the server takes with
a limit that is four bytes lower it can give to the recipient. -/
theorem C135_given_partial (max : Nat) (clear : Bool) (time : Int) (tag tag' : Nat) (to_ : { b : Bytes // b.length = 32 })
    (m : Stored) (h : fits max (upFrame clear time tag to_ m.payload) = true) : fits (max + 4) (downFrame tag' m) = true := by
  rw [fits_iff, up_length] at h
  rw [fits_iff, down_length]
  omega

/-- **C135** (violated) What a client may write and the server thus takes, the server cannot always give to the recipient:
these are, with the limit that everybody has, the payloads of 263085 to 263088 bytes, whatever is in them, whoever sends
them, with whatever command, and to whomever. -/
theorem C135_poison_violated (clear : Bool) (time : Int) (tag tag' : Nat) (to_ : { b : Bytes // b.length = 32 })
    (m : Stored) :
    (fits maxMsgSize (upFrame clear time tag to_ m.payload) = true ∧ fits maxMsgSize (downFrame tag' m) = false) ↔
      263085 ≤ m.payload.length ∧ m.payload.length ≤ 263088 := by
  rw [← Bool.not_eq_true, fits_iff, fits_iff, up_length, down_length]
  have h1 := up4_mul m.payload.length
  have h2 := up4_bounds m.payload.length
  have h3 : maxMsgSize = 263168 := rfl
  omega

/-! ## What becomes of the recipient -/

/-- The messages of an account have different numbers, in ascending order, and those that a session has gone through were
written. -/
def Ordered (a : Account) : Prop := a.box.Pairwise (fun p q => p.1 < q.1) ∧ ∀ p ∈ a.box, p.1 < a.count

theorem ordered_step {max : Nat} {a : Account} (h : Ordered a) (e : Ev) : Ordered (step max a e) := by
  cases e with
  | deliver m =>
    refine ⟨List.pairwise_append.2 ⟨h.1, List.pairwise_singleton _ _, ?_⟩, ?_⟩
    · intro p hp q hq
      cases List.mem_singleton.1 hq
      exact h.2 p hp
    · intro p hp
      rcases List.mem_append.1 hp with h1 | h1
      · exact Nat.lt_succ_of_lt (h.2 p h1)
      · cases List.mem_singleton.1 h1
        exact Nat.lt_succ_self _
  | login => rw [step]; split <;> exact h
  | drop => exact h
  | push tag =>
    rw [step]
    split
    · split
      · exact h
      · split <;> exact h
    · exact h
  | ack k =>
    rw [step]
    split
    · exact ⟨h.1.filter _, fun p hp => h.2 p (List.mem_filter.1 hp).1⟩
    · exact h

theorem ordered_run {max : Nat} : ∀ {es : List Ev} {a : Account}, Ordered a → Ordered (run max a es)
  | [], _, h => h
  | e :: es, _, h => ordered_run (es := es) (ordered_step h e)

/-- A message that cannot be given is in the account, and neither it nor any that came after it has been gone through in
this session. -/
structure Locked (max : Nat) (k : Nat) (m : Stored) (a : Account) : Prop where
  stays : (k, m) ∈ a.box
  taken : ∀ j ∈ a.taken, j < k
  ordered : Ordered a

theorem locked_step {max : Nat} {k : Nat} {m : Stored} {a : Account} (hm : ∀ tag, fits max (downFrame tag m) = false)
    (h : Locked max k m a) (e : Ev) :
    Locked max k m (step max a e) ∧
      ((step max a e).written = a.written ∨ ∃ p, (step max a e).written = p :: a.written ∧ p.1 < k) ∧
      ∀ p ∈ a.box, k ≤ p.1 → p ∈ (step max a e).box := by
  have ho := ordered_step (max := max) h.ordered e
  cases e with
  | deliver x =>
    exact ⟨⟨List.mem_append_left _ h.stays, h.taken, ho⟩, .inl rfl, fun p hp _ => List.mem_append_left _ hp⟩
  | login =>
    by_cases hn : a.online
    · have e : step max a .login = a := by rw [step, if_pos hn]
      rw [e]
      exact ⟨h, .inl rfl, fun _ hp _ => hp⟩
    · have e : step max a .login = { a with online := true, taken := [] } := by rw [step, if_neg hn]
      rw [e] at ho ⊢
      exact ⟨⟨h.stays, fun _ hj => by simp at hj, ho⟩, .inl rfl, fun _ hp _ => hp⟩
  | drop => exact ⟨⟨h.stays, h.taken, ho⟩, .inl rfl, fun _ hp _ => hp⟩
  | push tag =>
    by_cases hn : a.online
    · cases hx : next a with
      | none =>
        have e : step max a (.push tag) = a := by rw [step, if_pos hn, hx]
        rw [e]
        exact ⟨h, .inl rfl, fun _ hp _ => hp⟩
      | some p =>
        by_cases hf : fits max (downFrame tag p.2)
        · have e : step max a (.push tag) = { a with taken := p.1 :: a.taken, written := p :: a.written } := by
            rw [step, if_pos hn, hx]; simp only [hf, if_true]
          rw [e] at ho ⊢
          have hk : p.1 < k := by
            rw [next, List.find?_eq_some_iff_append] at hx
            obtain ⟨hp, as, bs, hb, has⟩ := hx
            have hs := h.stays
            rw [hb] at hs
            rcases List.mem_append.1 hs with h1 | h1
            · have := has _ h1
              have h2 : k ∈ a.taken := by simpa using this
              exact absurd (h.taken k h2) (Nat.lt_irrefl _)
            · rcases List.mem_cons.1 h1 with h1 | h1
              · rw [← h1, hm tag] at hf
                cases hf
              · have h3 := h.ordered.1
                rw [hb] at h3
                exact (List.pairwise_cons.1 (List.pairwise_append.1 h3).2.1).1 _ h1
          refine ⟨⟨h.stays, ?_, ho⟩, .inr ⟨p, rfl, hk⟩, fun _ hp _ => hp⟩
          intro j hj
          rcases List.mem_cons.1 hj with rfl | hj
          · exact hk
          · exact h.taken j hj
        · have e : step max a (.push tag) = { a with online := false } := by
            rw [step, if_pos hn, hx]; simp only [hf]; rfl
          rw [e] at ho ⊢
          exact ⟨⟨h.stays, h.taken, ho⟩, .inl rfl, fun _ hp _ => hp⟩
    · have e : step max a (.push tag) = a := by rw [step, if_neg hn]
      rw [e]
      exact ⟨h, .inl rfl, fun _ hp _ => hp⟩
  | ack j =>
    by_cases hc : (a.online && a.taken.contains j) = true
    · have e : step max a (.ack j) = { a with box := a.box.filter fun p => p.1 ≠ j } := by rw [step, if_pos hc]
      rw [e] at ho ⊢
      have hj : j < k := by
        simp only [Bool.and_eq_true, List.contains_iff_mem] at hc
        exact h.taken j hc.2
      refine ⟨⟨List.mem_filter.2 ⟨h.stays, ?_⟩, h.taken, ho⟩, .inl rfl, fun p hp hk => List.mem_filter.2 ⟨hp, ?_⟩⟩
      · simp only [ne_eq, decide_not, Bool.not_eq_eq_eq_not, Bool.not_true, decide_eq_false_iff_not]
        omega
      · simp only [ne_eq, decide_not, Bool.not_eq_eq_eq_not, Bool.not_true, decide_eq_false_iff_not]
        omega
    · have e : step max a (.ack j) = a := by rw [step, if_neg hc]
      rw [e]
      exact ⟨h, .inl rfl, fun _ hp _ => hp⟩

/-- What happens from the moment when a message that cannot be given has come. -/
theorem locked_run {max : Nat} {k : Nat} {m : Stored} (hm : ∀ tag, fits max (downFrame tag m) = false) :
    ∀ {es : List Ev} {a : Account}, Locked max k m a →
      Locked max k m (run max a es) ∧
        (∃ l, (run max a es).written = l ++ a.written ∧ ∀ p ∈ l, p.1 < k) ∧
        ∀ p ∈ a.box, k ≤ p.1 → p ∈ (run max a es).box
  | [], a, h => ⟨h, ⟨[], rfl, fun _ hp => by simp at hp⟩, fun _ hp _ => hp⟩
  | e :: es, a, h => by
    obtain ⟨h1, h2, h3⟩ := locked_step hm h e
    obtain ⟨i1, ⟨l, i2, i3⟩, i4⟩ := locked_run hm (es := es) h1
    refine ⟨i1, ?_, fun p hp hk => i4 p (h3 p hp hk) hk⟩
    rcases h2 with h2 | ⟨p, h2, hp⟩
    · exact ⟨l, by rw [← h2]; exact i2, i3⟩
    · refine ⟨l ++ [p], ?_, ?_⟩
      · show (run max (step max a e) es).written = _
        rw [i2, h2, List.append_assoc]
        rfl
      · intro q hq
        rcases List.mem_append.1 hq with hq | hq
        · exact i3 q hq
        · rw [List.mem_singleton.1 hq]
          exact hp

theorem taken_step {max : Nat} {a : Account} (h : ∀ j ∈ a.taken, j < a.count) (ho : Ordered a) (e : Ev) :
    ∀ j ∈ (step max a e).taken, j < (step max a e).count := by
  cases e with
  | deliver m => exact fun j hj => Nat.lt_succ_of_lt (h j hj)
  | login =>
    rw [step]
    split
    · exact h
    · intro j hj; simp at hj
  | drop => exact h
  | push tag =>
    rw [step]
    split
    · split
      · exact h
      · rename_i p hx
        split
        · intro j hj
          rcases List.mem_cons.1 hj with rfl | hj
          · exact ho.2 p (List.mem_of_find?_eq_some hx)
          · exact h j hj
        · exact h
    · exact h
  | ack k => rw [step]; split <;> exact h

theorem taken_run {max : Nat} : ∀ {es : List Ev} {a : Account}, (∀ j ∈ a.taken, j < a.count) → Ordered a →
    ∀ j ∈ (run max a es).taken, j < (run max a es).count
  | [], _, h, _ => h
  | e :: es, _, h, ho => taken_run (es := es) (taken_step h ho e) (ordered_step ho e)

theorem new_ordered : Ordered Account.new := ⟨List.Pairwise.nil, fun _ h => by simp [Account.new] at h⟩

/-- **C135** (violated) Anybody can cut anybody off: let an account have any past, and let then come a payload of 263085 to
263088 bytes, which clients may write (`C135_poison_violated`). Whatever happens later, that message stays on the server,
and no message that comes after it is ever written to the recipient: only those that were there before are. -/
theorem C135_lockout_violated (past future : List Ev) (m : Stored) (h1 : 263085 ≤ m.payload.length) (a b : Account)
    (ha : a = run maxMsgSize .new past) (hb : b = run maxMsgSize a (.deliver m :: future)) :
    (a.count, m) ∈ b.box ∧ ∃ l, b.written = l ++ a.written ∧ ∀ p ∈ l, p.1 < a.count := by
  have hm : ∀ tag, fits maxMsgSize (downFrame tag m) = false := by
    intro tag
    rw [← Bool.not_eq_true, fits_iff, down_length]
    have h2 := up4_mul m.payload.length
    have h3 := up4_bounds m.payload.length
    have h4 : maxMsgSize = 263168 := rfl
    omega
  have ho : Ordered a := ha ▸ ordered_run new_ordered
  have ht : ∀ j ∈ a.taken, j < a.count := ha ▸ taken_run (fun _ h => by simp [Account.new] at h) new_ordered
  have hl : Locked maxMsgSize a.count m (step maxMsgSize a (.deliver m)) :=
    ⟨List.mem_append_right _ (List.mem_singleton.2 rfl), ht, ordered_step ho _⟩
  obtain ⟨i1, i2, -⟩ := locked_run hm (es := future) hl
  subst hb
  exact ⟨i1.stays, i2⟩

/-- **C135** (violated) With such a message no session lasts: when what was there before it has been written, the next push
ends the session, and so in every session. -/
theorem C135_session_violated (max : Nat) (k : Nat) (m : Stored) (rest before : List (Nat × Stored)) (a : Account)
    (hm : ∀ tag, fits max (downFrame tag m) = false) (hb : a.box = before ++ (k, m) :: rest)
    (ht : ∀ p ∈ before, p.1 ∈ a.taken) (hk : k ∉ a.taken) (tag : Nat) : (step max a (.push tag)).online = false := by
  have hx : next a = some (k, m) := by
    rw [next, hb, List.find?_append]
    have : before.find? (fun p => !a.taken.contains p.1) = none := by
      rw [List.find?_eq_none]
      intro p hp
      simpa using ht p hp
    rw [this]
    simp [hk]
  by_cases hn : a.online
  · rw [step, if_pos hn, hx]
    simp only [hm tag]
    rfl
  · rw [step, if_neg hn]
    simpa using hn

/-- Pushes, one after the other. -/
def pushes (n : Nat) : List Ev := List.replicate n (.push 0)

theorem push_next {max : Nat} {a : Account} {p : Nat × Stored} (hn : a.online = true) (hx : next a = some p)
    (hf : ∀ tag, fits max (downFrame tag p.2) = true) :
    step max a (.push 0) = { a with taken := p.1 :: a.taken, written := p :: a.written } := by
  rw [step, if_pos hn, hx]
  simp only [hf 0, if_true]

theorem pushes_all {max : Nat} : ∀ (todo : List (Nat × Stored)) (a : Account) (done : List (Nat × Stored)),
    a.online = true → a.box = done ++ todo → a.box.Pairwise (fun p q => p.1 < q.1) → (∀ p ∈ done, p.1 ∈ a.taken) →
    (∀ p ∈ todo, p.1 ∉ a.taken) → (∀ p ∈ todo, ∀ tag, fits max (downFrame tag p.2) = true) →
    (run max a (pushes todo.length)).written = todo.reverse ++ a.written ∧
      (run max a (pushes todo.length)).online = true
  | [], a, _, hn, _, _, _, _, _ => ⟨rfl, hn⟩
  | p :: todo, a, done, hn, hb, ho, hd, ht, hf => by
    have hx : next a = some p := by
      rw [next, hb, List.find?_append]
      have : done.find? (fun p => !a.taken.contains p.1) = none := by
        rw [List.find?_eq_none]
        intro q hq
        simpa using hd q hq
      rw [this]
      have := ht p (List.mem_cons_self ..)
      simp [this]
    have hs := push_next hn hx (hf p (List.mem_cons_self ..))
    have hlt : ∀ q ∈ todo, p.1 < q.1 := by
      rw [hb] at ho
      exact (List.pairwise_cons.1 (List.pairwise_append.1 ho).2.1).1
    have ih := pushes_all todo (step max a (.push 0)) (done ++ [p]) (by rw [hs]; exact hn)
      (by rw [hs]; show a.box = _; rw [hb, List.append_assoc]; rfl) (by rw [hs]; exact ho)
      (by
        rw [hs]
        intro q hq
        rcases List.mem_append.1 hq with hq | hq
        · exact List.mem_cons_of_mem _ (hd q hq)
        · rw [List.mem_singleton.1 hq]
          exact List.mem_cons_self ..)
      (by
        rw [hs]
        intro q hq hm
        rcases List.mem_cons.1 hm with hm | hm
        · exact absurd (hlt q hq) (by rw [hm]; exact Nat.lt_irrefl _)
        · exact ht q (List.mem_cons_of_mem _ hq) hm)
      (fun q hq => hf q (List.mem_cons_of_mem _ hq))
    show (run max (step max a (.push 0)) (pushes todo.length)).written = _ ∧
      (run max (step max a (.push 0)) (pushes todo.length)).online = true
    refine ⟨?_, ih.2⟩
    rw [ih.1, hs, List.reverse_cons, List.append_assoc]
    rfl

/-- **C135** (partial: of messages which all fit; see `C135_lockout_violated`) After any past, in a session that begins, all
the messages that the server has are written, in the order in which they came, and the session goes on. -/
theorem C135_all_partial (max : Nat) (past : List Ev) (a : Account) (ha : a = run max .new past) (hn : a.online = false)
    (hf : ∀ p ∈ a.box, up4 p.2.payload.length + 84 ≤ max) :
    (run max a (.login :: pushes a.box.length)).written = a.box.reverse ++ a.written ∧
      (run max a (.login :: pushes a.box.length)).online = true := by
  have ho : Ordered a := ha ▸ ordered_run new_ordered
  have e : step max a .login = { a with online := true, taken := [] } := by rw [step, hn]; rfl
  have h := pushes_all (max := max) a.box { a with online := true, taken := [] } [] rfl rfl ho.1
    (fun _ h => by simp at h) (fun _ _ h => by simp at h)
    (fun p hp tag => by
      rw [fits_iff, down_length]
      have := hf p hp
      omega)
  show (run max (step max a .login) (pushes a.box.length)).written = _ ∧
    (run max (step max a .login) (pushes a.box.length)).online = true
  rw [e]
  exact h

/-! ## What fits -/

/-- The names of commands are at most 16 bytes long when padded, the name of the compression four. -/
theorem plain_bound {z : Zlib} {now : Int} {p : Payload} {raw m : Bytes} (hr : marshal p = some raw)
    (hm : crpc z now p = some m) : m.length ≤ 36 + raw.length := by
  cases hc : compress z p with
  | none => rw [Crpc.crpc, hc] at hm; cases hm
  | some bc =>
    obtain ⟨body, comp⟩ := bc
    cases hd : command p with
    | none => rw [Crpc.crpc, hc] at hm; simp only [hd] at hm; cases hm
    | some cmd =>
      rw [crpc_length hm hc hd]
      have h1 : up4 cmd.length ≤ 16 := by
        cases p <;> simp only [command, Option.some.injEq, reduceCtorEq] at hd <;> subst hd <;> decide
      rw [compress, hr] at hc
      simp only at hc
      split at hc
      · cases hc
        have : up4 compNone.length = 0 := rfl
        omega
      · cases hc
        have : up4 compZlib.length = 4 := rfl
        omega

/-- **C135** (partial: of encodings of up to 262928 bytes) Whatever a client sends to another, if its encoding has at most
262928 bytes, then with whatever compression, keys, nonces, tags and times, it can be written to the server, and what the
server then has can be given to the recipient. -/
theorem C135_payload_partial (z : Zlib) (M : Mac) (o : Out) (c : Coins M) (raw m b : Bytes)
    (hr : marshal o.payload = some raw) (hl : raw.length ≤ 262928) (hm : crpc z o.now o.payload = some m)
    (hf : Fit M m c) (hw : wire z M o c = some b) :
    fits maxMsgSize b = true ∧
      ∀ (tag : Nat) (s : Stored), s.payload = encrypt M c o.header m → fits maxMsgSize (downFrame tag s) = true := by
  have h1 := plain_bound hr hm
  have h2 := up4_mul (m.length + 120)
  have h3 := up4_bounds (m.length + 120)
  have h4 : maxMsgSize = 263168 := rfl
  refine ⟨?_, fun tag s hs => ?_⟩
  · rw [fits_iff, wire_length hm hf hw]
    omega
  · rw [fits_iff, down_length, hs, encrypt_length M c o.header hf]
    omega

theorem group_length (name : Bytes) (gen : Nat) (t : Int) (ids : List (Val (.fixed 32))) :
    (enc Xdr.groupList (name, gen, t, ids)).length = 24 + up4 name.length + 32 * ids.length := by
  have hl : ∀ l : List (Val (.fixed 32)), (l.flatMap (enc (.fixed 32))).length = 32 * l.length := by
    intro l
    induction l with
    | nil => rfl
    | cons a l ih =>
      rw [List.flatMap_cons, List.length_append, ih, List.length_cons]
      have : (enc (.fixed 32) a).length = 32 := by
        show (encFixed a.1).length = 32
        simp [encFixed, a.2, padLen]
      omega
  show (enc .opaque name ++ (be64 _ ++ (be64 _ ++ (be32 _ ++ ids.flatMap (enc (.fixed 32)))))).length = _
  simp only [List.length_append, opaque_length, be64_length, be32_length, hl]
  omega

theorem chunk_length (i : Nat) (d : Val (.fixed 32)) (p : Bytes) : (enc Xdr.chunk (i, d, p)).length = 44 + up4 p.length := by
  show (be64 _ ++ (encFixed d.1 ++ enc .opaque p)).length = _
  have : (encFixed d.1).length = 32 := by simp [encFixed, d.2, padLen]
  simp only [List.length_append, opaque_length, be64_length, this]
  omega

/-- What is sent of a payload that zlib does not make shorter. -/
theorem plain_raw {z : Zlib} {now : Int} {p : Payload} {raw cmd m : Bytes} (hr : marshal p = some raw)
    (hd : command p = some cmd) (hz : raw.length < (z.deflate raw).length) (hm : crpc z now p = some m) :
    m.length = 16 + up4 cmd.length + raw.length := by
  have hc : compress z p = some (raw, compNone) := by
    rw [compress, hr]
    simp only
    rw [if_pos hz]
  rw [crpc_length hm hc hd]
  have : up4 compNone.length = 0 := rfl
  omega

/-- What the server has of a message that a client wrote. -/
def Given (M : Mac) (o : Out) (c : Coins M) (m : Bytes) (s : Stored) : Prop := s.payload = encrypt M c o.header m

/-- **C135** (partial: texts of up to 262920 bytes) A text can be sent and can be given to the recipient. -/
theorem C135_text_partial (z : Zlib) (M : Mac) (o : Out) (c : Coins M) (t m b : Bytes) (mode : Nat)
    (hp : o.payload = .privateMessage (t, mode)) (hl : t.length ≤ 262920) (hm : crpc z o.now o.payload = some m)
    (hf : Fit M m c) (hw : wire z M o c = some b) :
    fits maxMsgSize b = true ∧ ∀ tag s, Given M o c m s → fits maxMsgSize (downFrame tag s) = true := by
  refine C135_payload_partial z M o c _ m b (by rw [hp]; rfl) ?_ hm hf hw
  rw [text_length]
  have h2 := up4_mul t.length
  have h3 := up4_bounds t.length
  omega

/-- **C135** (partial: parts of files of up to 262884 bytes, thus with the default, which is 262144) A part of a file can be
sent and can be given to the recipient. -/
theorem C135_chunk_partial (z : Zlib) (M : Mac) (o : Out) (c : Coins M) (i : Nat) (d : Val (.fixed 32)) (p m b : Bytes)
    (hp : o.payload = .chunk (i, d, p)) (hl : p.length ≤ 262884) (hm : crpc z o.now o.payload = some m)
    (hf : Fit M m c) (hw : wire z M o c = some b) :
    fits maxMsgSize b = true ∧ ∀ tag s, Given M o c m s → fits maxMsgSize (downFrame tag s) = true := by
  refine C135_payload_partial z M o c _ m b (by rw [hp]; rfl) ?_ hm hf hw
  rw [chunk_length]
  have h2 := up4_mul p.length
  have h3 := up4_bounds p.length
  omega

/-- **C135** (partial: groups of up to 8200 members, with names of up to 500 bytes) The list of a group can be sent and can
be given to the recipient. -/
theorem C135_group_partial (z : Zlib) (M : Mac) (o : Out) (c : Coins M) (name m b : Bytes) (gen : Nat) (t : Int)
    (ids : List (Val (.fixed 32))) (hp : o.payload = .groupList (name, gen, t, ids)) (hn : name.length ≤ 500)
    (hl : ids.length ≤ 8200) (hm : crpc z o.now o.payload = some m) (hf : Fit M m c) (hw : wire z M o c = some b) :
    fits maxMsgSize b = true ∧ ∀ tag s, Given M o c m s → fits maxMsgSize (downFrame tag s) = true := by
  refine C135_payload_partial z M o c _ m b (by rw [hp]; rfl) ?_ hm hf hw
  rw [group_length]
  have h2 := up4_mul name.length
  have h3 := up4_bounds name.length
  omega

/-- **C135** (violated) A server may have a setting for the size of parts of files with which they do not get through,
though clients accept it. A part that is as long as the setting allows, and which zlib does not make shorter, can be written
to the server but not given to the recipient (so that an honest sender cuts them off, by `C135_lockout_violated`) if the
setting is 262897 to 262900, and cannot be written at all if it is more. -/
theorem C135_chunk_violated (z : Zlib) (M : Mac) (o : Out) (c : Coins M) (i : Nat) (d : Val (.fixed 32)) (p m b : Bytes)
    (hp : o.payload = .chunk (i, d, p)) (hz : ∀ raw, marshal o.payload = some raw → raw.length < (z.deflate raw).length)
    (hm : crpc z o.now o.payload = some m) (hf : Fit M m c) (hw : wire z M o c = some b)
    (h1 : 262897 ≤ p.length) (h2 : p.length ≤ maxMsgSize) :
    accepts maxMsgSize p.length = true ∧ (fits maxMsgSize b = true ↔ p.length ≤ 262900) ∧
      ∀ tag s, Given M o c m s → fits maxMsgSize (downFrame tag s) = false := by
  have hr : marshal o.payload = some (enc Xdr.chunk (i, d, p)) := by rw [hp]; rfl
  have hl := plain_raw hr (cmd := cmdChunk) (by rw [hp]; rfl) (hz _ hr) hm
  rw [chunk_length] at hl
  have h3 : up4 cmdChunk.length = 8 := rfl
  have h4 : maxMsgSize = 263168 := rfl
  have h5 := up4_mul p.length
  have h6 := up4_bounds p.length
  have h7 := up4_mul (m.length + 120)
  have h8 := up4_bounds (m.length + 120)
  refine ⟨by simp [accepts, h2], ?_, fun tag s hs => ?_⟩
  · rw [fits_iff, wire_length hm hf hw]
    omega
  · rw [← Bool.not_eq_true, fits_iff, down_length, hs, encrypt_length M c o.header hf]
    omega

/-- **C135** (violated) There is no limit for how many members a group may have, but the list of a group of 8217 or more
cannot be written, unless zlib makes it shorter, which it does not with identities, since they are random. -/
theorem C135_group_violated (z : Zlib) (M : Mac) (o : Out) (c : Coins M) (name m b : Bytes) (gen : Nat) (t : Int)
    (ids : List (Val (.fixed 32))) (hp : o.payload = .groupList (name, gen, t, ids))
    (hz : ∀ raw, marshal o.payload = some raw → raw.length < (z.deflate raw).length) (hl : 8217 ≤ ids.length)
    (hm : crpc z o.now o.payload = some m) (hf : Fit M m c) (hw : wire z M o c = some b) : fits maxMsgSize b = false := by
  have hr : marshal o.payload = some (enc Xdr.groupList (name, gen, t, ids)) := by rw [hp]; rfl
  have h1 := plain_raw hr (cmd := cmdGroupList) (by rw [hp]; rfl) (hz _ hr) hm
  rw [group_length] at h1
  have h3 : up4 cmdGroupList.length = 12 := rfl
  have h4 : maxMsgSize = 263168 := rfl
  have h8 := up4_bounds (m.length + 120)
  rw [← Bool.not_eq_true, fits_iff, wire_length hm hf hw]
  omega

/-! ## What becomes of the sender -/

/-- Turns with a connection. -/
def turns (n : Nat) : List QEv := List.replicate n (.turn true)

/-- **C135** (partial: of frames that all fit; see `C135_queue_violated`) While there is a connection, all that is queued is
sent, each once, in the order in which it was queued, the urgent before the other. -/
theorem C135_queue_partial (max : Nat) : ∀ q : Queues, (∀ f ∈ q.hi ++ q.lo, fits max f = true) →
    qrun max q (turns (q.hi.length + q.lo.length)) = ⟨[], [], q.sent ++ q.hi ++ q.lo⟩ := by
  intro ⟨hi, lo, sent⟩
  induction hi generalizing sent with
  | cons f r ih =>
    intro h
    have hf : fits max f = true := h f (by simp)
    have := ih (sent ++ [f]) (fun g hg => h g (by simp at hg ⊢; exact .inr hg))
    have e : (Queues.mk (f :: r) lo sent).hi.length + lo.length = (r.length + lo.length) + 1 := by
      simp only [List.length_cons]; omega
    show qrun max _ (turns ((Queues.mk (f :: r) lo sent).hi.length + lo.length)) = _
    rw [e]
    show qrun max (qstep max ⟨f :: r, lo, sent⟩ (.turn true)) (turns (r.length + lo.length)) = _
    have s : qstep max ⟨f :: r, lo, sent⟩ (.turn true) = ⟨r, lo, sent ++ [f]⟩ := by simp [qstep, hf]
    rw [s]
    refine this.trans ?_
    simp
  | nil =>
    induction lo generalizing sent with
    | nil => intro _; simp [turns, qrun]
    | cons f r ih =>
      intro h
      have hf : fits max f = true := h f (by simp)
      have := ih (sent ++ [f]) (fun g hg => h g (by simp at hg ⊢; exact .inr hg))
      have e : (Queues.mk [] (f :: r) sent).hi.length + (f :: r).length = ((Queues.mk [] r (sent ++ [f])).hi.length + r.length) + 1 := by
        simp
      show qrun max _ (turns ((Queues.mk [] (f :: r) sent).hi.length + (f :: r).length)) = _
      rw [e]
      show qrun max (qstep max ⟨[], f :: r, sent⟩ (.turn true)) (turns ((Queues.mk [] r (sent ++ [f])).hi.length + r.length)) = _
      have s : qstep max ⟨[], f :: r, sent⟩ (.turn true) = ⟨[], r, sent ++ [f]⟩ := by simp [qstep, hf]
      rw [s]
      refine this.trans ?_
      simp

/-- **C135** (violated) One message that does not fit stops the client: when it is the first of the urgent ones it stays
there, and nothing is sent any more, neither what was queued before nor what is queued later, acknowledgements and pings
included. -/
theorem C135_queue_violated (max : Nat) (f : Bytes) (hf : fits max f = false) (es : List QEv) :
    ∀ q : Queues, q.hi.head? = some f → (qrun max q es).sent = q.sent ∧ (qrun max q es).hi.head? = some f := by
  induction es with
  | nil => exact fun q h => ⟨rfl, h⟩
  | cons e es ih =>
    intro q h
    obtain ⟨hi, lo, sent⟩ := q
    cases hi with
    | nil => cases h
    | cons g r =>
      cases h
      cases e with
      | hi x => exact ih ⟨f :: r ++ [x], lo, sent⟩ rfl
      | lo x => exact ih ⟨f :: r, lo ++ [x], sent⟩ rfl
      | turn on =>
        have s : qstep max ⟨f :: r, lo, sent⟩ (.turn on) = ⟨f :: r, lo, sent⟩ := by simp [qstep, hf]
        show (qrun max (qstep max _ _) es).sent = _ ∧ (qrun max (qstep max _ _) es).hi.head? = _
        rw [s]
        exact ih ⟨f :: r, lo, sent⟩ rfl

/-- What is queued as urgent in some steps. -/
def urgent : List QEv → List Bytes
  | [] => []
  | .hi f :: es => f :: urgent es
  | _ :: es => urgent es

/-- **C135** (violated) When it is the first of the others, as a part of a file is, none of the others is sent any more:
what is sent was urgent. -/
theorem C135_files_violated (max : Nat) (f : Bytes) (hf : fits max f = false) (es : List QEv) :
    ∀ q : Queues, q.lo.head? = some f → (qrun max q es).lo.head? = some f ∧
      (qrun max q es).sent ++ (qrun max q es).hi = q.sent ++ q.hi ++ urgent es := by
  induction es with
  | nil => exact fun q h => ⟨h, by simp [qrun, urgent]⟩
  | cons e es ih =>
    intro q h
    obtain ⟨hi, lo, sent⟩ := q
    cases lo with
    | nil => cases h
    | cons g r =>
      cases h
      cases e with
      | hi x =>
        obtain ⟨i1, i2⟩ := ih ⟨hi ++ [x], f :: r, sent⟩ rfl
        refine ⟨i1, i2.trans ?_⟩
        simp [urgent]
      | lo x =>
        obtain ⟨i1, i2⟩ := ih ⟨hi, f :: r ++ [x], sent⟩ rfl
        exact ⟨i1, i2⟩
      | turn on =>
        cases hi with
        | nil =>
          have s : qstep max ⟨[], f :: r, sent⟩ (.turn on) = ⟨[], f :: r, sent⟩ := by simp [qstep, hf]
          show (qrun max (qstep max _ _) es).lo.head? = _ ∧
            (qrun max (qstep max _ _) es).sent ++ (qrun max (qstep max _ _) es).hi = _
          rw [s]
          exact ih ⟨[], f :: r, sent⟩ rfl
        | cons x hi =>
          show (qrun max (qstep max _ _) es).lo.head? = _ ∧
            (qrun max (qstep max _ _) es).sent ++ (qrun max (qstep max _ _) es).hi = _
          by_cases hx : (on && fits max x) = true
          · have s : qstep max ⟨x :: hi, f :: r, sent⟩ (.turn on) = ⟨hi, f :: r, sent ++ [x]⟩ := by
              simp only [qstep]; rw [if_pos hx]
            rw [s]
            obtain ⟨i1, i2⟩ := ih ⟨hi, f :: r, sent ++ [x]⟩ rfl
            refine ⟨i1, i2.trans ?_⟩
            simp [urgent]
          · have s : qstep max ⟨x :: hi, f :: r, sent⟩ (.turn on) = ⟨x :: hi, f :: r, sent⟩ := by
              simp only [qstep]; rw [if_neg hx]
            rw [s]
            exact ih ⟨x :: hi, f :: r, sent⟩ rfl

/-! ## Examples -/

/-- **C135** Without a connection nothing is sent, and everything stays in the order in which it was queued. -/
theorem C135_offline (max : Nat) (es : List QEv) (h : QEv.turn true ∉ es) (q : Queues) :
    (qrun max q es).sent = q.sent ∧ q.hi <+: (qrun max q es).hi ∧ q.lo <+: (qrun max q es).lo := by
  induction es generalizing q with
  | nil => exact ⟨rfl, List.prefix_refl _, List.prefix_refl _⟩
  | cons e es ih =>
    have h1 := ih (fun h2 => h (List.mem_cons_of_mem _ h2)) (qstep max q e)
    have h2 : (qstep max q e).sent = q.sent ∧ q.hi <+: (qstep max q e).hi ∧ q.lo <+: (qstep max q e).lo := by
      cases e with
      | hi f => exact ⟨rfl, List.prefix_append .., List.prefix_refl _⟩
      | lo f => exact ⟨rfl, List.prefix_refl _, List.prefix_append ..⟩
      | turn on =>
        cases on with
        | true => exact absurd (List.mem_cons_self ..) h
        | false =>
          have e1 : qstep max q (.turn false) = q := by
            simp only [qstep, Bool.false_and, Bool.false_eq_true, if_false]
            split
            · rfl
            · split <;> rfl
          rw [e1]
          exact ⟨rfl, List.prefix_refl _, List.prefix_refl _⟩
    exact ⟨h1.1.trans h2.1, h2.2.1.trans h1.2.1, h2.2.2.trans h1.2.2⟩

namespace Wit

/-- Someone. -/
def who : { b : Bytes // b.length = 32 } := ⟨List.replicate 32 1, rfl⟩

/-- A message of some length. -/
def msg (n : Nat) : Stored := ⟨who, 1000, false, List.replicate n 7⟩

theorem msg_length (n : Nat) : (msg n).payload.length = n := List.length_replicate

/-- A compression that makes nothing shorter, and an authenticator. -/
def z : Zlib := ⟨fun b => b ++ [0], fun b => some b.dropLast⟩
def M : Mac := ⟨Unit, fun _ _ => List.replicate 16 0, fun _ _ => rfl⟩

/-- A message with some payload. -/
def out (p : Payload) : Out := ⟨who, 7, 1000, ⟨List.replicate 64 1, rfl⟩, 1000, p⟩

/-- Coins that fit a plaintext. -/
def coins (m : Bytes) : Coins M :=
  ⟨⟨List.replicate 24 0, rfl⟩, ⟨(), List.replicate 64 0⟩, ⟨(), List.replicate m.length 0⟩⟩

theorem coins_fit (m : Bytes) : Fit M m (coins m) := ⟨List.length_replicate, List.length_replicate⟩

/-- With these, each payload is one that is sent as it is. -/
theorem z_raw (b : Bytes) : b.length < (z.deflate b).length := by simp [z]

/-- A part of a file with zeros. -/
def part (n : Nat) : Payload := .chunk (3, who, List.replicate n 0)

theorem part_plain (n : Nat) : ∃ m b, Crpc.crpc z 1000 (part n) = some m ∧ wire z M (out (part n)) (coins m) = some b := by
  have e : ∃ m, Crpc.crpc z 1000 (part n) = some m := by
    rw [Crpc.crpc, compress]
    simp only [part, marshal, command]
    rw [if_pos (z_raw _)]
    exact ⟨_, rfl⟩
  obtain ⟨m, e⟩ := e
  refine ⟨m, ?_⟩
  have e' : Crpc.crpc z (out (part n)).now (out (part n)).payload = some m := e
  exact ⟨_, e, by rw [Observer.wire, e']⟩

/-- With parts of 262900 bytes, an honest sender makes a message that the server takes and cannot give. -/
example : ∃ m b, Crpc.crpc z 1000 (part 262900) = some m ∧ wire z M (out (part 262900)) (coins m) = some b ∧
    fits maxMsgSize b = true ∧ ∀ tag s, Given M (out (part 262900)) (coins m) m s → fits maxMsgSize (downFrame tag s) = false := by
  obtain ⟨m, b, hm, hw⟩ := part_plain 262900
  have hl : (List.replicate 262900 (0 : UInt8)).length = 262900 := List.length_replicate
  have h := C135_chunk_violated z M (out (part 262900)) (coins m) 3 who _ m b rfl (fun _ _ => z_raw _) hm (coins_fit m) hw
    (by rw [hl]; omega) (by rw [hl]; decide)
  exact ⟨m, b, hm, hw, h.2.1.2 (by rw [hl]), h.2.2⟩

/-- With parts of the default size there is no such message. -/
example : ∃ m b, Crpc.crpc z 1000 (part 262144) = some m ∧ wire z M (out (part 262144)) (coins m) = some b ∧
    fits maxMsgSize b = true ∧ ∀ tag s, Given M (out (part 262144)) (coins m) m s → fits maxMsgSize (downFrame tag s) = true := by
  obtain ⟨m, b, hm, hw⟩ := part_plain 262144
  have hl : (List.replicate 262144 (0 : UInt8)).length = 262144 := List.length_replicate
  have h := C135_chunk_partial z M (out (part 262144)) (coins m) 3 who _ m b rfl (by rw [hl]; omega) hm (coins_fit m) hw
  exact ⟨m, b, hm, hw, h.1, h.2⟩

/-- With a limit of 120 bytes, messages of 36 bytes or less can be given, and those of 37 to 40 be taken. -/
example : fits 120 (upFrame false 0 0 who (msg 40).payload) = true ∧ fits 120 (downFrame 0 (msg 40)) = false ∧
    fits 120 (downFrame 0 (msg 36)) = true ∧ fits 120 (upFrame true 0 0 who (msg 41).payload) = false := by decide +kernel

/-- Two small messages with one between them that cannot be given: the first arrives, the last never does, and each session
ends. -/
example :
    let a := run 120 .new [.deliver (msg 3), .deliver (msg 40), .deliver (msg 5), .login, .push 0, .ack 0, .push 1, .push 2,
      .login, .push 0, .push 1, .ack 1, .ack 2]
    a.written.map (·.1) = [0] ∧ a.box.map (·.1) = [1, 2] ∧ a.online = false := by decide +kernel

/-- Without it all arrive. -/
example :
    let a := run 120 .new [.deliver (msg 3), .deliver (msg 5), .login, .push 0, .push 1, .ack 0, .ack 1]
    a.written.map (·.1) = [1, 0] ∧ a.box = [] ∧ a.online = true := by
  refine ⟨by decide +kernel, ?_, by decide +kernel⟩
  rfl

/-- A message of the length that does the harm. -/
example (tag : Nat) : fits maxMsgSize (upFrame false 0 0 who (msg 263088).payload) = true ∧
    fits maxMsgSize (downFrame tag (msg 263088)) = false :=
  (C135_poison_violated false 0 0 tag who (msg 263088)).2 (by rw [msg_length]; omega)

/-- An account which one such message cuts off. -/
example (future : List Ev) :
    (1, msg 263085) ∈ (run maxMsgSize (run maxMsgSize .new [.deliver (msg 3)]) (.deliver (msg 263085) :: future)).box :=
  (C135_lockout_violated [.deliver (msg 3)] future (msg 263085) (by rw [msg_length]) _ _ rfl rfl).1

/-- The queues: a part of a file that is too long, with more parts behind it, and an urgent message, which is sent. -/
example : qrun 20 ⟨[], [[1, 1, 1, 1, 1], [2]], []⟩ [.turn true, .hi [3], .turn true, .turn true] =
    ⟨[], [[1, 1, 1, 1, 1], [2]], [[3]]⟩ := by rfl

/-- All that fits is sent, the urgent first. -/
example : qrun 20 ⟨[[3], [4]], [[1], [2]], []⟩ (turns 4) = ⟨[], [], [[3], [4], [1], [2]]⟩ :=
  C135_queue_partial 20 ⟨[[3], [4]], [[1], [2]], []⟩ (by decide)

end Wit

end Verif.Sizes
