import Verif.Model.Contact
import Verif.Props.RatchetState

/-! Lemmas about conversations whose messages are delivered in order, and the phases of polite contact making. -/

namespace Verif.Ratchet

open Verif

/-- What was sent to a party, oldest first. -/
def wireTo (c : Conv) (w : Bool) : List Sent := c.wire.filter fun e => e.who = !w

/-- One message of the same sender precedes another. -/
def Before (e e' : Sent) : Prop := e.chain < e'.chain ∨ (e.chain = e'.chain ∧ e.num < e'.num)

theorem before_irrefl {e : Sent} : ¬ Before e e := by unfold Before; omega
theorem before_asymm {e e' : Sent} (h : Before e e') : ¬ Before e' e := by unfold Before at *; omega

/-- The wire is in the order of chains and numbers, per sender. -/
theorem wire_ordered {ka kb pa pb ra rb c} (h : Reach ka kb pa pb ra rb c) :
    c.wire.length + 1 < u32 → c.wire.Pairwise fun e e' => e.who = e'.who → Before e e' := by
  induction h with
  | start => intro _; simp [start]
  | @step c ev hr hl ih =>
    intro hlen
    have h1 := step_wire_len c ev
    have ih := ih (by omega)
    cases ev with
    | recv w now ct =>
      simp only [step]
      rcases decrypt (c.st w) now ct with ⟨x, R⟩
      cases x <;> exact ih
    | reload w now lifetime =>
      simp only [step]
      split <;> exact ih
    | send w priv hn mn msg =>
      obtain ⟨p, r, k, hI⟩ := inv_reach hr (by omega)
      obtain ⟨⟨ct, R, he⟩, _⟩ := inv_send hI (by omega) w priv hn mn msg
      simp only [step, he]
      rw [List.pairwise_append]
      refine ⟨ih, by simp, ?_⟩
      intro e hm e' hm' hw
      rw [List.mem_singleton] at hm'
      subst hm'
      simp only at hw
      have htop := hI.top e hm
      rw [hw] at htop
      have hnum := (hI.wi.shape e hm).2.2.1
      have hfl := (hI.pi w).pv.flag
      have hpeer := hI.peer w
      unfold Before
      simp only
      by_cases hrt : (c.st w).ratchet = true
      · have := hfl.mp hrt
        rw [if_pos hrt]
        left; omega
      · rw [if_neg hrt]
        rcases Nat.lt_or_ge e.chain (c.chain w) with h2 | h2
        · exact .inl h2
        · have : e.chain = c.chain w := by omega
          right
          rw [← this]
          exact ⟨rfl, hnum⟩

/-- A party sends: the call succeeds and the message is the last one on its way to the other. -/
theorem conv_send {ka kb pa pb ra rb c} (h : Reach ka kb pa pb ra rb c) (hlen : c.wire.length + 1 < u32) (w : Bool)
    (priv hn mn : Nat) (msg : Bytes) :
    ∃ ct R e, encrypt (c.st w) priv hn mn msg = (.ok ct, R) ∧
      e.ct = ct ∧ e.msg = msg ∧
      Reach ka kb pa pb ra rb (step c (.send w priv hn mn msg)) ∧
      (step c (.send w priv hn mn msg)).st w = R ∧
      (step c (.send w priv hn mn msg)).st (!w) = c.st (!w) ∧
      (step c (.send w priv hn mn msg)).acc = c.acc ∧
      (step c (.send w priv hn mn msg)).wire.length = c.wire.length + 1 ∧
      wireTo (step c (.send w priv hn mn msg)) (!w) = wireTo c (!w) ++ [e] ∧
      wireTo (step c (.send w priv hn mn msg)) w = wireTo c w := by
  obtain ⟨p, r, k, hI⟩ := inv_reach h hlen
  obtain ⟨⟨ct, R, he⟩, _⟩ := inv_send hI hlen w priv hn mn msg
  refine ⟨ct, R, ⟨w, if (c.st w).ratchet then c.chain (!w) + 1 else c.chain w, sentOn c.wire
      (if (c.st w).ratchet then c.chain (!w) + 1 else c.chain w), msg, ct⟩, he, rfl, rfl, .step h trivial,
    ?_, ?_, ?_, ?_, ?_, ?_⟩
  · simp only [step, he, upd_self]
  · simp only [step, he, upd_not]
  · simp only [step, he]
  · simp only [step, he, List.length_append, List.length_singleton]
  · simp [step, he, wireTo]
  · simp [step, he, wireTo]

/-- A party receives what comes next: it decrypts to what was sent. -/
theorem conv_recv {ka kb pa pb ra rb c} (h : Reach ka kb pa pb ra rb c) (hlen : c.wire.length + 1 < u32) (w : Bool)
    {pre post : List Sent} {e : Sent} (hw : wireTo c w = pre ++ e :: post) (ha : c.acc w = pre.map Sent.ct) (now : Int) :
    ∃ R, decrypt (c.st w) now e.ct = (.ok e.msg, R) ∧
      Reach ka kb pa pb ra rb (step c (.recv w now e.ct)) ∧
      (step c (.recv w now e.ct)).st w = R ∧
      (step c (.recv w now e.ct)).st (!w) = c.st (!w) ∧
      (step c (.recv w now e.ct)).acc w = (pre ++ [e]).map Sent.ct ∧
      (step c (.recv w now e.ct)).acc (!w) = c.acc (!w) ∧
      (step c (.recv w now e.ct)).wire = c.wire := by
  obtain ⟨p, r, k, hI⟩ := inv_reach h hlen
  have hmem : ∀ x, x ∈ pre ++ e :: post → x ∈ c.wire ∧ x.who = !w := by
    intro x hx
    rw [← hw] at hx
    have := List.mem_filter.mp hx
    exact ⟨this.1, by simpa using this.2⟩
  have hord : (pre ++ e :: post).Pairwise Before := by
    have h1 := (wire_ordered h hlen).filter fun e => e.who = !w
    change (wireTo c w).Pairwise _ at h1
    rw [hw] at h1
    refine h1.imp_of_mem ?_
    intro a b ha hb hab
    exact hab ((hmem a ha).2.trans (hmem b hb).2.symm)
  rw [List.pairwise_append, List.pairwise_cons] at hord
  obtain ⟨_, ⟨ho1, _⟩, ho2⟩ := hord
  have he := hmem e (by simp)
  have hacc : ∀ x ∈ c.wire, x.ct ∈ c.acc w → x ∈ pre := by
    intro x hx hxa
    rw [ha] at hxa
    obtain ⟨y, hy, hyx⟩ := List.mem_map.mp hxa
    have := ct_inj hI.wi (hmem y (by simp [hy])).1 hx hyx
    exact this ▸ hy
  have hd : (decrypt (c.st w) now e.ct).1 = .ok e.msg := by
    refine C09_in_order h hlen w e he.1 he.2 ?_ ?_ ?_ now
    · intro hx
      exact before_irrefl (ho2 e (hacc e he.1 hx) e (by simp))
    · intro e' he' hw' hlt
      have : e' ∈ pre ++ e :: post := by
        rw [← hw]; exact List.mem_filter.mpr ⟨he', by simpa using hw'⟩
      rcases List.mem_append.mp this with h1 | h1
      · rw [ha]; exact List.mem_map_of_mem h1
      · rcases List.mem_cons.mp h1 with rfl | h1
        · exact absurd hlt before_irrefl
        · exact absurd hlt (before_asymm (ho1 e' h1))
    · rintro ⟨e', he', h1, h2⟩
      exact before_asymm h2 (ho2 e' (hacc e' he' h1) e (by simp))
  rcases hx : decrypt (c.st w) now e.ct with ⟨x, R⟩
  rw [hx] at hd
  simp only at hd
  subst hd
  refine ⟨R, rfl, .step h (canAssemble_mem he.1), ?_, ?_, ?_, ?_, ?_⟩
  · simp only [step, hx, upd_self]
  · simp only [step, hx, upd_not]
  · simp only [step, hx, upd_self, ha, List.map_append, List.map_cons, List.map_nil]
  · simp only [step, hx, upd_not]
  · simp only [step, hx]

theorem decrypt_junk (R : Ratchet) (now : Int) (hn i j : Nat) :
    ∃ R', decrypt R now (.mk hn (.junk i) (.junk j)) = (.err, R') := by
  simp only [decrypt, tryLoop_junk]
  refine ⟨R, ?_⟩
  unfold decryptNew
  simp [openH]

end Verif.Ratchet

namespace Verif.Contact

open Verif Verif.Ratchet

theorem upd_not' {α : Type} (f : Bool → α) (w : Bool) (x : α) : upd f (!w) x w = f w := by
  cases w <;> simp [upd]

@[simp] theorem put_side_self (s : State) (w S o) : (s.put w S o).side w = S := upd_self ..
@[simp] theorem put_side_not (s : State) (w S o) : (s.put w S o).side (!w) = s.side (!w) := upd_not ..
@[simp] theorem put_side_not' (s : State) (w S o) : (s.put (!w) S o).side w = s.side w := upd_not' ..
@[simp] theorem put_q_not (s : State) (w S o) : (s.put w S o).q (!w) = s.q (!w) ++ o := upd_self ..
@[simp] theorem put_q_not' (s : State) (w S o) : (s.put (!w) S o).q w = s.q w ++ o := by
  simp only [State.put, Bool.not_not, upd_self]
@[simp] theorem put_q_self (s : State) (w S o) : (s.put w S o).q w = s.q w := upd_not' ..

/-- The state without the first message on its way to a client. -/
def pop (s : State) (w : Bool) (rest : List Item) : State := ⟨s.side, upd s.q w rest⟩

@[simp] theorem pop_side (s : State) (w r) : (pop s w r).side = s.side := rfl
@[simp] theorem pop_q_self (s : State) (w r) : (pop s w r).q w = r := upd_self ..
@[simp] theorem pop_q_not (s : State) (w r) : (pop s w r).q (!w) = s.q (!w) := upd_not ..
@[simp] theorem pop_q_not' (s : State) (w r) : (pop s (!w) r).q w = s.q w := upd_not' ..

theorem step_recv {K : Bool → Nat} {s : State} {w : Bool} {now : Int} {rd : Rand} {it : Item} {rest : List Item}
    (h : s.q w = it :: rest) : step K s (.recv w now rd) =
      (pop s w rest).put w (handle (K w) (K !w) (s.side w) now rd it).1 (handle (K w) (K !w) (s.side w) now rd it).2 := by
  simp only [step, h, pop]

theorem step_recv_nil {K : Bool → Nat} {s : State} {w : Bool} {now : Int} {rd : Rand} (h : s.q w = []) :
    step K s (.recv w now rd) = s := by
  simp only [step, h]

/-! ## The record of messages -/

/-- The plaintext recorded with an item. -/
def msgOf : Item → Option Bytes
  | .data _ m => some m
  | _ => none

theorem onTheWay_eq (s : State) (w : Bool) : onTheWay s w = (s.q w).filterMap msgOf := rfl

/-- What was sent to `v` is what it has been shown, what it has lost, and what is on the way. -/
def Book (s : State) (v : Bool) : Prop :=
  ∃ old, (s.side (!v)).sent = old ++ onTheWay s v ∧ (s.side v).shown.Sublist old ∧
    ((s.side v).resets = 0 → old = (s.side v).shown)

theorem open_shown {S : Side} {f : Ratchet} {now : Int} {it : Item} (h : msgOf it = none) : open_ S f now it = S := by
  unfold open_
  cases it with
  | data ct m => cases h
  | idkx pk r x => obtain ⟨R, hR⟩ := decrypt_junk f now 0 0 0; simp only [Item.asCt, hR]
  | kx k x => obtain ⟨R, hR⟩ := decrypt_junk f now 0 0 0; simp only [Item.asCt, hR]
  | reset => obtain ⟨R, hR⟩ := decrypt_junk f now 0 0 0; simp only [Item.asCt, hR]

/-- What the record and the counters say. -/
structure SameRecord (S T : Side) : Prop where
  sent : T.sent = S.sent
  shown : T.shown = S.shown
  resets : T.resets = S.resets
  dels : T.dels = S.dels

theorem SameRecord.refl (S : Side) : SameRecord S S := ⟨rfl, rfl, rfl, rfl⟩

theorem step1_record (a b : Nat) (S : Side) (rd : Rand) : SameRecord S (step1 a b S rd).1 := by
  unfold step1
  split
  · simp only []
    split <;> exact ⟨rfl, rfl, rfl, rfl⟩
  · exact .refl _

theorem step1_out (a b : Nat) (S : Side) (rd : Rand) : (step1 a b S rd).2.filterMap msgOf = [] := by
  unfold step1
  split
  · simp only []
    split <;> rfl
  · rfl

theorem step2_record (a b : Nat) (S : Side) (rd : Rand) (it : Item) : SameRecord S (step2 a b S rd it).1 := by
  unfold step2
  repeat' split
  all_goals exact ⟨rfl, rfl, rfl, rfl⟩

theorem step2_out (a b : Nat) (S : Side) (rd : Rand) (it : Item) : (step2 a b S rd it).2.filterMap msgOf = [] := by
  unfold step2
  repeat' split
  all_goals rfl

theorem step3_record (S : Side) (it : Item) : SameRecord S (step3 S it) := by
  unfold step3
  repeat' split
  all_goals exact ⟨rfl, rfl, rfl, rfl⟩

theorem handle_out (a b : Nat) (S : Side) (now : Int) (rd : Rand) (it : Item) :
    (handle a b S now rd it).2.filterMap msgOf = [] := by
  unfold handle
  repeat' split
  · exact step1_out ..
  · rfl
  · exact step2_out ..
  · rfl
  · rfl

theorem handle_sent (a b : Nat) (S : Side) (now : Int) (rd : Rand) (it : Item) :
    (handle a b S now rd it).1.sent = S.sent ∧ (handle a b S now rd it).1.resets = S.resets ∧
    (handle a b S now rd it).1.dels = S.dels := by
  unfold handle
  repeat' split
  · have := step1_record a b { S with half := none, full := none } rd; exact ⟨this.sent, this.resets, this.dels⟩
  · exact ⟨rfl, rfl, rfl⟩
  · have := step2_record a b S rd it; exact ⟨this.sent, this.resets, this.dels⟩
  · have := step3_record S it; exact ⟨this.sent, this.resets, this.dels⟩
  · unfold open_; split <;> exact ⟨rfl, rfl, rfl⟩

theorem handle_shown_other {a b : Nat} {S : Side} {now : Int} {rd : Rand} {it : Item} (h : msgOf it = none) :
    (handle a b S now rd it).1.shown = S.shown := by
  unfold handle
  repeat' split
  · exact (step1_record a b { S with half := none, full := none } rd).shown
  · rfl
  · exact (step2_record a b S rd it).shown
  · exact (step3_record S it).shown
  · rw [open_shown h]

theorem handle_shown_none {a b : Nat} {S : Side} {now : Int} {rd : Rand} {it : Item} (h : S.full = none) :
    (handle a b S now rd it).1.shown = S.shown := by
  unfold handle
  rw [h]
  repeat' split
  · exact (step1_record a b { S with half := none, full := none } rd).shown
  · rfl
  · exact (step2_record a b S rd it).shown
  · exact (step3_record S it).shown
  · next heq => cases heq

/-- A message is shown, or the receiver has reset. -/
def Delivers (K : Bool → Nat) (s : State) : Ev → Prop
  | .recv v now rd => ∀ ct m rest, s.q v = .data ct m :: rest →
      (handle (K v) (K !v) (s.side v) now rd (.data ct m)).1.shown = (s.side v).shown ++ [m] ∨
      ((s.side v).full = none ∧ 0 < (s.side v).resets)
  | _ => True

theorem book_same {s t : State} {v : Bool} (h : Book s v) (h1 : (t.side (!v)).sent = (s.side (!v)).sent)
    (h2 : onTheWay t v = onTheWay s v) (h3 : (t.side v).shown = (s.side v).shown)
    (h4 : (s.side v).resets ≤ (t.side v).resets) : Book t v := by
  obtain ⟨old, a, b, c⟩ := h
  refine ⟨old, by rw [h1, h2, a], by rw [h3]; exact b, ?_⟩
  intro h0
  rw [h3]
  exact c (by omega)

theorem put_book {s : State} {w : Bool} {S : Side} {out : List Item} (h : ∀ v, Book s v)
    (h1 : S.sent = (s.side w).sent) (h2 : out.filterMap msgOf = []) (h3 : S.shown = (s.side w).shown)
    (h4 : (s.side w).resets ≤ S.resets) : ∀ v, Book (s.put w S out) v := by
  intro v
  rcases bool_cases w v with rfl | rfl
  · refine book_same (h _) (by simp) ?_ (by simpa using h3) (by simpa using h4)
    simp [onTheWay_eq]
  · refine book_same (h _) (by simpa using h1) ?_ (by simp) (by simp)
    simp [onTheWay_eq, h2]

theorem cacheCRPC_some {S S' : Side} {priv hn mn : Nat} {msg : Bytes} {it : Item}
    (h : cacheCRPC S priv hn mn msg = some (S', it)) :
    ∃ f ct f', S.full = some f ∧ encrypt f priv hn mn msg = (.ok ct, f') ∧
      S' = { S with full := some f', sent := S.sent ++ [msg] } ∧ it = .data ct msg := by
  unfold cacheCRPC at h
  split at h
  · cases h
  · next f hf =>
    split at h
    · next ct f' he => cases h; exact ⟨f, ct, f', hf, he, rfl, rfl⟩
    · cases h

theorem book_sent {s : State} {w : Bool} {S : Side} {ct : Ct} {m : Bytes} (h : ∀ v, Book s v)
    (h1 : S.sent = (s.side w).sent ++ [m]) (h3 : S.shown = (s.side w).shown)
    (h4 : S.resets = (s.side w).resets) : ∀ v, Book (s.put w S [.data ct m]) v := by
  intro v
  rcases bool_cases w v with rfl | rfl
  · refine book_same (h _) (by simp) ?_ (by simpa using h3) (by simp [h4])
    simp [onTheWay_eq]
  · obtain ⟨old, a, b, c⟩ := h (!w)
    refine ⟨old, ?_, by simpa using b, by simpa using c⟩
    simp only [Bool.not_not] at a
    simp [onTheWay_eq, msgOf, h1, a]

theorem book_step {K : Bool → Nat} {s : State} {e : Ev} (h : ∀ v, Book s v) (hd : Delivers K s e) :
    ∀ v, Book (step K s e) v := by
  cases e with
  | find w =>
    simp only [step]
    split
    · exact h
    · exact put_book h rfl rfl rfl (Nat.le_refl _)
  | found w rd =>
    simp only [step]
    split
    · have h1 := step1_record (K w) (K !w) { s.side w with pending := false } rd
      exact put_book h h1.sent (step1_out ..) h1.shown (Nat.le_of_eq h1.resets.symm)
    · exact h
  | send w priv hn mn msg =>
    simp only [step]
    split
    · next S it hs =>
      obtain ⟨f, ct, f', _, _, rfl, rfl⟩ := cacheCRPC_some hs
      exact book_sent h rfl rfl rfl
    · exact h
  | del w priv hn mn msg =>
    simp only [step]
    split
    · split
      · next S it hs =>
        obtain ⟨f, ct, f', _, _, rfl, rfl⟩ := cacheCRPC_some hs
        exact book_sent h rfl rfl rfl
      · exact h
    · exact h
  | reset w =>
    simp only [step]
    split
    · split
      · exact put_book h rfl rfl rfl (Nat.le_succ _)
      · exact put_book h rfl rfl rfl (Nat.le_refl _)
    · exact h
  | delDone w =>
    simp only [step]
    split
    · exact h
    · exact put_book h rfl rfl rfl (Nat.le_refl _)
  | recv w now rd =>
    rcases hq : s.q w with _ | ⟨it, rest⟩
    · rw [step_recv_nil hq]; exact h
    · rw [step_recv hq]
      have hs := handle_sent (K w) (K !w) (s.side w) now rd it
      have ho := handle_out (K w) (K !w) (s.side w) now rd it
      intro v
      rcases bool_cases w v with rfl | rfl
      · rcases hm : msgOf it with _ | m
        · refine book_same (h _) (by simp) ?_ ?_ ?_
          · simp [onTheWay_eq, hq, hm]
          · simpa using handle_shown_other hm
          · simp [hs.2.1]
        · obtain ⟨ct, rfl⟩ : ∃ ct, it = .data ct m := by
            cases it with
            | data ct m' => simp only [msgOf, Option.some.injEq] at hm; exact ⟨ct, by rw [hm]⟩
            | idkx pk r x => cases hm
            | kx k x => cases hm
            | reset => cases hm
          obtain ⟨old, a, b, c⟩ := h v
          have a' : (s.side (!v)).sent = (old ++ [m]) ++ rest.filterMap msgOf := by
            rw [a, onTheWay_eq, hq]; simp [msgOf]
          rcases hd ct m rest hq with hsh | ⟨hf, hr⟩
          · refine ⟨old ++ [m], by simpa [onTheWay_eq] using a', ?_, ?_⟩
            · simp only [put_side_self, hsh]; exact b.append (List.Sublist.refl _)
            · simp only [put_side_self, hsh, hs.2.1]
              intro h0; rw [c h0]
          · refine ⟨old ++ [m], by simpa [onTheWay_eq] using a', ?_, ?_⟩
            · simp only [put_side_self, handle_shown_none hf]
              exact b.trans (List.sublist_append_left _ _)
            · simp only [put_side_self, hs.2.1]
              intro h0; omega
      · refine book_same (h _) (by simp [hs.1]) ?_ (by simp) (by simp)
        simp [onTheWay_eq, ho]

/-! ## Phases -/

/-- Which role in the conversation a client has, if `a` is the one who takes the alice role. -/
def role (a v : Bool) : Bool := v == a

theorem role_not (a v : Bool) : role a (!v) = !role a v := by cases a <;> cases v <;> rfl
theorem role_self (a : Bool) : role a a = true := by cases a <;> rfl

/-- What was sent and not yet received is what is on its way. -/
def Link (c : Conv) (x : Bool) (Q : List Item) : Prop :=
  ∃ pre post : List Sent, wireTo c x = pre ++ post ∧ c.acc x = pre.map Sent.ct ∧
    Q = post.map fun e => .data e.ct e.msg

/-- Messages encrypted so far. -/
def total (s : State) : Nat := (s.side true).sent.length + (s.side false).sent.length

def Calm (s : State) : Prop := ∀ v, (s.side v).dels = 0 ∧ (s.side v).pending = false

def IsData (it : Item) : Prop := ∃ ct m, it = .data ct m

/-- The half ratchet and the message of a key exchange. -/
def halfOf (k k' p r : Nat) : Ratchet := { new k k' p with myHalf := some (.kem k' r) }
def msgOfKX (k' p r : Nat) : KeyExchange := ⟨.enc k' r, .sealed (.kem k' r) (.of p) true⟩

theorem fill_eq (k k' p r : Nat) : fillKeyExchange (new k k' p) r = (.ok (msgOfKX k' p r), halfOf k k' p r) := rfl

theorem complete_true (ka kb pa pb ra rb : Nat) :
    completeKeyExchange (halfOf ka kb pa ra) (msgOfKX ka pb rb) true = (.ok (), (start ka kb pa pb ra rb).st true) := by
  simp [completeKeyExchange, msgOfKX, halfOf, new, start, fillKeyExchange]

theorem complete_false (ka kb pa pb ra rb : Nat) :
    completeKeyExchange (halfOf kb ka pb rb) (msgOfKX kb pa ra) false = (.ok (), (start ka kb pa pb ra rb).st false) := by
  simp [completeKeyExchange, msgOfKX, halfOf, new, start, fillKeyExchange]

/-- What polite users go through. -/
inductive Phase (K : Bool → Nat) (s : State) : Prop
  | idle (hd : ∀ v, (s.side v).dels = 0)
      (hn : ∀ v, (s.side v).half = none ∧ (s.side v).full = none ∧ (s.side v).inBook = false ∧
        (s.side v).known = false ∧ s.q v = [])
      (w : Bool) (hp : (s.side w).pending = false)
  | resetting (w a : Bool) (pa pb ra rb : Nat) (c : Conv) (L : List Item) (hc : Calm s)
      (hr : Ratchet.Reach (K a) (K !a) pa pb ra rb c) (hl : c.wire.length ≤ total s)
      (hw : (s.side w).half = none ∧ (s.side w).full = none ∧ 0 < (s.side w).resets)
      (ho : (s.side (!w)).known = true ∧ (s.side (!w)).half = none ∧ (s.side (!w)).full = some (c.st (role a (!w))))
      (hq : s.q (!w) = L ++ [.reset]) (hL : Link c (role a (!w)) L) (hd : ∀ it ∈ s.q w, IsData it)
  | offered (v : Bool) (pa ra bl : Nat) (junk : List Item) (hc : Calm s)
      (hv : (s.side v).known = true ∧ (s.side v).half = some (halfOf (K v) (K !v) pa ra) ∧ (s.side v).full = none ∧
        Key.kem (K !v) bl ∈ (s.side v).keys ∧ s.q v = [])
      (ho : (s.side (!v)).half = none ∧ (s.side (!v)).full = none)
      (hq : s.q (!v) = junk ++ [.idkx (K !v) bl (msgOfKX (K !v) pa ra)])
      (hj : ∀ it ∈ junk, IsData it) (hj' : junk ≠ [] → 0 < (s.side (!v)).resets)
  | answered (v : Bool) (pa pb ra rb bl : Nat) (c : Conv) (L : List Item) (hc : Calm s)
      (hr : Ratchet.Reach (K v) (K !v) pa pb ra rb c) (hl : c.wire.length ≤ total s)
      (hv : (s.side v).known = true ∧ (s.side v).half = some (halfOf (K v) (K !v) pa ra) ∧ (s.side v).full = none ∧
        Key.kem (K !v) bl ∈ (s.side v).keys)
      (ho : (s.side (!v)).known = true ∧ (s.side (!v)).half = none ∧ (s.side (!v)).inBook = true ∧
        (s.side (!v)).full = some (c.st false))
      (hq' : s.q (!v) = []) (hq : s.q v = .kx (.kem (K !v) bl) (msgOfKX (K v) pb rb) :: L)
      (hL : Link c true L) (hL' : Link c false []) (hst : c.st true = (start (K v) (K !v) pa pb ra rb).st true)
  | talking (a : Bool) (pa pb ra rb : Nat) (c : Conv) (hc : Calm s)
      (hr : Ratchet.Reach (K a) (K !a) pa pb ra rb c) (hl : c.wire.length ≤ total s)
      (hs : ∀ v, (s.side v).known = true ∧ (s.side v).half = none ∧ (s.side v).inBook = true ∧
        (s.side v).full = some (c.st (role a v)))
      (hL : ∀ v, Link c (role a v) (s.q v))

/-! ### Steps of the conversation -/

theorem live_send {ka kb pa pb ra rb c} {x : Bool} (h : Ratchet.Reach ka kb pa pb ra rb c)
    (hlen : c.wire.length + 1 < u32) (priv hn mn : Nat) (msg : Bytes) :
    ∃ ct c', encrypt (c.st x) priv hn mn msg = (.ok ct, c'.st x) ∧ Ratchet.Reach ka kb pa pb ra rb c' ∧
      c'.wire.length = c.wire.length + 1 ∧ c'.st (!x) = c.st (!x) ∧ (∀ Q, Link c x Q → Link c' x Q) ∧
      ∀ Q, Link c (!x) Q → Link c' (!x) (Q ++ [.data ct msg]) := by
  obtain ⟨ct, R, e, h1, h2, h3, h4, h5, h6, h7, h8, h9, h10⟩ := conv_send h hlen x priv hn mn msg
  refine ⟨ct, _, by rw [h5]; exact h1, h4, h8, h6, ?_, ?_⟩
  · rintro Q ⟨pre, post, a, b, d⟩
    exact ⟨pre, post, by rw [h10, a], by rw [h7, b], d⟩
  · rintro Q ⟨pre, post, a, b, d⟩
    refine ⟨pre, post ++ [e], by rw [h9, a, List.append_assoc], by rw [h7, b], ?_⟩
    rw [d, List.map_append, ← h2, ← h3]
    rfl

theorem live_recv {ka kb pa pb ra rb c} {x : Bool} (h : Ratchet.Reach ka kb pa pb ra rb c)
    (hlen : c.wire.length + 1 < u32) {it : Item} {Q : List Item} (hl : Link c x (it :: Q)) (now : Int) :
    ∃ ct msg c', it = .data ct msg ∧ decrypt (c.st x) now ct = (.ok msg, c'.st x) ∧
      Ratchet.Reach ka kb pa pb ra rb c' ∧ c'.wire.length = c.wire.length ∧ c'.st (!x) = c.st (!x) ∧ Link c' x Q ∧
      ∀ Q', Link c (!x) Q' → Link c' (!x) Q' := by
  obtain ⟨pre, post, a, b, d⟩ := hl
  cases post with
  | nil => cases d
  | cons e post =>
    simp only [List.map_cons, List.cons.injEq] at d
    obtain ⟨R, h1, h2, h3, h4, h5, h6, h7⟩ := conv_recv h hlen x a b now
    refine ⟨e.ct, e.msg, _, d.1, by rw [h3]; exact h1, h2, by rw [h7], h4, ?_, ?_⟩
    · exact ⟨pre ++ [e], post, by rw [wireTo, h7, ← wireTo, a]; simp, h5, d.2⟩
    · rintro Q' ⟨pre', post', a', b', d'⟩
      exact ⟨pre', post', by rw [wireTo, h7, ← wireTo, a'], by rw [h6, b'], d'⟩

theorem link_start (ka kb pa pb ra rb : Nat) (x : Bool) : Link (start ka kb pa pb ra rb) x [] :=
  ⟨[], [], rfl, rfl, rfl⟩

theorem handle_data_none {a b : Nat} {S : Side} {now : Int} {rd : Rand} {it : Item} (hi : IsData it)
    (h1 : S.half = none) (h2 : S.full = none) : handle a b S now rd it = (S, []) := by
  obtain ⟨ct, m, rfl⟩ := hi
  unfold handle
  rw [if_neg (by simp), if_pos (by simp [Side.exists_, h1, h2])]
  rfl

theorem step1_fresh {a b : Nat} {S : Side} {rd : Rand} (h1 : S.half = none) (h2 : S.full = none) :
    step1 a b S rd = ({ S with known := true, keys := S.keys ++ [.kem b rd.blob], half := some (halfOf a b rd.priv rd.kem) },
      [.idkx b rd.blob (msgOfKX b rd.priv rd.kem)]) := by
  have e1 : S.exists_ = false := by simp [Side.exists_, h1, h2]
  simp only [step1, fill_eq, e1, Bool.false_eq_true, if_false]

theorem handle_reset {a b : Nat} {S : Side} {now : Int} {rd : Rand} (h : S.known = true) :
    handle a b S now rd .reset = ({ S with
      full := none, known := true, keys := S.keys ++ [.kem b rd.blob], half := some (halfOf a b rd.priv rd.kem) },
      [.idkx b rd.blob (msgOfKX b rd.priv rd.kem)]) := by
  unfold handle
  rw [if_pos rfl, if_pos h, step1_fresh rfl rfl]

theorem handle_live {a b : Nat} {S : Side} {now : Int} {rd : Rand} {ct : Ct} {m : Bytes} {f f' : Ratchet}
    (h1 : S.known = true) (h2 : S.full = some f) (hd : decrypt f now ct = (.ok m, f')) :
    handle a b S now rd (.data ct m) = ({ S with full := some f', shown := S.shown ++ [m] }, []) := by
  unfold handle
  rw [if_neg (by simp), if_neg (by simp [Side.exists_, h1, h2])]
  simp only [h2, open_, Item.asCt, hd]

theorem total_put {s : State} {w : Bool} {S : Side} {o : List Item} (h : S.sent = (s.side w).sent) :
    total (s.put w S o) = total s := by
  cases w <;> simp [total, State.put, upd, h]

theorem total_put_sent {s : State} {w : Bool} {S : Side} {o : List Item} {m : Bytes}
    (h : S.sent = (s.side w).sent ++ [m]) : total (s.put w S o) = total s + 1 := by
  cases w <;> simp [total, State.put, upd, h] <;> omega

theorem total_pop {s : State} {w : Bool} {r : List Item} : total (pop s w r) = total s := rfl

theorem total_step (K : Bool → Nat) (s : State) (e : Ev) : total s ≤ total (step K s e) := by
  cases e with
  | find w =>
    simp only [step]
    split
    · exact Nat.le_refl _
    · exact Nat.le_of_eq (total_put (by rfl)).symm
  | found w rd =>
    simp only [step]
    split
    · exact Nat.le_of_eq (total_put (step1_record (K w) (K !w) { s.side w with pending := false } rd).sent).symm
    · exact Nat.le_refl _
  | send w priv hn mn msg =>
    simp only [step]
    split
    · next S it hs =>
      obtain ⟨f, ct, f', _, _, rfl, rfl⟩ := cacheCRPC_some hs
      rw [total_put_sent (by rfl)]; omega
    · exact Nat.le_refl _
  | del w priv hn mn msg =>
    simp only [step]
    split
    · split
      · next S it hs =>
        obtain ⟨f, ct, f', _, _, rfl, rfl⟩ := cacheCRPC_some hs
        rw [total_put_sent (by rfl)]; omega
      · exact Nat.le_refl _
    · exact Nat.le_refl _
  | reset w =>
    simp only [step]
    split
    · split <;> exact Nat.le_of_eq (total_put (by rfl)).symm
    · exact Nat.le_refl _
  | delDone w =>
    simp only [step]
    split
    · exact Nat.le_refl _
    · exact Nat.le_of_eq (total_put (by rfl)).symm
  | recv w now rd =>
    rcases hq : s.q w with _ | ⟨it, rest⟩
    · exact Nat.le_of_eq (congrArg total (step_recv_nil hq)).symm
    · rw [step_recv hq]
      exact Nat.le_of_eq (total_put (s := pop s w rest) (handle_sent ..).1).symm

/-! ### Every event stays within the phases -/

theorem Phase.quiet {K : Bool → Nat} {s : State} (h : Phase K s) (hb : ¬ Busy s) :
    ((∀ v, (s.side v).dels = 0 ∧ (s.side v).pending = false ∧ (s.side v).half = none ∧ (s.side v).full = none ∧
      (s.side v).inBook = false ∧ (s.side v).known = false ∧ s.q v = []) ∨
    ∃ (a : Bool) (pa pb ra rb : Nat) (c : Conv), Calm s ∧ Ratchet.Reach (K a) (K !a) pa pb ra rb c ∧
      c.wire.length ≤ total s ∧ (∀ v, (s.side v).known = true ∧ (s.side v).half = none ∧ (s.side v).inBook = true ∧
        (s.side v).full = some (c.st (role a v))) ∧ ∀ v, Link c (role a v) (s.q v)) := by
  cases h with
  | idle hd hn w hp =>
    left
    intro v
    refine ⟨hd v, ?_, hn v⟩
    rcases hx : (s.side v).pending with _ | _
    · rfl
    · exact absurd ⟨v, .inl hx⟩ hb
  | resetting w a pa pb ra rb c L hc hr hl hw ho hq hL hd =>
    exact absurd ⟨!w, .inr (.inr ⟨.reset, by rw [hq]; simp, trivial⟩)⟩ hb
  | offered v pa ra bl junk hc hv => exact absurd ⟨v, .inr (.inl (by rw [hv.2.1]; rfl))⟩ hb
  | answered v pa pb ra rb bl c L hc hr hl hv => exact absurd ⟨v, .inr (.inl (by rw [hv.2.1]; rfl))⟩ hb
  | talking a pa pb ra rb c hc hr hl hs hL => exact .inr ⟨a, pa, pb, ra, rb, c, hc, hr, hl, hs, hL⟩

theorem calm_put {s : State} {w : Bool} {S : Side} {o : List Item} (h : Calm s) (h1 : S.dels = (s.side w).dels)
    (h2 : S.pending = (s.side w).pending) : Calm (s.put w S o) := by
  intro v
  rcases bool_cases w v with rfl | rfl
  · rw [put_side_self, h1, h2]; exact h v
  · rw [put_side_not]; exact h _

theorem link_data {c x Q} (h : Link c x Q) : ∀ it ∈ Q, IsData it := by
  obtain ⟨pre, post, _, _, rfl⟩ := h
  intro it hi
  obtain ⟨e, _, rfl⟩ := List.mem_map.mp hi
  exact ⟨_, _, rfl⟩

theorem cacheCRPC_none {S : Side} {priv hn mn : Nat} {msg : Bytes} (h : S.full = none) :
    cacheCRPC S priv hn mn msg = none := by
  simp only [cacheCRPC, h]

theorem cacheCRPC_live {S : Side} {f f' : Ratchet} {priv hn mn : Nat} {msg : Bytes} {ct : Ct} (h : S.full = some f)
    (he : encrypt f priv hn mn msg = (.ok ct, f')) : cacheCRPC S priv hn mn msg =
      some ({ S with full := some f', sent := S.sent ++ [msg] }, .data ct msg) := by
  simp only [cacheCRPC, h, he]

theorem phase_find {K : Bool → Nat} {s : State} (h : Phase K s) (w : Bool) (hb : ¬ Busy s) :
    Phase K (step K s (.find w)) := by
  simp only [step]
  rcases h.quiet hb with h1 | ⟨a, pa, pb, ra, rb, c, hc, hr, hl, hs, hL⟩
  · rw [if_neg (by simp [h1 w])]
    refine .idle ?_ ?_ (!w) (by rw [put_side_not]; exact (h1 _).2.1)
    · intro v
      rcases bool_cases w v with rfl | rfl
      · simp [h1 v]
      · simp [h1 (!w)]
    · intro v
      rcases bool_cases w v with rfl | rfl
      · simp [h1 v]
      · simp [h1 (!w)]
  · rw [if_pos (by simp [hs w])]
    exact h

theorem phase_reset {K : Bool → Nat} {s : State} (h : Phase K s) (w : Bool) (hb : ¬ Busy s) :
    Phase K (step K s (.reset w)) := by
  simp only [step]
  rcases h.quiet hb with h1 | ⟨a, pa, pb, ra, rb, c, hc, hr, hl, hs, hL⟩
  · rw [if_neg (by simp [h1 w])]
    exact h
  · rw [if_pos (hs w).2.2.1, if_pos (by simp [hs w])]
    refine .resetting w a pa pb ra rb c (s.q !w) (calm_put hc rfl rfl) hr (by rw [total_put (by rfl)]; exact hl)
      (by simp) (by simp [hs (!w)]) (by simp) (hL _) ?_
    rw [put_q_self]
    exact link_data (hL w)

theorem phase_found {K : Bool → Nat} {s : State} (h : Phase K s) (w : Bool) (rd : Rand) :
    Phase K (step K s (.found w rd)) := by
  rcases hp : (s.side w).pending with _ | _
  · simp only [step, hp]; exact h
  · cases h with
    | idle hd hn w0 hp0 =>
      rcases bool_cases w w0 with rfl | rfl
      · rw [hp] at hp0; cases hp0
      · have e1 : ({ s.side w with pending := false } : Side).exists_ = false := by simp [Side.exists_, hn w]
        simp only [step, hp, if_true, step1, fill_eq, e1, Bool.false_eq_true, if_false]
        refine .offered w rd.priv rd.kem rd.blob [] ?_ (by simp [hn w]) (by simp [hn (!w)]) (by simp [hn (!w)])
          (by simp) (by simp)
        intro v
        rcases bool_cases w v with rfl | rfl
        · simp [hd v]
        · simp [hd (!w), hp0]
    | resetting w0 a pa pb ra rb c L hc => rw [(hc w).2] at hp; cases hp
    | offered v pa ra bl junk hc hv => rw [(hc w).2] at hp; cases hp
    | answered v pa pb ra rb bl c L hc hr hl hv => rw [(hc w).2] at hp; cases hp
    | talking a pa pb ra rb c hc hr hl hs hL => rw [(hc w).2] at hp; cases hp

theorem phase_send {K : Bool → Nat} {s : State} (h : Phase K s) (hlen : total s + 1 < u32) (w : Bool)
    (priv hn mn : Nat) (msg : Bytes) : Phase K (step K s (.send w priv hn mn msg)) := by
  have none (hf : (s.side w).full = none) : Phase K (step K s (.send w priv hn mn msg)) := by
    simp only [step, cacheCRPC_none hf]; exact h
  cases h with
  | idle hd hn w0 hp0 => exact none (hn w).2.1
  | resetting w0 a pa pb ra rb c L hc hr hl hw ho hq hL hd =>
    rcases bool_cases w0 w with rfl | rfl
    · exact none hw.2.1
    · obtain ⟨ct, c', h1, h2, h3, h4, h5, h6⟩ :=
        live_send (x := role a (!w0)) hr (by omega) priv hn mn msg
      simp only [step, cacheCRPC_live ho.2.2 h1]
      refine .resetting w0 a pa pb ra rb c' L (calm_put hc rfl rfl) h2 (by rw [total_put_sent (by rfl)]; omega)
        (by simpa using hw) (by simp [ho]) (by simpa using hq) (h5 _ hL) ?_
      intro it hi
      rw [put_q_not'] at hi
      rcases List.mem_append.mp hi with hi | hi
      · exact hd it hi
      · exact ⟨_, _, List.mem_singleton.mp hi⟩
  | offered v pa ra bl junk hc hv ho =>
    rcases bool_cases v w with rfl | rfl
    · exact none hv.2.2.1
    · exact none ho.2
  | answered v pa pb ra rb bl c L hc hr hl hv ho hq' hq hL hL' hst =>
    rcases bool_cases v w with rfl | rfl
    · exact none hv.2.2.1
    · obtain ⟨ct, c', h1, h2, h3, h4, h5, h6⟩ := live_send (x := false) hr (by omega) priv hn mn msg
      have h6 : Link c' true (L ++ [.data ct msg]) := h6 _ hL
      simp only [step, cacheCRPC_live ho.2.2.2 h1]
      refine .answered v pa pb ra rb bl c' (L ++ [.data ct msg]) (calm_put hc rfl rfl) h2
        (by rw [total_put_sent (by rfl)]; omega) (by simpa using hv) (by simp [ho]) (by simpa using hq')
        (by simp [hq]) h6 (h5 _ hL') (by rw [← hst]; exact h4)
  | talking a pa pb ra rb c hc hr hl hs hL =>
    obtain ⟨ct, c', h1, h2, h3, h4, h5, h6⟩ := live_send (x := role a w) hr (by omega) priv hn mn msg
    simp only [step, cacheCRPC_live (hs w).2.2.2 h1]
    refine .talking a pa pb ra rb c' (calm_put hc rfl rfl) h2 (by rw [total_put_sent (by rfl)]; omega) ?_ ?_
    · intro v
      rcases bool_cases w v with rfl | rfl
      · simp [hs v]
      · rw [put_side_not, role_not, h4, ← role_not]; exact hs _
    · intro v
      rcases bool_cases w v with rfl | rfl
      · rw [put_q_self]; exact h5 _ (hL v)
      · rw [put_q_not, role_not]; exact h6 _ (by rw [← role_not]; exact hL _)

theorem phase_delDone {K : Bool → Nat} {s : State} (h : Phase K s) (w : Bool) : Phase K (step K s (.delDone w)) := by
  have : (s.side w).dels = 0 := by
    cases h with
    | idle hd hn w0 hp0 => exact hd w
    | resetting w0 a pa pb ra rb c L hc => exact (hc w).1
    | offered v pa ra bl junk hc hv => exact (hc w).1
    | answered v pa pb ra rb bl c L hc hr hl hv => exact (hc w).1
    | talking a pa pb ra rb c hc hr hl hs hL => exact (hc w).1
  simp only [step, this, if_true]
  exact h

theorem calm_pop {s : State} {w : Bool} {r : List Item} (h : Calm s) : Calm (pop s w r) := h

theorem phase_recv {K : Bool → Nat} {s : State} (h : Phase K s) (hlen : total s + 1 < u32) (w : Bool)
    (now : Int) (rd : Rand) : Phase K (step K s (.recv w now rd)) ∧ Delivers K s (.recv w now rd) := by
  rcases hqw : s.q w with _ | ⟨it, rest⟩
  · rw [step_recv_nil hqw]
    refine ⟨h, ?_⟩
    intro ct m rest hx
    rw [hqw] at hx; cases hx
  rw [step_recv hqw]
  cases h with
  | idle hd hn w0 hp0 => rw [(hn w).2.2.2.2] at hqw; cases hqw
  | resetting w0 a pa pb ra rb c L hc hr hl hw ho hq hL hd =>
    rcases bool_cases w0 w with rfl | rfl
    · constructor
      · rw [handle_data_none (hd it (by rw [hqw]; simp)) hw.1 hw.2.1]
        refine .resetting w a pa pb ra rb c L (calm_put (calm_pop hc) rfl rfl) hr
          (by rw [total_put (by rfl), total_pop]; exact hl) (by simpa using hw) (by simpa using ho) (by simp [hq]) hL ?_
        intro i hi
        rw [put_q_self, pop_q_self] at hi
        exact hd i (by rw [hqw]; exact List.mem_cons_of_mem _ hi)
      · intro ct m r _; exact .inr hw.2
    · cases L with
      | nil =>
        rw [hq] at hqw
        simp only [List.nil_append, List.cons.injEq] at hqw
        obtain ⟨rfl, rfl⟩ := hqw
        constructor
        · rw [handle_reset ho.1]
          refine .offered (!w0) rd.priv rd.kem rd.blob (s.q w0) (calm_put (calm_pop hc) rfl rfl) (by simp)
            (by simp [hw]) (by simp) (by simpa using hd) (by simp [hw])
        · intro ct m r hx
          rw [hq] at hx; cases hx
      | cons it' L =>
        rw [hq] at hqw
        simp only [List.cons_append, List.cons.injEq] at hqw
        obtain ⟨rfl, rfl⟩ := hqw
        obtain ⟨ct, msg, c', rfl, h2, h3, h4, h5, h6, h7⟩ := live_recv hr (by omega) hL now
        have hh := handle_live (a := K !w0) (b := K !!w0) (rd := rd) ho.1 ho.2.2 h2
        constructor
        · rw [hh]
          refine .resetting w0 a pa pb ra rb c' L (calm_put (calm_pop hc) rfl rfl) h3
            (by rw [total_put (by rfl), total_pop, h4]; exact hl) (by simpa using hw) (by simp [ho]) (by simp) h6
            (by simpa using hd)
        · intro ct' m' r hx
          rw [hq] at hx
          simp only [List.cons_append, List.cons.injEq, Item.data.injEq] at hx
          obtain ⟨⟨rfl, rfl⟩, _⟩ := hx
          left
          rw [hh]
  | offered v pa ra bl junk hc hv ho hq hj hj' =>
    rcases bool_cases v w with rfl | rfl
    · rw [hv.2.2.2.2] at hqw; cases hqw
    · cases junk with
      | nil =>
        rw [hq] at hqw
        simp only [List.nil_append, List.cons.injEq] at hqw
        obtain ⟨rfl, rfl⟩ := hqw
        constructor
        · have e1 : (s.side (!v)).exists_ = false := by simp [Side.exists_, ho]
          have e2 := complete_false (K v) (K !v) pa rd.priv ra rd.kem
          simp only [handle, reduceCtorEq, if_false, e1, if_true, step2, Bool.not_not, fill_eq, e2]
          refine .answered v pa rd.priv ra rd.kem bl _ [] (calm_put (calm_pop hc) rfl rfl) .start (Nat.zero_le _)
            (by simpa using ⟨hv.1, hv.2.1, hv.2.2.1, hv.2.2.2.1⟩) (by simp [ho]) (by simp)
            (by simp [hv]) (link_start ..) (link_start ..) rfl
        · intro ct m r hx
          rw [hq] at hx; cases hx
      | cons it' junk =>
        rw [hq] at hqw
        simp only [List.cons_append, List.cons.injEq] at hqw
        obtain ⟨rfl, rfl⟩ := hqw
        constructor
        · rw [handle_data_none (hj it' (by simp)) ho.1 ho.2]
          refine .offered v pa ra bl junk (calm_put (calm_pop hc) rfl rfl) (by simpa using hv) (by simpa using ho)
            (by simp) (fun i hi => hj i (by simp [hi])) ?_
          intro _
          simpa using hj' (by simp)
        · intro ct m r _
          exact .inr ⟨ho.2, hj' (by simp)⟩
  | answered v pa pb ra rb bl c L hc hr hl hv ho hq' hq hL hL' hst =>
    rcases bool_cases v w with rfl | rfl
    · rw [hq] at hqw
      simp only [List.cons.injEq] at hqw
      obtain ⟨rfl, rfl⟩ := hqw
      constructor
      · have e1 : (s.side w).exists_ = true := by simp [Side.exists_, hv]
        simp only [handle, reduceCtorEq, if_false, e1, Bool.true_eq_false, hv.2.2.1, step3, hv.2.2.2, if_true, hv.2.1,
          complete_true]
        refine .talking w pa pb ra rb c (calm_put (calm_pop hc) rfl rfl) hr
          (by rw [total_put (by rfl), total_pop]; exact hl) ?_ ?_
        · intro x
          rcases bool_cases w x with rfl | rfl
          · simp [hv, role_self, hst]
          · rw [put_side_not, role_not, role_self]
            exact ⟨ho.1, ho.2.1, ho.2.2.1, ho.2.2.2⟩
        · intro x
          rcases bool_cases w x with rfl | rfl
          · rw [put_q_self, pop_q_self, role_self]; exact hL
          · rw [put_q_not, pop_q_not, role_not, role_self, hq']; exact hL'
      · intro ct m r hx
        rw [hq] at hx; cases hx
    · rw [hq'] at hqw; cases hqw
  | talking a pa pb ra rb c hc hr hl hs hL =>
    have hLw := hL w
    rw [hqw] at hLw
    obtain ⟨ct, msg, c', rfl, h2, h3, h4, h5, h6, h7⟩ := live_recv hr (by omega) hLw now
    have hh := handle_live (a := K w) (b := K !w) (rd := rd) (hs w).1 (hs w).2.2.2 h2
    constructor
    · rw [hh]
      refine .talking a pa pb ra rb c' (calm_put (calm_pop hc) rfl rfl) h3
        (by rw [total_put (by rfl), total_pop, h4]; exact hl) ?_ ?_
      · intro x
        rcases bool_cases w x with rfl | rfl
        · simp [hs x]
        · rw [put_side_not, role_not, h5, ← role_not]; exact hs _
      · intro x
        rcases bool_cases w x with rfl | rfl
        · rw [put_q_self, pop_q_self]; exact h6
        · rw [put_q_not, pop_q_not, role_not, List.append_nil]
          exact h7 _ (by rw [← role_not]; exact hL _)
    · intro ct' m' r hx
      rw [hqw] at hx
      simp only [List.cons.injEq, Item.data.injEq] at hx
      obtain ⟨⟨rfl, rfl⟩, _⟩ := hx
      left
      rw [hh]

/-- Polite users stay within the phases, and the record is right. -/
theorem phase_reach {K : Bool → Nat} {s : State} (h : Reach K s) :
    total s + 1 < u32 → Phase K s ∧ ∀ v, Book s v := by
  induction h with
  | refl =>
    intro _
    refine ⟨.idle (fun _ => rfl) (fun _ => ⟨rfl, rfl, rfl, rfl, rfl⟩) true rfl, fun v => ⟨[], rfl, .refl _, fun _ => rfl⟩⟩
  | @tail s e hr hp ih =>
    intro hlen
    have h1 := total_step K s e
    obtain ⟨ih, hb⟩ := ih (by omega)
    have h2 : total s + 1 < u32 := by omega
    have : Phase K (step K s e) ∧ Delivers K s e := by
      cases e with
      | find w => exact ⟨phase_find ih w hp, trivial⟩
      | found w rd => exact ⟨phase_found ih w rd, trivial⟩
      | send w priv hn mn msg => exact ⟨phase_send ih h2 w priv hn mn msg, trivial⟩
      | reset w => exact ⟨phase_reset ih w hp, trivial⟩
      | del w priv hn mn msg => exact hp.elim
      | delDone w => exact ⟨phase_delDone ih w, trivial⟩
      | recv w now rd => exact phase_recv ih h2 w now rd
    exact ⟨this.1, book_step hb this.2⟩

end Verif.Contact
