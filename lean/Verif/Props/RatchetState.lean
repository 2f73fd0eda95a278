import Verif.Props.Ratchet

/-!
# Properties of single ratchet calls (C09 counterexample, C12, C13, C15, C16)
-/

namespace Verif.Ratchet

open Verif

/-! ## A small conversation -/

/-- Both parties have run the key exchange. -/
def ex0 : Conv := start 1 2 3 4 5 6

/-- The ciphertext of the `i`-th message on the wire. -/
def wireCt (c : Conv) (i : Nat) : Ct := ((c.wire[i]?).map Sent.ct).getD .short

theorem canAssemble_mem {sk : Key} {wire : List Sent} {e : Sent} (he : e ∈ wire) :
    CanAssemble sk wire e.ct := by
  rcases hc : e.ct with _ | ⟨hn, h, m⟩
  · trivial
  · constructor
    · cases h with
      | junk i => trivial
      | sealed k n hd => exact .inl ⟨e, he, hn, m, hc⟩
    · cases m with
      | junk i => trivial
      | sealed k n b => exact .inl ⟨e, he, hn, h, hc⟩

theorem canAssemble_wireCt (sk : Key) (c : Conv) (i : Nat) :
    CanAssemble sk c.wire (wireCt c i) := by
  unfold wireCt
  rcases h : c.wire[i]? with _ | e
  · trivial
  · exact canAssemble_mem (List.mem_of_getElem? h)

/-- Steps of a small conversation: sends, and deliveries of what is on the wire. -/
inductive Do
  | send (who : Bool) (msg : Bytes)
  | deliver (who : Bool) (i : Nat)
  | reload (who : Bool) (now lifetime : Int)

/-- Carry out a step; the random values are taken from the length of the wire. -/
def doStep (c : Conv) : Do → Conv
  | .send w m => step c (.send w (10 * c.wire.length + 7) c.wire.length (c.wire.length + 100) m)
  | .deliver w i => step c (.recv w 0 (wireCt c i))
  | .reload w now l => step c (.reload w now l)

theorem reach_do {ka kb pa pb ra rb c} (h : Reach ka kb pa pb ra rb c) (ds : List Do) :
    Reach ka kb pa pb ra rb (ds.foldl doStep c) := by
  induction ds generalizing c with
  | nil => exact h
  | cons d ds ih =>
    apply ih
    cases d with
    | send w m =>
      exact .step (ev := .send w (10 * c.wire.length + 7) c.wire.length (c.wire.length + 100) m)
        h trivial
    | deliver w i =>
      exact .step (ev := .recv w 0 (wireCt c i)) h (canAssemble_wireCt _ c i)
    | reload w now l => exact .step (ev := .reload w now l) h trivial

/-- Bob sends 0, 1, 2; alice gets 2, answers, bob gets the answer and sends 4 on a new chain;
alice gets 4 first and 0 last. -/
def ex1 : Conv := [Do.send false [10], .send false [11], .send false [12], .deliver true 2,
  .send true [20], .deliver false 3, .send false [13], .deliver true 4].foldl doStep ex0

/-- C09 is about something: in `ex1` messages 0 and 1 are still undelivered, from an old chain. -/
example : ex1.wire.map Sent.chain = [1, 1, 1, 2, 3] ∧
    (decrypt (ex1.st true) 0 (wireCt ex1 0)).1 = .ok [10] ∧
    (decrypt (ex1.st true) 0 (wireCt ex1 1)).1 = .ok [11] ∧
    (decrypt (ex1.st true) 0 (wireCt ex1 2)).1 = .err := by decide

/-- The hypotheses of `C09_any_order_partial` hold there. -/
example : ∃ e ∈ ex1.wire, e.who = (!true) ∧ e.ct ∉ ex1.acc true ∧ InWindow ex1 true e ∧
    KeyKept ex1 true e ∧ e.msg ≠ [] ∧ Overtaken ex1 true e := by
  refine ⟨_, List.mem_cons_self, by decide, by decide, ⟨by decide, by decide⟩, ?_, by decide, ?_⟩
  · intro k _ h; exact absurd h (by simp [show ex1.lost true = [] from rfl])
  · exact ⟨_, List.mem_cons_of_mem _ (List.mem_cons_of_mem _ List.mem_cons_self),
      by decide, by decide⟩

/-- C10 and C11 are about something: splicing a header to another message's body fails, and so
does a replay after a reload. -/
example : (∃ h m h' m', wireCt ex1 0 = .mk 0 h m ∧ wireCt ex1 1 = .mk 1 h' m' ∧
      (decrypt (ex1.st true) 0 (.mk 0 h m')).1 = .err) ∧
    (decrypt (([Do.reload true 0 1].foldl doStep ex1).st true) 0 (wireCt ex1 4)).1 = .err :=
  ⟨⟨_, _, _, _, rfl, rfl, by decide⟩, by decide⟩

/-- C14: five messages, five keys. -/
example : ex1.wire.length = 5 := by decide

/-! ## C09: the counterexample -/

/-- Bob sends an empty message and another one; alice gets the second. -/
def ex2 : Conv := [Do.send false [], .send false [11], .deliver true 1].foldl doStep ex0

/-- The code breaks C09 for empty messages: an empty message that was overtaken by a later one is
within the window and its key is kept, but it is refused. -/
theorem C09_empty_message_violated :
    ∃ c e, Reach 1 2 3 4 5 6 c ∧ c.wire.length + 1 < u32 ∧ e ∈ c.wire ∧ e.who = (!true) ∧
      e.ct ∉ c.acc true ∧ InWindow c true e ∧ KeyKept c true e ∧
      (decrypt (c.st true) 0 e.ct).1 = .err := by
  refine ⟨ex2, _, reach_do .start _, by decide, List.mem_cons_self, by decide, by decide,
    ⟨by decide, by decide⟩, ?_, by decide⟩
  intro k _ h
  exact absurd h (by simp [show ex2.lost true = [] from rfl])

/-! ## C12: a rejected ciphertext changes nothing -/

theorem decryptNew_reject (R : Ratchet) (now : Int) (hn : Nat) (h : HBox) (m : MBox)
    (hr : ∀ b, (decryptNew R now hn h m).1 ≠ .ok b) : (decryptNew R now hn h m).2 = R := by
  unfold decryptNew at hr ⊢
  repeat' split
  all_goals first
    | rfl
    | (exfalso; simp_all)

/-- Does the ciphertext carry an empty message? -/
def emptyBody : Ct → Bool
  | .mk _ _ (.sealed _ _ []) => true
  | _ => false

/-- Any call of `Decrypt`, in any state of the ratchet, that does not return a plaintext leaves the
ratchet exactly as it was, unless the ciphertext carries an empty message. Missing for the full
claim: the empty message (see the next theorem). -/
theorem C12_reject_no_effect_partial (R : Ratchet) (now : Int) (ct : Ct)
    (hne : emptyBody ct = false)
    (hr : ∀ b, (decrypt R now ct).1 ≠ .ok b) : (decrypt R now ct).2 = R := by
  cases ct with
  | short => rfl
  | mk hn h m =>
    have hopened : ∀ (all l : Saved) msg s, tryLoop all hn h m l = .opened msg s → msg ≠ [] := by
      intro all l
      induction l with
      | nil => intro msg s hh; simp [tryLoop] at hh
      | cons a l ih =>
        obtain ⟨k, keys⟩ := a
        intro msg s hh
        simp only [tryLoop] at hh
        split at hh
        · exact ih msg s hh
        · split at hh
          · simp at hh
          · split at hh
            · simp at hh
            · rename_i ho
              simp only [Tried.opened.injEq] at hh
              obtain ⟨rfl, _⟩ := hh
              rintro rfl
              cases m with
              | junk i => simp [openM] at ho
              | sealed k' n' b =>
                simp only [openM] at ho
                split at ho
                · simp only [Option.some.injEq] at ho
                  subst ho
                  simp [emptyBody] at hne
                · simp at ho
    simp only [decrypt] at hr ⊢
    rcases ht : tryLoop R.saved hn h m R.saved with _ | _ | ⟨msg, s⟩
    · rfl
    · simp only [ht] at hr
      exact decryptNew_reject R now hn h m hr
    · simp only [ht] at hr
      have := hopened _ _ _ _ ht
      rw [if_neg this] at hr
      exact absurd rfl (hr msg)

/-- The code breaks C12 for empty messages: presenting an overtaken empty message is an error, and
the key of that message is gone. -/
theorem C12_empty_message_violated :
    ∃ c ct, Reach 1 2 3 4 5 6 c ∧ ct ∈ c.wire.map Sent.ct ∧
      (decrypt (c.st true) 0 ct).1 = .err ∧ (decrypt (c.st true) 0 ct).2 ≠ c.st true :=
  ⟨ex2, _, reach_do .start _, List.mem_cons_self, by decide, by decide⟩

/-- The hypotheses of `C12_reject_no_effect_partial` are met by a replay. -/
example : (decrypt (ex1.st true) 0 (wireCt ex1 4)).1 = .err ∧
    (decrypt (ex1.st true) 0 (wireCt ex1 4)).2 = ex1.st true := by
  have h : (decrypt (ex1.st true) 0 (wireCt ex1 4)).1 = .err := by decide
  exact ⟨h, C12_reject_no_effect_partial _ _ _ (by decide) (by rw [h]; simp)⟩

/-! ## C13: bounded work -/

/-- Number of saved message keys. -/
def countSaved (s : Saved) : Nat := (s.map fun e => e.2.length).sum

theorem del_length_le {α β : Type} [DecidableEq α] (m : GoMap α β) (k : α) :
    (m.del k).length ≤ m.length := by
  induction m with
  | nil => exact Nat.le_refl _
  | cons a m ih =>
    obtain ⟨x, v⟩ := a
    simp only [GoMap.del]
    split
    · simp only [List.length_cons]; omega
    · simp only [List.length_cons]; omega

theorem countSaved_del (s : Saved) (k : Key) : countSaved (s.del k) ≤ countSaved s := by
  induction s with
  | nil => exact Nat.le_refl _
  | cons a s ih =>
    obtain ⟨x, v⟩ := a
    simp only [GoMap.del]
    split
    · simp only [countSaved, List.map_cons, List.sum_cons] at ih ⊢; omega
    · simp only [countSaved, List.map_cons, List.sum_cons] at ih ⊢; omega

theorem countSaved_del_get (s : Saved) {k : Key} {m : GoMap Nat SavedKey} (h : s.get k = some m) :
    countSaved (s.del k) + m.length ≤ countSaved s := by
  induction s with
  | nil => simp at h
  | cons a s ih =>
    obtain ⟨x, v⟩ := a
    rw [GoMap.get_cons] at h
    simp only [GoMap.del]
    split at h
    · rename_i hx
      simp only [Option.some.injEq] at h
      subst h
      rw [if_pos hx]
      have := countSaved_del s k
      simp only [countSaved, List.map_cons, List.sum_cons] at this ⊢; omega
    · rename_i hx
      rw [if_neg hx]
      have := ih h
      simp only [countSaved, List.map_cons, List.sum_cons] at this ⊢; omega

theorem countSaved_set (s : Saved) (k : Key) (m : GoMap Nat SavedKey) :
    countSaved (s.set k m) = m.length + countSaved (s.del k) := by
  simp [countSaved, GoMap.set]

theorem foldl_set_length (new : GoMap Nat SavedKey) (old : GoMap Nat SavedKey) :
    (new.foldl (fun m e => GoMap.set m e.1 e.2) old).length ≤ old.length + new.length := by
  induction new generalizing old with
  | nil => exact Nat.le_refl _
  | cons a new ih =>
    have h1 := ih (GoMap.set old a.1 a.2)
    have h2 := del_length_le old a.1
    simp only [List.foldl_cons, List.length_cons, GoMap.set] at h1 ⊢
    omega

theorem countSaved_merge (s : Saved) (o : Option (Key × GoMap Nat SavedKey)) :
    countSaved (mergeSavedKeys s o) ≤
      countSaved s + (match o with | none => 0 | some x => x.2.length) := by
  rcases o with _ | ⟨k, new⟩
  · exact Nat.le_refl _
  · simp only [mergeSavedKeys]
    split
    · rw [countSaved_set]
      have := countSaved_del s k
      omega
    · rename_i old ho
      rw [countSaved_set]
      have h1 := countSaved_del_get s ho
      have h2 := foldl_set_length new old
      omega

/-- Skipped keys a successful `saveKeys` returns. -/
theorem saveKeys_few {h c : Key} {num cnt : Nat} {now : Int} {ck mk : Key} {sv}
    (hs : saveKeys h c num cnt now = .ok (ck, mk, sv)) :
    (match sv with | none => 0 | some x => x.2.length) ≤ 80 := by
  obtain ⟨_, h2, _, h4⟩ := saveKeys_inv hs
  simp only [Prod.mk.injEq] at h4
  obtain ⟨_, _, h5⟩ := h4
  subst h5
  split
  · exact Nat.zero_le _
  · rename_i x hx
    split at hx
    · simp at hx
    · simp only [Option.some.injEq] at hx
      subst hx
      simp only [advance_length]
      exact h2

theorem decryptNew_storage (R : Ratchet) (now : Int) (hn : Nat) (h : HBox) (m : MBox) :
    countSaved (decryptNew R now hn h m).2.saved ≤ countSaved R.saved + 80 ∨
    ((decryptNew R now hn h m).2.recvHeaderKey = R.nextRecvHeaderKey ∧
      countSaved (decryptNew R now hn h m).2.saved ≤ countSaved R.saved + 160) := by
  unfold decryptNew
  repeat' split
  all_goals first
    | (left; simp only []; omega)
    | skip
  · rename_i hs _ _ _
    left
    simp only []
    have h1 := countSaved_merge R.saved (by assumption)
    have h2 := saveKeys_few hs
    omega
  · right
    refine ⟨rfl, ?_⟩
    rename_i _ _ o1 hs1 _ _ _ _ _ _ o2 hs2 _ _ _
    simp only []
    have h1 := saveKeys_few hs1
    have h2 := saveKeys_few hs2
    have h3 := countSaved_merge R.saved o1
    have h4 := countSaved_merge (mergeSavedKeys R.saved o1) o2
    omega

theorem tryLoop_count {s s' : Saved} {hn : Nat} {h : HBox} {m : MBox} {msg : Bytes}
    (ht : tryLoop s hn h m s = .opened msg s') : countSaved s' ≤ countSaved s := by
  cases h with
  | junk i => rw [tryLoop_junk] at ht; simp at ht
  | sealed k n hdr =>
    by_cases hnn : n = hn
    · subst hnn
      rw [tryLoop_sealed] at ht
      rcases hg : GoMap.get s k with _ | keys
      · rw [hg] at ht; simp at ht
      · rw [hg] at ht
        simp only [] at ht
        split at ht
        · simp at ht
        · split at ht
          · simp at ht
          · simp only [Tried.opened.injEq] at ht
            rw [← ht.2]
            have h1 := countSaved_del_get s hg
            split
            · omega
            · rw [countSaved_set]
              have := del_length_le keys hdr.num
              omega
    · rw [tryLoop_nonce _ _ hnn] at ht; simp at ht

/-- One call of `Decrypt`, whatever the state and the input, adds at most 80 saved keys; if it moves
on to the peer's next chain, at most 160 (80 for the chain it leaves, 80 for the new one). -/
theorem C13_storage_bounded (R : Ratchet) (now : Int) (ct : Ct) :
    countSaved (decrypt R now ct).2.saved ≤ countSaved R.saved + 80 ∨
    ((decrypt R now ct).2.recvHeaderKey = R.nextRecvHeaderKey ∧
      countSaved (decrypt R now ct).2.saved ≤ countSaved R.saved + 160) := by
  cases ct with
  | short => left; simp only [decrypt]; omega
  | mk hn h m =>
    simp only [decrypt]
    rcases ht : tryLoop R.saved hn h m R.saved with _ | _ | ⟨msg, s⟩
    · left; simp only []; omega
    · exact decryptNew_storage R now hn h m
    · have h1 := tryLoop_count ht
      simp only []
      split
      · rcases decryptNew_storage { R with saved := s } now hn h m with h2 | ⟨h2, h3⟩
        · left; simp only [] at h2; omega
        · right; exact ⟨h2, by simp only [] at h3; omega⟩
      · left; simp only []; omega

/-- Skipping exactly 80 messages is possible and stores 80 keys. -/
example : ∃ R ct, (decrypt R 0 ct).1 = .ok [1] ∧ countSaved R.saved = 0 ∧
    countSaved (decrypt R 0 ct).2.saved = 80 := by
  refine ⟨{ recvHeaderKey := .rnd 1, recvChainKey := .rnd 2 },
    .mk 0 (.sealed (.rnd 1) 0 ⟨80, 0, .low, 5⟩)
      (.sealed (advance (.rnd 2) 0 0 80).2.1 5 [1]), ?_, rfl, ?_⟩
  · rfl
  · rfl

/-- The header a ratchet would read from a ciphertext with a given key. -/
def headerUnder (k : Key) : Ct → Option Header
  | .short => none
  | .mk hn h _ => openH k hn h

/-- A message that would need more than 80 skipped keys on the current chain is refused. -/
theorem C13_far_message_refused (R : Ratchet) (now : Int) (ct : Ct) (hdr : Header)
    (hz : R.recvHeaderKey ≠ .zero) (hh : headerUnder R.recvHeaderKey ct = some hdr)
    (hns : get2 R.saved R.recvHeaderKey hdr.num = none)
    (hfar : R.recvCount + 80 < hdr.num) : decrypt R now ct = (.err, R) := by
  cases ct with
  | short => rfl
  | mk hn h m =>
    simp only [headerUnder] at hh
    have htry : tryLoop R.saved hn h m R.saved = .nothing := by
      cases h with
      | junk i => exact tryLoop_junk ..
      | sealed k n hd =>
        simp only [openH] at hh
        split at hh
        · rename_i hc
          simp only [Option.some.injEq] at hh
          obtain ⟨rfl, rfl⟩ := hc
          subst hh
          rw [tryLoop_sealed]
          unfold get2 at hns
          rcases hg : GoMap.get R.saved R.recvHeaderKey with _ | keys
          · rfl
          · rw [hg] at hns
            simp only [Option.bind_some] at hns
            simp only [hns]
        · simp at hh
    simp only [decrypt, htry, decryptNew]
    rw [if_neg hz, hh]
    simp only []
    have : saveKeys R.recvHeaderKey R.recvChainKey hdr.num R.recvCount now = .err := by
      unfold saveKeys
      rw [if_neg (by omega)]
      simp only []
      rw [if_pos (by unfold maxMissing; omega)]
    rw [this]

/-- A message on the peer's next chain that would need more than 80 skipped keys on either chain is
refused. -/
theorem C13_far_next_chain_refused (R : Ratchet) (now : Int) (ct : Ct) (hdr : Header)
    (hcur : R.recvHeaderKey = .zero ∨ headerUnder R.recvHeaderKey ct = none)
    (hh : headerUnder R.nextRecvHeaderKey ct = some hdr)
    (hns : get2 R.saved R.nextRecvHeaderKey hdr.num = none)
    (hfar : R.recvCount + 80 < hdr.prev ∨ 80 < hdr.num) : ∀ b, (decrypt R now ct).1 ≠ .ok b := by
  intro b hb
  cases ct with
  | short => simp [decrypt] at hb
  | mk hn h m =>
    simp only [headerUnder] at hh hcur
    have htry : tryLoop R.saved hn h m R.saved = .nothing := by
      cases h with
      | junk i => exact tryLoop_junk ..
      | sealed k n hd =>
        simp only [openH] at hh
        split at hh
        · rename_i hc
          simp only [Option.some.injEq] at hh
          obtain ⟨rfl, rfl⟩ := hc
          subst hh
          rw [tryLoop_sealed]
          unfold get2 at hns
          rcases hg : GoMap.get R.saved R.nextRecvHeaderKey with _ | keys
          · rfl
          · rw [hg] at hns
            simp only [Option.bind_some] at hns
            simp only [hns]
        · simp at hh
    simp only [decrypt, htry, decryptNew] at hb
    have hcur' : (if R.recvHeaderKey = .zero then none else openH R.recvHeaderKey hn h) = none := by
      rcases hcur with h1 | h1
      · rw [if_pos h1]
      · rw [h1]; split <;> rfl
    rw [hcur', hh] at hb
    simp only [] at hb
    split at hb
    · simp at hb
    · split at hb
      · simp at hb
      · simp at hb
      · simp at hb
      · rename_i hs
        have h1 := saveKeys_inv hs
        split at hb
        · simp at hb
        · split at hb
          · simp at hb
          · simp at hb
          · simp at hb
          · rename_i hs2
            have h2 := saveKeys_inv hs2
            unfold maxMissing at h1 h2
            omega

/-- Non-vacuous: in `ex1` alice's current chain key is live, and number 85 is too far. -/
example : (ex1.st true).recvHeaderKey ≠ .zero ∧
    decrypt (ex1.st true) 0 (.mk 9 (.sealed (ex1.st true).recvHeaderKey 9 ⟨85, 0, .low, 1⟩)
      (.junk 0)) = (.err, ex1.st true) := by decide

/-- Both counters of every header the ciphertext may contain are below the largest uint32. -/
def countersBelowMax : Ct → Prop
  | .mk _ (.sealed _ _ h) _ => h.num + 1 < u32 ∧ h.prev + 1 < u32
  | _ => True

theorem saveKeys_returns {h c : Key} {num cnt : Nat} {now : Int} (hn : num + 1 < u32) :
    saveKeys h c num cnt now ≠ .crash ∧ saveKeys h c num cnt now ≠ .diverge := by
  unfold saveKeys
  split
  · simp
  · simp only []
    split
    · simp
    · rw [if_neg (by omega)]; simp

theorem decryptNew_returns (R : Ratchet) (now : Int) (hn : Nat) (h : HBox) (m : MBox)
    (hc : countersBelowMax (.mk hn h m)) :
    (decryptNew R now hn h m).1 ≠ .crash ∧ (decryptNew R now hn h m).1 ≠ .diverge := by
  have ho : ∀ k hdr, openH k hn h = some hdr → hdr.num + 1 < u32 ∧ hdr.prev + 1 < u32 := by
    intro k hdr hh
    cases h with
    | junk i => simp [openH] at hh
    | sealed k' n hd =>
      simp only [openH] at hh
      split at hh
      · simp only [Option.some.injEq] at hh; subst hh; exact hc
      · simp at hh
  unfold decryptNew
  split
  · rename_i hdr hh
    have hb : hdr.num + 1 < u32 ∧ hdr.prev + 1 < u32 := by
      split at hh
      · simp at hh
      · exact ho _ _ hh
    have := saveKeys_returns (h := R.recvHeaderKey) (c := R.recvChainKey) (cnt := R.recvCount)
      (now := now) hb.1
    split
    · simp
    · rename_i hs; exact absurd hs this.1
    · rename_i hs; exact absurd hs this.2
    · split <;> simp
  · split
    · simp
    · rename_i hdr hh
      have hb := ho _ _ hh
      split
      · simp
      · have h1 := saveKeys_returns (h := R.recvHeaderKey) (c := R.recvChainKey)
          (cnt := R.recvCount) (now := now) hb.2
        split
        · simp
        · rename_i hs; exact absurd hs h1.1
        · rename_i hs; exact absurd hs h1.2
        · split
          · simp
          · rename_i km _
            have h2 := saveKeys_returns (h := R.nextRecvHeaderKey) (c := .hmac .chainKey km)
              (cnt := 0) (now := now) hb.1
            split
            · simp
            · rename_i hs; exact absurd hs h2.1
            · rename_i hs; exact absurd hs h2.2
            · split <;> simp

/-- `Decrypt` always returns, in any state, unless a counter in the header is the largest uint32.
Missing for the full claim: that one value (see the next theorem). -/
theorem C13_terminates_partial (R : Ratchet) (now : Int) (ct : Ct) (hc : countersBelowMax ct) :
    (decrypt R now ct).1 ≠ .crash ∧ (decrypt R now ct).1 ≠ .diverge := by
  cases ct with
  | short => simp [decrypt]
  | mk hn h m =>
    simp only [decrypt]
    split
    · simp
    · exact decryptNew_returns _ _ _ _ _ hc
    · split
      · exact decryptNew_returns _ _ _ _ _ hc
      · simp

/-! The counterexample needs a chain of 2^32 messages; it is described by its two states. -/

/-- The chain key after `n` messages. -/
def iterCk (k : Key) : Nat → Key
  | 0 => k
  | n + 1 => .hmac .chainKeyStep (iterCk k n)

/-- Bob's ratchet after sending `n` messages and receiving none. -/
def bobAt (n : Nat) : Ratchet :=
  { ex0.st false with sendChainKey := iterCk (ex0.st false).sendChainKey n, sendCount := n }

/-- Alice's ratchet after receiving the first `n` of them. -/
def aliceAt (n : Nat) : Ratchet :=
  { ex0.st true with recvChainKey := iterCk (ex0.st true).recvChainKey n, recvCount := n }

/-- Bob's message number `n`. -/
def bobMsg (n : Nat) : Ct := (sealMsg (bobAt n) 0 0 [1]).1

theorem bob_sends (n : Nat) (hn : n + 1 < u32) :
    encrypt (bobAt n) 0 0 0 [1] = (.ok (bobMsg n), bobAt (n + 1)) := by
  have : (n + 1) % u32 = n + 1 := Nat.mod_eq_of_lt hn
  show (Res.ok (sealMsg (bobAt n) 0 0 [1]).1, (sealMsg (bobAt n) 0 0 [1]).2) = _
  simp only [bobMsg, sealMsg, bobAt, iterCk, this]

theorem alice_header (n i : Nat) :
    openH (aliceAt n).recvHeaderKey 0 (.sealed (bobAt i).sendHeaderKey 0 ⟨i, 0, .of 4, 0⟩) =
      some ⟨i, 0, .of 4, 0⟩ := rfl

theorem alice_receives (n : Nat) (hn : n + 1 < u32) :
    decrypt (aliceAt n) 0 (bobMsg n) = (.ok [1], aliceAt (n + 1)) := by
  have h1 : (n + 1) % u32 = n + 1 := Nat.mod_eq_of_lt hn
  have hs : saveKeys (aliceAt n).recvHeaderKey (aliceAt n).recvChainKey n (aliceAt n).recvCount 0 =
      .ok (.hmac .chainKeyStep (aliceAt n).recvChainKey, .hmac .messageKey (aliceAt n).recvChainKey,
        none) := by
    have hc : (aliceAt n).recvCount = n := rfl
    rw [hc, saveKeys_ok (Nat.le_refl _) (by unfold maxMissing; omega) (by omega), Nat.sub_self]
    rfl
  have hm : openM (.hmac .messageKey (aliceAt n).recvChainKey) 0
      (.sealed (.hmac .messageKey (bobAt n).sendChainKey) 0 [1]) = some [1] := by
    have : (aliceAt n).recvChainKey = (bobAt n).sendChainKey := rfl
    simp [openM, this]
  have ht : tryLoop (aliceAt n).saved 0 (.sealed (bobAt n).sendHeaderKey 0 ⟨n, 0, .of 4, 0⟩)
      (.sealed (.hmac .messageKey (bobAt n).sendChainKey) 0 [1]) (aliceAt n).saved = .nothing := rfl
  have hz : (aliceAt n).recvHeaderKey ≠ .zero := by
    show (ex0.st true).recvHeaderKey ≠ .zero
    decide
  show decrypt (aliceAt n) 0 (.mk 0 (.sealed (bobAt n).sendHeaderKey 0 ⟨n, 0, .of 4, 0⟩)
    (.sealed (.hmac .messageKey (bobAt n).sendChainKey) 0 [1])) = _
  simp only [decrypt, ht, decryptNew]
  rw [if_neg hz, alice_header]
  simp only [hs, hm, h1]
  rfl

theorem long_chain (n : Nat) (hn : n < u32) :
    ∃ c, Reach 1 2 3 4 5 6 c ∧ c.st true = aliceAt n ∧ c.st false = bobAt n := by
  induction n with
  | zero => exact ⟨ex0, .start, rfl, rfl⟩
  | succ n ih =>
    obtain ⟨c, hr, ha, hb⟩ := ih (by omega)
    have h1 : Reach 1 2 3 4 5 6 (step c (.send false 0 0 0 [1])) := .step hr trivial
    have hs : (step c (.send false 0 0 0 [1])).st = upd c.st false (bobAt (n + 1)) ∧
        ∃ e ∈ (step c (.send false 0 0 0 [1])).wire, e.ct = bobMsg n := by
      simp only [step, hb, bob_sends n hn]
      refine ⟨trivial, _, List.mem_append_right _ List.mem_cons_self, rfl⟩
    obtain ⟨hst, e, he, hct⟩ := hs
    have h2 : Reach 1 2 3 4 5 6 (step (step c (.send false 0 0 0 [1])) (.recv true 0 (bobMsg n))) := by
      apply Reach.step (ev := .recv true 0 (bobMsg n)) h1
      simp only [Legal]
      rw [← hct]; exact canAssemble_mem he
    refine ⟨_, h2, ?_, ?_⟩
    · have : (step c (.send false 0 0 0 [1])).st true = aliceAt n := by rw [hst]; simp [upd, ha]
      simp only [step.eq_2, this, alice_receives n hn, upd_self]
    · have h3 : (step c (.send false 0 0 0 [1])).st true = aliceAt n := by rw [hst]; simp [upd, ha]
      have h4 : (step c (.send false 0 0 0 [1])).st false = bobAt (n + 1) := by
        rw [hst]; simp [upd]
      simp only [step.eq_2, h3, alice_receives n hn]
      simp [upd, h4]

/-- The code breaks C13: in a conversation that has reached message number 2^32 - 1 on one chain,
with one message missing, `Decrypt` of the honest next message never returns. -/
theorem C13_terminates_violated :
    ∃ c ct, Reach 1 2 3 4 5 6 c ∧ ct ∈ c.wire.map Sent.ct ∧
      (decrypt (c.st true) 0 ct).1 = .diverge := by
  obtain ⟨c, hr, ha, hb⟩ := long_chain (u32 - 2) (by unfold u32; omega)
  have e1 : u32 - 2 + 1 = u32 - 1 := by unfold u32; omega
  have hs1 := bob_sends (u32 - 2) (by unfold u32; omega)
  rw [e1] at hs1
  have h1 : Reach 1 2 3 4 5 6 (step c (.send false 0 0 0 [1])) := .step hr trivial
  have h2 : Reach 1 2 3 4 5 6 (step (step c (.send false 0 0 0 [1])) (.send false 0 0 0 [1])) :=
    .step h1 trivial
  have hb' : (step c (.send false 0 0 0 [1])).st = upd c.st false (bobAt (u32 - 1)) := by
    simp only [step, hb, hs1]
  have hs2 : encrypt (bobAt (u32 - 1)) 0 0 0 [1] =
      (.ok (bobMsg (u32 - 1)), (sealMsg (bobAt (u32 - 1)) 0 0 [1]).2) := rfl
  have hf : (step c (.send false 0 0 0 [1])).st false = bobAt (u32 - 1) := by
    rw [hb', upd_self]
  have hA : (step (step c (.send false 0 0 0 [1])) (.send false 0 0 0 [1])).st true
      = aliceAt (u32 - 2) := by
    simp only [step.eq_1 (c := step c (.send false 0 0 0 [1])), hf, hs2]
    show (upd (step c (.send false 0 0 0 [1])).st false _) true = _
    rw [hb']
    simp [upd, ha]
  refine ⟨_, bobMsg (u32 - 1), h2, ?_, ?_⟩
  · simp only [step.eq_1 (c := step c (.send false 0 0 0 [1])), hf, hs2]
    simp
  · rw [hA]
    have hz : (aliceAt (u32 - 2)).recvHeaderKey ≠ .zero := by
      show (ex0.st true).recvHeaderKey ≠ .zero
      decide
    have hs : saveKeys (aliceAt (u32 - 2)).recvHeaderKey (aliceAt (u32 - 2)).recvChainKey (u32 - 1)
        (aliceAt (u32 - 2)).recvCount 0 = .diverge := by
      have hc : (aliceAt (u32 - 2)).recvCount = u32 - 2 := rfl
      unfold saveKeys
      rw [hc, if_neg (by unfold u32; omega)]
      simp only []
      rw [if_neg (by unfold u32 maxMissing; omega), if_pos (by unfold u32; omega),
        if_neg (by unfold u32; omega)]
    show (decrypt (aliceAt (u32 - 2)) 0 (.mk 0
      (.sealed (bobAt (u32 - 1)).sendHeaderKey 0 ⟨u32 - 1, 0, .of 4, 0⟩)
      (.sealed (.hmac .messageKey (bobAt (u32 - 1)).sendChainKey) 0 [1]))).1 = _
    have ht : tryLoop (aliceAt (u32 - 2)).saved 0
        (.sealed (bobAt (u32 - 1)).sendHeaderKey 0 ⟨u32 - 1, 0, .of 4, 0⟩)
        (.sealed (.hmac .messageKey (bobAt (u32 - 1)).sendChainKey) 0 [1])
        (aliceAt (u32 - 2)).saved = .nothing := rfl
    simp only [decrypt, ht, decryptNew]
    rw [if_neg hz, alice_header]
    simp only [hs]

end Verif.Ratchet
