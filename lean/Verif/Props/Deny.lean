import Verif.Props.RatchetLeak

/-! # C148: what somebody shows of a conversation proves nothing about who wrote it

Nothing is signed but the identity of a client itself: `ed25519.Sign` is called in
/repo/zkidentity/zkidentity.go:121, and in `SignMessage`, :130-134, which nothing calls. Messages are sealed with keys that
both parties have, /repo/ratchet/ratchet.go:241-284. -/

namespace Verif.Ratchet

open Verif

/-- What a party has made itself or holds alone: its KEM private key, the random value that it made its half of the shared key
from, the private DH value of the key exchange and those of the messages that it sent. Nothing of the other, no keys, and
nothing that was only sent to it. -/
def own (ka kb pa pb ra rb : Nat) (c : Conv) (w : Bool) : Know where
  keys _ := False
  dh x := x = (if w then pa else pb) ∨ ∃ e ∈ c.wire, e.who = w ∧ dhOf e.ct = some x
  rand r := r = if w then ra else rb
  dec k := k = if w then ka else kb

/-! ## Every chain has messages -/

theorem inhabited {ka kb pa pb ra rb c} (h : Reach ka kb pa pb ra rb c) : c.wire.length + 1 < u32 →
    ∀ e ∈ c.wire, ∀ i, 2 ≤ i → i ≤ e.chain → ∃ e' ∈ c.wire, e'.chain = i := by
  induction h with
  | start => intro _ e he; simp [start] at he
  | @step c ev hr hl ih =>
    intro hlen
    have h1 := step_wire_len c ev
    have ih := ih (by omega)
    cases ev with
    | recv w now ct =>
      simp only [step]
      rcases decrypt (c.st w) now ct with ⟨x, R⟩
      cases x <;> exact ih
    | reload w now lifetime =>
      simp only [step]
      split <;> exact ih
    | send w priv hn mn msg =>
      obtain ⟨p, r, k, hI⟩ := inv_reach hr (by omega)
      obtain ⟨⟨ct, R, he⟩, _⟩ := inv_send hI (by omega) w priv hn mn msg
      simp only [step, he]
      intro e hm i hi hie
      rw [List.mem_append, List.mem_singleton] at hm
      rcases hm with hm | rfl
      · obtain ⟨e', h2, h3⟩ := ih e hm i hi hie
        exact ⟨e', List.mem_append_left _ h2, h3⟩
      · simp only at hie
        have hflag := (hI.pi w).pv.flag
        have hadj := (hI.pi w).pv.adj
        have hadj' := (hI.pi (!w)).pv.adj
        have hpeer := hI.peer w
        have hpeer' := hI.peer (!w)
        rw [Bool.not_not] at hpeer'
        have below : ∀ j, 2 ≤ j → j = r w → ∃ e' ∈ c.wire, e'.chain = j := by
          intro j hj hjr
          rcases (hI.pi w).last with h4 | ⟨e', h4, h5, _⟩
          · omega
          · exact ⟨e', h4, by omega⟩
        have down : ∀ j, 2 ≤ j → j ≤ r w → ∃ e' ∈ c.wire, e'.chain = j := by
          intro j hj hjr
          obtain ⟨e', h4, h5⟩ := below (r w) (by omega) rfl
          exact ih e' h4 j hj (by omega)
        have put : ∀ j, (∃ e' ∈ c.wire, e'.chain = j) →
            ∃ e' ∈ c.wire ++ [⟨w, if (c.st w).ratchet = true then c.chain (!w) + 1 else c.chain w,
              sentOn c.wire (if (c.st w).ratchet = true then c.chain (!w) + 1 else c.chain w), msg, ct⟩],
              e'.chain = j := by
          rintro j ⟨e', h4, h5⟩
          exact ⟨e', List.mem_append_left _ h4, h5⟩
        by_cases hrt : (c.st w).ratchet = true
        · have h3 := hflag.mp hrt
          have hpos : i ≤ r w ∨ i = c.chain (!w) + 1 := by
            rw [if_pos hrt] at hie
            omega
          rcases hpos with hp | hp
          · exact put _ (down i hi hp)
          · exact ⟨_, List.mem_append_right _ (List.mem_singleton.mpr rfl), by simp only [if_pos hrt]; exact hp.symm⟩
        · have h3 : c.chain w = r w + 1 := by
            rcases hadj with h | h
            · exact h
            · exact absurd (hflag.mpr h) hrt
          rw [if_neg hrt] at hie
          have hpos : i ≤ r w ∨ i = c.chain w := by omega
          rcases hpos with hp | hp
          · exact put _ (down i hi hp)
          · exact ⟨_, List.mem_append_right _ (List.mem_singleton.mpr rfl), by simp only [if_neg hrt]; exact hp.symm⟩

/-! ## Both have all keys -/

theorem own_shared (ka kb pa pb ra rb : Nat) (c : Conv) (w : Bool) :
    Deduce (own ka kb pa pb ra rb c w) (sharedKey ka kb ra rb) := by
  cases w
  · exact .sha (.decap rfl) (.make rfl)
  · exact .sha (.make rfl) (.decap rfl)

theorem own_dh {ka kb pa pb ra rb c p r k} (hI : Inv (sharedKey ka kb ra rb) c p r k) (h1 : p 1 = pb) {w : Bool} {e' : Sent}
    {i : Nat} (he : i ≠ 1 → e' ∈ c.wire ∧ e'.chain = i) (hi : 1 ≤ i) (hw : w = true ↔ i % 2 = 0) :
    (own ka kb pa pb ra rb c w).dh (p i) := by
  by_cases hi1 : i = 1
  · subst hi1
    cases w
    · exact .inl h1
    · simp at hw
  · obtain ⟨hm, hc⟩ := he hi1
    obtain ⟨_, h3, _, hn, mn, h4⟩ := hI.wi.shape e' hm
    refine .inr ⟨e', hm, ?_, ?_⟩
    · rw [hc] at h3
      cases w <;> cases hwho : e'.who <;> simp_all
    · rw [h4, hc]; rfl

theorem own_mat {ka kb pa pb ra rb c p r k} (hI : Inv (sharedKey ka kb ra rb) c p r k) (h1 : p 1 = pb) (w : Bool) :
    ∀ j, 1 ≤ j → (∀ i, 2 ≤ i → i ≤ j → ∃ e' ∈ c.wire, e'.chain = i) →
      Deduce (own ka kb pa pb ra rb c w) (mat (sharedKey ka kb ra rb) p j)
  | 0, h, _ => absurd h (by decide)
  | 1, _, _ => own_shared ..
  | j + 2, _, hin => by
    have ih := own_mat (pa := pa) hI h1 w (j + 1) (by omega) fun i a b => hin i a (by omega)
    rw [mat_succ (by omega)]
    refine .mix (.hmac ih) ?_
    have get : ∀ i, 1 ≤ i → i ≤ j + 2 → (w = true ↔ i % 2 = 0) → (own ka kb pa pb ra rb c w).dh (p i) := by
      intro i a b hw
      by_cases hi1 : i = 1
      · exact own_dh hI h1 (e' := ⟨w, 0, 0, [], .short⟩) (fun h => absurd hi1 h) a hw
      · obtain ⟨e', h2, h3⟩ := hin i (by omega) b
        exact own_dh hI h1 (fun _ => ⟨h2, h3⟩) a hw
    have : (own ka kb pa pb ra rb c w).dh (p (j + 1)) ∨ (own ka kb pa pb ra rb c w).dh (p (j + 2)) := by
      rcases Nat.mod_two_eq_zero_or_one j with hj | hj
      · cases w
        · exact .inl (get (j + 1) (by omega) (by omega) (by simp; omega))
        · exact .inr (get (j + 2) (by omega) (by omega) (by simp; omega))
      · cases w
        · exact .inr (get (j + 2) (by omega) (by omega) (by simp; omega))
        · exact .inl (get (j + 1) (by omega) (by omega) (by simp; omega))
    show _ ∨ _
    rcases Nat.le_total (p (j + 1)) (p (j + 1 + 1)) with hle | hle
    · rw [Nat.min_eq_left hle, Nat.max_eq_right hle]; exact this
    · rw [Nat.min_eq_right hle, Nat.max_eq_left hle]; exact this.symm

/-- **C148** Whatever one party sent, the other could have made itself, from what it made or holds alone, without anything that
was sent: the same ciphertext, and one that says anything else in its place. -/
theorem C148_forge {ka kb pa pb ra rb c} (h : Reach ka kb pa pb ra rb c) (hlen : c.wire.length + 1 < u32) (w : Bool)
    {e : Sent} (he : e ∈ c.wire) : ∃ hn hb k n, e.ct = .mk hn hb (.sealed k n e.msg) ∧
      ∀ text, Sendable (own ka kb pa pb ra rb c w) [] (.mk hn hb (.sealed k n text)) := by
  obtain ⟨p, r, k, hI, hp, _⟩ := inv_reach_pb h hlen
  obtain ⟨h1, _, _, hn, mn, h4⟩ := hI.wi.shape e he
  have hin := inhabited h hlen e he
  have hm := own_mat (pa := pa) hI hp w
  refine ⟨hn, _, _, _, h4, fun text => ⟨.inr ?_, .inr ?_⟩⟩
  · rcases hc : e.chain with _ | _ | _ | _ | j
    · omega
    · exact .hmac (own_shared ..)
    · exact .hmac (own_shared ..)
    · exact .hmac (own_shared ..)
    · exact .hmac (hm (j + 2) (by omega) fun i a b => hin i a (by omega))
  · refine .hmac ?_
    have : ∀ n, Deduce (own ka kb pa pb ra rb c w) (ck (sharedKey ka kb ra rb) p e.chain n) := by
      intro n
      induction n with
      | zero =>
        simp only [ck, if_neg (show e.chain ≠ 0 by omega)]
        exact .hmac (hm e.chain h1 hin)
      | succ n ih => exact .hmac ih
    exact this _

/-- **C148** The same holds for the key exchange: either could have sealed both parts of it. -/
theorem C148_exchange (ka kb pa pb ra rb : Nat) (c : Conv) (w : Bool) :
    (∃ p, (fillKeyExchange (new ka kb pa) ra).1 = .ok ⟨.enc kb ra, .sealed (.kem kb ra) p true⟩) ∧
    (∃ p, (fillKeyExchange (new kb ka pb) rb).1 = .ok ⟨.enc ka rb, .sealed (.kem ka rb) p true⟩) ∧
    Deduce (own ka kb pa pb ra rb c w) (.kem kb ra) ∧ Deduce (own ka kb pa pb ra rb c w) (.kem ka rb) := by
  refine ⟨⟨_, rfl⟩, ⟨_, rfl⟩, ?_⟩
  cases w
  · exact ⟨.decap rfl, .make rfl⟩
  · exact ⟨.make rfl, .decap rfl⟩

/-! ## No state tells the texts -/

/-- A message with the text changed as `f` says. -/
def editM (f : Key → Nat → Bytes → Bytes) : MBox → MBox
  | .sealed k n m => .sealed k n (f k n m)
  | .junk i => .junk i

def editCt (f : Key → Nat → Bytes → Bytes) : Ct → Ct
  | .short => .short
  | .mk hn h m => .mk hn h (editM f m)

/-- The text that `f` puts into a ciphertext. -/
def editText (f : Key → Nat → Bytes → Bytes) (msg : Bytes) : Ct → Bytes
  | .mk _ _ (.sealed k n _) => f k n msg
  | _ => msg

def edit (f : Key → Nat → Bytes → Bytes) (e : Sent) : Sent :=
  { e with msg := editText f e.msg e.ct, ct := editCt f e.ct }

theorem openM_edit (f : Key → Nat → Bytes → Bytes) (k : Key) (n : Nat) (m : MBox) :
    openM k n (editM f m) = (openM k n m).map (f k n) := by
  cases m with
  | junk i => rfl
  | sealed k' n' x =>
    simp only [editM, openM]
    split
    · rename_i h; rw [← h.1, ← h.2]; rfl
    · rfl

def Tried.edit (g : Bytes → Bytes) : Tried → Tried
  | .opened m s => .opened (g m) s
  | t => t

theorem tryLoop_edit (f : Key → Nat → Bytes → Bytes) (all : Saved) (hn : Nat) (h : HBox) (m : MBox) (l : Saved) :
    ∃ k n, tryLoop all hn h (editM f m) l = (tryLoop all hn h m l).edit (f k n) := by
  induction l with
  | nil => exact ⟨.zero, 0, rfl⟩
  | cons x rest ih =>
    obtain ⟨hk, keys⟩ := x
    simp only [tryLoop]
    cases openH hk hn h with
    | none => exact ih
    | some hdr =>
      dsimp only
      cases keys.get hdr.num with
      | none => exact ⟨.zero, 0, rfl⟩
      | some sk =>
        dsimp only
        refine ⟨sk.key, hdr.nonce, ?_⟩
        rw [openM_edit]
        cases openM sk.key hdr.nonce m <;> rfl

/-- Two results with the same state, both of which are successes or neither. -/
def Alike (x y : Res Bytes × Ratchet) : Prop := x.2 = y.2 ∧ ((∃ a, x.1 = .ok a) ↔ ∃ a, y.1 = .ok a)

theorem Alike.rfl' (x : Res Bytes × Ratchet) : Alike x x := ⟨rfl, Iff.rfl⟩

theorem decryptNew_edit (f : Key → Nat → Bytes → Bytes) (R : Ratchet) (now : Int) (hn : Nat) (h : HBox) (m : MBox) :
    Alike (decryptNew R now hn h (editM f m)) (decryptNew R now hn h m) := by
  unfold decryptNew
  split
  · split <;> try exact Alike.rfl' _
    rw [openM_edit]
    cases openM _ _ m
    · exact Alike.rfl' _
    · exact ⟨rfl, ⟨fun _ => ⟨_, rfl⟩, fun _ => ⟨_, rfl⟩⟩⟩
  · split <;> try exact Alike.rfl' _
    split <;> try exact Alike.rfl' _
    split <;> try exact Alike.rfl' _
    split <;> try exact Alike.rfl' _
    split <;> try exact Alike.rfl' _
    rw [openM_edit]
    cases openM _ _ m
    · exact Alike.rfl' _
    · exact ⟨rfl, ⟨fun _ => ⟨_, rfl⟩, fun _ => ⟨_, rfl⟩⟩⟩

theorem decrypt_edit {f : Key → Nat → Bytes → Bytes} (hf : ∀ k n m, f k n m = [] ↔ m = []) (R : Ratchet) (now : Int)
    (ct : Ct) : Alike (decrypt R now (editCt f ct)) (decrypt R now ct) := by
  cases ct with
  | short => exact Alike.rfl' _
  | mk hn h m =>
    obtain ⟨k, n, ht⟩ := tryLoop_edit f R.saved hn h m R.saved
    simp only [editCt, decrypt]
    rw [ht]
    cases tryLoop R.saved hn h m R.saved with
    | failed => exact Alike.rfl' _
    | nothing => exact decryptNew_edit ..
    | opened msg s =>
      simp only [Tried.edit]
      by_cases hm : msg = []
      · rw [if_pos hm, if_pos ((hf ..).mpr hm)]
        exact decryptNew_edit ..
      · rw [if_neg hm, if_neg (fun hx => hm ((hf ..).mp hx))]
        exact ⟨rfl, ⟨fun _ => ⟨_, rfl⟩, fun _ => ⟨_, rfl⟩⟩⟩

theorem encrypt_edit (R : Ratchet) (priv hn mn : Nat) :
    (∃ R' h k, ∀ msg, encrypt R priv hn mn msg = (.ok (.mk hn h (.sealed k mn msg)), R')) ∨
    ∃ R', ∀ msg, encrypt R priv hn mn msg = (.err, R') := by
  unfold encrypt
  split
  · cases ratchetStep R priv with
    | mk b R' =>
      cases b
      · exact .inr ⟨_, fun _ => rfl⟩
      · exact .inl ⟨_, _, _, fun _ => rfl⟩
  · exact .inl ⟨_, _, _, fun _ => rfl⟩

theorem edit_mem {f : Key → Nat → Bytes → Bytes} {wire : List Sent} {e : Sent} (h : e ∈ wire) : edit f e ∈ wire.map (edit f) :=
  List.mem_map_of_mem h

theorem assemble_edit (f : Key → Nat → Bytes → Bytes) {sk : Key} {wire : List Sent} {ct : Ct} (h : CanAssemble sk wire ct) :
    CanAssemble sk (wire.map (edit f)) (editCt f ct) := by
  cases ct with
  | short => exact h
  | mk hn hb m =>
    obtain ⟨h1, h2⟩ := h
    refine ⟨?_, ?_⟩
    · cases hb with
      | junk i => exact h1
      | sealed k n hdr =>
        rcases h1 with ⟨e, he, hn', m', hct⟩ | h1
        · exact .inl ⟨_, edit_mem he, hn', editM f m', by rw [edit, hct]; rfl⟩
        · exact .inr h1
    · cases m with
      | junk i => exact h2
      | sealed k n x =>
        rcases h2 with ⟨e, he, hn', h', hct⟩ | h2
        · exact .inl ⟨_, edit_mem he, hn', h', by rw [edit, hct]; rfl⟩
        · exact .inr h2

theorem sentOn_edit (f : Key → Nat → Bytes → Bytes) (wire : List Sent) (j : Nat) :
    sentOn (wire.map (edit f)) j = sentOn wire j := by
  simp only [sentOn, List.filter_map, List.length_map]
  rfl

/-- The conversation with other texts. -/
def editConv (f : Key → Nat → Bytes → Bytes) (c : Conv) : Conv :=
  { c with wire := c.wire.map (edit f), acc := fun w => (c.acc w).map (editCt f) }

/-- **C148** For every conversation there are others in which both ratchets are in the same state, the same ciphertexts were
accepted, and each message says whatever one likes instead of what it said: not even who seizes the machines of both can tell
which of them took place. Empty messages stay empty. -/
theorem C148_states {f : Key → Nat → Bytes → Bytes} (hf : ∀ k n m, f k n m = [] ↔ m = []) {ka kb pa pb ra rb : Nat} {c : Conv}
    (h : Reach ka kb pa pb ra rb c) : Reach ka kb pa pb ra rb (editConv f c) := by
  induction h with
  | start => exact .start
  | @step c ev hr hl ih =>
    cases ev with
    | send w priv hn mn msg =>
      rcases encrypt_edit (c.st w) priv hn mn with ⟨R', hb, k, he⟩ | ⟨R', he⟩
      · have := Reach.step ih (ev := .send w priv hn mn (f k mn msg)) trivial
        have heq : editConv f (step c (.send w priv hn mn msg)) =
            step (editConv f c) (.send w priv hn mn (f k mn msg)) := by
          simp only [step, editConv, he, sentOn_edit, List.map_append]
          rfl
        rw [heq]; exact this
      · have := Reach.step ih (ev := .send w priv hn mn msg) trivial
        have heq : editConv f (step c (.send w priv hn mn msg)) = step (editConv f c) (.send w priv hn mn msg) := by
          simp only [step, editConv, he]
        rw [heq]; exact this
    | recv w now ct =>
      have := Reach.step ih (ev := .recv w now (editCt f ct)) (assemble_edit f hl)
      have heq : editConv f (step c (.recv w now ct)) = step (editConv f c) (.recv w now (editCt f ct)) := by
        obtain ⟨h1, h2⟩ := decrypt_edit hf (c.st w) now ct
        simp only [step, editConv]
        cases hx : decrypt (c.st w) now ct with
        | mk a R =>
          cases hy : decrypt (c.st w) now (editCt f ct) with
          | mk b R' =>
            rw [hx, hy] at h1 h2
            dsimp only at h1 h2
            subst h1
            cases a with
            | ok a =>
              obtain ⟨b', rfl⟩ := h2.mpr ⟨_, rfl⟩
              dsimp only
              congr 1
              funext v
              simp only [upd]
              split
              · simp
              · rfl
            | _ =>
              cases b with
              | ok b => obtain ⟨_, hh⟩ := h2.mp ⟨_, rfl⟩; cases hh
              | _ => rfl
      rw [heq]; exact this
    | reload w now lifetime =>
      have := Reach.step ih (ev := .reload w now lifetime) trivial
      have heq : editConv f (step c (.reload w now lifetime)) = step (editConv f c) (.reload w now lifetime) := by
        simp only [step, editConv]
        split <;> rfl
      rw [heq]; exact this

/-- Puts `text` in place of what the message says, if it says anything. -/
def Sent.say (e : Sent) (text : Bytes) : Sent :=
  if e.msg = [] then e else
    match e.ct with
    | .mk hn h (.sealed k n _) => { e with msg := text, ct := .mk hn h (.sealed k n text) }
    | _ => e

/-- **C148** In particular for one message: any other text could be in its place, with all other messages and both ratchets as
they are. -/
theorem C148_message {ka kb pa pb ra rb : Nat} {c : Conv} (h : Reach ka kb pa pb ra rb c) (hlen : c.wire.length + 1 < u32)
    {e : Sent} (he : e ∈ c.wire) {text : Bytes} (ht : text ≠ []) :
    ∃ c', Reach ka kb pa pb ra rb c' ∧ c'.st = c.st ∧ c'.wire = c.wire.map fun x => if x = e then e.say text else x := by
  obtain ⟨p, r, k, hI⟩ := inv_reach h hlen
  obtain ⟨h1, _, _, hn, mn, h4⟩ := hI.wi.shape e he
  let f : Key → Nat → Bytes → Bytes := fun q n m =>
    if m ≠ [] ∧ q = mk (sharedKey ka kb ra rb) p e.chain e.num then text else m
  have hf : ∀ k n m, f k n m = [] ↔ m = [] := by
    intro k n m
    show (if _ then _ else _) = [] ↔ _
    split
    · rename_i hx; exact ⟨fun hy => absurd hy ht, fun hy => absurd hy hx.1⟩
    · exact Iff.rfl
  refine ⟨editConv f c, C148_states hf h, rfl, ?_⟩
  apply List.map_congr_left
  intro x hx
  obtain ⟨g1, _, _, hn', mn', g4⟩ := hI.wi.shape x hx
  by_cases hxe : x = e
  · subst hxe
    rw [if_pos rfl]
    unfold Sent.say
    by_cases hm : x.msg = []
    · rw [if_pos hm]
      cases x with
      | mk who ch num msg ct =>
        dsimp only at hm h4
        subst hm h4
        simp [edit, editText, editCt, editM, f]
    · rw [if_neg hm]
      cases x with
      | mk who ch num msg ct =>
        dsimp only at hm h4
        subst h4
        simp [edit, editText, editCt, editM, f, hm]
  · rw [if_neg hxe]
    have hne : mk (sharedKey ka kb ra rb) p x.chain x.num ≠ mk (sharedKey ka kb ra rb) p e.chain e.num := by
      intro hq
      obtain ⟨a, b⟩ := mk_inj g1 h1 hq
      exact hxe (hI.wi.uniq x hx e he a b)
    cases x with
    | mk who ch num msg ct =>
      dsimp only at g4 hne
      subst g4
      simp [edit, editText, editCt, editM, f, hne]

/-- An instance: a conversation of six messages over six chains, three of each, of which any may say [7] instead; and who was
robbed of nothing can make none of them. -/
example : Reach 1 2 3 4 5 6 talk ∧ talk.wire.length = 6 ∧ (talk.wire.filter fun e => e.who).length = 3 ∧
    (∀ e ∈ talk.wire, e.msg ≠ [] ∧ e.say [7] ≠ e) ∧
    ∀ e ∈ talk.wire, ∀ hn hb k n, e.ct = .mk hn hb (.sealed k n e.msg) → ¬ Sendable nobody [] (.mk hn hb (.sealed k n [7])) := by
  refine ⟨talk_reach, by decide, by decide, by decide, ?_⟩
  intro e he hn hb k n hct hs
  obtain ⟨p, r, q, hI⟩ := inv_reach talk_reach (by decide)
  obtain ⟨h1, _, _, hn', mn, h4⟩ := hI.wi.shape e he
  rw [hct] at h4
  simp only [Ct.mk.injEq, MBox.sealed.injEq] at h4
  obtain ⟨_, _, rfl, _⟩ := h4
  rcases hs.2 with ⟨_, h, _⟩ | h
  · simp at h
  · exact outside_derived nobody_outside (derived_mk h1) h

end Verif.Ratchet
