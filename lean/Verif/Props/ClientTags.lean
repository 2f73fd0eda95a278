import Verif.Model.ClientTags
import Verif.Proofs.TagStack

/-!
# C56: no server-supplied tag can crash the client and client tags stay distinct

The claim speaks about all runs of `Verif.ClientTags.step` from `start`, with any server.  It is false in four
ways, each proved below with a run in which everything else is as it should be:

* `C56_ack_violated`: an acknowledgement whose tag equals the tag depth;
* `C56_reply_violated`: a reply with a tag that was never given out;
* `C56_ping_violated`: the heartbeat finds the pool empty and sends a ping with tag 0;
* `C56_reconnect_violated`: a request scheduled before the connection dropped is sent on the next one.

What holds: `C56_ack_crash_iff` (the only tag that crashes the acknowledgement), `C56_no_crash_partial`
(arbitrary servers, tags in range), `C56_distinct_partial` and `C56_callback_partial` (honest server).
-/

namespace Verif.ClientTags

open Verif.TagStack (Stack StackInv)

/-! ## Specification -/

/-- The server answers only requests it has received and not answered, and answers messages (`cacheCRPC`) with an
acknowledgement. -/
def HonestServer (s : State) : Ev → Prop
  | .reply t => (t, none) ∈ s.flight
  | .ack t => ∃ c, (t, c) ∈ s.flight
  | _ => True

/-- The heartbeat does not fire while all tags are in use. -/
def FreeTag (s : State) : Ev → Prop
  | .ping => s.stack.at_ ≠ 0
  | _ => True

/-- The client reconnects only when no request is between the pool and the wire. -/
def CleanConnect (s : State) : Ev → Prop
  | .connect _ => s.held = [] ∧ s.queued = [] ∧ s.sending = none
  | _ => True

/-- All three. -/
def Calm (s : State) (e : Ev) : Prop := HonestServer s e ∧ FreeTag s e ∧ CleanConnect s e

/-- Tags on the wire. -/
def wire (s : State) : List Nat := s.flight.map Prod.fst

/-- Tags sent by the server are in range, except that acknowledgements may also be above the depth; all
connections have the same depth. -/
def InRange (d : Nat) (_ : State) : Ev → Prop
  | .reply t => t < d
  | .ack t => t ≠ d
  | .connect d' => d' = d
  | _ => True

/-! ## Arbitrary server -/

theorem push_ok {st : Stack} {x : Nat} {r : Outcome TagStack.Err Unit} {st' : Stack} {d : Nat}
    (h : st.push x = (r, st')) (hx : x < d) (hle : st.at_ ≤ st.stack.length) (ha : ∀ y ∈ st.stack, y < d) :
    st'.at_ ≤ st'.stack.length ∧ ∀ y ∈ st'.stack, y < d := by
  unfold Stack.push at h
  split at h
  · cases h
    refine ⟨by simp only [List.length_set]; omega, ?_⟩
    intro y hy
    rcases List.mem_or_eq_of_mem_set hy with h | h
    · exact ha y h
    · omega
  · cases h; exact ⟨hle, ha⟩

theorem pop_ok {st : Stack} {d : Nat} (hle : st.at_ ≤ st.stack.length) (ha : ∀ y ∈ st.stack, y < d) :
    match st.pop with
    | (.ok t, st') => t < d ∧ st'.at_ ≤ st'.stack.length ∧ ∀ y ∈ st'.stack, y < d
    | (.err _, _) => True
    | (.panic, _) => False := by
  unfold Stack.pop
  by_cases h0 : st.at_ > 0
  · have hlt : st.at_ - 1 < st.stack.length := by omega
    simp only [h0, if_true, List.getElem?_eq_getElem hlt]
    exact ⟨ha _ (List.getElem_mem hlt), by omega, ha⟩
  · simp only [h0, if_false]

/-- What keeps the client alive. -/
structure Safe (d : Nat) (s : State) : Prop where
  alive : s.crashed = false
  le : s.stack.at_ ≤ s.stack.stack.length
  all : ∀ y ∈ s.stack.stack, y < d
  held : ∀ t ∈ s.held, t < d
  sending : ∀ t k, s.sending = some (t, k) → t < d ∧ s.cbs.length = d
  online : s.online = true → s.cbs.length = d

theorem safe_start (d : Nat) : Safe d start := by
  constructor <;> simp [start, TagStack.new]

theorem safe_step {d : Nat} (hd : d ≤ maxDepth) {s s' : State} {e : Ev} (h : Safe d s) (hg : InRange d s e)
    (hs : step s e = some s') : Safe d s' := by
  obtain ⟨h1, h2, h3, h4, h5, h6⟩ := h
  have hp := pop_ok h2 h3
  simp only [step, h1, Bool.false_eq_true, if_false] at hs
  cases e with
  | connect d' =>
    simp only [InRange] at hg
    subst hg
    simp only at hs
    split at hs
    · cases hs
      refine ⟨h1, by simp [connect, TagStack.new], ?_, h4, ?_, by simp [connect]⟩
      · intro y hy
        simp only [connect, TagStack.new, TagStack.u32, List.mem_map, List.mem_range] at hy
        obtain ⟨a, ha, rfl⟩ := hy
        exact Nat.lt_of_le_of_lt (Nat.mod_le _ _) ha
      · intro t k hk; exact ⟨(h5 t k hk).1, by simp [connect]⟩
    · cases hs
  | drop =>
    simp only at hs
    split at hs
    · cases hs; exact ⟨rfl, h2, h3, h4, h5, by simp⟩
    · cases hs
  | take =>
    simp only at hs
    split at hs
    · cases hs
      unfold take
      split at hp
      · next t st heq =>
        simp only [heq]
        refine ⟨h1, hp.2.1, hp.2.2, ?_, h5, h6⟩
        intro y hy
        simp only [List.mem_append, List.mem_singleton] at hy
        rcases hy with hy | rfl
        · exact h4 y hy
        · exact hp.1
      · next heq => simp only [heq]; exact ⟨h1, h2, h3, h4, h5, h6⟩
      · exact hp.elim
    · cases hs
  | queue t =>
    simp only at hs
    split at hs
    · cases hs
      exact ⟨h1, h2, h3, fun y hy => h4 y (List.mem_of_mem_erase hy), h5, h6⟩
    · cases hs
  | giveBack t =>
    simp only at hs
    split at hs
    · next hm =>
      cases hs
      have := push_ok (st := s.stack) (x := t) (r := (s.stack.push t).1) (st' := (s.stack.push t).2) rfl (h4 t hm)
        h2 h3
      exact ⟨h1, this.1, this.2, fun y hy => h4 y (List.mem_of_mem_erase hy), h5, h6⟩
    · cases hs
  | crpc k =>
    simp only at hs
    split at hs
    · next ho =>
      cases hs
      have hl := h6 ho.1
      unfold crpc
      split at hp
      · next t st heq =>
        simp only [heq, hl, hp.1, if_true]
        refine ⟨h1, hp.2.1, hp.2.2, h4, ?_, ?_⟩
        · intro t' k' hk
          cases hk
          exact ⟨hp.1, by simpa using hl⟩
        · intro _; simpa using hl
      · next heq => simp only [heq]; exact ⟨h1, h2, h3, h4, h5, h6⟩
      · exact hp.elim
    · cases hs
  | crpcWritten =>
    simp only at hs
    split at hs
    · split at hs
      · cases hs; exact ⟨h1, h2, h3, h4, by simp [crpcWritten], h6⟩
      · cases hs
    · cases hs
  | crpcFailed =>
    simp only at hs
    split at hs
    · next t k hk =>
      cases hs
      obtain ⟨ht, hl⟩ := h5 t k hk
      simp only [crpcFailed, hl, ht, if_true]
      have := push_ok (st := s.stack) (x := t) (r := (s.stack.push t).1) (st' := (s.stack.push t).2) rfl ht h2 h3
      refine ⟨h1, this.1, this.2, h4, by simp, ?_⟩
      intro ho; simpa using h6 ho
    · cases hs
  | write t =>
    simp only at hs
    split at hs
    · cases hs; exact ⟨h1, h2, h3, h4, h5, h6⟩
    · cases hs
  | ping =>
    simp only at hs
    split at hs
    · cases hs
      unfold ping
      split at hp
      · next t st heq => simp only [heq]; exact ⟨h1, hp.2.1, hp.2.2, h4, h5, h6⟩
      · next heq =>
        simp only [heq]
        split
        · exact ⟨h1, h2, h3, h4, h5, by simp⟩
        · exact ⟨h1, h2, h3, h4, h5, h6⟩
      · exact hp.elim
    · cases hs
  | reply t =>
    simp only at hs
    split at hs
    · cases hs
      unfold reply
      split
      · next heq =>
        have := push_ok heq hg h2 h3
        exact ⟨h1, this.1, this.2, h4, h5, h6⟩
      · exact ⟨h1, h2, h3, h4, h5, by simp⟩
    · cases hs
  | ack t =>
    simp only at hs
    split at hs
    · next ho =>
      cases hs
      have hl := h6 ho
      simp only [InRange] at hg
      unfold ack
      split
      · exact ⟨h1, h2, h3, h4, h5, by simp⟩
      · next hgt =>
        have ht : t < s.cbs.length := by omega
        simp only [List.getElem?_eq_getElem ht]
        split
        · next heq =>
          have := push_ok heq (hl ▸ ht) h2 h3
          exact ⟨h1, this.1, this.2, h4, fun t' k' hk => ⟨(h5 t' k' hk).1, by simpa using (h5 t' k' hk).2⟩,
            fun ho => by simpa using h6 ho⟩
        · exact ⟨h1, h2, h3, h4, fun t' k' hk => ⟨(h5 t' k' hk).1, by simpa using (h5 t' k' hk).2⟩, by simp⟩
    · cases hs

/-- **C56, part that holds for every server.** As long as replies carry tags below the depth and no
acknowledgement carries the depth itself, no order of requests, failures, pings, replies (also unsolicited and
repeated ones) and reconnections with the same depth crashes the client. -/
theorem C56_no_crash_partial {d : Nat} (hd : d ≤ maxDepth) {es : List Ev} {s : State}
    (h : Run (InRange d) start es s) : s.crashed = false := by
  suffices key : ∀ {a b : State} {es : List Ev}, Run (InRange d) a es b → Safe d a → Safe d b from
    (key h (safe_start d)).alive
  intro a b es h
  induction h with
  | nil => exact id
  | cons hg hs _ ih => exact fun ha => ih (safe_step hd ha hg hs)

/-- **C56.** An acknowledgement crashes a running client exactly when its tag is the tag depth. -/
theorem C56_ack_crash_iff (s : State) (t : Nat) (h : s.crashed = false) :
    (ack s t).crashed = true ↔ t = s.cbs.length := by
  unfold ack
  split
  · next hgt => simp only [h, Bool.false_eq_true, false_iff]; omega
  · next hgt =>
    by_cases ht : t < s.cbs.length
    · simp only [List.getElem?_eq_getElem ht]
      split <;> (simp only [h, Bool.false_eq_true, false_iff]; omega)
    · rw [List.getElem?_eq_none (by omega)]
      simp only [true_iff]; omega

/-! ## Honest server -/

/-- Every tag outside the pool. -/
def out (s : State) : List Nat := s.held ++ s.queued ++ (s.sending.map Prod.fst).toList ++ wire s

theorem stackInv_perm {d : Nat} {st : Stack} {l l' : List Nat} (h : StackInv d (st, l)) (hp : l'.Perm l) :
    StackInv d (st, l') :=
  ⟨h.len, h.le, (hp.append_right _).trans h.perm⟩

theorem push_perm {d : Nat} {st : Stack} {l l' : List Nat} {x : Nat} (h : StackInv d (st, l))
    (hp : l.Perm (x :: l')) :
    ∃ st', st.push x = (.ok (), st') ∧ StackInv d (st', l') := by
  have hx : x ∈ l := hp.mem_iff.mpr (by simp)
  obtain ⟨h1, h2⟩ := TagStack.stackInv_push h hx
  refine ⟨_, h1, stackInv_perm h2 ?_⟩
  exact ((List.perm_cons_erase hx).symm.trans hp).cons_inv.symm

/-- Invariant of calm runs. -/
structure Inv (s : State) : Prop where
  alive : s.crashed = false
  pool : StackInv s.cbs.length (s.stack, out s)
  cb : ∀ t k, s.cbs[t]? = some (some k) ↔ (t, some k) ∈ s.flight ∨ s.sending = some (t, k)

theorem Inv.nodup {s : State} (h : Inv s) : (out s).Nodup := h.pool.conclude.1

theorem Inv.lt {s : State} (h : Inv s) : ∀ t ∈ out s, t < s.cbs.length := h.pool.conclude.2.1

theorem Inv.wire {s : State} (h : Inv s) : (wire s).Nodup := (List.nodup_append.mp h.nodup).2.1

theorem inv_start : Inv start := by
  refine ⟨rfl, ?_, ?_⟩
  · exact TagStack.stackInv_new 0 (by decide)
  · intro t k; simp [start]

/-- Answering the only request with a tag. -/
theorem answered_perm {s : State} {t : Nat} {c : Option Nat} (h : (t, c) ∈ s.flight) :
    (wire s).Perm (t :: (answered s t).map Prod.fst) := by
  unfold wire answered
  generalize s.flight = l at h
  induction l with
  | nil => cases h
  | cons a l ih =>
    by_cases ha : a.1 = t
    · subst ha; simp
    · have hm : (t, c) ∈ l := by
        rcases List.mem_cons.mp h with h | h
        · exact absurd (by rw [← h]) ha
        · exact h
      have hb : (a.1 == t) = false := by simpa using ha
      rw [List.eraseP_cons_of_neg (by simpa using ha)]
      simp only [List.map_cons]
      exact ((ih hm).cons _).trans (List.Perm.swap _ _ _)

theorem mem_answered {s : State} (hn : (wire s).Nodup) {t : Nat} {c : Option Nat} (h : (t, c) ∈ s.flight)
    (r : Nat × Option Nat) : r ∈ answered s t ↔ r ∈ s.flight ∧ r.1 ≠ t := by
  unfold wire at hn
  unfold answered
  generalize s.flight = l at h hn
  induction l with
  | nil => cases h
  | cons a l ih =>
    simp only [List.map_cons, List.nodup_cons] at hn
    by_cases ha : a.1 = t
    · rw [List.eraseP_cons_of_pos (by simpa using ha)]
      constructor
      · intro hr
        refine ⟨List.mem_cons_of_mem _ hr, fun hrt => hn.1 ?_⟩
        rw [ha, ← hrt]
        exact List.mem_map_of_mem hr
      · rintro ⟨hr, hne⟩
        rcases List.mem_cons.mp hr with rfl | hr
        · exact absurd ha hne
        · exact hr
    · have hm : (t, c) ∈ l := by
        rcases List.mem_cons.mp h with h | h
        · exact absurd (by rw [← h]) ha
        · exact h
      rw [List.eraseP_cons_of_neg (by simpa using ha), List.mem_cons, List.mem_cons, ih hm hn.2]
      constructor
      · rintro (rfl | h)
        · exact ⟨.inl rfl, ha⟩
        · exact ⟨.inr h.1, h.2⟩
      · rintro ⟨rfl | h, hne⟩
        · exact .inl rfl
        · exact .inr ⟨h, hne⟩

theorem wire_unique {s : State} (hn : (wire s).Nodup) {t : Nat} {c c' : Option Nat} (h : (t, c) ∈ s.flight)
    (h' : (t, c') ∈ s.flight) : (t, c) = (t, c') := by
  unfold wire at hn
  generalize s.flight = l at h h' hn
  induction l with
  | nil => cases h
  | cons a l ih =>
    simp only [List.map_cons, List.nodup_cons] at hn
    have key : ∀ c, (t, c) ∈ l → a.1 ≠ t := fun c hm he =>
      hn.1 (he ▸ List.mem_map_of_mem (f := Prod.fst) hm)
    rcases List.mem_cons.mp h with e | m <;> rcases List.mem_cons.mp h' with e' | m'
    · rw [e, e']
    · exact absurd (by rw [← e]) (key _ m')
    · exact absurd (by rw [← e']) (key _ m)
    · exact ih m m' hn.2

/-- In flight and being sent exclude each other. -/
theorem Inv.sending_ne {s : State} (h : Inv s) {t k : Nat} {c : Option Nat} (hs : s.sending = some (t, k)) :
    (t, c) ∉ s.flight := by
  intro hm
  have hn := h.nodup
  unfold out at hn
  rw [hs] at hn
  have := (List.nodup_append.mp hn).2.2 t (by simp) t (List.mem_map_of_mem (f := Prod.fst) hm)
  exact this rfl

/-- The entry found for an answered request. -/
theorem Inv.entry {s : State} (h : Inv s) {t : Nat} {c : Option Nat} (hm : (t, c) ∈ s.flight) :
    s.cbs[t]? = some c := by
  have ht : t < s.cbs.length := h.lt t (List.mem_append_right _ (List.mem_map_of_mem (f := Prod.fst) hm))
  cases c with
  | some k => exact (h.cb t k).mpr (.inl hm)
  | none =>
    rw [List.getElem?_eq_getElem ht]
    cases hc : s.cbs[t] with
    | none => rfl
    | some k =>
      exfalso
      have : s.cbs[t]? = some (some k) := by rw [List.getElem?_eq_getElem ht, hc]
      rcases (h.cb t k).mp this with h1 | h1
      · have hw := h.wire
        have : (t, none) = ((t, some k) : Nat × Option Nat) := wire_unique hw hm h1
        cases this
      · exact h.sending_ne h1 hm

theorem inv_step {s s' : State} {e : Ev} (h : Inv s) (hg : Calm s e) (hs : step s e = some s') : Inv s' := by
  have h' := h
  obtain ⟨h1, h2, h3⟩ := h
  have hp := TagStack.stackInv_pop h2
  obtain ⟨g1, g2, g3⟩ := hg
  simp only [step, h1, Bool.false_eq_true, if_false] at hs
  cases e with
  | connect d =>
    simp only at hs
    split at hs
    · next hc =>
      cases hs
      obtain ⟨k1, k2, k3⟩ := g3
      refine ⟨h1, ?_, ?_⟩
      · simp only [connect, List.length_replicate, out, k1, k2, k3, wire, List.map_nil, Option.map_none,
          Option.toList_none, List.append_nil]
        exact TagStack.stackInv_new d (by have := hc.2; unfold maxDepth at this; omega)
      · intro t k
        simp [connect, k3, List.getElem?_replicate]
    · cases hs
  | drop =>
    simp only at hs
    split at hs
    · cases hs; exact ⟨rfl, h2, h3⟩
    · cases hs
  | take =>
    simp only at hs
    split at hs
    · cases hs
      unfold take
      split at hp
      · next t st heq =>
        simp only [heq]
        refine ⟨h1, stackInv_perm hp ?_, h3⟩
        simp only [out, wire, List.perm_iff_count, List.count_append, List.count_cons, List.count_nil]
        intro a; omega
      · next heq => simp only [heq]; exact ⟨h1, h2, h3⟩
      · exact hp.elim
    · cases hs
  | queue t =>
    simp only at hs
    split at hs
    · next hm =>
      cases hs
      refine ⟨h1, stackInv_perm h2 ?_, h3⟩
      have := List.perm_cons_erase hm
      simp only [out, wire, queue, List.perm_iff_count, List.count_append, List.count_cons, List.count_nil] at this ⊢
      intro a; have := this a; omega
    · cases hs
  | giveBack t =>
    simp only at hs
    split at hs
    · next hm =>
      cases hs
      have hpe : (out s).Perm (t :: out (giveBack s t)) := by
        have := List.perm_cons_erase hm
        simp only [out, wire, giveBack, List.perm_iff_count, List.count_append, List.count_cons] at this ⊢
        intro a; have := this a; omega
      obtain ⟨st, e1, e2⟩ := push_perm h2 hpe
      refine ⟨h1, ?_, h3⟩
      simp only [giveBack, e1] at e2 ⊢
      exact e2
    · cases hs
  | crpc k =>
    simp only at hs
    split at hs
    · next ho =>
      cases hs
      unfold crpc
      split at hp
      · next t st heq =>
        have hlt : t < s.cbs.length := hp.conclude.2.1 t (by simp)
        have hfresh : t ∉ out s := (List.nodup_cons.mp hp.conclude.1).1
        simp only [heq, hlt, if_true]
        refine ⟨h1, ?_, ?_⟩
        · simp only [List.length_set]
          refine stackInv_perm hp ?_
          simp only [out, wire, ho.2, Option.map_some, Option.toList_some, Option.map_none, Option.toList_none,
            List.perm_iff_count, List.count_append, List.count_cons, List.count_nil]
          intro a; omega
        · intro t' k'
          simp only [List.getElem?_set]
          by_cases he : t = t'
          · subst he
            simp only [if_true, hlt, Option.some.injEq]
            have : (t, some k') ∉ s.flight := fun hm =>
              hfresh (List.mem_append_right _ (List.mem_map_of_mem (f := Prod.fst) hm))
            simp [this]
          · simp only [he, if_false, h3, ho.2]
            have : ¬ (some (t, k) = some (t', k')) := by
              intro hh; cases hh; exact he rfl
            simp [this]
      · next heq => simp only [heq]; exact ⟨h1, h2, h3⟩
      · exact hp.elim
    · cases hs
  | crpcWritten =>
    simp only at hs
    split at hs
    · next t k hk =>
      split at hs
      · cases hs
        refine ⟨h1, stackInv_perm h2 ?_, ?_⟩
        · simp only [out, wire, crpcWritten, hk, Option.map_some, Option.toList_some, Option.map_none,
            Option.toList_none, List.perm_iff_count, List.count_append, List.count_cons, List.count_nil,
            List.map_append, List.map_cons, List.map_nil]
          intro a; omega
        · intro t' k'
          simp only [crpcWritten, h3, hk, List.mem_append, List.mem_singleton, Prod.mk.injEq, Option.some.injEq]
          constructor
          · rintro (h | ⟨rfl, rfl⟩)
            · exact .inl (.inl h)
            · exact .inl (.inr ⟨rfl, rfl⟩)
          · rintro ((h | ⟨rfl, rfl⟩) | h)
            · exact .inl h
            · exact .inr ⟨rfl, rfl⟩
            · cases h
      · cases hs
    · cases hs
  | crpcFailed =>
    simp only at hs
    split at hs
    · next t k hk =>
      cases hs
      have hlt : t < s.cbs.length := h'.lt t (by simp [out, hk])
      simp only [crpcFailed, hlt, if_true]
      have hpe : (out s).Perm (t :: (s.held ++ s.queued ++ wire s)) := by
        simp only [out, wire, hk, Option.map_some, Option.toList_some, List.perm_iff_count, List.count_append,
          List.count_cons, List.count_nil]
        intro a; omega
      obtain ⟨st, e1, e2⟩ := push_perm h2 hpe
      refine ⟨h1, ?_, ?_⟩
      · simp only [e1, List.length_set, out, Option.map_none, Option.toList_none, List.append_nil]
        exact e2
      · intro t' k'
        simp only [List.getElem?_set]
        by_cases he : t = t'
        · subst he
          have := h'.sending_ne (c := some k') hk
          simp [hlt, this]
        · have : ¬ (some (t, k) = some (t', k')) := by
            intro hh; cases hh; exact he rfl
          simp [he, h3, hk, this]
    · cases hs
  | write t =>
    simp only at hs
    split at hs
    · next hm =>
      cases hs
      refine ⟨h1, stackInv_perm h2 ?_, ?_⟩
      · have := List.perm_cons_erase hm.2
        simp only [out, wire, write, List.perm_iff_count, List.count_append, List.count_cons, List.count_nil,
          List.map_append, List.map_cons, List.map_nil] at this ⊢
        intro a; have := this a; omega
      · intro t' k'
        simp [write, h3]
    · cases hs
  | ping =>
    simp only at hs
    split at hs
    · cases hs
      unfold ping
      split at hp
      · next t st heq =>
        simp only [heq]
        refine ⟨h1, stackInv_perm hp ?_, h3⟩
        simp only [out, wire, List.perm_iff_count, List.count_append, List.count_cons, List.count_nil]
        intro a; omega
      · next heq =>
        exfalso
        simp only [FreeTag] at g2
        unfold Stack.pop at heq
        split at heq
        · split at heq <;> cases heq
        · omega
      · exact hp.elim
    · cases hs
  | reply t =>
    simp only at hs
    split at hs
    · cases hs
      simp only [HonestServer] at g1
      have hpe : (out s).Perm (t :: (s.held ++ s.queued ++ (s.sending.map Prod.fst).toList ++
          (answered s t).map Prod.fst)) := by
        have := answered_perm g1
        simp only [out, List.perm_iff_count, List.count_append, List.count_cons] at this ⊢
        intro a; have := this a; omega
      obtain ⟨st, e1, e2⟩ := push_perm h2 hpe
      unfold reply
      simp only [e1]
      refine ⟨h1, e2, ?_⟩
      intro t' k'
      rw [h3, mem_answered h'.wire g1]
      by_cases he : t' = t
      · subst he
        have : (t', some k') ∉ s.flight := by
          intro hm
          have : (t', none) = ((t', some k') : Nat × Option Nat) := wire_unique h'.wire g1 hm
          cases this
        simp [this]
      · simp [he]
    · cases hs
  | ack t =>
    simp only at hs
    split at hs
    · cases hs
      obtain ⟨c, g1⟩ := g1
      have hlt : t < s.cbs.length := h'.lt t (List.mem_append_right _ (List.mem_map_of_mem (f := Prod.fst) g1))
      have hpe : (out s).Perm (t :: (s.held ++ s.queued ++ (s.sending.map Prod.fst).toList ++
          (answered s t).map Prod.fst)) := by
        have := answered_perm g1
        simp only [out, List.perm_iff_count, List.count_append, List.count_cons] at this ⊢
        intro a; have := this a; omega
      obtain ⟨st, e1, e2⟩ := push_perm h2 hpe
      unfold ack
      rw [if_neg (by omega), h'.entry g1]
      simp only [e1]
      refine ⟨h1, ?_, ?_⟩
      · simp only [List.length_set]; exact e2
      · intro t' k'
        simp only [List.getElem?_set, mem_answered h'.wire g1]
        by_cases he : t = t'
        · subst he
          have : ¬ s.sending = some (t, k') := fun hh => h'.sending_ne hh g1
          simp [hlt, this]
        · have he' : t' ≠ t := fun h => he h.symm
          simp [he, h3, he']
    · cases hs

theorem inv_run {s s' : State} {es : List Ev} (h : Run Calm s es s') : Inv s → Inv s' := by
  induction h with
  | nil => exact id
  | cons hg hs _ ih => exact fun ha => ih (inv_step ha hg hs)

/-- **C56, part that holds.** With a server that answers each request at most once, a pool that is not empty when
the heartbeat fires and reconnections without pending requests, the client does not crash, the tags of all
requests in flight, queued or about to be sent are different, and all are below the depth. -/
theorem C56_distinct_partial {es : List Ev} {s : State} (h : Run Calm start es s) :
    s.crashed = false ∧ (s.held ++ s.queued ++ (s.sending.map Prod.fst).toList ++ wire s).Nodup ∧
      ∀ t ∈ wire s, t < s.cbs.length := by
  have hi := inv_run h inv_start
  exact ⟨hi.alive, hi.nodup, fun t ht => hi.lt t (List.mem_append_right _ ht)⟩

/-- **C56, part that holds.** In such runs an answer never ends the connection, and the acknowledgement of a
request runs the callback of this request and no other. -/
theorem C56_callback_partial {es : List Ev} {s : State} (h : Run Calm start es s) (ho : s.online = true)
    {t : Nat} {c : Option Nat} (hm : (t, c) ∈ s.flight) :
    (ack s t).ran = s.ran ++ c.toList ∧ (ack s t).online = true ∧ (reply s t).online = true := by
  have hi := inv_run h inv_start
  have hlt : t < s.cbs.length := hi.lt t (List.mem_append_right _ (List.mem_map_of_mem (f := Prod.fst) hm))
  have hpe : (out s).Perm (t :: (s.held ++ s.queued ++ (s.sending.map Prod.fst).toList ++
      (answered s t).map Prod.fst)) := by
    have := answered_perm hm
    simp only [out, List.perm_iff_count, List.count_append, List.count_cons] at this ⊢
    intro a; have := this a; omega
  obtain ⟨st, e1, e2⟩ := push_perm hi.pool hpe
  unfold ack reply
  rw [if_neg (by omega), hi.entry hm]
  simp only [e1]
  exact ⟨trivial, ho, ho⟩

/-! ## What goes wrong -/

/-- Running a list of events. -/
def exec (G : State → Ev → Bool) : State → List Ev → Option State
  | s, [] => some s
  | s, e :: es =>
    if G s e then
      match step s e with
      | none => none
      | some s' => exec G s' es
    else none

theorem run_of_exec {G : State → Ev → Prop} {D : State → Ev → Bool} (hD : ∀ s e, D s e = true → G s e) :
    ∀ {es : List Ev} {s s' : State}, exec D s es = some s' → Run G s es s' := by
  intro es
  induction es with
  | nil => intro s s' h; cases h; exact .nil s
  | cons e es ih =>
    intro s s' h
    unfold exec at h
    split at h
    · next hd =>
      split at h
      · cases h
      · next hs => exact .cons (hD _ _ hd) hs (ih h)
    · cases h

instance (s : State) (e : Ev) : Decidable (FreeTag s e) := by
  cases e <;> unfold FreeTag <;> infer_instance

instance (s : State) (e : Ev) : Decidable (CleanConnect s e) := by
  cases e <;> unfold CleanConnect <;> infer_instance

/-- A sufficient test for an honest server. -/
def honest (s : State) : Ev → Bool
  | .reply t => decide ((t, none) ∈ s.flight)
  | .ack t => s.flight.any (fun r => r.1 == t)
  | _ => true

theorem honest_spec {s : State} {e : Ev} (h : honest s e = true) : HonestServer s e := by
  cases e with
  | reply t => simpa [honest, HonestServer] using h
  | ack t =>
    simp only [honest, List.any_eq_true, beq_iff_eq] at h
    obtain ⟨⟨t', c⟩, hm, rfl⟩ := h
    exact ⟨c, hm⟩
  | _ => trivial

theorem run_calm {es : List Ev} {s s' : State}
    (h : exec (fun s e => honest s e && decide (FreeTag s e) && decide (CleanConnect s e)) s es = some s') :
    Run Calm s es s' := by
  refine run_of_exec (fun s e he => ?_) h
  simp only [Bool.and_eq_true, decide_eq_true_eq] at he
  exact ⟨honest_spec he.1.1, he.1.2, he.2⟩

/-- The state after events. -/
def after (es : List Ev) : State := (exec (fun _ _ => true) start es).getD start

/-- **C56, negation.** One acknowledgement with the tag 32 crashes a client that has just connected with the
usual depth of 32. -/
theorem C56_ack_violated : ∃ es s, Run (fun s e => FreeTag s e ∧ CleanConnect s e) start es s ∧
    s.crashed = true :=
  ⟨[.connect 32, .ack 32], after [.connect 32, .ack 32],
    run_of_exec (D := fun s e => decide (FreeTag s e) && decide (CleanConnect s e))
      (fun s e he => by simpa using he) (by decide +kernel), by decide +kernel⟩

/-- A foreign tag gets into the pool. -/
def foreign : List Ev := [.connect 4, .take, .queue 3, .write 3, .reply 9, .crpc 1]

/-- **C56, negation.** A reply with a tag that was never given out crashes the client when it sends its next
message. -/
theorem C56_reply_violated : ∃ es s, Run (fun s e => FreeTag s e ∧ CleanConnect s e ∧ ∀ t, e ≠ .ack t) start es s ∧
    s.crashed = true :=
  ⟨foreign, after foreign,
    run_of_exec (D := fun s e => decide (FreeTag s e) && decide (CleanConnect s e) &&
        (match e with | .ack _ => false | _ => true))
      (fun s e he => by
        simp only [Bool.and_eq_true, decide_eq_true_eq] at he
        refine ⟨he.1.1, he.1.2, ?_⟩
        rintro t rfl
        exact absurd he.2 (by simp)) (by decide +kernel), by decide +kernel⟩

/-- All tags are in use when the heartbeat fires. -/
def busy : List Ev := [.connect 2, .crpc 1, .crpcWritten, .crpc 2, .crpcWritten, .ping, .write 0]

/-- **C56, negation.** With an honest server and one connection, the heartbeat sends a ping whose tag belongs to
another request in flight. -/
theorem C56_ping_violated : ∃ es s, Run (fun s e => HonestServer s e ∧ CleanConnect s e) start es s ∧
    ¬ (wire s).Nodup :=
  ⟨busy, after busy,
    run_of_exec (D := fun s e => honest s e && decide (CleanConnect s e))
      (fun s e he => by
        simp only [Bool.and_eq_true, decide_eq_true_eq] at he
        exact ⟨honest_spec he.1, he.2⟩) (by decide +kernel), by decide +kernel⟩

/-- A request is queued when the connection drops. -/
def reconnected : List Ev :=
  [.connect 2, .take, .queue 1, .drop, .connect 2, .crpc 1, .crpcWritten, .write 1]

/-- **C56, negation.** With an honest server and without any ping, a request scheduled on the previous connection
is sent with a tag that the new connection has given to another request. -/
theorem C56_reconnect_violated : ∃ es s, Run (fun s e => HonestServer s e ∧ FreeTag s e) start es s ∧
    ¬ (wire s).Nodup :=
  ⟨reconnected, after reconnected,
    run_of_exec (D := fun s e => honest s e && decide (FreeTag s e))
      (fun s e he => by
        simp only [Bool.and_eq_true, decide_eq_true_eq] at he
        exact ⟨honest_spec he.1, he.2⟩) (by decide +kernel), by decide +kernel⟩

/-! ## Examples -/

/-- Two messages, a ping, and answers in another order. -/
def mixed : List Ev :=
  [.connect 3, .crpc 7, .crpcWritten, .crpc 8, .crpcWritten, .ping, .write 0, .reply 0, .ack 1]

example : ∃ s, Run Calm start mixed s ∧ s.ran = [8] ∧ wire s = [2] ∧ s.online = true :=
  ⟨after mixed, run_calm (by decide +kernel), by decide +kernel, by decide +kernel, by decide +kernel⟩

example : ∃ s, Run (InRange 3) start mixed s ∧ s.crashed = false := by
  have h : Run (InRange 3) start mixed (after mixed) :=
    run_of_exec (D := fun _ e => match e with
        | .reply t => decide (t < 3) | .ack t => decide (t ≠ 3) | .connect d => decide (d = 3) | _ => true)
      (fun s e he => by cases e <;> simp_all [InRange]) (by decide +kernel)
  exact ⟨_, h, C56_no_crash_partial (by decide) h⟩

end Verif.ClientTags
