import Verif.Model.Tags
import Verif.Proofs.GoMap
import Mathlib.Data.List.Perm.Subperm
import Mathlib.Tactic.Common

/-! # C38: tags supplied by clients, and C60: what an acknowledgement deletes -/

namespace Verif.Tags

open Verif
open Verif.TagStack (Chan newBlocking)

/-! ## Sessions of arbitrary clients -/

/-- The tag the reader is handling. -/
def Reader.tag : Reader → Option Nat
  | .acking t | .pushing t => some t
  | _ => none

structure Inv (s : Sess) : Prop where
  cap : s.tags.cap = 32
  slots : s.slots.length = 32
  bits : s.bitmap.length = 32
  pool : ∀ t ∈ s.tags.buf, t < 32
  reader : ∀ t, s.reader.tag = some t → t < 32
  hold : ∀ t i, s.ntfn = .holding t i → t < 32
  /-- only the tag being handled is marked -/
  mark : s.reader ≠ .done → ∀ t, s.bitmap[t]? = some true → s.reader.tag = some t
  /-- what the slots contain has been sent -/
  slot : ∀ t m, s.slots[t]? = some (some m) → m.tag = t ∧ m ∈ s.sent
  del : ∀ i ∈ s.deleted, ∃ m ∈ s.sent, m.ident = i ∧ m.tag ∈ s.acked

theorem inv_fresh : Inv fresh := by
  refine ⟨rfl, rfl, rfl, by decide, by simp [fresh, Reader.tag], by simp [fresh], ?_, ?_, by simp [fresh]⟩
  · intro _ t h
    simp only [fresh, List.getElem?_replicate] at h
    split at h <;> simp at h
  · intro t m h
    simp only [fresh, List.getElem?_replicate] at h
    split at h <;> simp at h

theorem get_set_true {l : List Bool} {t u : Nat} {b : Bool} (h : (l.set t b)[u]? = some true) :
    (u = t ∧ b = true) ∨ (u ≠ t ∧ l[u]? = some true) := by
  rw [List.getElem?_set] at h
  split at h
  · next e =>
    split at h
    · exact .inl ⟨e.symm, by simpa using h⟩
    · cases h
  · next e => exact .inr ⟨Ne.symm e, h⟩

theorem get_set_slot {l : List (Option Pushed)} {t u : Nat} {b : Option Pushed} {m : Pushed}
    (h : (l.set t b)[u]? = some (some m)) : (u = t ∧ b = some m) ∨ (u ≠ t ∧ l[u]? = some (some m)) := by
  rw [List.getElem?_set] at h
  split at h
  · next e =>
    split at h
    · exact .inl ⟨e.symm, by simpa using h⟩
    · cases h
  · next e => exact .inr ⟨Ne.symm e, h⟩

theorem lt_of_get {α : Type} {l : List α} {t : Nat} {a : α} {n : Nat} (hl : l.length = n) (h : l[t]? = some a) : t < n := by
  rw [← hl]; exact (List.getElem?_eq_some_iff.1 h).1

/-- What a step does, case by case. -/
theorem inv_step {s s' : Sess} {e : Ev} (h : Inv s) (hs : step s e = some (some s')) : Inv s' := by
  obtain ⟨h1, h2, h3, h4, h5, h6, h7, h8, h9⟩ := h
  cases e with
  | request tag ok =>
    simp only [step] at hs
    split at hs
    · next hi =>
      split at hs
      · cases hs; exact ⟨h1, h2, h3, h4, by simp [Reader.tag], h6, by simp, h8, h9⟩
      · split at hs
        · cases hs
        · cases hs; exact ⟨h1, h2, h3, h4, by simp [Reader.tag], h6, by simp, h8, h9⟩
        · next hb =>
          cases hs
          refine ⟨h1, h2, by simpa using h3, h4, ?_, h6, ?_, h8, h9⟩
          · cases ok <;> simp [Reader.tag]
          · intro hd t ht
            cases ok
            · simp at hd
            · rcases get_set_true ht with ⟨_, h⟩ | ⟨_, h⟩
              · simp at h
              · have := h7 (by simp [hi]) t h
                simp [hi, Reader.tag] at this
    · cases hs
  | ack tag =>
    simp only [step] at hs
    split at hs
    · next hi =>
      split at hs
      · cases hs; exact ⟨h1, h2, h3, h4, by simp [Reader.tag], h6, by simp, h8, h9⟩
      · split at hs
        · cases hs
        · cases hs; exact ⟨h1, h2, h3, h4, by simp [Reader.tag], h6, by simp, h8, h9⟩
        · next hb =>
          have hlt : tag < 32 := lt_of_get h3 hb
          have hm : ∀ t, (s.bitmap.set tag true)[t]? = some true → some tag = some t := by
            intro t ht
            rcases get_set_true ht with ⟨e, _⟩ | ⟨_, h⟩
            · rw [e]
            · have := h7 (by simp [hi]) t h
              simp [hi, Reader.tag] at this
          have h9' : ∀ i ∈ s.deleted, ∃ m ∈ s.sent, m.ident = i ∧ m.tag ∈ tag :: s.acked := by
            intro i hi
            obtain ⟨m, a, b, c⟩ := h9 i hi
            exact ⟨m, a, b, List.mem_cons_of_mem _ c⟩
          split at hs
          · cases hs
          · cases hs
            exact ⟨h1, h2, by simpa using h3, h4, by simp [Reader.tag]; omega, h6, fun _ => hm, h8, h9'⟩
          · next m hsl =>
            split at hs
            · cases hs
              exact ⟨h1, h2, by simpa using h3, h4, by simp [Reader.tag], h6, by simp, h8, h9'⟩
            · cases hs
              refine ⟨h1, h2, by simpa using h3, h4, by simp [Reader.tag]; omega, h6, fun _ => hm, h8, ?_⟩
              intro i hid
              rcases List.mem_cons.1 hid with rfl | hid
              · obtain ⟨ht, hsent⟩ := h8 tag m hsl
                exact ⟨m, hsent, rfl, by rw [ht]; exact List.mem_cons_self⟩
              · exact h9' i hid
    · cases hs
  | clear =>
    simp only [step] at hs
    split at hs
    · next tag hr =>
      split at hs
      · cases hs
        refine ⟨h1, by simpa using h2, h3, h4, ?_, h6, ?_, ?_, h9⟩
        · intro t ht
          exact h5 t (by rw [hr]; exact ht)
        · intro _ t ht
          have := h7 (by simp [hr]) t ht
          rw [hr] at this; exact this
        · intro t m hm
          rcases get_set_slot hm with ⟨_, h⟩ | ⟨_, h⟩
          · cases h
          · exact h8 t m h
      · cases hs
    · cases hs
  | push =>
    simp only [step] at hs
    split at hs
    · next tag hr =>
      split at hs
      · cases hs
      · next c hp =>
        cases hs
        unfold Chan.push at hp
        split at hp
        · cases hp
          refine ⟨h1, h2, by simpa using h3, ?_, by simp [Reader.tag], h6, ?_, h8, h9⟩
          · intro t ht
            rcases List.mem_append.1 ht with ht | ht
            · exact h4 t ht
            · simp only [List.mem_singleton] at ht
              subst ht
              exact h5 _ (by rw [hr]; rfl)
          · intro _ t ht
            rcases get_set_true ht with ⟨_, h⟩ | ⟨hne, h⟩
            · cases h
            · have := h7 (by simp [hr]) t h
              rw [hr] at this
              exact absurd (Option.some.inj this).symm hne
        · cases hp
    · cases hs
  | notify ident =>
    simp only [step] at hs
    split at hs
    · split at hs
      · cases hs
      · next tag c hp =>
        cases hs
        unfold Chan.pop at hp
        split at hp
        · cases hp
        · next t r hb =>
          simp only [Option.some.injEq, Prod.mk.injEq] at hp
          obtain ⟨rfl, rfl⟩ := hp
          refine ⟨h1, h2, h3, ?_, h5, ?_, h7, h8, h9⟩
          · intro u hu; exact h4 u (by rw [hb]; exact List.mem_cons_of_mem _ hu)
          · intro u i hu
            cases hu
            exact h4 _ (by rw [hb]; exact List.mem_cons_self)
    · cases hs
  | place =>
    simp only [step] at hs
    split at hs
    · next tag ident hn =>
      split at hs
      · cases hs
      · cases hs; exact ⟨h1, h2, h3, h4, h5, by simp, h7, h8, h9⟩
      · cases hs
        refine ⟨h1, by simpa using h2, h3, h4, h5, by simp, h7, ?_, ?_⟩
        · intro t m hm
          rcases get_set_slot hm with ⟨e, h⟩ | ⟨_, h⟩
          · cases h; exact ⟨e.symm, List.mem_cons_self⟩
          · obtain ⟨a, b⟩ := h8 t m h
            exact ⟨a, List.mem_cons_of_mem _ b⟩
        · intro i hi
          obtain ⟨m, a, b⟩ := h9 i hi
          exact ⟨m, List.mem_cons_of_mem _ a, b⟩
    · cases hs
  | ntfnEnds =>
    simp only [step] at hs
    split at hs
    · cases hs; exact ⟨h1, h2, h3, h4, h5, by simp, h7, h8, h9⟩
    · cases hs
  | readFails =>
    simp only [step] at hs
    split at hs
    · cases hs; exact ⟨h1, h2, h3, h4, by simp [Reader.tag], h6, by simp, h8, h9⟩
    · cases hs

/-- The tag in a message from the client. -/
def Ev.tag : Ev → Option Nat
  | .request t _ | .ack t => some t
  | _ => none

/-- The only way to a panic. -/
theorem panic_iff {s : Sess} {e : Ev} (h : Inv s) :
    step s e = some none ↔ s.reader = .idle ∧ e.tag = some 32 := by
  obtain ⟨h1, h2, h3, h4, h5, h6, h7, h8, h9⟩ := h
  have bit : ∀ t, t < 32 → ∃ b, s.bitmap[t]? = some b := fun t ht =>
    ⟨_, List.getElem?_eq_getElem (by omega)⟩
  have slo : ∀ t, t < 32 → ∃ b, s.slots[t]? = some b := fun t ht =>
    ⟨_, List.getElem?_eq_getElem (by omega)⟩
  cases e with
  | request t ok =>
    simp only [step, Ev.tag]
    by_cases hi : s.reader = .idle
    · simp only [hi, if_true, true_and, Option.some.injEq]
      have h32 : tagDepth = 32 := rfl
      by_cases ht : t > tagDepth
      · simp [ht]; omega
      · rw [if_neg (show ¬ t > tagDepth from ht)]
        by_cases he : t = 32
        · subst he
          simp [List.getElem?_eq_none (show s.bitmap.length ≤ 32 by omega)]
        · obtain ⟨b, hb⟩ := bit t (by omega)
          rw [hb]; cases b <;> simp [he]
    · simp [hi]
  | ack t =>
    simp only [step, Ev.tag]
    by_cases hi : s.reader = .idle
    · simp only [hi, if_true, true_and, Option.some.injEq]
      have h32 : tagDepth = 32 := rfl
      by_cases ht : t > tagDepth
      · simp [ht]; omega
      · rw [if_neg (show ¬ t > tagDepth from ht)]
        by_cases he : t = 32
        · subst he
          simp [List.getElem?_eq_none (show s.bitmap.length ≤ 32 by omega)]
        · obtain ⟨b, hb⟩ := bit t (by omega)
          obtain ⟨x, hx⟩ := slo t (by omega)
          rw [hb]
          cases b
          · rcases x with _ | m
            · simp [hx, he]
            · simp only [hx]; split <;> simp [he]
          · simp [he]
    · simp [hi]
  | clear =>
    simp only [step, Ev.tag]
    split
    · next tag hr =>
      have := h5 tag (by rw [hr]; rfl)
      simp [h2, this]
    · simp
  | push =>
    simp only [step, Ev.tag]
    split
    · split <;> simp
    · simp
  | notify i =>
    simp only [step, Ev.tag]
    split
    · split <;> simp
    · simp
  | place =>
    simp only [step, Ev.tag]
    split
    · next tag ident hn =>
      obtain ⟨x, hx⟩ := slo tag (h6 tag ident hn)
      rw [hx]
      cases x <;> simp
    · simp
  | ntfnEnds => simp only [step, Ev.tag]; split <;> simp
  | readFails => simp only [step, Ev.tag]; split <;> simp

/-! ## The server -/

def SInv (m : GoMap Nat Sess) : Prop := ∀ i s, m.get i = some s → Inv s

theorem sinv_step {m m' : GoMap Nat Sess} {e : SEv} (h : SInv m) (hs : sstep (some m) e = some (some m')) : SInv m' := by
  cases e with
  | connect i =>
    simp only [sstep] at hs
    split at hs
    · cases hs
    · cases hs
      intro j s hj
      rw [GoMap.get_set] at hj
      split at hj
      · cases hj; exact inv_fresh
      · exact h j s hj
  | «at» i e =>
    simp only [sstep] at hs
    split at hs
    · cases hs
    · next s hi =>
      split at hs
      · cases hs
      · cases hs
      · next s' hst =>
        cases hs
        intro j q hj
        rw [GoMap.get_set] at hj
        split at hj
        · cases hj; exact inv_step (h i s hi) hst
        · exact h j q hj

theorem sinv_run {a b : Server} {es : List SEv} (hr : Run a es b) : ∀ m m', a = some m → b = some m' → SInv m → SInv m' := by
  induction hr with
  | nil => rintro m m' rfl h hi; cases h; exact hi
  | @cons s e s' es s'' hs hr ih =>
    rintro m m' rfl rfl hi
    rcases s' with _ | m1
    · cases hr with
      | cons h _ => simp [sstep] at h
    · exact ih m1 m' rfl rfl (sinv_step hi hs)

theorem sinv_nil : SInv [] := by intro i s h; cases h

/-- The event is a message from a client with tag 32. -/
def Bad : SEv → Prop
  | .at _ e => e.tag = some 32
  | _ => False

/-- **C38** No tags other than 32 can crash the server, whatever the clients send and however the goroutines
of the sessions interleave. The full statement is false, see `C38_violated`. -/
theorem C38_no_crash_partial (es : List SEv) (r : Server) (hr : Run (some []) es r) (h : ∀ e ∈ es, ¬ Bad e) :
    r ≠ none := by
  suffices hg : ∀ (a : Server), Run a es r → ∀ m, a = some m → SInv m → r ≠ none from hg _ hr [] rfl sinv_nil
  intro a hr
  clear * - hr h
  induction hr with
  | nil s => rintro m rfl _; simp
  | @cons s e s' es s'' hs hr ih =>
    rintro m rfl hi
    rcases s' with _ | m1
    · exfalso
      cases e with
      | connect i => simp only [sstep] at hs; split at hs <;> simp at hs
      | «at» i e =>
        simp only [sstep] at hs
        split at hs
        · cases hs
        · next s hget =>
          split at hs
          · cases hs
          · next hst => exact h (.at i e) List.mem_cons_self ((panic_iff (hi i s hget)).1 hst).2
          · cases hs
    · exact ih (fun e he => h e (List.mem_cons_of_mem _ he)) m1 rfl (sinv_step hi hs)

/-- **C38** The other sessions are not affected. -/
theorem C38_isolation (m m' : GoMap Nat Sess) (i j : Nat) (e : Ev) (hne : i ≠ j)
    (hs : sstep (some m) (.at i e) = some (some m')) : m'.get j = m.get j := by
  simp only [sstep] at hs
  split at hs
  · cases hs
  · split at hs
    · cases hs
    · cases hs
    · cases hs; rw [GoMap.get_set, if_neg hne]

/-- **C38** A session that is waiting for a message handles every request with a tag other than 32: the
session is as before, or it is closed, because the tag is too large or the handler says so. -/
theorem C38_request_partial (es : List SEv) (m : GoMap Nat Sess) (hr : Run (some []) es (some m)) (i : Nat) (s : Sess)
    (hi : m.get i = some s) (hidle : s.reader = .idle) (tag : Nat) (ht : tag ≠ 32) (ok : Bool) :
    ∃ s', step s (.request tag ok) = some (some s') ∧
      (s' = s ∧ tag < 32 ∧ ok = true ∨ s'.reader = .done ∧ (32 < tag ∨ ok = false)) := by
  have hv : Inv s := sinv_run hr [] m rfl rfl sinv_nil i s hi
  by_cases hgt : tag > 32
  · exact ⟨{ s with reader := .done }, by simp [step, hidle, tagDepth, hgt], .inr ⟨rfl, .inl hgt⟩⟩
  · have hlt : tag < 32 := by omega
    have hb : s.bitmap[tag]? = some false := by
      rcases hx : s.bitmap[tag]? with _ | b
      · rw [List.getElem?_eq_none_iff, hv.bits] at hx; omega
      · cases b
        · rfl
        · have := hv.mark (by simp [hidle]) tag hx
          simp [hidle, Reader.tag] at this
    cases ok
    · exact ⟨{ s with reader := .done, bitmap := s.bitmap.set tag true }, by simp [step, hidle, tagDepth, hgt, hb],
        .inr ⟨rfl, .inr rfl⟩⟩
    · refine ⟨s, ?_, .inl ⟨rfl, hlt, rfl⟩⟩
      have : s.bitmap.set tag false = s.bitmap := by
        obtain ⟨hl, hg⟩ := List.getElem?_eq_some_iff.1 hb
        rw [← hg]; exact List.set_getElem_self hl
      simp only [step, hidle, if_true, tagDepth, hb, if_neg hgt, Bool.not_true, this]
      rw [← hidle]

/-- **C38** The full statement is false: in every state of the server, whichever session it is that waits for
a message, a message with tag 32 ends the whole server. -/
theorem C38_violated (es : List SEv) (m : GoMap Nat Sess) (hr : Run (some []) es (some m)) (i : Nat) (s : Sess)
    (hi : m.get i = some s) (hidle : s.reader = .idle) :
    (∀ ok, sstep (some m) (.at i (.request 32 ok)) = some none) ∧ sstep (some m) (.at i (.ack 32)) = some none := by
  have hv : Inv s := sinv_run hr [] m rfl rfl sinv_nil i s hi
  constructor
  · intro ok
    simp [sstep, hi, (panic_iff (e := .request 32 ok) hv).2 ⟨hidle, rfl⟩]
  · simp [sstep, hi, (panic_iff (e := .ack 32) hv).2 ⟨hidle, rfl⟩]

/-- The smallest case: one client connects and sends one message, and another client's session is gone. -/
theorem C38_crash_violated : Run (some []) [.connect 0, .connect 1, .at 1 (.request 32 true)] none :=
  .cons rfl (.cons rfl (.cons rfl (.nil _)))

/-! ## Acknowledgements of tags that are not outstanding -/

/-- The reader waits for room among the free tags, and nobody is left to take one. -/
def Wedged (s : Sess) : Prop := (∃ t, s.reader = .pushing t) ∧ s.ntfn = .done ∧ s.tags.cap ≤ s.tags.buf.length

theorem wedged_step {s s' : Sess} {e : Ev} (h : Wedged s) (hs : step s e = some (some s')) : s' = s := by
  obtain ⟨⟨t, hr⟩, hn, hl⟩ := h
  exfalso
  cases e <;> simp [step, hr, hn, Chan.push, Nat.not_lt.2 hl] at hs

/-- Executions of a session. -/
abbrev Any : Sess → Ev → Prop := fun _ _ => True

/-- **C38** The full statement is false in another way: after one acknowledgement of a tag that is not
outstanding, and an error while the stored messages are scanned, the reader waits for ever: the message is
neither processed nor is the session ever closed. -/
theorem C38_wedged_violated : ∃ s, SRun Any fresh [.ack 0, .clear, .ntfnEnds] s ∧
    ∀ es s', SRun Any s es s' → s'.reader = .pushing 0 := by
  refine ⟨_, .cons trivial rfl (.cons trivial rfl (.cons trivial rfl (.nil _))), ?_⟩
  intro es s' hr
  suffices hg : ∀ s es s', SRun Any s es s' → Wedged s → s' = s by
    rw [hg _ _ _ hr ⟨⟨0, rfl⟩, rfl, by decide⟩]
  intro s es s' hr hw
  induction hr with
  | nil => rfl
  | cons _ hs _ ih =>
    have := wedged_step hw hs
    subst this
    exact ih hw

/-! ## Sessions of clients that acknowledge what they were sent -/

/-- The client acknowledges only what is outstanding. -/
def Polite : Sess → Ev → Prop
  | s, .ack t => ∃ m, s.slots[t]? = some (some m)
  | _, _ => True

structure PInv (s : Sess) : Prop where
  base : Inv s
  nodup : s.tags.buf.Nodup
  pool : ∀ t ∈ s.tags.buf, s.slots[t]? = some none ∧ s.reader ≠ .pushing t ∧ ∀ i, s.ntfn ≠ .holding t i
  pushing : ∀ t, s.reader = .pushing t → s.slots[t]? = some none ∧ ∀ i, s.ntfn ≠ .holding t i
  holding : ∀ t i, s.ntfn = .holding t i → s.slots[t]? = some none
  acking : ∀ t, s.reader = .acking t → ∃ m, s.slots[t]? = some (some m)
  /-- no tag is lost -/
  all : ∀ t, t < 32 → t ∈ s.tags.buf ∨ s.reader = .pushing t ∨ (∃ i, s.ntfn = .holding t i) ∨
    ∃ m, s.slots[t]? = some (some m)

theorem pinv_fresh : PInv fresh := by
  have hb : fresh.tags.buf = List.range 32 := by decide
  refine ⟨inv_fresh, by rw [hb]; exact List.nodup_range, ?_, by simp [fresh], by simp [fresh], by simp [fresh], ?_⟩
  · intro t ht
    rw [hb, List.mem_range] at ht
    exact ⟨by show (List.replicate 32 none)[t]? = _; rw [List.getElem?_replicate, if_pos ht], by simp [fresh], by simp [fresh]⟩
  · intro t ht
    left; rw [hb, List.mem_range]; exact ht

theorem pinv_step {s s' : Sess} {e : Ev} (h : PInv s) (hg : Polite s e) (hs : step s e = some (some s')) : PInv s' := by
  have hb := inv_step h.base hs
  obtain ⟨h0, h1, h2, h3, h4, h5, h6⟩ := h
  cases e with
  | request tag ok =>
    simp only [step] at hs
    split at hs
    · next hi =>
      have key : ∀ (r : Reader) (bm : List Bool), r = .idle ∨ r = .done → Inv { s with reader := r, bitmap := bm } →
          PInv { s with reader := r, bitmap := bm } := by
        intro r bm hr hb
        refine ⟨hb, h1, ?_, ?_, h4, ?_, ?_⟩
        · intro t ht
          obtain ⟨a, _, c⟩ := h2 t ht
          exact ⟨a, by rcases hr with rfl | rfl <;> simp, c⟩
        · intro t ht; simp only at ht; rcases hr with rfl | rfl <;> simp at ht
        · intro t ht; simp only at ht; rcases hr with rfl | rfl <;> simp at ht
        · intro t ht
          rcases h6 t ht with a | a | a
          · exact .inl a
          · rw [hi] at a; cases a
          · exact .inr (.inr a)
      split at hs
      · cases hs; exact key .done s.bitmap (.inr rfl) hb
      · split at hs
        · cases hs
        · cases hs; exact key .done s.bitmap (.inr rfl) hb
        · cases hs
          exact key _ _ (by cases ok <;> simp) hb
    · cases hs
  | ack tag =>
    obtain ⟨m, hm⟩ := hg
    have hlt := lt_of_get h0.slots hm
    simp only [step] at hs
    split at hs
    · next hi =>
      rw [if_neg (by simp [tagDepth]; omega)] at hs
      split at hs
      · cases hs
      · next hbt =>
        have := h0.mark (by simp [hi]) tag hbt
        simp [hi, Reader.tag] at this
      · rw [hm] at hs
        simp only [(h0.slot tag m hm).1, ne_eq, not_true_eq_false, if_false] at hs
        cases hs
        refine ⟨hb, h1, ?_, by simp, h4, ?_, ?_⟩
        · intro t ht
          obtain ⟨a, _, c⟩ := h2 t ht
          exact ⟨a, by simp, c⟩
        · intro t ht; cases ht; exact ⟨m, hm⟩
        · intro t ht
          rcases h6 t ht with a | a | a
          · exact .inl a
          · rw [hi] at a; cases a
          · exact .inr (.inr a)
    · cases hs
  | clear =>
    simp only [step] at hs
    split at hs
    · next tag hr =>
      obtain ⟨m, hm⟩ := h5 tag hr
      have hlt := lt_of_get h0.slots hm
      split at hs
      · cases hs
        have hget : (s.slots.set tag none)[tag]? = some none := List.getElem?_set_self (by have := h0.slots; omega)
        have hne : ∀ t, t ≠ tag → (s.slots.set tag none)[t]? = s.slots[t]? := fun t ht => List.getElem?_set_ne (Ne.symm ht)
        refine ⟨hb, h1, ?_, ?_, ?_, by simp, ?_⟩
        · intro t ht
          obtain ⟨a, _, c⟩ := h2 t ht
          have e : t ≠ tag := by rintro rfl; rw [hm] at a; cases a
          exact ⟨by simp only; rw [hne t e]; exact a, by simp [Ne.symm e], c⟩
        · intro t ht
          cases ht
          refine ⟨hget, fun i hi => ?_⟩
          have := h4 tag i hi
          rw [hm] at this; cases this
        · intro t i hi
          have a := h4 t i hi
          have e : t ≠ tag := by rintro rfl; rw [hm] at a; cases a
          simp only; rw [hne t e]; exact a
        · intro t ht
          by_cases e : t = tag
          · subst e; exact .inr (.inl rfl)
          · rcases h6 t ht with a | a | a | a
            · exact .inl a
            · rw [hr] at a; cases a
            · exact .inr (.inr (.inl a))
            · exact .inr (.inr (.inr (by simp only; rw [hne t e]; exact a)))
      · cases hs
    · cases hs
  | push =>
    simp only [step] at hs
    split at hs
    · next tag hr =>
      obtain ⟨ha, hc⟩ := h3 tag hr
      split at hs
      · cases hs
      · next c hp =>
        cases hs
        unfold Chan.push at hp
        split at hp
        · cases hp
          have hnot : tag ∉ s.tags.buf := fun hin => (h2 tag hin).2.1 hr
          refine ⟨hb, ?_, ?_, by simp, h4, by simp, ?_⟩
          · exact List.nodup_append.2 ⟨h1, by simp, by simp; rintro a hin rfl; exact hnot hin⟩
          · intro t ht
            refine ⟨?_, by simp, ?_⟩
            · rcases List.mem_append.1 ht with ht | ht
              · exact (h2 t ht).1
              · simp only [List.mem_singleton] at ht; subst ht; exact ha
            · rcases List.mem_append.1 ht with ht | ht
              · exact (h2 t ht).2.2
              · simp only [List.mem_singleton] at ht; subst ht; exact hc
          · intro t ht
            rcases h6 t ht with a | a | a
            · exact .inl (List.mem_append_left _ a)
            · rw [hr] at a; cases a; exact .inl (List.mem_append_right _ (by simp))
            · exact .inr (.inr a)
        · cases hp
    · cases hs
  | notify ident =>
    simp only [step] at hs
    split at hs
    · next hn =>
      split at hs
      · cases hs
      · next tag c hp =>
        cases hs
        unfold Chan.pop at hp
        split at hp
        · cases hp
        · next t r hbf =>
          simp only [Option.some.injEq, Prod.mk.injEq] at hp
          obtain ⟨rfl, rfl⟩ := hp
          rw [hbf] at h1
          obtain ⟨hnr, hr⟩ := List.nodup_cons.1 h1
          obtain ⟨ha, hb', hc⟩ := h2 t (by rw [hbf]; exact List.mem_cons_self)
          refine ⟨hb, hr, ?_, ?_, ?_, h5, ?_⟩
          · intro u hu
            obtain ⟨a, b, _⟩ := h2 u (by rw [hbf]; exact List.mem_cons_of_mem _ hu)
            exact ⟨a, b, fun i hi => by cases hi; exact hnr hu⟩
          · intro u hu
            obtain ⟨a, _⟩ := h3 u hu
            exact ⟨a, fun i hi => by cases hi; exact hb' hu⟩
          · intro u i hu; cases hu; exact ha
          · intro u hu
            rcases h6 u hu with a | a | ⟨i, a⟩ | a
            · rw [hbf] at a
              rcases List.mem_cons.1 a with rfl | a
              · exact .inr (.inr (.inl ⟨ident, rfl⟩))
              · exact .inl a
            · exact .inr (.inl a)
            · rw [hn] at a; cases a
            · exact .inr (.inr (.inr a))
    · cases hs
  | place =>
    simp only [step] at hs
    split at hs
    · next tag ident hn =>
      have ha := h4 tag ident hn
      have hlt := lt_of_get h0.slots ha
      rw [ha] at hs
      cases hs
      have hget : (s.slots.set tag (some ⟨tag, ident⟩))[tag]? = some (some ⟨tag, ident⟩) :=
        List.getElem?_set_self (by have := h0.slots; omega)
      have hne : ∀ t, t ≠ tag → (s.slots.set tag (some ⟨tag, ident⟩))[t]? = s.slots[t]? :=
        fun t ht => List.getElem?_set_ne (Ne.symm ht)
      refine ⟨hb, h1, ?_, ?_, by simp, ?_, ?_⟩
      · intro t ht
        obtain ⟨a, b, c⟩ := h2 t ht
        have e : t ≠ tag := by rintro rfl; exact c ident hn
        exact ⟨by simp only; rw [hne t e]; exact a, b, by simp⟩
      · intro t ht
        obtain ⟨a, c⟩ := h3 t ht
        have e : t ≠ tag := by rintro rfl; exact c ident hn
        exact ⟨by simp only; rw [hne t e]; exact a, by simp⟩
      · intro t ht
        obtain ⟨m, hm⟩ := h5 t ht
        have e : t ≠ tag := by rintro rfl; rw [ha] at hm; cases hm
        exact ⟨m, by simp only; rw [hne t e]; exact hm⟩
      · intro t ht
        by_cases e : t = tag
        · subst e; exact .inr (.inr (.inr ⟨_, hget⟩))
        · rcases h6 t ht with a | a | ⟨i, a⟩ | a
          · exact .inl a
          · exact .inr (.inl a)
          · rw [hn] at a; cases a; exact absurd rfl e
          · exact .inr (.inr (.inr (by simp only; rw [hne t e]; exact a)))
    · cases hs
  | ntfnEnds =>
    simp only [step] at hs
    split at hs
    · next hn =>
      cases hs
      refine ⟨hb, h1, fun t ht => ⟨(h2 t ht).1, (h2 t ht).2.1, by simp⟩, fun t ht => ⟨(h3 t ht).1, by simp⟩, by simp, h5, ?_⟩
      intro t ht
      rcases h6 t ht with a | a | ⟨i, a⟩ | a
      · exact .inl a
      · exact .inr (.inl a)
      · rw [hn] at a; cases a
      · exact .inr (.inr (.inr a))
    · cases hs
  | readFails =>
    simp only [step] at hs
    split at hs
    · next hr =>
      cases hs
      refine ⟨hb, h1, fun t ht => ⟨(h2 t ht).1, by simp, (h2 t ht).2.2⟩, by simp, h4, by simp, ?_⟩
      intro t ht
      rcases h6 t ht with a | a | a
      · exact .inl a
      · rw [hr] at a; cases a
      · exact .inr (.inr a)
    · cases hs

theorem pinv_run {s s' : Sess} {es : List Ev} (h : PInv s) (hr : SRun Polite s es s') : PInv s' := by
  induction hr with
  | nil => exact h
  | cons hg hs _ ih => exact ih (pinv_step h hg hs)

/-- **C38** In the session of a client that acknowledges only what is outstanding: the reader never has to
wait to return a tag, no two messages get the same tag (so the session is not closed for that reason), and
every tag is free, being handed out, outstanding, or being returned. -/
theorem C38_polite_partial (es : List Ev) (s : Sess) (hr : SRun Polite fresh es s) :
    (∀ t, s.reader = .pushing t → ∃ s', step s .push = some (some s') ∧ s'.reader = .idle) ∧
    (∀ t i, s.ntfn = .holding t i → ∃ s', step s .place = some (some s') ∧ s'.ntfn = .idle ∧
      s'.slots[t]? = some (some ⟨t, i⟩)) ∧
    (∀ t, t < 32 → t ∈ s.tags.buf ∨ s.reader = .pushing t ∨ (∃ i, s.ntfn = .holding t i) ∨
      ∃ m, s.slots[t]? = some (some m)) := by
  have h := pinv_run pinv_fresh hr
  refine ⟨?_, ?_, h.all⟩
  · intro t ht
    have hlt : s.tags.buf.length < 32 := by
      have hsub : t :: s.tags.buf ⊆ List.range 32 := by
        intro x hx
        rw [List.mem_range]
        rcases List.mem_cons.1 hx with rfl | hx
        · exact h.base.reader x (by rw [ht]; rfl)
        · exact h.base.pool x hx
      have hnd : (t :: s.tags.buf).Nodup := List.nodup_cons.2 ⟨fun hin => (h.pool t hin).2.1 ht, h.nodup⟩
      have := (hnd.subperm hsub).length_le
      simp at this; omega
    exact ⟨{ s with tags := { s.tags with buf := s.tags.buf ++ [t] }, reader := .idle, bitmap := s.bitmap.set t false },
      by simp [step, ht, Chan.push, h.base.cap, hlt], rfl⟩
  · intro t i hn
    have ha := h.holding t i hn
    have hlt := lt_of_get h.base.slots ha
    have hl := h.base.slots
    exact ⟨_, by simp only [step, hn, ha]; rfl, rfl, List.getElem?_set_self (by rw [hl]; exact hlt)⟩

/-! ## What acknowledgements delete -/

theorem inv_run {G : Sess → Ev → Prop} {s s' : Sess} {es : List Ev} (h : Inv s) (hr : SRun G s es s') : Inv s' := by
  induction hr with
  | nil => exact h
  | cons _ hs _ ih => exact ih (inv_step h hs)

/-- **C60** Whatever a client does, in all interleavings: every stored message that its session deletes was
pushed to the client under a tag that the client then acknowledged. -/
theorem C60_only_acked (es : List Ev) (s : Sess) (hr : SRun Any fresh es s) (i : Nat) (hi : i ∈ s.deleted) :
    ∃ m ∈ s.sent, m.ident = i ∧ m.tag ∈ s.acked := (inv_run inv_fresh hr).del i hi

/-- The recorded history is what the events say: `acked` are the tags of the acknowledgements read. -/
theorem acked_run {G : Sess → Ev → Prop} {s s' : Sess} {es : List Ev} (hr : SRun G s es s') :
    ∀ t ∈ s'.acked, t ∈ s.acked ∨ .ack t ∈ es := by
  induction hr with
  | nil => exact fun t h => .inl h
  | @cons s e s' es s'' _ hs _ ih =>
    intro t ht
    rcases ih t ht with h | h
    · have : t ∈ s.acked ∨ e = .ack t := by
        cases e <;> simp only [step] at hs
        case ack u =>
          repeat' split at hs
          all_goals cases hs
          all_goals first
            | exact .inl h
            | (rcases List.mem_cons.1 h with rfl | h <;> simp_all)
        all_goals
          repeat' split at hs
          all_goals cases hs
          all_goals exact .inl h
      rcases this with h | rfl
      · exact .inl h
      · exact .inr List.mem_cons_self
    · exact .inr (List.mem_cons_of_mem _ h)

/-- **C60** In terms of the client's messages: a session deletes nothing for which it has not received an
acknowledgement. -/
theorem C60_needs_ack (es : List Ev) (s : Sess) (hr : SRun Any fresh es s) (i : Nat) (hi : i ∈ s.deleted) :
    ∃ m ∈ s.sent, m.ident = i ∧ .ack m.tag ∈ es := by
  obtain ⟨m, h1, h2, h3⟩ := C60_only_acked es s hr i hi
  rcases acked_run hr _ h3 with h | h
  · simp [fresh] at h
  · exact ⟨m, h1, h2, h⟩

/-- **C60** Conversely an acknowledgement of an outstanding message deletes that message. -/
theorem C60_acked_deleted (es : List Ev) (s : Sess) (hr : SRun Any fresh es s) (t : Nat) (m : Pushed)
    (hm : s.slots[t]? = some (some m)) (hidle : s.reader = .idle) :
    ∃ s', step s (.ack t) = some (some s') ∧ s'.deleted = m.ident :: s.deleted := by
  have h := inv_run inv_fresh hr
  have hlt := lt_of_get h.slots hm
  have hb : s.bitmap[t]? = some false := by
    rcases hx : s.bitmap[t]? with _ | b
    · rw [List.getElem?_eq_none_iff, h.bits] at hx; omega
    · cases b
      · rfl
      · have := h.mark (by simp [hidle]) t hx
        simp [hidle, Reader.tag] at this
  have ht := (h.slot t m hm).1
  refine ⟨{ s with bitmap := s.bitmap.set t true, acked := t :: s.acked, reader := .acking t,
                   deleted := m.ident :: s.deleted }, ?_, rfl⟩
  simp only [step, hidle, if_true, tagDepth, hb, hm, ht, ne_eq, not_true_eq_false, if_false]
  rw [if_neg (by omega)]

/-! ## Examples -/

def exec (s : Sess) : List Ev → Option Sess
  | [] => some s
  | e :: es => match step s e with | some (some s') => exec s' es | _ => none

theorem srun_of_exec {s s' : Sess} {es : List Ev} (h : exec s es = some s') : SRun Any s es s' := by
  induction es generalizing s with
  | nil => cases h; exact .nil _
  | cons e es ih =>
    simp only [exec] at h
    split at h
    · next s1 h1 => exact .cons trivial h1 (ih h)
    · cases h

/-- Two messages are pushed, the second is acknowledged. -/
example : ∃ s, SRun Any fresh [.notify 10, .place, .request 5 true, .notify 11, .ack 0, .place, .clear, .push, .ack 1, .clear, .push] s ∧
    s.deleted = [11, 10] ∧ s.sent = [⟨1, 11⟩, ⟨0, 10⟩] ∧ s.reader = .idle :=
  ⟨_, srun_of_exec rfl, rfl, rfl, rfl⟩

example : ∃ s, SRun Polite fresh [.notify 10, .place, .notify 11, .ack 0, .clear] s ∧ s.reader = .pushing 0 ∧ s.ntfn = .holding 1 11 :=
  ⟨_, .cons trivial rfl (.cons trivial rfl (.cons trivial rfl (.cons ⟨⟨0, 10⟩, rfl⟩ rfl (.cons trivial rfl (.nil _))))), rfl, rfl⟩

/-- A session that is closed for a tag that is too large, while another one goes on. -/
example : ∃ m s0 s1, Run (some []) [.connect 0, .connect 1, .at 1 (.request 33 true), .at 0 (.request 31 true)] (some m) ∧
    m.get 0 = some s0 ∧ s0.reader = .idle ∧ m.get 1 = some s1 ∧ s1.reader = .done :=
  ⟨_, _, _, .cons rfl (.cons rfl (.cons rfl (.cons rfl (.nil _)))), rfl, rfl, rfl, rfl⟩

end Verif.Tags
