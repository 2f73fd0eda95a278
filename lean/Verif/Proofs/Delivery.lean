import Verif.Model.Delivery
import Verif.Props.StoredMessage
import Verif.Proofs.GoMap
import Mathlib.Data.List.Nodup
import Mathlib.Tactic.Common

/-! # Invariants of the delivery of stored messages -/

namespace Verif.Delivery

open Verif Verif.Stored

/-! ## What the log of a login says -/

/-- The files announced (with or without success) since they were last deleted. -/
def since : List Entry → List Name
  | [] => []
  | .ann note :: r => if .del note.name ∈ r then since r else note.name :: since r
  | .del _ :: r => since r

theorem mem_since {log : List Entry} {n : Name} : n ∈ since log ↔
    ∃ a note b, log = a ++ .ann note :: b ∧ note.name = n ∧ .del n ∉ b := by
  induction log with
  | nil => simp [since]
  | cons e r ih =>
    have lift : (∃ a note b, r = a ++ .ann note :: b ∧ note.name = n ∧ .del n ∉ b) →
        ∃ a note b, e :: r = a ++ .ann note :: b ∧ note.name = n ∧ .del n ∉ b := by
      rintro ⟨a, note, b, h1, h2, h3⟩
      exact ⟨e :: a, note, b, by simp [h1], h2, h3⟩
    cases e with
    | ann x =>
      simp only [since]
      split
      · next hx =>
        rw [ih]
        refine ⟨lift, ?_⟩
        rintro ⟨a, note, b, h1, h2, h3⟩
        cases a with
        | nil =>
          simp only [List.nil_append, List.cons.injEq, Entry.ann.injEq] at h1
          obtain ⟨rfl, rfl⟩ := h1
          exact absurd (h2 ▸ hx) h3
        | cons c a => exact ⟨a, note, b, by simpa using (List.cons.inj h1).2, h2, h3⟩
      · next hx =>
        rw [List.mem_cons, ih]
        constructor
        · rintro (h | h)
          · exact ⟨[], x, r, rfl, h.symm, h ▸ hx⟩
          · exact lift h
        · rintro ⟨a, note, b, h1, h2, h3⟩
          cases a with
          | nil =>
            simp only [List.nil_append, List.cons.injEq, Entry.ann.injEq] at h1
            exact Or.inl (by rw [← h2, h1.1])
          | cons c a => exact Or.inr ⟨a, note, b, by simpa using (List.cons.inj h1).2, h2, h3⟩
    | del x =>
      simp only [since]
      rw [ih]
      refine ⟨lift, ?_⟩
      rintro ⟨a, note, b, h1, h2, h3⟩
      cases a with
      | nil => simp at h1
      | cons c a => exact ⟨a, note, b, by simpa using (List.cons.inj h1).2, h2, h3⟩

theorem mem_since_ann {log : List Entry} {note : Note} {n : Name} :
    n ∈ since (log ++ [.ann note]) ↔ n ∈ since log ∨ n = note.name := by
  induction log with
  | nil => simp [since]
  | cons e r ih =>
    cases e with
    | ann x =>
      simp only [List.cons_append, since, List.mem_append, List.mem_singleton, reduceCtorEq, or_false]
      split
      · exact ih
      · simp only [List.mem_cons, ih, or_assoc]
    | del x => simpa only [List.cons_append, since] using ih

theorem mem_since_del {log : List Entry} {k n : Name} :
    n ∈ since (log ++ [.del k]) ↔ n ∈ since log ∧ n ≠ k := by
  induction log with
  | nil => simp [since]
  | cons e r ih =>
    cases e with
    | ann x =>
      simp only [List.cons_append, since, List.mem_append, List.mem_singleton, Entry.del.injEq]
      by_cases h1 : Entry.del x.name ∈ r
      · simp only [h1, true_or, if_true, ih]
      · by_cases h2 : x.name = k
        · simp only [h2, or_true, if_true, ih]
          split
          · rfl
          · simp only [List.mem_cons]
            tauto
        · simp only [h1, h2, or_self, if_false, List.mem_cons, ih]
          constructor
          · rintro (rfl | h)
            · exact ⟨Or.inl rfl, h2⟩
            · exact ⟨Or.inr h.1, h.2⟩
          · rintro ⟨rfl | h, hk⟩
            · exact Or.inl rfl
            · exact Or.inr ⟨h, hk⟩
    | del x => simpa only [List.cons_append, since] using ih

/-- The names of the messages announced. -/
def msgNames (log : List Entry) : List Name :=
  log.filterMap fun
    | .ann (.msg n _) => some n
    | _ => none

theorem mem_msgNames {log : List Entry} {n : Name} : n ∈ msgNames log ↔ ∃ m, .ann (.msg n m) ∈ log := by
  unfold msgNames
  rw [List.mem_filterMap]
  constructor
  · rintro ⟨e, he, h⟩
    split at h
    · next k m => exact ⟨m, by simp only [Option.some.injEq] at h; rw [← h]; exact he⟩
    · cases h
  · rintro ⟨m, h⟩
    exact ⟨_, h, rfl⟩

theorem msgNames_append (a b : List Entry) : msgNames (a ++ b) = msgNames a ++ msgNames b :=
  List.filterMap_append

/-- Between two announcements of the same file it was deleted. -/
def Sep (log : List Entry) : Prop :=
  ∀ a x b y c, log = a ++ .ann x :: (b ++ .ann y :: c) → x.name = y.name → .del x.name ∈ b

theorem Sep.del {log : List Entry} (h : Sep log) (n : Name) : Sep (log ++ [.del n]) := by
  intro a x b y c e hn
  rcases List.eq_nil_or_concat c with rfl | ⟨c', z, rfl⟩
  · have e' : log ++ [.del n] = (a ++ .ann x :: b) ++ [.ann y] := by rw [e]; simp
    have := List.append_inj_right' e' rfl
    simp at this
  · have e' : log ++ [.del n] = (a ++ .ann x :: (b ++ .ann y :: c')) ++ [z] := by rw [e]; simp
    exact h a x b y c' (List.append_inj_left' e' rfl) hn

theorem Sep.ann {log : List Entry} (h : Sep log) (note : Note) (hn : note.name ∉ since log) :
    Sep (log ++ [.ann note]) := by
  intro a x b y c e hxy
  rcases List.eq_nil_or_concat c with rfl | ⟨c', z, rfl⟩
  · have e' : log ++ [.ann note] = (a ++ .ann x :: b) ++ [.ann y] := by rw [e]; simp
    have h1 := List.append_inj_left' e' rfl
    have h2 := List.append_inj_right' e' rfl
    simp only [List.cons.injEq, Entry.ann.injEq, and_true] at h2
    by_contra hd
    exact hn (mem_since.2 ⟨a, x, b, h1, by rw [hxy, h2], by rw [h2, ← hxy]; exact hd⟩)
  · have e' : log ++ [.ann note] = (a ++ .ann x :: (b ++ .ann y :: c')) ++ [z] := by rw [e]; simp
    exact h a x b y c' (List.append_inj_left' e' rfl) hxy

/-! ## One login -/

/-- The files the goroutine still has to look at in this scan. -/
def todo (l : Login) : List Name :=
  match l.pc with
  | .loop rest => rest
  | .opening n rest => n :: rest
  | .sending note rest => note.name :: rest
  | _ => []

/-- The file it is looking at. -/
def cur (l : Login) : Option Name :=
  match l.pc with
  | .opening n _ => some n
  | .sending note _ => some note.name
  | _ => none

/-- Invariant of every login: `D` are the names of files that will never (again) exist, `T` those that
exist or are in `D`, `E` the messages delivered. -/
structure LInv (D T : Name → Prop) (E : Name → DiskMessage → Prop) (l : Login) : Prop where
  nodup : (todo l).Nodup
  since : ∀ n ∈ since l.log, n ∈ l.processed ∨ (D n ∧ n ∉ todo l)
  cur : ∀ n, cur l = some n → n ∉ Delivery.since l.log
  msgs : ∀ n ∈ msgNames l.log, n ∈ l.processed ∨ D n
  opening : ∀ n rest, l.pc = .opening n rest → D n ∨ n ∉ msgNames l.log
  sending : ∀ n m rest, l.pc = .sending (.msg n m) rest → n ∉ msgNames l.log ∧ E n m
  marked : ∀ n, Delivery.cur l = some n → n ∈ l.processed ∨ D n
  once : (msgNames l.log).Nodup
  missing : ∀ n, .ann (.missing n) ∈ l.log → D n
  sendMissing : ∀ n rest, l.pc = .sending (.missing n) rest → D n
  todo : ∀ n ∈ todo l, T n
  contents : ∀ n m, .ann (.msg n m) ∈ l.log → E n m
  good : ∀ n, .ann (.bad n) ∉ l.log
  sendGood : ∀ n rest, l.pc ≠ .sending (.bad n) rest
  done : l.pc = .done → l.quit = true
  sep : Sep l.log

/-- Invariant of the login in the `online` map: `S` are the stored files. -/
structure OInv (S : Name → Prop) (l : Login) : Prop where
  quit : l.quit = false
  processed : ∀ n ∈ l.processed, n ∈ since l.log ∨ cur l = some n
  all : ∀ n, S n → n ∈ since l.log ∨ l.work = true ∨ l.pc = .start ∨ l.pc = .scan ∨ n ∈ todo l

theorem LInv.mono {D T D' T' : Name → Prop} {E E' : Name → DiskMessage → Prop} {l : Login}
    (h : LInv D T E l) (hD : ∀ n, D n → D' n) (hT : ∀ n, T n → T' n) (hE : ∀ n m, E n m → E' n m) :
    LInv D' T' E' l where
  nodup := h.nodup
  since n hn := (h.since n hn).imp id (fun x => ⟨hD _ x.1, x.2⟩)
  cur := h.cur
  msgs n hn := (h.msgs n hn).imp id (hD _)
  opening n rest e := (h.opening n rest e).imp (hD _) id
  sending n m rest e := let x := h.sending n m rest e; ⟨x.1, hE _ _ x.2⟩
  marked n e := (h.marked n e).imp id (hD _)
  once := h.once
  missing n hn := hD _ (h.missing n hn)
  sendMissing n rest e := hD _ (h.sendMissing n rest e)
  todo n hn := hT _ (h.todo n hn)
  contents n m hn := hE _ _ (h.contents n m hn)
  good := h.good
  sendGood := h.sendGood
  done := h.done
  sep := h.sep

theorem listing_perm (store : GoMap Name Bytes) : (listing store).Perm store.keys :=
  List.perm_insertionSort _ _

theorem mem_listing {store : GoMap Name Bytes} {n : Name} :
    n ∈ listing store ↔ (store.get n).isSome := by
  rw [(listing_perm store).mem_iff, GoMap.mem_keys_iff]

/-- Between scans nothing is in progress. -/
theorem LInv.quiet {D T : Name → Prop} {E : Name → DiskMessage → Prop} {l : Login} (h : LInv D T E l)
    (w : Bool) (p : Pc) (hp : p = .idle ∨ p = .scan ∨ p = .done ∧ l.quit = true) :
    LInv D T E { l with work := w, pc := p } := by
  have ht : Delivery.todo { l with work := w, pc := p } = [] := by
    rcases hp with rfl | rfl | ⟨rfl, _⟩ <;> rfl
  have hc : Delivery.cur { l with work := w, pc := p } = none := by
    rcases hp with rfl | rfl | ⟨rfl, _⟩ <;> rfl
  have ho : ∀ n rest, p ≠ .opening n rest := by
    intro n rest; rcases hp with rfl | rfl | ⟨rfl, _⟩ <;> simp
  have hs : ∀ x rest, p ≠ .sending x rest := by
    intro n rest; rcases hp with rfl | rfl | ⟨rfl, _⟩ <;> simp
  exact { h with
    nodup := by rw [ht]; exact List.nodup_nil
    since := fun n hn => (h.since n hn).imp id (fun x => ⟨x.1, by rw [ht]; simp⟩)
    cur := by rw [hc]; simp
    opening := fun n rest e => absurd e (ho n rest)
    sending := fun n m rest e => absurd e (hs _ rest)
    marked := by rw [hc]; simp
    sendMissing := fun n rest e => absurd e (hs _ rest)
    todo := by rw [ht]; simp
    sendGood := fun n rest e => absurd e (hs _ rest)
    done := by
      intro e
      rcases hp with rfl | rfl | ⟨rfl, hq⟩
      · cases e
      · cases e
      · exact hq }

/-- The goroutine keeps the invariant of its login. -/
theorem LInv.step {D T : Name → Prop} {E : Name → DiskMessage → Prop} {store : GoMap Name Bytes}
    {l l' : Login} {a : Act} (h : LInv D T E l) (hw : store.WF)
    (hS : ∀ n, (store.get n).isSome → T n ∧ ¬ D n)
    (hM : ∀ n, T n → store.get n = none → D n)
    (hE : ∀ n f, store.get n = some f → ∃ m, unmarshal f = some m ∧ E n m)
    (hs : stepLogin store l a = some l') : LInv D T E l' := by
  cases a <;> simp only [stepLogin] at hs
  case start =>
    split at hs
    · simp only [Option.some.injEq] at hs; subst hs
      exact h.quiet _ _ (Or.inl rfl)
    · cases hs
  case take =>
    split at hs
    · simp only [Option.some.injEq] at hs; subst hs
      exact h.quiet _ _ (Or.inr (Or.inl rfl))
    · cases hs
  case leave =>
    split at hs
    · next hc =>
      simp only [Option.some.injEq] at hs; subst hs
      exact h.quiet l.work _ (Or.inr (Or.inr ⟨rfl, hc.2⟩))
    · cases hs
  case list =>
    split at hs
    · next hc =>
      simp only [Option.some.injEq] at hs; subst hs
      exact { h with
        nodup := (listing_perm store).nodup_iff.2 hw
        since := fun n hn => (h.since n hn).imp id (fun x => ⟨x.1, by
          show n ∉ listing store
          rw [mem_listing]
          exact fun hh => (hS n hh).2 x.1⟩)
        cur := by simp [Delivery.cur]
        opening := by simp
        sending := by simp
        marked := by simp [Delivery.cur]
        sendMissing := by simp
        todo := fun n hn => (hS n (mem_listing.1 hn)).1
        sendGood := by simp
        done := by simp }
    · cases hs
  case check =>
    split at hs
    · simp only [Option.some.injEq] at hs; subst hs
      exact h.quiet l.work _ (Or.inl rfl)
    · next n rest hc =>
      have ht : Delivery.todo l = n :: rest := by simp [Delivery.todo, hc]
      have hnd := h.nodup
      rw [ht] at hnd
      split at hs
      · next hp =>
        simp only [Option.some.injEq] at hs; subst hs
        exact { h with
          nodup := (List.nodup_cons.1 hnd).2
          since := fun k hk => (h.since k hk).imp id (fun x => ⟨x.1, fun hh => x.2 (by
            rw [ht]; exact List.mem_cons_of_mem _ hh)⟩)
          cur := by simp [Delivery.cur]
          opening := by simp
          sending := by simp
          marked := by simp [Delivery.cur]
          sendMissing := by simp
          todo := fun k hk => h.todo k (by rw [ht]; exact List.mem_cons_of_mem _ hk)
          sendGood := by simp
          done := by simp }
      · next hp =>
        simp only [Option.some.injEq] at hs; subst hs
        exact { h with
          nodup := hnd
          since := fun k hk => (h.since k hk).imp (List.mem_cons_of_mem _) (fun x => ⟨x.1, fun hh => x.2 (by
            rw [ht]; exact hh)⟩)
          cur := by
            simp only [Delivery.cur, Option.some.injEq]
            rintro k rfl hk
            rcases h.since _ hk with hh | hh
            · exact hp hh
            · exact hh.2 (by rw [ht]; simp)
          msgs := fun k hk => (h.msgs k hk).imp (List.mem_cons_of_mem _) id
          opening := by
            simp only [Pc.opening.injEq, and_imp]
            rintro k r rfl _
            by_cases hk : n ∈ msgNames l.log
            · rcases h.msgs n hk with hh | hh
              · exact absurd hh hp
              · exact Or.inl hh
            · exact Or.inr hk
          sending := by simp
          marked := by
            simp only [Delivery.cur, Option.some.injEq]
            rintro k rfl
            exact Or.inl (by simp)
          sendMissing := by simp
          todo := fun k hk => h.todo k (by rw [ht]; exact hk)
          sendGood := by simp
          done := by simp }
    · cases hs
  case open_ =>
    split at hs
    · next n rest hc =>
      have ht : Delivery.todo l = n :: rest := by simp [Delivery.todo, hc]
      have hcu : Delivery.cur l = some n := by simp [Delivery.cur, hc]
      simp only [Option.some.injEq] at hs; subst hs
      have hname : (readNote store n).name = n := by
        unfold readNote
        split
        · rfl
        · split <;> rfl
      have base : LInv D T E { l with pc := .opening n rest } := by rw [← hc]; exact h
      have ht' : Delivery.todo { l with pc := .sending (readNote store n) rest } = n :: rest := by
        simp [Delivery.todo, hname]
      have hcu' : Delivery.cur { l with pc := .sending (readNote store n) rest } = some n := by
        simp [Delivery.cur, hname]
      exact { h with
        nodup := by rw [ht', ← ht]; exact h.nodup
        since := by intro k hk; rw [ht', ← ht]; exact h.since k hk
        cur := by intro k hk; rw [hcu', ← hcu] at hk; exact h.cur k hk
        opening := by simp
        sending := by
          intro k m r e
          simp only [Pc.sending.injEq] at e
          have e := e.1
          unfold readNote at e
          split at e
          · cases e
          · next f hf =>
            obtain ⟨m', hu, hE'⟩ := hE n f hf
            rw [hu] at e
            simp only [Note.msg.injEq] at e
            obtain ⟨rfl, rfl⟩ := e
            have hnD := (hS n (by simp [hf])).2
            exact ⟨(h.opening n rest hc).resolve_left hnD, hE'⟩
        marked := by intro k hk; rw [hcu', ← hcu] at hk; exact h.marked k hk
        sendMissing := by
          intro k r e
          simp only [Pc.sending.injEq] at e
          have e := e.1
          unfold readNote at e
          split at e
          · next hn =>
            simp only [Note.missing.injEq] at e
            subst e
            exact hM n (h.todo n (by rw [ht]; simp)) hn
          · split at e <;> cases e
        todo := by intro k hk; rw [ht', ← ht] at hk; exact h.todo k hk
        sendGood := by
          intro k r e
          simp only [Pc.sending.injEq] at e
          have e := e.1
          unfold readNote at e
          split at e
          · cases e
          · next f hf =>
            obtain ⟨m', hu, hE'⟩ := hE n f hf
            rw [hu] at e
            cases e
        done := by simp }
    · cases hs
  case send =>
    split at hs
    · next note rest hc =>
      have ht : Delivery.todo l = note.name :: rest := by simp [Delivery.todo, hc]
      have hcu : Delivery.cur l = some note.name := by simp [Delivery.cur, hc]
      have hnd := h.nodup
      rw [ht, List.nodup_cons] at hnd
      simp only [Option.some.injEq] at hs; subst hs
      have hmn : ∀ k, k ∈ msgNames (l.log ++ [.ann note]) → k ∈ msgNames l.log ∨ k = note.name := by
        intro k hk
        rw [msgNames_append, List.mem_append] at hk
        refine hk.imp id (fun hk => ?_)
        obtain ⟨m, hm⟩ := mem_msgNames.1 hk
        simp only [List.mem_singleton, Entry.ann.injEq] at hm
        rw [← hm]; rfl
      exact { h with
        nodup := hnd.2
        since := by
          intro k hk
          show k ∈ l.processed ∨ (D k ∧ k ∉ rest)
          rcases mem_since_ann.1 hk with hk | rfl
          · exact (h.since k hk).imp id (fun x => ⟨x.1, fun hh => x.2 (by
              rw [ht]; exact List.mem_cons_of_mem _ hh)⟩)
          · exact (h.marked _ hcu).imp id (fun x => ⟨x, hnd.1⟩)
        cur := by simp [Delivery.cur]
        msgs := by
          intro k hk
          rcases hmn k hk with hk | rfl
          · exact h.msgs k hk
          · exact h.marked _ hcu
        opening := by simp
        sending := by simp
        marked := by simp [Delivery.cur]
        once := by
          show (msgNames (l.log ++ [.ann note])).Nodup
          rw [msgNames_append]
          cases note with
          | msg n m =>
            have := (h.sending n m rest hc).1
            show (msgNames l.log ++ [n]).Nodup
            rw [List.nodup_append]
            exact ⟨h.once, by simp, by
              intro a ha b hb
              simp only [List.mem_singleton] at hb
              subst hb
              rintro rfl
              exact this ha⟩
          | missing n => show (msgNames l.log ++ []).Nodup; rw [List.append_nil]; exact h.once
          | bad n => show (msgNames l.log ++ []).Nodup; rw [List.append_nil]; exact h.once
        missing := by
          intro k hk
          simp only [List.mem_append, List.mem_singleton, Entry.ann.injEq] at hk
          rcases hk with hk | rfl
          · exact h.missing k hk
          · exact h.sendMissing k rest hc
        sendMissing := by simp
        todo := fun k hk => h.todo k (by rw [ht]; exact List.mem_cons_of_mem _ hk)
        contents := by
          intro k m hk
          simp only [List.mem_append, List.mem_singleton, Entry.ann.injEq] at hk
          rcases hk with hk | rfl
          · exact h.contents k m hk
          · exact (h.sending k m rest hc).2
        good := by
          intro k hk
          simp only [List.mem_append, List.mem_singleton, Entry.ann.injEq] at hk
          rcases hk with hk | rfl
          · exact h.good k hk
          · exact h.sendGood k rest hc
        sendGood := by simp
        done := by simp
        sep := h.sep.ann note (h.cur _ hcu) }
    · cases hs
  case drop =>
    split at hs
    · next note rest hc =>
      have ht : Delivery.todo l = note.name :: rest := by simp [Delivery.todo, hc]
      have hnd := h.nodup
      rw [ht, List.nodup_cons] at hnd
      split at hs
      · simp only [Option.some.injEq] at hs; subst hs
        exact { h with
          nodup := hnd.2
          since := fun k hk => (h.since k hk).imp id (fun x => ⟨x.1, fun hh => x.2 (by
            rw [ht]; exact List.mem_cons_of_mem _ hh)⟩)
          cur := by simp [Delivery.cur]
          opening := by simp
          sending := by simp
          marked := by simp [Delivery.cur]
          sendMissing := by simp
          todo := fun k hk => h.todo k (by rw [ht]; exact List.mem_cons_of_mem _ hk)
          sendGood := by simp
          done := by simp }
      · cases hs
    · cases hs

/-- The goroutine keeps the invariant of the login that is online. -/
theorem OInv.step {store : GoMap Name Bytes} {l l' : Login} {a : Act}
    (h : OInv (fun n => (store.get n).isSome) l) (hs : stepLogin store l a = some l') :
    OInv (fun n => (store.get n).isSome) l' := by
  cases a <;> simp only [stepLogin] at hs
  case start =>
    split at hs
    · next hc =>
      simp only [Option.some.injEq] at hs; subst hs
      exact ⟨h.quit, fun n hn => (h.processed n hn).imp id (by simp [cur, hc.1]), fun n hn => by simp⟩
    · cases hs
  case take =>
    split at hs
    · next hc =>
      simp only [Option.some.injEq] at hs; subst hs
      exact ⟨h.quit, fun n hn => (h.processed n hn).imp id (by simp [cur, hc.1]), fun n hn => by simp⟩
    · cases hs
  case leave =>
    split at hs
    · next hc => rw [h.quit] at hc; exact absurd hc.2 (by simp)
    · cases hs
  case list =>
    split at hs
    · next hc =>
      simp only [Option.some.injEq] at hs; subst hs
      refine ⟨h.quit, fun n hn => (h.processed n hn).imp id (by simp [cur, hc]), fun n hn => ?_⟩
      exact Or.inr (Or.inr (Or.inr (Or.inr (mem_listing.2 hn))))
    · cases hs
  case check =>
    split at hs
    · next hc =>
      simp only [Option.some.injEq] at hs; subst hs
      refine ⟨h.quit, fun n hn => (h.processed n hn).imp id (by simp [cur, hc]), fun n hn => ?_⟩
      have := h.all n hn
      simp only [todo, hc, List.not_mem_nil, reduceCtorEq, or_false] at this
      exact this.imp id Or.inl
    · next n rest hc =>
      split at hs
      · next hp =>
        simp only [Option.some.injEq] at hs; subst hs
        refine ⟨h.quit, fun n hn => (h.processed n hn).imp id (by simp [cur, hc]), fun k hk => ?_⟩
        have := h.all k hk
        simp only [todo, hc, List.mem_cons, reduceCtorEq, false_or] at this ⊢
        rcases this with hx | hx | rfl | hx
        · exact Or.inl hx
        · exact Or.inr (Or.inl hx)
        · exact Or.inl ((h.processed k hp).resolve_right (by simp [cur, hc]))
        · exact Or.inr (Or.inr hx)
      · simp only [Option.some.injEq] at hs; subst hs
        refine ⟨h.quit, fun k hk => ?_, fun k hk => ?_⟩
        · simp only [List.mem_cons] at hk
          rcases hk with rfl | hk
          · exact Or.inr rfl
          · exact Or.inl ((h.processed k hk).resolve_right (by simp [cur, hc]))
        · have := h.all k hk
          simp only [todo, hc, reduceCtorEq, false_or] at this ⊢
          exact this
    · cases hs
  case open_ =>
    split at hs
    · next n rest hc =>
      simp only [Option.some.injEq] at hs; subst hs
      have hname : (readNote store n).name = n := by
        unfold readNote
        split
        · rfl
        · split <;> rfl
      refine ⟨h.quit, fun k hk => ?_, fun k hk => ?_⟩
      · have := h.processed k hk
        simp only [cur, hc, hname] at this ⊢
        exact this
      · have := h.all k hk
        simp only [todo, hc, reduceCtorEq, false_or, hname] at this ⊢
        exact this
    · cases hs
  case send =>
    split at hs
    · next note rest hc =>
      simp only [Option.some.injEq] at hs; subst hs
      refine ⟨h.quit, fun k hk => ?_, fun k hk => ?_⟩
      · left
        rw [mem_since_ann]
        have := h.processed k hk
        simp only [cur, hc, Option.some.injEq] at this
        exact this.imp id Eq.symm
      · have := h.all k hk
        simp only [todo, hc, List.mem_cons, reduceCtorEq, false_or, mem_since_ann] at this ⊢
        tauto
    · cases hs
  case drop =>
    split at hs
    · next note rest hc =>
      split at hs
      · next hq => rw [h.quit] at hq; cases hq
      · cases hs
    · cases hs

/-! ## The account -/

/-- No file of this name exists or will exist. -/
def Dead (s : State) (n : Name) : Prop := n ∈ s.used ∧ s.store.get n = none ∧ n ∉ s.pend.map Prod.fst

/-- A file of this name exists. -/
def Stored (s : State) (n : Name) : Prop := (s.store.get n).isSome

/-- Existing or dead. -/
def Settled (s : State) (n : Name) : Prop := Stored s n ∨ Dead s n

/-- Delivered. -/
def Given (s : State) (n : Name) (m : DiskMessage) : Prop := (n, m) ∈ s.delivered

/-- The assumption on the clock: no two calls of `Deliver` read the same time. -/
def FreshClock (s : State) : Ev → Prop
  | .begin n _ => n ∉ s.used
  | _ => True

/-- The server does not die in the middle of writing a message. -/
def NotTorn : Ev → Prop
  | .torn _ _ _ => False
  | _ => True

/-- Messages of a size that can be encoded. -/
def SizedMsg : Ev → Prop
  | .begin _ m => m.Sized
  | _ => True

/-- Invariant of the account. -/
structure Inv (s : State) : Prop where
  wf : s.store.WF
  storeUsed : ∀ n, Stored s n → n ∈ s.used
  pendUsed : ∀ x ∈ s.pend, x.1 ∈ s.used
  pendNodup : (s.pend.map Prod.fst).Nodup
  disjoint : ∀ x ∈ s.pend, s.store.get x.1 = none
  contents : ∀ n f, s.store.get n = some f → ∃ m, Given s n m ∧ m.Sized ∧ f = marshal m
  sized : ∀ x ∈ s.pend, x.2.Sized
  given : ∀ n m, Given s n m → n ∈ s.used ∧ n ∉ s.pend.map Prod.fst
  uniq : ∀ n m m', Given s n m → Given s n m' → m = m'
  logins : ∀ l ∈ s.logins, LInv (Dead s) (Settled s) (Given s) l
  online : ∀ i, s.online = some i → ∃ l, s.logins[i]? = some l ∧ OInv (Stored s) l

theorem inv_init : Inv init where
  wf := GoMap.wf_nil
  storeUsed := by simp [Stored, init]
  pendUsed := by simp [init]
  pendNodup := by simp [init]
  disjoint := by simp [init]
  contents := by simp [init]
  sized := by simp [init]
  given := by simp [Given, init]
  uniq := by simp [Given, init]
  logins := by simp [init]
  online := by simp [init]

/-- Changing the login that is online. -/
theorem onOnline_logins {s : State} {f : Login → Login} {P : Login → Prop} (h : ∀ l ∈ s.logins, P l)
    (hf : ∀ i l, s.online = some i → s.logins[i]? = some l → P (f l)) : ∀ l ∈ (s.onOnline f).logins, P l := by
  intro l hl
  unfold State.onOnline at hl
  split at hl
  · exact h l hl
  · next i hi =>
    simp only at hl
    obtain ⟨j, hj⟩ := List.getElem?_of_mem hl
    rw [List.getElem?_modify] at hj
    rcases hx : s.logins[j]? with _ | x
    · simp [hx] at hj
    · simp only [hx] at hj
      split at hj
      · next e => subst e; rw [← Option.some.inj hj]; exact hf i x hi hx
      · rw [← Option.some.inj hj]; exact h x (List.mem_of_getElem? hx)

theorem onOnline_online {s : State} {f : Login → Login} {P Q : Login → Prop}
    (h : ∀ i, s.online = some i → ∃ l, s.logins[i]? = some l ∧ P l)
    (hf : ∀ i l, s.online = some i → s.logins[i]? = some l → P l → Q (f l)) :
    ∀ i, (s.onOnline f).online = some i → ∃ l, (s.onOnline f).logins[i]? = some l ∧ Q l := by
  intro i hi
  unfold State.onOnline at hi ⊢
  split at hi
  · next h' => rw [h'] at hi; cases hi
  · next j hj =>
    simp only at hi
    rw [hj] at hi
    obtain rfl := Option.some.inj hi
    obtain ⟨l, h1, h2⟩ := h j hj
    rw [hj]
    refine ⟨f l, ?_, hf j l hj h1 h2⟩
    simp [h1]

/-- Steps keep the invariant. -/
theorem Inv.step {s s' : State} {e : Ev} (h : Inv s) (hf : FreshClock s e) (ht : NotTorn e) (hz : SizedMsg e)
    (hs : step s e = some s') : Inv s' := by
  cases e with
  | torn n m k => exact absurd ht (by simp [NotTorn])
  | begin n m =>
    simp only [Delivery.step] at hs
    split at hs
    · cases hs
    · next hn =>
      simp only [Option.some.injEq] at hs; subst hs
      simp only [FreshClock] at hf
      have hD : ∀ k, Dead s k → Dead { s with pend := (n, m) :: s.pend, used := n :: s.used } k := by
        rintro k ⟨h1, h2, h3⟩
        refine ⟨List.mem_cons_of_mem _ h1, h2, ?_⟩
        simp only [List.map_cons, List.mem_cons, not_or]
        exact ⟨fun e => hf (e ▸ h1), h3⟩
      exact {
        wf := h.wf
        storeUsed := fun k hk => List.mem_cons_of_mem _ (h.storeUsed k hk)
        pendUsed := by
          intro x hx
          rcases List.mem_cons.1 hx with rfl | hx
          · exact List.mem_cons_self
          · exact List.mem_cons_of_mem _ (h.pendUsed x hx)
        pendNodup := by
          simp only [List.map_cons, List.nodup_cons]
          refine ⟨fun hm => ?_, h.pendNodup⟩
          obtain ⟨x, hx, e⟩ := List.mem_map.1 hm
          exact hf (e ▸ h.pendUsed x hx)
        disjoint := by
          intro x hx
          rcases List.mem_cons.1 hx with rfl | hx
          · simpa using hn
          · exact h.disjoint x hx
        contents := h.contents
        sized := by
          intro x hx
          rcases List.mem_cons.1 hx with rfl | hx
          · exact hz
          · exact h.sized x hx
        given := by
          intro k x hx
          obtain ⟨h1, h2⟩ := h.given k x hx
          refine ⟨List.mem_cons_of_mem _ h1, ?_⟩
          simp only [List.map_cons, List.mem_cons, not_or]
          exact ⟨fun e => hf (e ▸ h1), h2⟩
        uniq := h.uniq
        logins := fun l hl => (h.logins l hl).mono hD (fun k hk => hk.imp id (hD k)) (fun _ _ x => x)
        online := h.online }
  | commit n m =>
    simp only [Delivery.step] at hs
    split at hs
    · next hp =>
      simp only [Option.some.injEq] at hs; subst hs
      have hnp : ∀ x ∈ s.pend.erase (n, m), x.1 ≠ n := by
        intro x hx e
        have hx2 : x ∈ s.pend := List.mem_of_mem_erase hx
        have hxe : x = (n, m) := List.inj_on_of_nodup_map h.pendNodup hx2 hp e
        have hnd : s.pend.Nodup := List.Nodup.of_map _ h.pendNodup
        rw [hxe] at hx
        exact (hnd.mem_erase_iff.1 hx).1 rfl
      set s1 : State := { s with
        store := s.store.set n (marshal m), pend := s.pend.erase (n, m), delivered := (n, m) :: s.delivered } with hs1
      have hnD : ¬ Dead s n := fun hd => hd.2.2 (List.mem_map.2 ⟨_, hp, rfl⟩)
      have hD : ∀ k, Dead s k → Dead s1 k := by
        rintro k hk
        have hkn : n ≠ k := by rintro rfl; exact hnD hk
        refine ⟨hk.1, ?_, fun hm => ?_⟩
        · show (s.store.set n (marshal m)).get k = none
          rw [GoMap.get_set_ne _ _ hkn]; exact hk.2.1
        · obtain ⟨x, hx, e⟩ := List.mem_map.1 hm
          exact hk.2.2 (List.mem_map.2 ⟨x, List.mem_of_mem_erase hx, e⟩)
      have hT : ∀ k, Settled s k → Settled s1 k := by
        intro k hk
        by_cases hkn : n = k
        · left; subst hkn; show ((s.store.set n (marshal m)).get n).isSome; simp
        · refine hk.imp (fun hk => ?_) (hD k)
          show ((s.store.set n (marshal m)).get k).isSome
          rw [GoMap.get_set_ne _ _ hkn]; exact hk
      have hE : ∀ k x, Given s k x → Given s1 k x := fun k x hx => List.mem_cons_of_mem _ hx
      have same : ∀ f, Dead (s1.onOnline f) = Dead s1 ∧ Settled (s1.onOnline f) = Settled s1 ∧
          Given (s1.onOnline f) = Given s1 ∧ Stored (s1.onOnline f) = Stored s1 ∧
          (s1.onOnline f).store = s1.store ∧ (s1.onOnline f).pend = s1.pend ∧
          (s1.onOnline f).used = s1.used := by
        intro f
        unfold State.onOnline
        split <;> exact ⟨rfl, rfl, rfl, rfl, rfl, rfl, rfl⟩
      obtain ⟨e1, e2, e3, e4, e5, e6, e7⟩ := same fun l => { l with work := true }
      exact {
        wf := by rw [e5]; exact GoMap.wf_set h.wf _ _
        storeUsed := by
          rw [e4, e7]
          intro k hk
          by_cases hkn : n = k
          · subst hkn; exact h.pendUsed _ hp
          · refine h.storeUsed k ?_
            have : ((s.store.set n (marshal m)).get k).isSome := hk
            rw [GoMap.get_set_ne _ _ hkn] at this; exact this
        pendUsed := by rw [e6, e7]; exact fun x hx => h.pendUsed x (List.mem_of_mem_erase hx)
        pendNodup := by
          rw [e6]
          exact h.pendNodup.sublist (List.Sublist.map _ List.erase_sublist)
        disjoint := by
          rw [e5, e6]
          intro x hx
          show (s.store.set n (marshal m)).get x.1 = none
          rw [GoMap.get_set_ne _ _ (Ne.symm (hnp x hx))]
          exact h.disjoint x (List.mem_of_mem_erase hx)
        contents := by
          rw [e5, e3]
          intro k f hk
          have hk : (s.store.set n (marshal m)).get k = some f := hk
          by_cases hkn : n = k
          · subst hkn
            rw [GoMap.get_set_self, Option.some.injEq] at hk
            exact ⟨m, List.mem_cons_self, h.sized _ hp, hk.symm⟩
          · rw [GoMap.get_set_ne _ _ hkn] at hk
            obtain ⟨x, h1, h2, h3⟩ := h.contents k f hk
            exact ⟨x, hE k x h1, h2, h3⟩
        sized := by rw [e6]; exact fun x hx => h.sized x (List.mem_of_mem_erase hx)
        given := by
          rw [e3, e6, e7]
          intro k x hx
          rcases List.mem_cons.1 hx with e | hx
          · obtain ⟨rfl, rfl⟩ := Prod.mk.inj e
            refine ⟨h.pendUsed _ hp, fun hm => ?_⟩
            obtain ⟨y, hy, e⟩ := List.mem_map.1 hm
            exact hnp y hy e
          · refine ⟨(h.given k x hx).1, fun hm => (h.given k x hx).2 ?_⟩
            obtain ⟨y, hy, e⟩ := List.mem_map.1 hm
            exact List.mem_map.2 ⟨y, List.mem_of_mem_erase hy, e⟩
        uniq := by
          rw [e3]
          have hnot : ∀ x, ¬ Given s n x := fun x hx => (h.given n x hx).2 (List.mem_map.2 ⟨_, hp, rfl⟩)
          intro k x y hx hy
          rcases List.mem_cons.1 hx with ex | hx' <;> rcases List.mem_cons.1 hy with ey | hy'
          · rw [(Prod.mk.inj ex).2, (Prod.mk.inj ey).2]
          · obtain ⟨rfl, rfl⟩ := Prod.mk.inj ex
            exact (hnot y hy').elim
          · obtain ⟨rfl, rfl⟩ := Prod.mk.inj ey
            exact (hnot x hx').elim
          · exact h.uniq k x y hx' hy'
        logins := by
          rw [e1, e2, e3]
          refine onOnline_logins (fun l hl => (h.logins l hl).mono hD hT hE) (fun i l hi hl => ?_)
          have := (h.logins l (List.mem_of_getElem? hl)).mono hD hT hE
          exact { this with }
        online := by
          rw [e4]
          refine onOnline_online (P := OInv (Stored s)) h.online (fun i l hi hl hP => ?_)
          exact ⟨hP.quit, hP.processed, fun k hk => Or.inr (Or.inl rfl)⟩ }
    · cases hs
  | delete n =>
    simp only [Delivery.step] at hs
    split at hs
    · next hp =>
      simp only [Option.some.injEq] at hs; subst hs
      set s1 : State := { s with store := s.store.del n } with hs1
      have hnp : n ∉ s.pend.map Prod.fst := by
        intro hm
        obtain ⟨x, hx, e⟩ := List.mem_map.1 hm
        have := h.disjoint x hx
        rw [e] at this
        rw [this] at hp; cases hp
      have hdead : Dead s1 n := ⟨h.storeUsed n hp, GoMap.get_del_self _ _, hnp⟩
      have hget : ∀ k, n ≠ k → s1.store.get k = s.store.get k := fun k hk => GoMap.get_del_ne _ hk
      have hD : ∀ k, Dead s k → Dead s1 k := by
        rintro k hk
        by_cases hkn : n = k
        · subst hkn; exact hdead
        · exact ⟨hk.1, by rw [hget k hkn]; exact hk.2.1, hk.2.2⟩
      have hT : ∀ k, Settled s k → Settled s1 k := by
        intro k hk
        by_cases hkn : n = k
        · subst hkn; exact Or.inr hdead
        · refine hk.imp (fun hk => ?_) (hD k)
          unfold Stored; rw [hget k hkn]; exact hk
      have same : ∀ f, Dead (s1.onOnline f) = Dead s1 ∧ Settled (s1.onOnline f) = Settled s1 ∧
          Given (s1.onOnline f) = Given s1 ∧ Stored (s1.onOnline f) = Stored s1 ∧
          (s1.onOnline f).store = s1.store ∧ (s1.onOnline f).pend = s1.pend ∧
          (s1.onOnline f).used = s1.used := by
        intro f
        unfold State.onOnline
        split <;> exact ⟨rfl, rfl, rfl, rfl, rfl, rfl, rfl⟩
      obtain ⟨e1, e2, e3, e4, e5, e6, e7⟩ :=
        same fun l => { l with processed := l.processed.filter (· ≠ n), log := l.log ++ [.del n] }
      exact {
        wf := by rw [e5]; exact GoMap.wf_del h.wf _
        storeUsed := by
          rw [e4, e7]
          intro k hk
          by_cases hkn : n = k
          · subst hkn; exact h.storeUsed n hp
          · refine h.storeUsed k ?_
            have hk : (s1.store.get k).isSome := hk
            rw [hget k hkn] at hk; exact hk
        pendUsed := by rw [e6, e7]; exact h.pendUsed
        pendNodup := by rw [e6]; exact h.pendNodup
        disjoint := by
          rw [e5, e6]
          intro x hx
          rw [hget x.1 (fun e => hnp (List.mem_map.2 ⟨x, hx, e.symm⟩))]
          exact h.disjoint x hx
        contents := by
          rw [e5, e3]
          intro k f hk
          by_cases hkn : n = k
          · subst hkn; rw [GoMap.get_del_self] at hk; cases hk
          · rw [hget k hkn] at hk
            exact h.contents k f hk
        sized := by rw [e6]; exact h.sized
        given := by rw [e3, e6, e7]; exact h.given
        uniq := by rw [e3]; exact h.uniq
        logins := by
          rw [e1, e2, e3]
          refine onOnline_logins (fun l hl => (h.logins l hl).mono hD hT (fun _ _ x => x)) (fun i l hi hl => ?_)
          have hl' := (h.logins l (List.mem_of_getElem? hl)).mono hD hT (E' := Given s1) (fun _ _ x => x)
          have hmn : msgNames (l.log ++ [.del n]) = msgNames l.log := by
            rw [msgNames_append]; exact List.append_nil _
          have hpr : ∀ k, k ∈ l.processed → k ∈ l.processed.filter (· ≠ n) ∨ Dead s1 k := by
            intro k hk
            by_cases hkn : k = n
            · subst hkn; exact Or.inr hdead
            · exact Or.inl (by simp [List.mem_filter, hk, hkn])
          have hmem : ∀ note, .ann note ∈ l.log ++ [.del n] ↔ .ann note ∈ l.log := by simp
          exact { hl' with
            since := by
              intro k hk
              obtain ⟨hk, hkn⟩ := mem_since_del.1 hk
              refine (hl'.since k hk).imp (fun hk => ?_) id
              show k ∈ l.processed.filter (· ≠ n)
              simp [List.mem_filter, hk, hkn]
            cur := fun k hk hm => hl'.cur k hk (mem_since_del.1 hm).1
            msgs := by
              show ∀ k ∈ msgNames (l.log ++ [.del n]), _
              rw [hmn]
              intro k hk
              rcases hl'.msgs k hk with hx | hx
              · exact hpr k hx
              · exact Or.inr hx
            opening := by
              show ∀ k rest, l.pc = .opening k rest → Dead s1 k ∨ k ∉ msgNames (l.log ++ [.del n])
              rw [hmn]; exact hl'.opening
            sending := by
              show ∀ k m rest, l.pc = .sending (.msg k m) rest → k ∉ msgNames (l.log ++ [.del n]) ∧ _
              rw [hmn]; exact hl'.sending
            marked := by
              intro k hk
              rcases hl'.marked k hk with hx | hx
              · exact hpr k hx
              · exact Or.inr hx
            once := by
              show (msgNames (l.log ++ [.del n])).Nodup
              rw [hmn]; exact hl'.once
            missing := fun k hk => hl'.missing k ((hmem _).1 hk)
            contents := fun k m hk => hl'.contents k m ((hmem _).1 hk)
            good := fun k hk => hl'.good k ((hmem _).1 hk)
            sep := hl'.sep.del n }
        online := by
          rw [e4]
          refine onOnline_online (P := OInv (Stored s)) h.online (fun i l hi hl hP => ?_)
          refine ⟨hP.quit, fun k hk => ?_, fun k hk => ?_⟩
          · have hk : k ∈ l.processed.filter (· ≠ n) := hk
            simp only [List.mem_filter, decide_eq_true_eq] at hk
            exact (hP.processed k hk.1).imp (fun x => mem_since_del.2 ⟨x, hk.2⟩) id
          · have hk : (s1.store.get k).isSome := hk
            have hkn : n ≠ k := by
              rintro rfl
              rw [show s1.store.get n = none from GoMap.get_del_self _ _] at hk; cases hk
            rw [hget k hkn] at hk
            exact (hP.all k hk).imp (fun x => mem_since_del.2 ⟨x, Ne.symm hkn⟩) id }
    · cases hs
  | online =>
    simp only [Delivery.step] at hs
    split at hs
    · cases hs
    · simp only [Option.some.injEq] at hs; subst hs
      exact { h with
        logins := by
          intro l hl
          simp only [List.mem_append, List.mem_singleton] at hl
          rcases hl with hl | rfl
          · exact h.logins l hl
          · constructor <;> simp [todo, cur, since, msgNames, Sep]
        online := by
          intro i hi
          simp only [Option.some.injEq] at hi
          subst hi
          exact ⟨⟨false, false, [], .start, []⟩, by simp, ⟨rfl, by simp, by simp⟩⟩ }
  | offline =>
    simp only [Delivery.step, Option.some.injEq] at hs; subst hs
    have same : ∀ f, Dead { s.onOnline f with online := none } = Dead s ∧
        Settled { s.onOnline f with online := none } = Settled s ∧
        Given { s.onOnline f with online := none } = Given s ∧
        Stored { s.onOnline f with online := none } = Stored s ∧
        (s.onOnline f).store = s.store ∧ (s.onOnline f).pend = s.pend ∧ (s.onOnline f).used = s.used := by
      intro f
      unfold State.onOnline
      split <;> exact ⟨rfl, rfl, rfl, rfl, rfl, rfl, rfl⟩
    obtain ⟨e1, e2, e3, e4, e5, e6, e7⟩ := same fun l => { l with quit := true }
    exact {
      wf := by simp only [e5]; exact h.wf
      storeUsed := by rw [e4]; simp only [e7]; exact h.storeUsed
      pendUsed := by simp only [e6, e7]; exact h.pendUsed
      pendNodup := by simp only [e6]; exact h.pendNodup
      disjoint := by simp only [e5, e6]; exact h.disjoint
      contents := by rw [e3]; simp only [e5]; exact h.contents
      sized := by simp only [e6]; exact h.sized
      given := by rw [e3]; simp only [e6, e7]; exact h.given
      uniq := by rw [e3]; exact h.uniq
      logins := by
        rw [e1, e2, e3]
        refine onOnline_logins h.logins (fun i l hi hl => ?_)
        exact { h.logins l (List.mem_of_getElem? hl) with done := fun _ => rfl }
      online := by simp }
  | restart =>
    simp only [Delivery.step, Option.some.injEq] at hs; subst hs
    exact { h with
      pendUsed := by simp
      pendNodup := by simp
      disjoint := by simp
      sized := by simp
      given := fun n m hm => ⟨(h.given n m hm).1, by simp⟩
      logins := by simp
      online := by simp }
  | go i a =>
    simp only [Delivery.step] at hs
    split at hs
    · cases hs
    · next l hl =>
      simp only [Option.map_eq_some_iff] at hs
      obtain ⟨l', h1, rfl⟩ := hs
      exact { h with
        logins := by
          intro x hx
          rcases List.mem_or_eq_of_mem_set hx with hx | rfl
          · exact h.logins x hx
          · refine (h.logins l (List.mem_of_getElem? hl)).step h.wf ?_ ?_ ?_ h1
            · exact fun n hn => ⟨Or.inl hn, fun hd => by rw [hd.2.1] at hn; cases hn⟩
            · intro n hT hn
              rcases hT with hT | hT
              · unfold Stored at hT; rw [hn] at hT; cases hT
              · exact hT
            · intro n f hf
              obtain ⟨m, h1, h2, rfl⟩ := h.contents n f hf
              exact ⟨m, C24_roundtrip m h2, h1⟩
        online := by
          intro j hj
          obtain ⟨x, hx, hO⟩ := h.online j hj
          by_cases hij : i = j
          · subst hij
            rw [hl] at hx
            obtain rfl := Option.some.inj hx
            refine ⟨l', ?_, hO.step h1⟩
            have : i < s.logins.length := (List.getElem?_eq_some_iff.1 hl).1
            simp [this]
          · exact ⟨x, by simp [List.getElem?_set_ne hij, hx], hO⟩ }

/-- All three assumptions. -/
def Good (s : State) (e : Ev) : Prop := FreshClock s e ∧ NotTorn e ∧ SizedMsg e

theorem Inv.run {G : State → Ev → Prop} (hG : ∀ s e, G s e → Good s e) {s s' : State} {es : List Ev}
    (h : Inv s) (hr : Run G s es s') : Inv s' := by
  induction hr with
  | nil => exact h
  | cons hg hs _ ih => exact ih (h.step (hG _ _ hg).1 (hG _ _ hg).2.1 (hG _ _ hg).2.2 hs)

theorem inv_reach {G : State → Ev → Prop} (hG : ∀ s e, G s e → Good s e) {s : State} (h : Reach G s) : Inv s :=
  let ⟨_, hr⟩ := h
  inv_init.run hG hr

end Verif.Delivery
