import Mathlib.Data.List.Induction
import Verif.Model.Intro
import Verif.Proofs.GoMap

/-! # C86: who gets into the address book of a client -/

namespace Verif.Intro

open Verif

theorem after_snoc (dir : Bool) (me : Nat) (evs : List Ev) (e : Ev) :
    after dir me (evs ++ [e]) = step dir me (after dir me evs) e := by
  simp [after]

/-- What always holds. -/
structure Inv (me : Nat) (z : Z) : Prop where
  filed : ∀ i p, z.files.get i = some p → p.ident = i
  full : ∀ i k, z.full.get i = some k → ∃ p, z.files.get i = some p ∧ p.key = k
  half : ∀ i k, z.half.get i = some k → ∃ p, z.files.get i = some p ∧ p.key = k
  listed : ∀ i k, z.full.get i = some k → i ≠ me → (z.book.get i).isSome
  self : z.book.get me = none
  entry : ∀ i p, z.book.get i = some p → p.ident = i
  wf : GoMap.WF z.files

theorem not_exists {me : Nat} {z : Z} (h : Inv me z) {i : Nat} (he : z.exists_ i = false) :
    z.half.get i = none ∧ z.full.get i = none := by
  simp only [Z.exists_, Bool.and_eq_false_iff, Bool.or_eq_false_iff] at he
  constructor
  · rcases hx : z.half.get i with _ | k
    · rfl
    · obtain ⟨p, hp, -⟩ := h.half i k hx
      rw [hp, hx] at he
      simp at he
  · rcases hx : z.full.get i with _ | k
    · rfl
    · obtain ⟨p, hp, -⟩ := h.full i k hx
      rw [hp, hx] at he
      simp at he

theorem addBook_get {me : Nat} {b : GoMap Nat Pid} {p : Pid} {i : Nat} :
    (addBook me b p).get i = if p.ident = i ∧ i ≠ me ∧ b.get i = none then some p else b.get i := by
  unfold addBook
  split
  · next h =>
    rw [if_neg]
    rintro ⟨rfl, h1, h2⟩
    rcases h with h | h
    · exact h1 h
    · rw [h2] at h; cases h
  · next h =>
    rw [GoMap.get_set]
    by_cases hi : p.ident = i
    · subst hi
      rw [if_pos rfl, if_pos]
      refine ⟨rfl, fun h' => h (.inl h'), ?_⟩
      rcases hx : b.get p.ident with _ | q
      · rfl
      · exact absurd (.inr (by rw [hx]; rfl)) h
    · rw [if_neg hi, if_neg (fun h' => hi h'.1)]

theorem offer_inv {me : Nat} {z : Z} (h : Inv me z) (k : Nat) (p : Pid) : Inv me (offer z k p) := by
  unfold offer
  split
  · exact h
  · next he =>
    have he : z.exists_ p.ident = false := by simpa using he
    obtain ⟨h1, h2⟩ := not_exists h he
    refine ⟨?_, ?_, ?_, h.listed, h.self, h.entry, GoMap.wf_set h.wf _ _⟩
    · intro i q hq
      simp only [GoMap.get_set] at hq
      split at hq
      · next hi => cases hq; exact hi
      · exact h.filed i q hq
    · intro i c hc
      simp only at hc
      have hne : p.ident ≠ i := by rintro rfl; rw [h2] at hc; cases hc
      obtain ⟨q, hq, hk⟩ := h.full i c hc
      exact ⟨q, by simp only [GoMap.get_set_ne _ _ hne]; exact hq, hk⟩
    · intro i c hc
      simp only [GoMap.get_set] at hc
      split at hc
      · next hi =>
        cases hc
        subst hi
        exact ⟨p, by simp only [GoMap.get_set_self], rfl⟩
      · next hi =>
        obtain ⟨q, hq, hk⟩ := h.half i c hc
        exact ⟨q, by simp only [GoMap.get_set_ne _ _ hi]; exact hq, hk⟩

theorem addBook_self {me : Nat} {b : GoMap Nat Pid} {p : Pid} (h : b.get me = none) : (addBook me b p).get me = none := by
  rw [addBook_get, if_neg (fun h' => h'.2.1 rfl)]
  exact h

theorem addBook_entry {me : Nat} {b : GoMap Nat Pid} {p : Pid} (h : ∀ i q, b.get i = some q → q.ident = i)
    (i : Nat) (q : Pid) (hq : (addBook me b p).get i = some q) : q.ident = i := by
  rw [addBook_get] at hq
  split at hq
  · next hi => cases hq; exact hi.1
  · exact h i q hq

theorem addBook_isSome {me : Nat} {b : GoMap Nat Pid} {p : Pid} {i : Nat} (h : (b.get i).isSome) :
    ((addBook me b p).get i).isSome := by
  rw [addBook_get]
  split
  · rfl
  · exact h

theorem addBook_new {me : Nat} {b : GoMap Nat Pid} {p : Pid} (h : p.ident ≠ me) :
    ((addBook me b p).get p.ident).isSome := by
  rw [addBook_get]
  rcases hx : b.get p.ident with _ | q
  · rw [if_pos ⟨rfl, h, rfl⟩]; rfl
  · rw [if_neg (by simp)]; rfl

theorem answer_inv {me : Nat} {z : Z} (h : Inv me z) (p : Pid) (fits : Bool) : Inv me (answer me z p fits) := by
  unfold answer
  split
  · exact h
  · next he =>
    simp only [not_or, Bool.not_eq_false, Bool.not_eq_true] at he
    obtain ⟨hme, hf, he⟩ := he
    obtain ⟨h1, h2⟩ := not_exists h he
    refine ⟨?_, ?_, ?_, ?_, addBook_self h.self, addBook_entry h.entry, GoMap.wf_set h.wf _ _⟩
    · intro i q hq
      simp only [GoMap.get_set] at hq
      split at hq
      · next hi => cases hq; exact hi
      · exact h.filed i q hq
    · intro i c hc
      simp only [GoMap.get_set] at hc
      split at hc
      · next hi =>
        cases hc
        subst hi
        exact ⟨p, by simp only [GoMap.get_set_self], rfl⟩
      · next hi =>
        obtain ⟨q, hq, hk⟩ := h.full i c hc
        exact ⟨q, by simp only [GoMap.get_set_ne _ _ hi]; exact hq, hk⟩
    · intro i c hc
      simp only at hc
      have hne : p.ident ≠ i := by rintro rfl; rw [h1] at hc; cases hc
      obtain ⟨q, hq, hk⟩ := h.half i c hc
      exact ⟨q, by simp only [GoMap.get_set_ne _ _ hne]; exact hq, hk⟩
    · intro i c hc hi
      simp only [GoMap.get_set] at hc
      split at hc
      · next hp => subst hp; exact addBook_new hi
      · exact addBook_isSome (h.listed i c hc hi)

theorem finish_inv {me : Nat} {z : Z} (h : Inv me z) (f k : Nat) (fits : Bool) : Inv me (finish me z f k fits) := by
  unfold finish
  split
  · split
    · next key p hk hp =>
      have hid := h.filed _ _ hp
      subst hid
      obtain ⟨q, hq, hqk⟩ := h.half _ _ hk
      rw [hp] at hq
      cases hq
      refine ⟨h.filed, ?_, ?_, ?_, addBook_self h.self, addBook_entry h.entry, h.wf⟩
      · intro i c hc
        simp only [GoMap.get_set] at hc
        split at hc
        · next hi => cases hc; subst hi; exact ⟨p, hp, hqk⟩
        · exact h.full i c hc
      · intro i c hc
        simp only [GoMap.get_del] at hc
        split at hc
        · cases hc
        · exact h.half i c hc
      · intro i c hc hi
        simp only [GoMap.get_set] at hc
        split at hc
        · next hp' => subst hp'; exact addBook_new hi
        · exact addBook_isSome (h.listed i c hc hi)
    · exact h
  · exact h

theorem drop_inv {me : Nat} {z : Z} (h : Inv me z) (i : Nat) :
    Inv me { z with half := z.half.del i, full := z.full.del i } := by
  refine ⟨h.filed, ?_, ?_, ?_, h.self, h.entry, h.wf⟩
  · intro j c hc
    simp only [GoMap.get_del] at hc
    split at hc
    · cases hc
    · exact h.full j c hc
  · intro j c hc
    simp only [GoMap.get_del] at hc
    split at hc
    · cases hc
    · exact h.half j c hc
  · intro j c hc hj
    simp only [GoMap.get_del] at hc
    split at hc
    · cases hc
    · exact h.listed j c hc hj

theorem push_inv {dir : Bool} {me : Nat} {z : Z} (h : Inv me z) (f : Nat) (pl : Payload) : Inv me (push dir me z f pl) := by
  unfold push
  split
  · exact h
  · cases pl with
    | reset k =>
      simp only []
      split
      · exact h
      · exact offer_inv (drop_inv h f) k _
    | idkx k p fits =>
      simp only []
      repeat' split
      all_goals first | exact h | exact answer_inv h _ _
    | idkxDir p fits =>
      simp only []
      repeat' split
      all_goals first | exact h | exact answer_inv h _ _
    | kx k fits =>
      simp only []
      repeat' split
      all_goals first | exact h | exact finish_inv h _ _ _

/-- The book as `loadIdentities` makes it. -/
def bookOf (me : Nat) (files : GoMap Nat Pid) : GoMap Nat Pid := files.foldr (fun e b => addBook me b e.2) []

theorem bookOf_get {me : Nat} {files : GoMap Nat Pid} (hw : GoMap.WF files) (hf : ∀ e ∈ files, e.2.ident = e.1) (i : Nat) :
    (bookOf me files).get i = if i = me then none else files.get i := by
  induction files with
  | nil => simp [bookOf]
  | cons e r ih =>
    obtain ⟨j, p⟩ := e
    have hj : p.ident = j := hf (j, p) (by simp)
    subst hj
    have hw' : GoMap.WF r ∧ p.ident ∉ GoMap.keys r := by
      have hw : (p.ident :: GoMap.keys r).Nodup := hw
      rw [List.nodup_cons] at hw
      exact ⟨hw.2, hw.1⟩
    have ih := ih hw'.1 (fun e he => hf e (List.mem_cons_of_mem _ he))
    show (addBook me (bookOf me r) p).get i = _
    rw [addBook_get, ih, GoMap.get_cons]
    by_cases hi : i = me
    · subst hi; simp
    · rw [if_neg hi, if_neg hi]
      by_cases hp : p.ident = i
      · subst hp
        rw [if_pos ⟨rfl, hi, (GoMap.not_mem_keys_iff _ _).mp hw'.2⟩, if_pos rfl]
      · rw [if_neg (fun h => hp h.1), if_neg hp]

theorem inv_files_mem {me : Nat} {z : Z} (h : Inv me z) : ∀ e ∈ z.files, e.2.ident = e.1 :=
  fun e he => h.filed e.1 e.2 (GoMap.get_of_mem h.wf he)

theorem step_inv {dir : Bool} {me : Nat} {z : Z} (h : Inv me z) (e : Ev) : Inv me (step dir me z e) := by
  cases e with
  | pin k => exact ⟨h.filed, h.full, h.half, h.listed, h.self, h.entry, h.wf⟩
  | fetch k p =>
    simp only [step]
    split
    · exact h
    · exact ⟨h.filed, h.full, h.half, h.listed, h.self, h.entry, h.wf⟩
  | yes =>
    simp only [step]
    split
    · exact h
    · next k p ha =>
      have := offer_inv h k p
      exact ⟨this.filed, this.full, this.half, this.listed, this.self, this.entry, this.wf⟩
  | no => exact ⟨h.filed, h.full, h.half, h.listed, h.self, h.entry, h.wf⟩
  | found k p =>
    exact offer_inv h k p
  | push f pl => exact push_inv h f pl
  | reset i =>
    simp only [step]
    split
    · exact drop_inv h i
    · exact h
  | del i =>
    simp only [step]
    split
    · have h' := drop_inv h i
      refine ⟨?_, ?_, ?_, ?_, ?_, ?_, GoMap.wf_del h.wf _⟩
      · intro j p hp
        simp only [GoMap.get_del] at hp
        split at hp
        · cases hp
        · exact h.filed j p hp
      · intro j c hc
        simp only [GoMap.get_del] at hc
        split at hc
        · cases hc
        · next hi =>
          obtain ⟨q, hq, hk⟩ := h.full j c hc
          exact ⟨q, by simp only [GoMap.get_del_ne _ hi]; exact hq, hk⟩
      · intro j c hc
        simp only [GoMap.get_del] at hc
        split at hc
        · cases hc
        · next hi =>
          obtain ⟨q, hq, hk⟩ := h.half j c hc
          exact ⟨q, by simp only [GoMap.get_del_ne _ hi]; exact hq, hk⟩
      · intro j c hc hj
        simp only [GoMap.get_del] at hc
        split at hc
        · cases hc
        · next hi =>
          simp only [GoMap.get_del_ne _ hi]
          exact h.listed j c hc hj
      · simp only [GoMap.get_del, h.self, ite_self]
      · intro j p hp
        simp only [GoMap.get_del] at hp
        split at hp
        · cases hp
        · exact h.entry j p hp
    · exact h
  | restart =>
    have hb (i : Nat) := bookOf_get (me := me) h.wf (inv_files_mem h) i
    refine ⟨h.filed, h.full, h.half, ?_, ?_, ?_, h.wf⟩
    · intro j c hc hj
      obtain ⟨q, hq, -⟩ := h.full j c hc
      show ((bookOf me z.files).get j).isSome
      rw [hb, if_neg hj, hq]; rfl
    · show (bookOf me z.files).get me = none
      rw [hb, if_pos rfl]
    · intro j p hp
      have hp : (bookOf me z.files).get j = some p := hp
      rw [hb] at hp
      split at hp
      · cases hp
      · exact h.filed j p hp

theorem inv_after (dir : Bool) (me : Nat) (evs : List Ev) : Inv me (after dir me evs) := by
  induction evs using List.reverseRecOn with
  | nil =>
    refine ⟨?_, ?_, ?_, ?_, rfl, ?_, List.nodup_nil⟩ <;> intro i p h <;> cases h
  | append_singleton evs e ih => rw [after_snoc]; exact step_inv ih e

/-! ## C86 -/

/-- A ratchet is always one with the holder of the key that is on file for the identity, and whoever there is a ratchet
with, other than oneself, is in the address book; oneself never is. -/
theorem C86_filed (dir : Bool) (me : Nat) (evs : List Ev) (i : Nat) :
    let z := after dir me evs
    (∀ p, z.files.get i = some p → p.ident = i) ∧
    (∀ k, z.full.get i = some k ∨ z.half.get i = some k → ∃ p, z.files.get i = some p ∧ p.key = k) ∧
    ((z.full.get i).isSome → i ≠ me → (z.book.get i).isSome) ∧
    z.book.get me = none := by
  have h := inv_after dir me evs
  refine ⟨h.filed i, ?_, ?_, h.self⟩
  · intro k hk
    rcases hk with hk | hk
    · exact h.full i k hk
    · exact h.half i k hk
  · intro hf hi
    obtain ⟨k, hk⟩ := Option.isSome_iff_exists.mp hf
    exact h.listed i k hk hi

theorem offer_files {z : Z} {k : Nat} {p : Pid} {i : Nat} (he : z.exists_ i = true) :
    (offer z k p).files.get i = z.files.get i := by
  unfold offer
  split
  · rfl
  · next h =>
    have : p.ident ≠ i := by rintro rfl; exact h he
    simp only [GoMap.get_set_ne _ _ this]

theorem answer_files {me : Nat} {z : Z} {p : Pid} {fits : Bool} {i : Nat} (he : z.exists_ i = true) :
    (answer me z p fits).files.get i = z.files.get i := by
  unfold answer
  split
  · rfl
  · next h =>
    have : p.ident ≠ i := by rintro rfl; exact h (.inr (.inr he))
    simp only [GoMap.get_set_ne _ _ this]

theorem finish_files {me : Nat} {z : Z} {f k : Nat} {fits : Bool} : (finish me z f k fits).files = z.files := by
  unfold finish
  repeat' split
  all_goals rfl

/-- While there is a ratchet with somebody, whole or half, nothing but deleting them changes the key that is on file. -/
theorem C86_stable (dir : Bool) (me : Nat) (evs : List Ev) (e : Ev) (i : Nat)
    (he : (after dir me evs).exists_ i = true) (hd : e ≠ .del i) :
    (after dir me (evs ++ [e])).files.get i = (after dir me evs).files.get i := by
  have hinv := inv_after dir me evs
  rw [after_snoc]
  generalize after dir me evs = z at *
  cases e with
  | pin k => rfl
  | fetch k p => simp only [step]; split <;> rfl
  | yes =>
    simp only [step]
    split
    · rfl
    · exact offer_files he
  | no => rfl
  | found k p =>
    exact offer_files he
  | push f pl =>
    show (push dir me z f pl).files.get i = _
    unfold push
    split
    · rfl
    · cases pl with
      | reset k =>
        simp only []
        split
        · rfl
        · next p hp =>
          have hid := hinv.filed _ _ hp
          subst hid
          unfold offer
          split
          · rfl
          · simp only [GoMap.get_set]
            split
            · next hi => subst hi; exact hp.symm
            · rfl
      | idkx k p fits =>
        simp only []
        repeat' split
        all_goals first | rfl | exact answer_files he
      | idkxDir p fits =>
        simp only []
        repeat' split
        all_goals first | rfl | exact answer_files he
      | kx k fits =>
        simp only []
        repeat' split
        all_goals first | rfl | rw [finish_files]
  | reset j => simp only [step]; split <;> rfl
  | del j =>
    have hj : j ≠ i := by rintro rfl; exact hd rfl
    simp only [step]
    split
    · simp only [GoMap.get_del_ne _ hj]
    · rfl
  | restart => rfl

/-- There is a reason that others have a blob key: a PIN was made with it, it came with a PIN, or somebody asked for a
reset and got it. -/
def Shared (evs : List Ev) (k : Nat) : Prop :=
  .pin k ∈ evs ∨ (∃ p, .fetch k p ∈ evs) ∨ (∃ p, .found k p ∈ evs) ∨ ∃ f, .push f (.reset k) ∈ evs

/-- Why somebody is on file. -/
inductive Came (dir : Bool) (evs : List Ev) (p : Pid) : Prop
  /-- the user was shown the fingerprint, and later said yes -/
  | asked (a b c : List Ev) (k : Nat) (h : evs = a ++ .fetch k p :: b ++ .yes :: c)
  /-- there is no directory, and an offer came under a blob key that the client had given away before -/
  | pin (a c : List Ev) (f k : Nat) (hd : dir = false) (hk : Shared a k) (h : evs = a ++ .push f (.idkx k p true) :: c)
  /-- the server said so, as if it had been asked to look up a name; it need not have a directory -/
  | found (a c : List Ev) (k : Nat) (h : evs = a ++ .found k p :: c)
  /-- there is a directory, and somebody offered it -/
  | offered (a c : List Ev) (f : Nat) (hd : dir = true) (h : evs = a ++ .push f (.idkxDir p true) :: c)

theorem Shared.snoc {evs : List Ev} {k : Nat} (h : Shared evs k) (e : Ev) : Shared (evs ++ [e]) k := by
  rcases h with h | ⟨p, h⟩ | ⟨p, h⟩ | ⟨f, h⟩
  · exact .inl (List.mem_append_left _ h)
  · exact .inr (.inl ⟨p, List.mem_append_left _ h⟩)
  · exact .inr (.inr (.inl ⟨p, List.mem_append_left _ h⟩))
  · exact .inr (.inr (.inr ⟨f, List.mem_append_left _ h⟩))

theorem Came.snoc {dir : Bool} {evs : List Ev} {p : Pid} (h : Came dir evs p) (e : Ev) : Came dir (evs ++ [e]) p := by
  cases h with
  | asked a b c k h => exact .asked a b (c ++ [e]) k (by rw [h]; simp)
  | pin a c f k hd hk h => exact .pin a (c ++ [e]) f k hd hk (by rw [h]; simp)
  | found a c k h => exact .found a (c ++ [e]) k (by rw [h]; simp)
  | offered a c f hd h => exact .offered a (c ++ [e]) f hd (by rw [h]; simp)

structure Origin (dir : Bool) (evs : List Ev) (z : Z) : Prop where
  files : ∀ i p, z.files.get i = some p → Came dir evs p
  keys : ∀ k ∈ z.keys, Shared evs k
  asking : ∀ k p, z.asking = some (k, p) → .fetch k p ∈ evs
  book : ∀ i p, z.book.get i = some p → Came dir evs p

theorem Origin.snoc {dir : Bool} {evs : List Ev} {z : Z} (h : Origin dir evs z) (e : Ev) : Origin dir (evs ++ [e]) z :=
  ⟨fun i p hp => (h.files i p hp).snoc e, fun k hk => (h.keys k hk).snoc e,
    fun k p hp => List.mem_append_left _ (h.asking k p hp), fun i p hp => (h.book i p hp).snoc e⟩

theorem addBook_origin {dir : Bool} {evs : List Ev} {me : Nat} {b : GoMap Nat Pid} {p : Pid}
    (h : ∀ i q, b.get i = some q → Came dir evs q) (hp : Came dir evs p) (i : Nat) (q : Pid)
    (hq : (addBook me b p).get i = some q) : Came dir evs q := by
  rw [addBook_get] at hq
  split at hq
  · cases hq; exact hp
  · exact h i q hq

theorem offer_origin {dir : Bool} {evs : List Ev} {z : Z} {k : Nat} {p : Pid} (h : Origin dir evs z) (hk : Shared evs k)
    (hp : Came dir evs p) : Origin dir evs (offer z k p) := by
  unfold offer
  split
  · exact h
  · refine ⟨?_, ?_, h.asking, h.book⟩
    · intro i q hq
      simp only [GoMap.get_set] at hq
      split at hq
      · cases hq; exact hp
      · exact h.files i q hq
    · intro c hc
      rcases List.mem_append.mp hc with hc | hc
      · exact h.keys c hc
      · rw [List.mem_singleton.mp hc]; exact hk

theorem answer_origin {dir : Bool} {me : Nat} {evs : List Ev} {z : Z} {p : Pid} {fits : Bool} (h : Origin dir evs z)
    (hp : fits = true → Came dir evs p) : Origin dir evs (answer me z p fits) := by
  unfold answer
  split
  · exact h
  · next hn =>
    have hf : fits = true := by
      rcases fits with _ | _
      · exact absurd (.inr (.inl rfl)) hn
      · rfl
    refine ⟨?_, h.keys, h.asking, addBook_origin h.book (hp hf)⟩
    intro i q hq
    simp only [GoMap.get_set] at hq
    split at hq
    · cases hq; exact hp hf
    · exact h.files i q hq

theorem finish_origin {dir : Bool} {me : Nat} {evs : List Ev} {z : Z} {f k : Nat} {fits : Bool} (h : Origin dir evs z) :
    Origin dir evs (finish me z f k fits) := by
  unfold finish
  split
  · split
    · next hp => exact ⟨h.files, h.keys, h.asking, addBook_origin h.book (h.files _ _ hp)⟩
    · exact h
  · exact h

theorem origin_after (dir : Bool) (me : Nat) (evs : List Ev) : Origin dir evs (after dir me evs) := by
  induction evs using List.reverseRecOn with
  | nil =>
    refine ⟨?_, ?_, ?_, ?_⟩ <;> intro i p <;> try intro h
    all_goals first | cases h | cases p
  | append_singleton evs e h0 =>
    have hinv := inv_after dir me evs
    rw [after_snoc]
    generalize after dir me evs = z at *
    have h := h0.snoc e
    have mem : e ∈ evs ++ [e] := by simp
    cases e with
    | pin k =>
      refine ⟨h.files, ?_, h.asking, h.book⟩
      intro c hc
      rcases List.mem_append.mp hc with hc | hc
      · exact h.keys c hc
      · rw [List.mem_singleton.mp hc]; exact .inl mem
    | fetch k p =>
      simp only [step]
      split
      · exact h
      · refine ⟨h.files, h.keys, ?_, h.book⟩
        intro k' p' he
        cases he
        exact mem
    | yes =>
      simp only [step]
      split
      · exact h
      · next k p ha =>
        have hf := h0.asking k p ha
        have := offer_origin (k := k) (p := p) h (.inr (.inl ⟨p, List.mem_append_left _ hf⟩)) (by
          obtain ⟨a, b, hab⟩ := List.append_of_mem hf
          exact .asked a b [] k (by rw [hab]))
        refine ⟨this.files, this.keys, ?_, this.book⟩
        intro k' p' he
        cases he
    | no => exact ⟨h.files, h.keys, (fun _ _ he => by cases he), h.book⟩
    | found k p =>
      exact offer_origin h (.inr (.inr (.inl ⟨p, mem⟩))) (.found evs [] k rfl)
    | push f pl =>
      show Origin dir _ (push dir me z f pl)
      unfold push
      split
      · exact h
      · cases pl with
        | reset k =>
          simp only []
          split
          · exact h
          · next p hp =>
            exact offer_origin (z := { z with half := z.half.del f, full := z.full.del f })
              ⟨h.files, h.keys, h.asking, h.book⟩ (.inr (.inr (.inr ⟨f, mem⟩))) (h.files _ _ hp)
        | idkx k p fits =>
          cases dir with
          | false =>
            simp only []
            split
            · split
              · next hk =>
                refine answer_origin h fun hf => ?_
                subst hf
                exact .pin evs [] f k rfl (h0.keys k hk) rfl
              · exact h
            · split <;> exact h
          | true =>
            simp only []
            split
            · exact h
            · split <;> exact h
        | idkxDir p fits =>
          cases dir with
          | false =>
            simp only []
            split
            · exact h
            · split <;> exact h
          | true =>
            simp only []
            split
            · refine answer_origin h fun hf => ?_
              subst hf
              exact .offered evs [] f rfl rfl
            · split <;> exact h
        | kx k fits =>
          simp only []
          repeat' split
          all_goals first | exact h | exact finish_origin h
    | reset i =>
      simp only [step]
      split
      · exact ⟨h.files, h.keys, h.asking, h.book⟩
      · exact h
    | del i =>
      simp only [step]
      split
      · refine ⟨?_, h.keys, h.asking, ?_⟩
        · intro j p hp
          simp only [GoMap.get_del] at hp
          split at hp
          · cases hp
          · exact h.files j p hp
        · intro j p hp
          simp only [GoMap.get_del] at hp
          split at hp
          · cases hp
          · exact h.book j p hp
      · exact h
    | restart =>
      have hb (i : Nat) := bookOf_get (me := me) hinv.wf (inv_files_mem hinv) i
      refine ⟨h.files, h.keys, (fun _ _ he => by cases he), ?_⟩
      intro i p hp
      have hp : (bookOf me z.files).get i = some p := hp
      rw [hb] at hp
      split at hp
      · cases hp
      · exact h.files i p hp

/-- Whoever is on file or in the address book is there because the user said yes to that fingerprint and key, or because
an offer with them came under a blob key that the client had given away before, or because the server said so. (With a
directory: or because anybody said so.) -/
theorem C86_origin_partial (dir : Bool) (me : Nat) (evs : List Ev) (i : Nat) (p : Pid)
    (h : (after dir me evs).files.get i = some p ∨ (after dir me evs).book.get i = some p) : Came dir evs p := by
  rcases h with h | h
  · exact (origin_after dir me evs).files i p h
  · exact (origin_after dir me evs).book i p h

/-- So if users say yes only to genuine fingerprints, give PINs only to people who send their own identity, and the server
makes up nobody, all that are on file are genuine. `genuine p` says that the identity is the hash of the key. -/
theorem C86_genuine_partial (genuine : Pid → Prop) (me : Nat) (evs : List Ev)
    (hy : ∀ a b c k p, evs = a ++ .fetch k p :: b ++ .yes :: c → genuine p)
    (hp : ∀ a c f k p, evs = a ++ .push f (.idkx k p true) :: c → Shared a k → genuine p)
    (hf : ∀ k p, .found k p ∈ evs → genuine p) (i : Nat) (p : Pid)
    (h : (after false me evs).files.get i = some p ∨ (after false me evs).book.get i = some p) : genuine p := by
  cases C86_origin_partial false me evs i p h with
  | asked a b c k h => exact hy a b c k p h
  | pin a c f k hd hk h => exact hp a c f k p h hk
  | found a c k h => exact hf k p (by rw [h]; simp)
  | offered a c f hd h => cases hd

/-- Whatever happened before, if nobody was given a PIN then a message puts nobody on file. -/
theorem C86_needs_pin (me : Nat) (evs : List Ev) (h : ∀ k, ¬ Shared evs k) (f : Nat) (pl : Payload) :
    (after false me (evs ++ [.push f pl])).files = (after false me evs).files := by
  have hk : (after false me evs).keys = [] := by
    rcases hx : (after false me evs).keys with _ | ⟨k, r⟩
    · rfl
    · exact absurd ((origin_after false me evs).keys k (by rw [hx]; simp)) (h k)
  have hf : (after false me evs).files = [] := by
    rcases hx : (after false me evs).files with _ | ⟨⟨i, p⟩, r⟩
    · rfl
    · have : (after false me evs).files.get i = some p := by rw [hx]; exact if_pos rfl
      cases (origin_after false me evs).files i p this with
      | asked a b c k h' => exact absurd (.inr (.inl ⟨p, by rw [h']; simp⟩)) (h k)
      | pin a c f k hd hk' h' =>
        refine absurd ?_ (h k)
        rcases hk' with hk' | ⟨p, hk'⟩ | ⟨p, hk'⟩ | ⟨f, hk'⟩
        · exact .inl (by rw [h']; exact List.mem_append_left _ hk')
        · exact .inr (.inl ⟨p, by rw [h']; exact List.mem_append_left _ hk'⟩)
        · exact .inr (.inr (.inl ⟨p, by rw [h']; exact List.mem_append_left _ hk'⟩))
        · exact .inr (.inr (.inr ⟨f, by rw [h']; exact List.mem_append_left _ hk'⟩))
      | found a c k h' => exact absurd (.inr (.inr (.inl ⟨p, by rw [h']; simp⟩))) (h k)
      | offered a c f hd h' => cases hd
  rw [after_snoc]
  generalize after false me evs = z at *
  show (push false me z f pl).files = _
  unfold push
  split
  · rfl
  · cases pl with
    | reset k => simp [hf]
    | idkx k p fits => simp [hk]
    | idkxDir p fits => simp
    | kx k fits =>
      simp only []
      repeat' split
      all_goals first | rfl | rw [finish_files]

/-- A ratchet comes about in two ways: with an offer; or with an answer of somebody who is on file with a half ratchet,
that is sealed under a blob key that was given away before, and completes the exchange. -/
theorem C86_ratchet (dir : Bool) (me : Nat) (evs : List Ev) (e : Ev) (i : Nat)
    (h0 : (after dir me evs).full.get i = none) (h1 : (after dir me (evs ++ [e])).full.get i ≠ none) :
    (∃ f k p, p.ident = i ∧ i ≠ me ∧ (e = .push f (.idkx k p true) ∧ Shared evs k ∨ e = .push f (.idkxDir p true))) ∨
    ∃ k, e = .push i (.kx k true) ∧ Shared evs k ∧ ((after dir me evs).half.get i).isSome = true := by
  have ho := origin_after dir me evs
  have hinv := inv_after dir me evs
  rw [after_snoc] at h1
  generalize after dir me evs = z at *
  have offer_full (z : Z) (k : Nat) (p : Pid) : (offer z k p).full = z.full := by unfold offer; split <;> rfl
  have answer_full {p : Pid} {fits : Bool} (h : (answer me z p fits).full.get i ≠ none) :
      p.ident = i ∧ i ≠ me ∧ fits = true := by
    unfold answer at h
    split at h
    · exact absurd h0 h
    · next hn =>
      simp only [not_or, Bool.not_eq_false] at hn
      simp only [GoMap.get_set] at h
      split at h
      · next hp => subst hp; exact ⟨rfl, hn.1, hn.2.1⟩
      · exact absurd h0 h
  cases e with
  | pin k => exact absurd h0 h1
  | fetch k p => simp only [step] at h1; split at h1 <;> exact absurd h0 h1
  | yes =>
    simp only [step] at h1
    split at h1
    · exact absurd h0 h1
    · rw [offer_full] at h1; exact absurd h0 h1
  | no => exact absurd h0 h1
  | found k p =>
    simp only [step] at h1
    rw [offer_full] at h1; exact absurd h0 h1
  | push f pl =>
    change (push dir me z f pl).full.get i ≠ none at h1
    unfold push at h1
    split at h1
    · exact absurd h0 h1
    · cases pl with
      | reset k =>
        simp only [] at h1
        split at h1
        · exact absurd h0 h1
        · rw [offer_full] at h1
          simp only [GoMap.get_del, h0, ite_self, ne_eq, not_true] at h1
      | idkx k p fits =>
        cases dir with
        | false =>
          simp only [] at h1
          split at h1
          · split at h1
            · next hk =>
              obtain ⟨a1, a2, rfl⟩ := answer_full h1
              exact .inl ⟨f, k, p, a1, a2, .inl ⟨rfl, ho.keys _ hk⟩⟩
            · exact absurd h0 h1
          · split at h1 <;> exact absurd h0 h1
        | true =>
          simp only [] at h1
          split at h1
          · exact absurd h0 h1
          · split at h1 <;> exact absurd h0 h1
      | idkxDir p fits =>
        cases dir with
        | false =>
          simp only [] at h1
          split at h1
          · exact absurd h0 h1
          · split at h1 <;> exact absurd h0 h1
        | true =>
          simp only [] at h1
          split at h1
          · obtain ⟨a1, a2, rfl⟩ := answer_full h1
            exact .inl ⟨f, 0, p, a1, a2, .inr rfl⟩
          · split at h1 <;> exact absurd h0 h1
      | kx k fits =>
        simp only [] at h1
        repeat' split at h1
        all_goals first | exact absurd h0 h1 | skip
        all_goals
          unfold finish at h1
          split at h1
          · next hk =>
            split at h1
            · next key p hh hp =>
              have hid := hinv.filed _ _ hp
              subst hid
              simp only [GoMap.get_set] at h1
              split at h1
              · next hi =>
                subst hi
                obtain ⟨hk, rfl⟩ := hk
                exact .inr ⟨k, rfl, ho.keys k hk, by rw [hh]; rfl⟩
              · exact absurd h0 h1
            · exact absurd h0 h1
          · exact absurd h0 h1
  | reset j =>
    simp only [step] at h1
    split at h1
    · simp only [GoMap.get_del, h0, ite_self, ne_eq, not_true] at h1
    · exact absurd h0 h1
  | del j =>
    simp only [step] at h1
    split at h1
    · simp only [GoMap.get_del, h0, ite_self, ne_eq, not_true] at h1
    · exact absurd h0 h1
  | restart => exact absurd h0 h1

/-! ## Violations -/

theorem push_pin {me : Nat} {z : Z} {f k : Nat} {p : Pid} (hf : f ≠ 0) (hfx : z.exists_ f = false) (hk : k ∈ z.keys)
    (hp : z.exists_ p.ident = false) (hme : p.ident ≠ me) :
    push false me z f (.idkx k p true) =
      { z with files := z.files.set p.ident p, full := z.full.set p.ident p.key, book := addBook me z.book p } := by
  simp [push, hf, hfx, hk, answer, hme, hp]

/-- Whoever has a PIN can put anybody into the address book, with any key: neither is the sender compared with the
identity, nor the identity with the key. Whatever happened before. -/
theorem C86_claim_violated (me : Nat) (evs : List Ev) (f k : Nat) (p : Pid) (hf : f ≠ 0)
    (hfx : (after false me evs).exists_ f = false) (hp : (after false me evs).exists_ p.ident = false) (hme : p.ident ≠ me) :
    let z := after false me (evs ++ [.pin k, .push f (.idkx k p true)])
    z.files.get p.ident = some p ∧ z.full.get p.ident = some p.key ∧ (z.book.get p.ident).isSome := by
  have : evs ++ [Ev.pin k, .push f (.idkx k p true)] = (evs ++ [.pin k]) ++ [.push f (.idkx k p true)] := by simp
  simp only [this, after_snoc]
  show (push false me (step false me (after false me evs) (.pin k)) f _).files.get _ = _ ∧ _
  have h := push_pin (me := me) (z := step false me (after false me evs) (.pin k)) (f := f) (k := k) (p := p) hf hfx
    (by simp [step]) hp hme
  simp only [step] at h ⊢
  simp only [h]
  exact ⟨GoMap.get_set_self .., GoMap.get_set_self .., addBook_new hme⟩

/-- A PIN is not used up: under one, two strangers are put into the address book. -/
theorem C86_reuse_violated :
    let z := after false 1 [.pin 7, .push 5 (.idkx 7 ⟨5, 50⟩ true), .push 6 (.idkx 7 ⟨6, 60⟩ true)]
    z.full.get 5 = some 50 ∧ z.full.get 6 = some 60 := by decide +kernel

/-- After a reset, on either side, somebody else who has a PIN takes the place of a contact: messages to 5 are then
encrypted for the holder of another key. The address book shows the old key until the next start, and the new one after. -/
theorem C86_replace_violated :
    let evs : List Ev := [.pin 7, .push 5 (.idkx 7 ⟨5, 50⟩ true), .pin 8, .reset 5, .push 6 (.idkx 8 ⟨5, 66⟩ true)]
    (after false 1 (evs.take 3)).full.get 5 = some 50 ∧ (after false 1 evs).full.get 5 = some 66 ∧
      (after false 1 evs).book.get 5 = some ⟨5, 50⟩ ∧ (after false 1 (evs ++ [.restart])).book.get 5 = some ⟨5, 66⟩ := by
  decide +kernel

/-- With a directory nobody needs a PIN, and the user is not asked: anybody whom the client does not know puts any other
identity into the address book, with any key. -/
theorem C86_anyone_violated (me : Nat) (evs : List Ev) (f : Nat) (p : Pid) (hf : f ≠ 0)
    (hfx : (after true me evs).exists_ f = false) (hp : (after true me evs).exists_ p.ident = false) (hme : p.ident ≠ me) :
    let z := after true me (evs ++ [.push f (.idkxDir p true)])
    z.files.get p.ident = some p ∧ z.full.get p.ident = some p.key ∧ (z.book.get p.ident).isSome := by
  simp only [after_snoc]
  have h : step true me (after true me evs) (.push f (.idkxDir p true)) = answer me (after true me evs) p true := by
    simp [step, push, hf, hfx]
  simp only [h, answer, hme, hp, false_or, Bool.true_eq_false, Bool.false_eq_true, if_false]
  exact ⟨GoMap.get_set_self .., GoMap.get_set_self .., addBook_new hme⟩

/-- What the server answers is taken, whether or not it was asked, whether or not it has a directory, and for any
identity. -/
theorem C86_found_violated (dir : Bool) (me : Nat) (evs : List Ev) (k : Nat) (p : Pid)
    (hp : (after dir me evs).exists_ p.ident = false) :
    let z := after dir me (evs ++ [.found k p])
    z.files.get p.ident = some p ∧ z.half.get p.ident = some p.key := by
  simp only [after_snoc]
  have h : step dir me (after dir me evs) (.found k p) = offer (after dir me evs) k p := by simp [step]
  simp only [h, offer, hp, Bool.false_eq_true, if_false]
  exact ⟨GoMap.get_set_self .., GoMap.get_set_self ..⟩

/-- Whom the user said yes to, and who has not answered, is not in the address book, but is after the next start, though
there is no ratchet. -/
theorem C86_restart_violated :
    let evs : List Ev := [.fetch 7 ⟨5, 50⟩, .yes]
    (after false 1 evs).book.get 5 = none ∧ (after false 1 (evs ++ [.restart])).book.get 5 = some ⟨5, 50⟩ ∧
      (after false 1 (evs ++ [.restart])).full.get 5 = none := by decide +kernel

/-! ## Examples -/

/-- The usual way, from either side. -/
example : let z := after false 1 [.pin 7, .push 5 (.idkx 7 ⟨5, 50⟩ true), .fetch 8 ⟨6, 60⟩, .yes, .push 6 (.kx 8 true)]
    z.full.get 5 = some 50 ∧ z.full.get 6 = some 60 ∧ z.book.get 5 = some ⟨5, 50⟩ ∧ z.book.get 6 = some ⟨6, 60⟩ ∧
      z.exists_ 5 = true := by decide +kernel

/-- Both ways of `C86_ratchet`. -/
example : (after false 1 [.fetch 8 ⟨6, 60⟩, .yes]).full.get 6 = none ∧
    (after false 1 [.fetch 8 ⟨6, 60⟩, .yes, .push 6 (.kx 8 true)]).full.get 6 ≠ none ∧
    (after false 1 [.pin 7, .push 5 (.idkx 7 ⟨5, 50⟩ true)]).full.get 5 ≠ none := by decide +kernel

/-- An offer under a key that was not given away, or for somebody there is a ratchet with, does nothing. -/
example : (after false 1 [.pin 7, .push 5 (.idkx 8 ⟨5, 50⟩ true)]).files.get 5 = none ∧
    (after false 1 [.pin 7, .push 5 (.idkx 7 ⟨5, 50⟩ true), .push 6 (.idkx 7 ⟨5, 66⟩ true)]).full.get 5 = some 50 := by
  decide +kernel

/-- A server that says it has no directory puts somebody into the address book, with a ratchet, and nobody was asked. -/
theorem C86_server_violated :
    let z := after false 1 [.found 7 ⟨5, 50⟩, .push 5 (.kx 7 true)]
    z.book.get 5 = some ⟨5, 50⟩ ∧ z.full.get 5 = some 50 := by decide +kernel

/-- The hypotheses of `C86_genuine_partial` hold of this. -/
example : let evs : List Ev := [.pin 7, .push 5 (.idkx 7 ⟨5, 50⟩ true)]
    (after false 1 evs).files.get 5 = some ⟨5, 50⟩ ∧ (∀ a c f k p, evs = a ++ .push f (.idkx k p true) :: c → Shared a k → p.key = 10 * p.ident) ∧
      ∀ k p, .found k p ∉ evs := by
  refine ⟨by decide +kernel, ?_, by simp⟩
  intro a c f k p h _
  have : Ev.push f (.idkx k p true) ∈ [Ev.pin 7, .push 5 (.idkx 7 ⟨5, 50⟩ true)] := by rw [h]; simp
  simp only [List.mem_cons, reduceCtorEq, Ev.push.injEq, Payload.idkx.injEq, false_or, List.not_mem_nil, or_false] at this
  obtain ⟨-, -, rfl, -⟩ := this
  rfl

end Verif.Intro
