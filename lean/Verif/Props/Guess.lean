import Verif.Model.Guess
import Verif.Props.Rendezvous
import Verif.Props.Blob
import Mathlib.Data.Fintype.BigOperators
import Mathlib.Algebra.Order.BigOperators.Group.Finset
import Mathlib.Combinatorics.Enumerative.DoubleCounting

/-! # C138: what is left under a PIN is for those who were told it -/

namespace Verif.Guess

open Verif Rendezvous

/-! ## Few questions find little -/

/-- **C138** An answer to any other question does not depend on what is left under a PIN. -/
theorem C138_blind (limit : Nat) (db : DB) (pin record token : Bytes) (h : token ≠ pin) :
    pull limit (db.set pin record) token = pull limit db token := by
  simp only [pull, GoMap.get_set_ne db record (Ne.symm h)]

/-- The answers when nothing is there besides. -/
def blind (limit : Nat) (ask : Strategy) (dbs : Nat → DB) : Nat → List Out
  | 0 => []
  | i + 1 => blind limit ask dbs i ++ [pull limit (dbs i) (ask (blind limit ask dbs i))]

theorem answers_blind {limit : Nat} {ask : Strategy} {dbs : Nat → DB} {pin record : Bytes} {i : Nat}
    (h : ∀ j < i, ask (answers limit ask dbs pin record j) ≠ pin) :
    answers limit ask dbs pin record i = blind limit ask dbs i := by
  induction i with
  | zero => rfl
  | succ i ih =>
    have h1 := ih fun j hj => h j (Nat.lt_succ_of_lt hj)
    have h2 := h i (Nat.lt_succ_self i)
    rw [answers, blind]
    rw [C138_blind limit (dbs i) pin record _ h2, h1]

/-- Who finds a PIN finds it with a question that they would also have asked if it were not there. -/
theorem found_blind {limit : Nat} {ask : Strategy} {dbs : Nat → DB} {pin record : Bytes} {k : Nat}
    (h : Found limit ask dbs pin record k) : ∃ i, i < k ∧ ask (blind limit ask dbs i) = pin := by
  induction k with
  | zero => obtain ⟨i, hi, _⟩ := h; exact absurd hi (Nat.not_lt_zero i)
  | succ k ih =>
    by_cases hk : Found limit ask dbs pin record k
    · obtain ⟨i, hi, h1⟩ := ih hk
      exact ⟨i, Nat.lt_succ_of_lt hi, h1⟩
    · obtain ⟨i, hi, h1⟩ := h
      have h2 : i = k := by
        rcases Nat.lt_succ_iff_lt_or_eq.1 hi with h3 | h3
        · exact absurd ⟨i, h3, h1⟩ hk
        · exact h3
      subst h2
      refine ⟨i, Nat.lt_succ_self i, ?_⟩
      rw [answers_blind fun j hj he => hk ⟨j, hj, he⟩] at h1
      exact h1

open Classical in
/-- **C138** (partial: for as many questions as somebody asks.) Whatever is asked, with regard to the answers, and whatever
others leave there in the meantime: of all PINs no more are found than questions are asked. -/
theorem C138_guesses_partial (limit : Nat) (ask : Strategy) (dbs : Nat → DB) (record : Bytes) (k : Nat) :
    ((Finset.range 1000000).filter fun n => Found limit ask dbs (format n) record k).card ≤ k := by
  have h : ((Finset.range 1000000).filter fun n => Found limit ask dbs (format n) record k).card ≤ (Finset.range k).card := by
    refine Finset.card_le_card_of_forall_subsingleton (fun n i => ask (blind limit ask dbs i) = format n) ?_ ?_
    · intro n hn
      obtain ⟨i, hi, h1⟩ := found_blind (Finset.mem_filter.1 hn).2
      exact ⟨i, Finset.mem_range.2 hi, h1⟩
    · intro i _ a ha b hb
      exact format_injective (Finset.mem_range.1 (Finset.mem_filter.1 ha.1).1)
        (Finset.mem_range.1 (Finset.mem_filter.1 hb.1).1) (ha.2.symm.trans hb.2)
  rwa [Finset.card_range] at h

/-- **C138** PINs are drawn almost evenly: of the numbers of 64 bits, each PIN comes of 18446744073709 or one more. -/
theorem C138_even (n : Nat) (hn : n < 1000000) :
    let c := ((Finset.range (2 ^ 64)).filter fun x => x % 1000000 = n).card
    c = 18446744073709 ∨ c = 18446744073710 := by
  intro c
  have key : c = if n < 551616 then 18446744073710 else 18446744073709 := by
    have h1 : (Finset.range (2 ^ 64)).filter (fun x => x % 1000000 = n) =
        (Finset.range (if n < 551616 then 18446744073710 else 18446744073709)).image fun q => 1000000 * q + n := by
      ext x
      simp only [Finset.mem_filter, Finset.mem_range, Finset.mem_image]
      constructor
      · rintro ⟨h2, h3⟩
        refine ⟨x / 1000000, ?_, by omega⟩
        split <;> omega
      · rintro ⟨q, h2, rfl⟩
        split at h2 <;> exact ⟨by omega, by omega⟩
    show Finset.card _ = _
    rw [h1, Finset.card_image_of_injective, Finset.card_range]
    intro a b hab
    simp only at hab
    omega
  rw [key]
  split
  · exact .inr rfl
  · exact .inl rfl

open Classical in
/-- **C138** (partial, in the same sense.) If the number is drawn evenly, the chance to find the PIN with `k` questions is at
most `k` in 999999: so many of the numbers of 64 bits give a PIN that is found. -/
theorem C138_chance_partial (limit : Nat) (ask : Strategy) (dbs : Nat → DB) (record : Bytes) (k : Nat) :
    999999 * ((Finset.range (2 ^ 64)).filter fun x => Found limit ask dbs (format (x % 1000000)) record k).card ≤
      k * 2 ^ 64 := by
  have h1 : ((Finset.range (2 ^ 64)).filter fun x => Found limit ask dbs (format (x % 1000000)) record k) ⊆
      ((Finset.range 1000000).filter fun n => Found limit ask dbs (format n) record k).biUnion
        fun n => (Finset.range (2 ^ 64)).filter fun x => x % 1000000 = n := by
    intro x hx
    have hm : x % 1000000 < 1000000 := Nat.mod_lt _ (Nat.succ_pos _)
    generalize 2 ^ 64 = m at hx ⊢
    generalize 1000000 = d at hx hm ⊢
    simp only [Finset.mem_biUnion, Finset.mem_filter, Finset.mem_range] at hx ⊢
    exact ⟨x % d, ⟨hm, hx.2⟩, hx.1, rfl⟩
  have h2 := Finset.card_le_card h1
  have h3 := Finset.card_biUnion_le_card_mul
    ((Finset.range 1000000).filter fun n => Found limit ask dbs (format n) record k)
    (fun n => (Finset.range (2 ^ 64)).filter fun x => x % 1000000 = n) 18446744073710 (by
      intro n hn
      rcases C138_even n (Finset.mem_range.1 (Finset.mem_filter.1 hn).1) with h | h
      · exact Nat.le_trans (Nat.le_of_eq h) (by decide)
      · exact Nat.le_of_eq h)
  have h4 := C138_guesses_partial limit ask dbs record k
  have h5 := Nat.mul_le_mul_right 18446744073710 h4
  have h6 : ((Finset.range (2 ^ 64)).filter fun x => Found limit ask dbs (format (x % 1000000)) record k).card ≤
      k * 18446744073710 := Nat.le_trans h2 (Nat.le_trans h3 h5)
  omega

/-! ## A million questions find everything -/

theorem inTurn_answers (limit : Nat) (dbs : Nat → DB) (pin record : Bytes) (i : Nat) :
    (answers limit inTurn dbs pin record i).length = i := by
  induction i with
  | zero => rfl
  | succ i ih => simp only [answers, List.length_append, List.length_singleton, ih]

/-- **C138** Violated: with a million questions every PIN is found. -/
theorem C138_found_violated (limit : Nat) (dbs : Nat → DB) (record : Bytes) (n : Nat) (hn : n < 1000000) :
    Found limit inTurn dbs (format n) record 1000000 :=
  ⟨n, hn, by rw [inTurn, inTurn_answers]⟩

theorem run_pulls (limit : Nat) (s : State) (ts : List Bytes) :
    ∃ s', Run limit (fun _ _ => True) s (ts.map fun t => (.pull t, pull limit (s.file.getD []) t)) s' ∧
      s'.file.getD [] = s.file.getD [] ∧ s'.calls = s.calls ∧ s'.saving = s.saving := by
  induction ts generalizing s with
  | nil => exact ⟨s, .nil _, rfl, rfl, rfl⟩
  | cons t ts ih =>
    obtain ⟨s', h1, h2, h3, h4⟩ := ih { s with file := some (s.file.getD []) }
    exact ⟨s', .cons trivial rfl h1, h2, h3, h4⟩

/-- **C138** Violated: the server answers a million questions of anybody at any time; they get everything that was ever left
with it, whether it was meant for them, was already fetched, or has expired; and nothing in the file tells of it
afterwards. -/
theorem C138_everything_violated (limit : Nat) (s : State) :
    ∃ (tr : List (Ev × Out)) (s' : State), Run limit (fun _ _ => True) s tr s' ∧ tr.length = 1000000 ∧
      (∀ e ∈ tr, ∃ t, e.1 = .pull t) ∧
      (∀ t blob exp, IsPin t → Decoded limit blob exp → (s.file.getD []).get t = some (record blob exp) →
        (Ev.pull t, Out.blob t blob) ∈ tr) ∧
      s'.file.getD [] = s.file.getD [] ∧ s'.calls = s.calls ∧ s'.saving = s.saving := by
  obtain ⟨s', h1, h2, h3, h4⟩ := run_pulls limit s ((List.range 1000000).map format)
  refine ⟨_, s', h1, ?_, ?_, ?_, h2, h3, h4⟩
  · rw [List.length_map, List.length_map, List.length_range]
  · intro e he
    obtain ⟨t, _, rfl⟩ := List.mem_map.1 he
    exact ⟨t, rfl⟩
  · rintro t blob exp ⟨n, hn, rfl⟩ hd hg
    rw [List.map_map]
    refine List.mem_map.2 ⟨n, List.mem_range.2 hn, ?_⟩
    simp only [Function.comp_apply]
    rw [pull_record hd hg]

/-! ## The password -/

/-- **C138** (partial: the password has to be a good one.) What was fetched stays closed to passwords that give another key
and for which nobody forges. -/
theorem C138_closed_partial (B : Session.SecretBox Bytes) (scrypt : Bytes → Bytes → Bytes)
    (password salt nonce data : Bytes) (hs : salt.length = 32) (hn : nonce.length = 24) (tried : List Bytes)
    (hA : ∀ pw ∈ tried, Blob.NotForged B [] (scrypt pw salt) (B.sealB (scrypt password salt) nonce data)) :
    tryAll B scrypt (Blob.share B scrypt password salt nonce data) tried = none := by
  induction tried with
  | nil => rfl
  | cons pw rest ih =>
    have h1 : Blob.unshare B scrypt pw (Blob.share B scrypt password salt nonce data) = .err () := by
      unfold Blob.unshare Blob.share Blob.newKey
      simp only [Blob.encrypt]
      rw [(Blob.C21_roundtrip salt nonce _ hs hn).1]
      have := Blob.C22_wrong_key B (scrypt password salt) (scrypt pw salt) nonce data nonce
        (hA pw (List.mem_cons_self ..))
      simp only [Blob.encrypt] at this
      simp only [Blob.deriveKey, this]
    rw [tryAll, h1]
    exact ih fun p hp => hA p (List.mem_cons_of_mem _ hp)

/-- **C138** Violated: what was fetched can be tried on any number of passwords without asking anybody. A list that has the
right one in it opens it. -/
theorem C138_offline_violated (B : Session.SecretBox Bytes) (scrypt : Bytes → Bytes → Bytes)
    (password salt nonce data : Bytes) (hs : salt.length = 32) (hn : nonce.length = 24) (before after : List Bytes)
    (hA : ∀ pw ∈ before, Blob.NotForged B [] (scrypt pw salt) (B.sealB (scrypt password salt) nonce data)) :
    tryAll B scrypt (Blob.share B scrypt password salt nonce data) (before ++ password :: after) =
      some (password, data) := by
  induction before with
  | nil =>
    rw [List.nil_append, tryAll, Blob.C22_roundtrip B scrypt password salt nonce data hs hn]
  | cons pw rest ih =>
    have h1 := C138_closed_partial B scrypt password salt nonce data hs hn [pw]
      (fun p hp => hA p (by rw [List.mem_singleton.1 hp]; exact List.mem_cons_self ..))
    rw [List.cons_append, tryAll]
    rw [tryAll] at h1
    split
    · rename_i d hd
      rw [hd] at h1
      cases h1
    · exact ih fun p hp => hA p (List.mem_cons_of_mem _ hp)

/-- **C138** Violated: the client leaves its identity with the server also under no password at all. -/
theorem C138_empty_violated (w : Dialogs.World) (s : Dialogs.State) (hf : s.focus = .kx) (ho : s.online = true)
    (ht : s.kxText = []) : Dialogs.Out.blob [] ∈ (Dialogs.step w s (.key .enter .none)).out := by
  simp [Dialogs.step, hf, Dialogs.kxKey, ho, ht]

/-! ## Instances -/

/-- Three questions of a strategy that looks at the answers, and a PIN that they find. -/
example : Found 0 inTurn (fun _ => []) [50] [1] 3 ∧ ¬ Found 0 inTurn (fun _ => []) [51] [1] 3 := by
  refine ⟨⟨2, by decide, by rw [inTurn, inTurn_answers]; decide⟩, ?_⟩
  rintro ⟨i, hi, h⟩
  rw [inTurn, inTurn_answers] at h
  have : i = 0 ∨ i = 1 ∨ i = 2 := by omega
  rcases this with rfl | rfl | rfl <;> exact absurd h (by decide)

/-- What is found is the blob. -/
example : answers 0 inTurn (fun _ => []) [50] (record [7, 8] [49]) 3 = [.notFound, .notFound, .blob [50] [7, 8]] := by
  decide +kernel

end Verif.Guess
