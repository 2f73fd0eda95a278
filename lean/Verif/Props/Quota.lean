import Verif.Props.Rendezvous
import Verif.Props.Accounts
import Mathlib.Data.List.Perm.Subperm

/-! # What one user can use up for all: C129

On the models of rendezvous (`Verif.Model.Rendezvous`) and of accounts (`Verif.Model.Accounts`). -/

namespace Verif.Quota

open Verif Verif.Rendezvous

/-! ## How much is kept for rendezvous -/

/-- The number of PINs that were issued. -/
def issued (es : List (Ev × Out)) : Nat := es.countP fun x => match x.2 with | .pin _ => true | _ => false

theorem issued_snoc (es : List (Ev × Out)) (x : Ev × Out) : issued es ≤ issued (es ++ [x]) := by
  unfold issued
  rw [List.countP_append]
  omega

/-- A database as it may be after `n` PINs were issued: one record for each of some of these PINs, made from what was received. -/
structure Kept (limit n : Nat) (db : DB) : Prop where
  wf : GoMap.WF db
  pins : ∀ k v, (k, v) ∈ db → IsPin k
  recs : ∀ k v, (k, v) ∈ db → ∃ b x, v = record b x ∧ Acceptable b x ∧ Decoded limit b x
  few : db.length ≤ n

theorem Kept.mono {limit m n : Nat} {db : DB} (h : Kept limit m db) (hn : m ≤ n) : Kept limit n db :=
  ⟨h.wf, h.pins, h.recs, by have := h.few; omega⟩

theorem kept_nil (limit n : Nat) : Kept limit n [] :=
  ⟨GoMap.wf_nil, by simp, by simp, by simp⟩

structure KInv (limit : Nat) (n : Nat) (s : State) : Prop where
  file : Kept limit n (s.file.getD [])
  calls : ∀ c ∈ s.calls, Kept limit n c.snap ∧ Decoded limit c.blob c.exp
  saving : ∀ db ∈ s.saving, Kept limit n db

theorem answer_cases (c : Call) (rand : Nat → Option Nat) : answer c rand = (.failed, none) ∨
    Acceptable c.blob c.exp ∧ ∃ t, c.snap.get t = none ∧ IsPin t ∧
      answer c rand = (.pin t, some (c.snap.set t (record c.blob c.exp))) := by
  by_cases ha : Acceptable c.blob c.exp
  · have hr : ¬ refused c.blob c.exp = true := fun e => (refused_iff _ _).1 e ha
    rw [answer, if_neg hr]
    rcases hp : pick c.snap rand 25 0 with _ | t
    · exact .inl rfl
    · exact .inr ⟨ha, t, (pick_fresh hp).1, (pick_fresh hp).2, rfl⟩
  · exact .inl (C41_refused c rand ha)

theorem kept_set {limit n : Nat} {db : DB} {t b x : Bytes} (h : Kept limit n db) (ht : db.get t = none) (hp : IsPin t)
    (ha : Acceptable b x) (hd : Decoded limit b x) : Kept limit (n + 1) (db.set t (record b x)) := by
  refine ⟨GoMap.wf_set h.wf _ _, ?_, ?_, ?_⟩
  · intro k v hk
    rw [GoMap.set, GoMap.del_of_not_mem ht] at hk
    rcases List.mem_cons.1 hk with e | hk
    · cases e; exact hp
    · exact h.pins k v hk
  · intro k v hk
    rw [GoMap.set, GoMap.del_of_not_mem ht] at hk
    rcases List.mem_cons.1 hk with e | hk
    · cases e; exact ⟨b, x, rfl, ha, hd⟩
    · exact h.recs k v hk
  · rw [GoMap.set, GoMap.del_of_not_mem ht, List.length_cons]
    have := h.few
    omega

theorem kinv_run {limit : Nat} {es : List (Ev × Out)} {s : State} (hr : Run limit (Received limit) init es s) :
    KInv limit (issued es) s := by
  refine run_induct (fun es s => KInv limit (issued es) s) ⟨kept_nil _ _, by simp [init], by simp [init]⟩ ?_ hr
  clear hr
  rintro es s e o s' - hi hg hs
  have hm := issued_snoc es (e, o)
  have hfile : Kept limit (issued (es ++ [(e, o)])) (s.file.getD []) := hi.file.mono hm
  have hcalls : ∀ c ∈ s.calls, Kept limit (issued (es ++ [(e, o)])) c.snap ∧ Decoded limit c.blob c.exp :=
    fun c hc => ⟨(hi.calls c hc).1.mono hm, (hi.calls c hc).2⟩
  have hsaving : ∀ db ∈ s.saving, Kept limit (issued (es ++ [(e, o)])) db := fun db h => (hi.saving db h).mono hm
  cases e with
  | begin blob exp =>
    simp only [step, Option.some.injEq, Prod.mk.injEq] at hs
    obtain ⟨rfl, rfl⟩ := hs
    refine ⟨hfile, ?_, hsaving⟩
    intro c hc
    rcases List.mem_cons.1 hc with rfl | hc
    · exact ⟨hfile, hg⟩
    · exact hcalls c hc
  | reply c rand =>
    simp only [step] at hs
    split at hs
    · next hc =>
      rcases answer_cases c rand with ha | ⟨hacc, t, h1, h2, ha⟩
      · rw [ha] at hs
        simp only [Option.some.injEq, Prod.mk.injEq] at hs
        obtain ⟨rfl, rfl⟩ := hs
        exact ⟨hfile, fun c' h => hcalls c' (List.mem_of_mem_erase h), hsaving⟩
      · rw [ha] at hs
        simp only [Option.some.injEq, Prod.mk.injEq] at hs
        obtain ⟨rfl, rfl⟩ := hs
        refine ⟨hfile, fun c' h => hcalls c' (List.mem_of_mem_erase h), ?_⟩
        intro db hdb
        rcases List.mem_cons.1 hdb with rfl | hdb
        · have hk := kept_set (hi.calls c hc).1 h1 h2 hacc (hi.calls c hc).2
          have hn : issued (es ++ [(Ev.reply c rand, Out.pin t)]) = issued es + 1 := by
            simp [issued, List.countP_append]
          rw [hn]
          exact hk
        · exact hsaving db hdb
    · cases hs
  | save db sv =>
    simp only [step] at hs
    split at hs
    · next hd =>
      simp only [Option.some.injEq, Prod.mk.injEq] at hs
      obtain ⟨rfl, rfl⟩ := hs
      refine ⟨?_, hcalls, fun d h => hsaving d (List.mem_of_mem_erase h)⟩
      cases sv with
      | ok => exact hsaving db hd
      | fail => exact hfile
      | lost => exact kept_nil _ _
    · cases hs
  | pull t =>
    simp only [step, Option.some.injEq, Prod.mk.injEq] at hs
    obtain ⟨_, rfl⟩ := hs
    exact ⟨hfile, hcalls, hsaving⟩
  | tick h =>
    simp only [step, Option.some.injEq, Prod.mk.injEq] at hs
    obtain ⟨_, rfl⟩ := hs
    exact ⟨hfile, hcalls, hsaving⟩

/-- All PINs. -/
def allPins : List Bytes := (List.range 1000000).map format

/-- **C129** Whatever the interleaving and whatever fails: the file has at most one record for each PIN that was issued, and never
more than a million; all of them were made from requests that are allowed. -/
theorem C129_count (limit : Nat) (es : List (Ev × Out)) (s : State) (hr : Run limit (Received limit) init es s) :
    (s.file.getD []).length ≤ issued es ∧ (s.file.getD []).length ≤ 1000000 ∧
    ∀ k v, (k, v) ∈ s.file.getD [] → IsPin k ∧ ∃ b x, v = record b x ∧ Acceptable b x ∧ Decoded limit b x := by
  have hk := (kinv_run hr).file
  refine ⟨hk.few, ?_, fun k v h => ⟨hk.pins k v h, hk.recs k v h⟩⟩
  have hsub : GoMap.keys (s.file.getD []) ⊆ allPins := by
    intro k hkk
    obtain ⟨⟨k', v⟩, h1, rfl⟩ := List.mem_map.1 hkk
    obtain ⟨n, h2, h3⟩ := hk.pins k' v h1
    exact List.mem_map.2 ⟨n, List.mem_range.2 h2, h3.symm⟩
  have := (List.Nodup.subperm hk.wf hsub).length_le
  unfold GoMap.keys allPins at this
  rw [List.length_map, List.length_map, List.length_range] at this
  exact this

/-! ## How long a record is -/

theorem encode_len : ∀ b : Bytes, (Base64.encode b).length = 4 * ((b.length + 2) / 3)
  | [] => rfl
  | [_] => by simp [Base64.encode]
  | [_, _] => by simp [Base64.encode]
  | _ :: _ :: _ :: r => by
    simp only [Base64.encode, List.length_cons, encode_len r]
    omega

theorem record_len (b x : Bytes) : (record b x).length =
    4 * ((8 + (b.length + Xdr.padLen b.length) + (x.length + Xdr.padLen x.length) + 2) / 3) := by
  rw [record, encode_len]
  simp only [Xdr.rendezvous, Xdr.struct, Xdr.enc, Xdr.encFixed, List.length_append, List.length_replicate]
  have h : ∀ n, (Xdr.be32 n).length = 4 := fun _ => rfl
  rw [h, h]
  congr 2
  omega

/-- **C129** (partial) A record of a client that writes the hours with up to three digits has at most 5484 characters. The full
statement, that all records are short, is false: see `C129_zeros_violated`. -/
theorem C129_short_partial (b x : Bytes) (h : Acceptable b x) (hx : x.length ≤ 3) : (record b x).length ≤ 5484 := by
  rw [record_len]
  have hb := h.1
  have hp : ∀ n, n + Xdr.padLen n ≤ (n + 3) / 4 * 4 := by intro n; unfold Xdr.padLen; omega
  have h1 := hp b.length
  have h2 := hp x.length
  omega

/-- **C129** In any case it is at most a third longer than what was received, and a few characters. -/
theorem C129_charged (b x : Bytes) : 3 * (record b x).length ≤ 4 * (b.length + x.length) + 64 := by
  rw [record_len]
  have hp : ∀ n, n + Xdr.padLen n ≤ n + 3 := by intro n; unfold Xdr.padLen; omega
  have h1 := hp b.length
  have h2 := hp x.length
  omega

theorem digits_zeros (n : Nat) (r : Bytes) : Policy.digits 0 (List.replicate n 48 ++ r) = Policy.digits 0 r := by
  induction n with
  | zero => rfl
  | succ n ih =>
    rw [List.replicate_succ, List.cons_append, Policy.digits, if_pos (by decide)]
    exact ih

/-- **C129, negation.** There is a limit for the blob and none for the text of the hours: zeros before the number make a record as
long as messages may be. -/
theorem C129_zeros_violated (n : Nat) : Acceptable [] (List.replicate n 48 ++ [49]) ∧
    n < (record [] (List.replicate n 48 ++ [49])).length := by
  refine ⟨⟨by simp, 1, ?_, by omega⟩, ?_⟩
  · have h : List.replicate n (48 : UInt8) ++ [49] ≠ [] := by simp
    rw [Policy.parseUint64, if_neg h, digits_zeros]
    decide
  · rw [record_len, List.length_append, List.length_replicate]
    simp only [List.length_nil, List.length_singleton]
    omega

/-! ## All PINs can be used up -/

/-- The records of the first `n` PINs. -/
def firstPins (r : Bytes) : Nat → DB
  | 0 => []
  | n + 1 => (format n, r) :: firstPins r n

theorem firstPins_get (r : Bytes) (n : Nat) : ∀ i, i < n → ((firstPins r n).get (format i)).isSome = true := by
  induction n with
  | zero => intro i h; omega
  | succ n ih =>
    intro i h
    rw [firstPins, GoMap.get_cons]
    split
    · rfl
    · next hne =>
      refine ih i ?_
      rcases Nat.lt_or_eq_of_le (Nat.le_of_lt_succ h) with h | h
      · exact h
      · exact absurd (by rw [h]) hne

theorem firstPins_fresh (r : Bytes) (n : Nat) (hn : n ≤ 1000000) : ∀ i, n ≤ i → i < 1000000 →
    (firstPins r n).get (format i) = none := by
  induction n with
  | zero => intro i _ _; rfl
  | succ n ih =>
    intro i h1 h2
    rw [firstPins, GoMap.get_cons, if_neg ?_]
    · exact ih (by omega) i (by omega) h2
    · intro e
      have := format_injective (by omega) h2 e
      omega

/-- One after the other, and all that comes in can be decoded. -/
def Orderly (limit : Nat) (s : State) (e : Ev) : Prop := Serial s e ∧ Received limit s e

/-- Somebody asks for `n` PINs. -/
theorem flood (limit : Nat) (b x : Bytes) (ha : Acceptable b x) (hd : Decoded limit b x) (n : Nat) (hn : n ≤ 1000000) :
    ∃ tr s, Run limit (Orderly limit) init tr s ∧ s.file.getD [] = firstPins (record b x) n ∧ s.calls = [] ∧ s.saving = [] ∧
      (∀ e ∈ tr, ∀ b' x', e.1 = .begin b' x' → b' = b ∧ x' = x) ∧ issued tr = n ∧ tr.length = 3 * n := by
  induction n with
  | zero => exact ⟨[], init, .nil _, rfl, rfl, rfl, by simp, rfl, rfl⟩
  | succ n ih =>
    obtain ⟨tr, s, h1, h2, h3, h4, h5, h6, h7⟩ := ih (by omega)
    have hm : n % 1000000 = n := Nat.mod_eq_of_lt (by omega)
    have hf := firstPins_fresh (record b x) n (by omega) n (Nat.le_refl _) (by omega)
    have hans : answer ⟨b, x, firstPins (record b x) n⟩ (fun _ => some n) =
        (.pin (format n), some (firstPins (record b x) (n + 1))) := by
      have hr : ¬ refused b x = true := fun e => (refused_iff _ _).1 e ha
      rw [answer, if_neg hr]
      simp only [pick, hm, hf, Option.isSome_none, Bool.false_eq_true, if_false]
      rw [GoMap.set, GoMap.del_of_not_mem hf]
      rfl
    let s1 : State := ⟨some (firstPins (record b x) n), [⟨b, x, firstPins (record b x) n⟩], [], s.now⟩
    let s2 : State := ⟨some (firstPins (record b x) n), [], [firstPins (record b x) (n + 1)], s.now⟩
    let s3 : State := ⟨some (firstPins (record b x) (n + 1)), [], [], s.now⟩
    have e1 : step limit s (.begin b x) = some (.nothing, s1) := by simp only [step, h2, h3, h4, s1]
    have e2 : step limit s1 (.reply ⟨b, x, firstPins (record b x) n⟩ (fun _ => some n)) = some (.pin (format n), s2) := by
      simp only [step, s1, List.mem_singleton, if_true, hans, List.erase_cons_head, s2]
    have e3 : step limit s2 (.save (firstPins (record b x) (n + 1)) .ok) = some (.nothing, s3) := by
      simp only [step, s2, List.mem_singleton, if_true, List.erase_cons_head, Policy.saved, s3]
    have r1 := run_snoc h1 (e := .begin b x) ⟨⟨h3, h4⟩, hd⟩ e1
    have r2 := run_snoc r1 (e := .reply ⟨b, x, firstPins (record b x) n⟩ (fun _ => some n)) ⟨trivial, trivial⟩ e2
    have r3 := run_snoc r2 (e := .save (firstPins (record b x) (n + 1)) .ok) ⟨rfl, trivial⟩ e3
    refine ⟨_, s3, r3, rfl, rfl, rfl, ?_, ?_, ?_⟩
    · intro e he b' x' hb
      simp only [List.mem_append, List.mem_singleton] at he
      rcases he with ((he | he) | he) | he
      · exact h5 e he b' x' hb
      · subst he; cases hb; exact ⟨rfl, rfl⟩
      · subst he; cases hb
      · subst he; cases hb
    · unfold issued at h6 ⊢
      rw [List.countP_append, List.countP_append, List.countP_append, h6]
      rfl
    · simp [h7]; omega

/-- All PINs are used, and nobody is about to save anything else. -/
structure Full (s : State) : Prop where
  file : ∀ i, i < 1000000 → ((s.file.getD []).get (format i)).isSome = true
  calls : ∀ c ∈ s.calls, ∀ i, i < 1000000 → (c.snap.get (format i)).isSome = true
  saving : s.saving = []

theorem pick_full {db : DB} (h : ∀ i, i < 1000000 → (db.get (format i)).isSome = true) (rand : Nat → Option Nat) :
    ∀ retry i, pick db rand retry i = none := by
  intro retry
  induction retry with
  | zero => intro i; rfl
  | succ r ih =>
    intro i
    rw [pick]
    split
    · exact ih _
    · rw [if_pos (h _ (Nat.mod_lt _ (by omega)))]
      exact ih _

theorem full_step {limit : Nat} {s s' : State} {e : Ev} {o : Out} (h : Full s) (hs : step limit s e = some (o, s')) :
    Full s' ∧ ∀ t, o ≠ .pin t := by
  cases e with
  | begin blob exp =>
    simp only [step, Option.some.injEq, Prod.mk.injEq] at hs
    obtain ⟨rfl, rfl⟩ := hs
    refine ⟨⟨h.file, ?_, h.saving⟩, by simp⟩
    intro c hc
    rcases List.mem_cons.1 hc with rfl | hc
    · exact h.file
    · exact h.calls c hc
  | reply c rand =>
    simp only [step] at hs
    split at hs
    · next hc =>
      have ha : answer c rand = (.failed, none) := by
        rcases answer_cases c rand with ha | ⟨_, t, h1, h2, _⟩
        · exact ha
        · obtain ⟨n, h3, rfl⟩ := h2
          have := h.calls c hc n h3
          rw [h1] at this
          cases this
      rw [ha] at hs
      simp only [Option.some.injEq, Prod.mk.injEq] at hs
      obtain ⟨rfl, rfl⟩ := hs
      exact ⟨⟨h.file, fun c' h' => h.calls c' (List.mem_of_mem_erase h'), h.saving⟩, by simp⟩
    · cases hs
  | save db sv =>
    simp only [step, h.saving] at hs
    split at hs
    · next hd => cases hd
    · cases hs
  | pull t =>
    simp only [step, Option.some.injEq, Prod.mk.injEq] at hs
    obtain ⟨rfl, rfl⟩ := hs
    refine ⟨⟨h.file, h.calls, h.saving⟩, ?_⟩
    intro t'
    unfold pull
    repeat' split
    all_goals simp
  | tick k =>
    simp only [step, Option.some.injEq, Prod.mk.injEq] at hs
    obtain ⟨rfl, rfl⟩ := hs
    exact ⟨⟨h.file, h.calls, h.saving⟩, by simp⟩

/-- **C129, negation.** One user can use up all PINs, with requests for one hour that are allowed, one after the other: from then on
nobody ever gets a PIN again, whatever is asked, pulled, and however much time passes. -/
theorem C129_exhausted_violated (limit : Nat) (b : Bytes) (ha : b.length ≤ 4096) (hl : limit = 0 ∨ 4096 ≤ limit) :
    ∃ tr s, Run limit (Orderly limit) init tr s ∧ tr.length = 3000000 ∧
      (∀ e ∈ tr, ∀ b' x', e.1 = .begin b' x' → b' = b ∧ x' = hour) ∧
      ∀ tr' s', Run limit (fun _ _ => True) s tr' s' → ∀ e ∈ tr', ∀ t, e.2 ≠ .pin t := by
  have hacc : Acceptable b hour := ⟨ha, 1, by decide, by omega⟩
  have hdec : Decoded limit b hour := by
    have h1 : hour.length = 1 := rfl
    refine ⟨⟨?_, fun _ => ?_⟩, ⟨?_, fun _ => ?_⟩⟩
    · show b.length + 3 < 2 ^ 31; omega
    · show b.length ≤ limit; omega
    · show hour.length + 3 < 2 ^ 31; omega
    · show hour.length ≤ limit; omega
  obtain ⟨tr, s, h1, h2, h3, h4, h5, _, h7⟩ := flood limit b hour hacc hdec 1000000 (Nat.le_refl _)
  refine ⟨tr, s, h1, h7, h5, ?_⟩
  have hfull : Full s := by
    refine ⟨?_, ?_, h4⟩
    · rw [h2]; exact firstPins_get _ _
    · rw [h3]; intro c hc; cases hc
  clear h1 h2 h3 h4 h5 h7
  intro tr' s' hr
  induction hr with
  | nil => intro e he; cases he
  | cons _ hs _ ih =>
    obtain ⟨hf, hp⟩ := full_step hfull hs
    intro e he
    rcases List.mem_cons.1 he with rfl | he
    · exact hp
    · exact ih hf e he

/-- **C129** (partial) Until as many PINs were issued as there are, there is one that is free; a request for which it is drawn gets
one. -/
theorem C129_free_partial (limit : Nat) (es : List (Ev × Out)) (s : State) (hr : Run limit (Received limit) init es s)
    (h : issued es < 1000000) (b x : Bytes) (ha : Acceptable b x) :
    ∃ n, n < 1000000 ∧ ∀ rand j, j < 25 → rand j = some n →
      ∃ t, answer ⟨b, x, s.file.getD []⟩ rand = (.pin t, some ((s.file.getD []).set t (record b x))) := by
  have hk := (kinv_run hr).file
  have hex : ∃ n, n < 1000000 ∧ (s.file.getD []).get (format n) = none := by
    refine Decidable.byContradiction fun hc => ?_
    have hall : ∀ n, n < 1000000 → format n ∈ GoMap.keys (s.file.getD []) := by
      intro n hn
      rw [GoMap.mem_keys_iff]
      rcases hg : (s.file.getD []).get (format n) with _ | v
      · exact absurd ⟨n, hn, hg⟩ hc
      · rfl
    have hnd : allPins.Nodup := by
      unfold allPins
      refine List.Nodup.map_on ?_ List.nodup_range
      intro m hm n hn e
      exact format_injective (List.mem_range.1 hm) (List.mem_range.1 hn) e
    have hsub : allPins ⊆ GoMap.keys (s.file.getD []) := by
      intro k hkk
      obtain ⟨n, h1, rfl⟩ := List.mem_map.1 hkk
      exact hall n (List.mem_range.1 h1)
    have := (List.Nodup.subperm hnd hsub).length_le
    unfold GoMap.keys allPins at this
    rw [List.length_map, List.length_map, List.length_range] at this
    have := hk.few
    omega
  obtain ⟨n, h1, h2⟩ := hex
  refine ⟨n, h1, fun rand j hj hx => ?_⟩
  exact C41_accepted ⟨b, x, s.file.getD []⟩ rand ha j hj n hx (by rw [Nat.mod_eq_of_lt h1]; exact h2)

/-! ## Messages -/

/-- The bytes that are stored for an account. -/
def storedBytes (s : Accounts.State) (dst : Accounts.Id) : Nat :=
  match (s.enabled.get dst).bind Accounts.Acct.cache with
  | none => 0
  | some c => (c.map fun f => f.2.length).sum

/-- **C129** A message that is stored takes at most 51 bytes more than what was sent. -/
theorem C129_message (m : Stored.DiskMessage) (h : m.Sized) : (Stored.marshal m).length ≤ m.payload.length + 51 := by
  rw [Stored.marshal_length m h, Stored.padded]
  unfold Xdr.padLen
  omega

/-- Somebody sends the same message again and again. -/
def floodMessages (src dst : Accounts.Id) (p : Bytes) : Nat → Accounts.State → Accounts.State
  | 0, s => s
  | n + 1, s =>
    let s' := floodMessages src dst p n s
    (Accounts.handleCache s' s' src dst p n 0 .ok).2

/-- **C129, negation.** There is no limit to what is stored for an account that does not fetch it: one user can have `n` messages
of any size stored, each of which is acknowledged. -/
theorem C129_messages_violated (src dst : Accounts.Id) (p : Bytes) (u : Accounts.User) (n : Nat) :
    (∀ k, k < n → let s := floodMessages src dst p k ⟨[(dst, ⟨some u, some []⟩)], [], []⟩
      (Accounts.handleCache s s src dst p k 0 .ok).1 = .good) ∧
    n * p.length ≤ storedBytes (floodMessages src dst p n ⟨[(dst, ⟨some u, some []⟩)], [], []⟩) dst := by
  have hlen : p.length ≤ (Stored.marshal ⟨src, 0, p, false⟩).length := by
    simp only [Stored.marshal, Stored.marshalOld, List.length_append]
    simp only [Xdr.encFixed, List.length_append]
    omega
  have key : ∀ n, ∃ c : GoMap Accounts.Name Bytes,
      floodMessages src dst p n ⟨[(dst, ⟨some u, some []⟩)], [], []⟩ = ⟨[(dst, ⟨some u, some c⟩)], [], []⟩ ∧
      (∀ k, n ≤ k → c.get k = none) ∧ n * p.length ≤ (c.map fun f => f.2.length).sum := by
    intro n
    induction n with
    | zero => exact ⟨[], rfl, fun _ _ => rfl, by simp⟩
    | succ n ih =>
      obtain ⟨c, h1, h2, h3⟩ := ih
      refine ⟨c.set n (Stored.marshal ⟨src, 0, p, false⟩), ?_, ?_, ?_⟩
      · rw [floodMessages, h1]
        simp [Accounts.handleCache, Accounts.deliverCheck, Accounts.deliverWrite, Accounts.putFile, GoMap.get_cons, h2 n (Nat.le_refl _),
          GoMap.set, GoMap.del]
      · intro k hk
        have hk' : n + 1 ≤ k := hk
        rw [GoMap.get_set, if_neg (fun e => by have e' : n = k := e; omega)]
        exact h2 k (show n ≤ k by omega)
      · rw [GoMap.set, GoMap.del_of_not_mem (h2 n (Nat.le_refl _)), List.map_cons, List.sum_cons, Nat.add_mul]
        show _ ≤ (Stored.marshal ⟨src, 0, p, false⟩).length + _
        omega
  constructor
  · intro k _
    obtain ⟨c, h1, h2, _⟩ := key k
    simp only
    rw [h1]
    simp [Accounts.handleCache, Accounts.deliverCheck, Accounts.deliverWrite, GoMap.get_cons, h2 k (Nat.le_refl _)]
  · obtain ⟨c, h1, _, h3⟩ := key n
    rw [h1, storedBytes]
    simpa [GoMap.get_cons] using h3

/-- One rendezvous, one record. -/
example : ∃ tr s, Run 0 (Orderly 0) init tr s ∧ issued tr = 1 ∧ (s.file.getD []).length = 1 := by
  obtain ⟨tr, s, h1, h2, _, _, _, h6, _⟩ := flood 0 blob1 hour ⟨by decide, 1, by decide, by omega⟩
    ⟨⟨by decide, by decide⟩, ⟨by decide, by decide⟩⟩ 1 (by omega)
  exact ⟨tr, s, h1, h6, by rw [h2]; rfl⟩

example : (record blob1 hour).length ≤ 5484 := C129_short_partial _ _ ⟨by decide, 1, by decide, by omega⟩ (by decide)

example : Stored.DiskMessage.Sized ⟨List.replicate 32 1, 5, [1, 2], false⟩ := by
  unfold Stored.DiskMessage.Sized; decide

end Verif.Quota
