import Verif.Proofs.Session
import Mathlib.Data.List.Induction

/-!
# C03-C06: record layer of a session
-/

namespace Verif.Session

open Verif.Xdr

/-! ## C03 -/

/-- Specification of the nonce of the `n`-th frame: `n` as 64-bit little-endian, then
sixteen zero bytes. -/
def nonce (n : Nat) : Bytes :=
  (List.range 8).map (fun i => UInt8.ofNat (n / 256 ^ i)) ++ List.replicate 16 0

theorem nonce_eq_nth (n : Nat) : nth n = nonce n := by
  obtain ⟨h1, h2, h3⟩ := nth_spec n
  rw [← List.take_append_drop 8 (nth n), h3, nonce]
  congr 1
  apply leVal_inj
  · simp [h1]
  · rw [h2]
    simp only [List.range, List.range.loop, List.map_cons, List.map_nil, leVal,
      UInt8.toNat_ofNat']
    omega

/-- C03: the sequence number before the `n`-th frame is `n` in little-endian, for every
`n`. -/
theorem C03_nonce_is_counter (n : Nat) : (incSeq^[n]) seq0 = nonce n := nonce_eq_nth n

/-- C03: both ends of a direction use exactly this nonce, in every run: the `n`-th `Write`
seals with `nonce n` and the `n`-th frame read is opened with `nonce n`. -/
theorem C03_nonce_used {Key : Type} (B : SecretBox Key) (max : Nat) (k : Key) (evs : List Ev) :
    (run B max k evs).wseq = nonce (run B max k evs).written.length ∧
    (run B max k evs).rseq = nonce (run B max k evs).reads.length := by
  obtain ⟨h1, h2⟩ := cnt_run B max k evs
  rw [← nonce_eq_nth, ← nonce_eq_nth]
  exact ⟨h1, h2⟩

/-- C03: nonces do not repeat among the first 2^64 frames. -/
theorem C03_nonce_never_repeats (i j : Nat) (hi : i < 2 ^ 64) (hj : j < 2 ^ 64) (hij : i ≠ j) :
    (incSeq^[i]) seq0 ≠ (incSeq^[j]) seq0 := fun h => hij (nth_inj hi hj h)

example : (incSeq^[258]) seq0 = [2, 1] ++ List.replicate 22 0 := by
  rw [C03_nonce_is_counter]; decide

/-- After 2^64 frames the counter wraps, so the bound in C03 is sharp. -/
theorem C03_bound_is_sharp : (incSeq^[2 ^ 64]) seq0 = (incSeq^[0]) seq0 := by
  rw [C03_nonce_is_counter, C03_nonce_is_counter]; decide

/-! ## C04 -/

/-- The attacker does not forge: whenever a `Read` consumes a frame `p`, and `p` opens
under the session key with some nonce, then `p` is a frame the writer has put on the wire
before, and that nonce is the one it was sealed with. Everything else (replaying,
reordering, dropping, cutting, injecting anything that does not open) is permitted. -/
def NoForgery {Key : Type} (B : SecretBox Key) (max : Nat) (k : Key) (evs : List Ev) : Prop :=
  ∀ past later p rest n m, evs = past ++ Ev.read :: later →
    decOpaque max (run B max k past).buf = .got p rest →
    B.openB k n p = some m →
    ∃ i mi, (run B max k past).written[i]? = some (mi, true) ∧
      n = nonce i ∧ p = B.sealB k (nonce i) mi

/-- C04: for every schedule of writes, reads and arbitrary non-forging attacker activity,
if the `j`-th frame consumed by the reader was accepted, it yielded exactly the message of
the `j`-th `Write`, which was an accepted one. -/
theorem C04_only_what_was_written {Key : Type} (B : SecretBox Key) (max : Nat) (k : Key)
    (evs : List Ev) (hf : NoForgery B max k evs)
    (hw : (run B max k evs).written.length ≤ 2 ^ 64)
    (hr : (run B max k evs).reads.length ≤ 2 ^ 64) (j : Nat) (m : Bytes)
    (h : (run B max k evs).reads[j]? = some (some m)) :
    (run B max k evs).written[j]? = some (m, true) := by
  -- induction over prefixes of the schedule
  suffices H : ∀ past later, evs = past ++ later →
      ∀ (j : Nat) (m : Bytes), (run B max k past).reads[j]? = some (some m) →
        (run B max k past).written[j]? = some (m, true) from
    H evs [] (by simp) j m h
  intro past
  induction past using List.reverseRecOn with
  | nil => intro later _ j m h; simp [run] at h
  | append_singleton past e ih =>
    intro later heq j m h
    have hsplit : evs = past ++ e :: later := by simp [heq]
    have hih := ih (e :: later) hsplit
    have hrun : run B max k (past ++ [e]) = step B max k (run B max k past) e := by
      rw [run_append]; rfl
    have hpre : (run B max k past).written <+: (run B max k (past ++ [e])).written := by
      rw [hrun]; exact step_written_prefix ..
    have hall : (run B max k (past ++ [e])).written <+: (run B max k evs).written := by
      have : evs = (past ++ [e]) ++ later := by simp [hsplit]
      rw [this, run_append B max k (past ++ [e]) later]
      exact foldl_written_prefix ..
    have lift : ∀ (j : Nat) (m : Bytes),
        (run B max k past).written[j]? = some (m, true) →
          (run B max k (past ++ [e])).written[j]? = some (m, true) := by
      intro j m hj
      obtain ⟨t, ht⟩ := hpre
      rw [← ht]
      exact (List.getElem?_append_left (List.getElem?_eq_some_iff.mp hj).1).trans hj
    rcases step_reads B max k (run B max k past) e with hs | ⟨p, rest, rfl, hgot, hs⟩
    · rw [← hrun] at hs
      rw [hs] at h
      exact lift j m (hih j m h)
    · rw [← hrun] at hs
      rw [hs] at h
      by_cases hj : j < (run B max k past).reads.length
      · rw [List.getElem?_append_left hj] at h
        exact lift j m (hih j m h)
      · have hj' : j = (run B max k past).reads.length := by
          have := (List.getElem?_eq_some_iff.mp h).1
          simp at this
          omega
        subst hj'
        simp only [List.getElem?_append_right (Nat.le_refl _), Nat.sub_self,
          List.getElem?_cons_zero, Option.some.injEq] at h
        obtain ⟨i, mi, hi, hn, hp⟩ := hf past later p rest _ m hsplit hgot h
        have hcnt := cnt_run B max k past
        rw [hcnt.r, ← nonce_eq_nth] at hn
        have hib : i < 2 ^ 64 := by
          have h1 := (List.getElem?_eq_some_iff.mp hi).1
          have h2 := hpre.length_le
          have h3 := hall.length_le
          omega
        have hjb : (run B max k past).reads.length < 2 ^ 64 := by
          have h1 : (run B max k (past ++ [Ev.read])).reads.length ≤
              (run B max k evs).reads.length := by
            have : evs = (past ++ [Ev.read]) ++ later := by simp [hsplit]
            rw [this, run_append B max k (past ++ [Ev.read]) later]
            exact foldl_reads_length ..
          rw [hs] at h1
          simp at h1
          omega
        have hij := nth_inj hjb hib hn
        rw [← hij] at hi
        rw [hcnt.r, hp, ← nonce_eq_nth, ← hij, B.open_seal] at h
        simp at h
        subst h
        exact lift _ _ hi

/-- A `SecretBox` in which the tag is (part of) the nonce: boxes open only under their own
nonce. Used in examples and witnesses. -/
def nonceBox : SecretBox Unit where
  sealB _ n m := (n ++ List.replicate 16 0).take 16 ++ m
  openB _ n c := if c.take 16 = (n ++ List.replicate 16 0).take 16 then some (c.drop 16) else none
  open_seal := by
    intro k n m
    have : ((n ++ List.replicate 16 (0 : UInt8)).take 16).length = 16 := by simp
    simp only [List.take_left' this, List.drop_left' this, if_true]
  seal_length := by intro k n m; simp; omega
  open_eq := by
    intro k n c m h
    split at h
    · rename_i hc
      simp only [Option.some.injEq] at h
      rw [← hc, ← h, List.take_append_drop]
    · simp at h

/-- Non-triviality of C04: the attacker swaps two frames and replays one; the reads that
succeed return the message written at the same position. -/
example :
    let w : Ev := .write [7, 7]
    let w' : Ev := .write [9]
    let f i m := encOpaque (nonceBox.sealB () (nonce i) m)
    (run nonceBox 100 () [w, w', w, .arrive (f 1 [9] ++ f 1 [9] ++ f 2 [7, 7] ++ f 0 [7, 7]),
      .read, .read, .read, .read]).reads = [none, some [9], some [7, 7], none] := by
  decide +kernel

/-! ## C05, C06: undisturbed connection -/

/-- C05, safety: over an undisturbed connection, for every schedule, every read returns
the next message, unchanged; no read fails. -/
theorem C05_in_order {Key : Type} (B : SecretBox Key) (max : Nat) (hmax : max < 2 ^ 31)
    (k : Key) (evs : List HEv) (hsz : ∀ m ∈ writesOf evs, m.length + 16 ≤ max) :
    (hrun B max k evs).1.ioErrs = 0 ∧
    (hrun B max k evs).1.reads <+: (writesOf evs).map some ∧
    ∀ w ∈ (hrun B max k evs).1.written, w.2 = true := by
  have hon := hon_run (B := B) hmax (k := k) evs
  have hw := written_eq B hmax k evs
  refine ⟨hon.noErr, ?_, ?_⟩
  · rw [List.prefix_iff_getElem?]
    intro j hj
    obtain ⟨i, m, h1, h2⟩ := hon.res j _ (List.getElem?_eq_getElem hj)
    rw [hw, accepted_all hsz] at h1
    rcases hm : (writesOf evs)[j]? with _ | m'
    · rw [hm] at h1; simp at h1
    · rw [hm] at h1
      simp at h1
      obtain ⟨rfl, rfl⟩ := h1
      rw [List.getElem?_map, hm, h2, B.open_seal]
      rfl
  · rw [hw]
    intro w hwm
    simp only [List.mem_map] at hwm
    obtain ⟨m, hm, rfl⟩ := hwm
    simpa using hsz m hm

/-- C05, liveness: once all bytes have been handed over, reading as often as messages are
outstanding returns all of them. -/
theorem C05_all_delivered {Key : Type} (B : SecretBox Key) (max : Nat) (hmax : max < 2 ^ 31)
    (k : Key) (evs : List HEv) (hsz : ∀ m ∈ writesOf evs, m.length + 16 ≤ max)
    (hall : (hrun B max k evs).2 = (hrun B max k evs).1.wire.length) :
    (hrun B max k (evs ++ List.replicate
        ((writesOf evs).length - (hrun B max k evs).1.reads.length) .read)).1.reads =
      (writesOf evs).map some := by
  have hlenacc : (accepted 0 (hrun B max k evs).1.written).length = (writesOf evs).length := by
    rw [written_eq B hmax k evs, accepted_of_all]
    · simp
    · intro x hx
      simp only [List.mem_map] at hx
      obtain ⟨m, hm, rfl⟩ := hx
      simpa using hsz m hm
  have hon := hon_run (B := B) hmax (k := k) evs
  -- reading n times reads n more
  have H : ∀ n (s : Dir × Nat), Hon B max k s → s.2 = s.1.wire.length →
      s.1.reads.length + n ≤ (accepted 0 s.1.written).length →
      ((List.replicate n HEv.read).foldl (hstep B max k) s).1.reads.length =
        s.1.reads.length + n := by
    intro n
    induction n with
    | zero => intro s _ _ _; rfl
    | succ n ih =>
      intro s hs h2 hle
      obtain ⟨h3, h4⟩ := hon_read hmax hs
      have h5 := h4 h2 (by omega)
      have hwr : (hstep B max k s .read).1.written = s.1.written := by
        simp only [hstep, step]; split <;> rfl
      have hwi : (hstep B max k s .read).1.wire = s.1.wire := by
        simp only [hstep, step]; split <;> rfl
      have := ih (hstep B max k s .read) h3 (by rw [hwi]; exact h2) (by rw [h5, hwr]; omega)
      simp only [List.replicate_succ, List.foldl_cons]
      rw [this, h5]
      omega
  have hle := hon.le
  have hsame : writesOf (evs ++ List.replicate
      ((writesOf evs).length - (hrun B max k evs).1.reads.length) .read) = writesOf evs := by
    generalize (writesOf evs).length - (hrun B max k evs).1.reads.length = n
    clear * -
    induction evs with
    | nil =>
      induction n with
      | zero => rfl
      | succ n ih => simpa [List.replicate_succ, writesOf] using ih
    | cons e es ih => cases e <;> simp [writesOf, ih]
  have hpre := (C05_in_order B max hmax k (evs ++ List.replicate
      ((writesOf evs).length - (hrun B max k evs).1.reads.length) .read)
      (by rw [hsame]; exact hsz)).2.1
  rw [hsame] at hpre
  refine hpre.eq_of_length ?_
  have hfold : hrun B max k (evs ++ List.replicate
      ((writesOf evs).length - (hrun B max k evs).1.reads.length) .read) =
      (List.replicate ((writesOf evs).length - (hrun B max k evs).1.reads.length)
        HEv.read).foldl (hstep B max k) (hrun B max k evs) := by
    unfold hrun; rw [List.foldl_append]
  rw [hfold, H _ _ hon hall (by omega), List.length_map]
  omega

example : (hrun nonceBox 100 () [.write [1, 2, 3], .transfer 9, .read, .write [],
    .transfer 30, .read, .read, .transfer 100, .read]).1.reads = [some [1, 2, 3], some []] := by
  decide +kernel

/-! ## C06 -/

/-- C06 is violated: for every box whose frames do not open under a different nonce, a
refused (oversize) message makes the next message unreadable although it was accepted and
transferred completely. -/
theorem C06_refused_write_violated {Key : Type} (B : SecretBox Key) (max : Nat)
    (hmax : max < 2 ^ 31) (k : Key) (big m : Bytes) (hbig : big.length + 16 > max)
    (hm : m.length + 16 ≤ max) (hsep : B.openB k (nonce 0) (B.sealB k (nonce 1) m) = none) :
    let r := hrun B max k [.write big, .write m, .transfer (m.length + 100), .read]
    r.2 = r.1.wire.length ∧ r.1.written = [(big, false), (m, true)] ∧ r.1.reads = [none] := by
  intro r
  have hon : Hon B max k r := hon_run hmax _
  have hw : r.1.written = [(big, false), (m, true)] := by
    have := written_eq B hmax k [.write big, .write m, .transfer (m.length + 100), .read]
    simp only [writesOf, List.map_cons, List.map_nil, decide_eq_true hm,
      decide_eq_false (show ¬ big.length + 16 ≤ max by omega)] at this
    exact this
  -- the state before the read
  let r0 := hrun B max k [.write big, .write m, .transfer (m.length + 100)]
  have hon0 : Hon B max k r0 := hon_run hmax _
  have hstep0 : r = hstep B max k r0 .read := rfl
  have hw0 : r0.1.written = [(big, false), (m, true)] := by
    have := written_eq B hmax k [.write big, .write m, .transfer (m.length + 100)]
    simp only [writesOf, List.map_cons, List.map_nil, decide_eq_true hm,
      decide_eq_false (show ¬ big.length + 16 ≤ max by omega)] at this
    exact this
  have hr0 : r0.1.reads = [] := by
    simp only [r0, hrun, List.foldl_cons, List.foldl_nil, hstep, step]
    split <;> split <;> rfl
  have ht0 : r0.2 = r0.1.wire.length := by
    have h1 : r0.1.wire = encOpaque (B.sealB k (nth 1) m) := by
      simp only [r0, hrun, List.foldl_cons, List.foldl_nil, hstep, step, writeWithKey,
        B.seal_length, hbig, if_true, show ¬ m.length + 16 > max by omega,
        show ¬ m.length + 16 ≥ 2 ^ 32 by omega, if_false]
      rfl
    have h2 : r0.2 = ((r0.1.wire.drop 0).take (m.length + 100)).length := by
      simp only [r0, hrun, List.foldl_cons, List.foldl_nil, hstep, step]
      simp
    rw [h2, h1]
    simp only [List.drop_zero, List.length_take, encOpaque, be32, List.length_append,
      List.length_cons, List.length_nil, List.length_replicate, B.seal_length, padLen]
    omega
  have hlen := (hon_read hmax hon0).2 ht0 (by rw [hw0, hr0]; simp [accepted])
  rw [← hstep0, hr0] at hlen
  have hwire : r.1.wire = r0.1.wire := by
    rw [hstep0]; simp only [hstep, step]; split <;> rfl
  refine ⟨by rw [hwire, ← ht0]; rfl, hw, ?_⟩
  obtain ⟨x, hx⟩ : ∃ x, r.1.reads = [x] := List.length_eq_one_iff.mp (by simpa using hlen)
  obtain ⟨i, m', h1, h2⟩ := hon.res 0 x (by rw [hx]; rfl)
  rw [hw] at h1
  simp [accepted] at h1
  obtain ⟨rfl, rfl⟩ := h1
  rw [nonce_eq_nth, nonce_eq_nth, hsep] at h2
  rw [hx, h2]

/-- The hypotheses of the violation are satisfiable. -/
example : nonceBox.openB () (nonce 0) (nonceBox.sealB () (nonce 1) [5]) = none := by decide

/-- C06, what holds: a refused write puts nothing on the wire and does not disturb what
was written before it. Missing: messages written afterwards are lost (see the violation
above). -/
theorem C06_refused_write_partial {Key : Type} (B : SecretBox Key) (max : Nat)
    (hmax : max < 2 ^ 31) (k : Key) (evs : List HEv) :
    (∀ big : Bytes, big.length + 16 > max →
      (hrun B max k (evs ++ [.write big])).1.wire = (hrun B max k evs).1.wire) ∧
    (∀ (j : Nat) (r : Option Bytes), (hrun B max k evs).1.reads[j]? = some r →
      (∀ i ≤ j, ∀ m : Bytes, (writesOf evs)[i]? = some m → m.length + 16 ≤ max) →
      ∃ m, (writesOf evs)[j]? = some m ∧ r = some m) := by
  constructor
  · intro big hb
    simp only [hrun, List.foldl_append, List.foldl_cons, List.foldl_nil, hstep, step,
      writeWithKey, B.seal_length, hb, if_true, List.append_nil]
  · intro j r hj hsm
    have hon := hon_run (B := B) hmax (k := k) evs
    obtain ⟨i, m, h1, h2⟩ := hon.res j r hj
    rw [written_eq B hmax k evs] at h1
    -- split the writes after position j
    have hsplit : writesOf evs = (writesOf evs).take (j + 1) ++ (writesOf evs).drop (j + 1) :=
      (List.take_append_drop _ _).symm
    have hpre : ∀ m ∈ (writesOf evs).take (j + 1), m.length + 16 ≤ max := by
      intro m hm
      obtain ⟨i, hi, rfl⟩ := List.mem_iff_getElem.mp hm
      simp at hi
      exact hsm i (by omega) _ (by simp [List.getElem?_eq_getElem (show i < (writesOf evs).length by omega)])
    rw [hsplit, List.map_append, accepted_append] at h1
    have hlen1 : (accepted 0 (((writesOf evs).take (j + 1)).map
        (fun m => (m, decide (m.length + 16 ≤ max))))).length = min (j + 1) (writesOf evs).length := by
      rw [accepted_of_all]
      · simp
      · intro x hx
        simp only [List.mem_map] at hx
        obtain ⟨m, hm, rfl⟩ := hx
        simpa using hpre m hm
    rcases Nat.lt_or_ge j (writesOf evs).length with hlt | hge
    · rw [List.getElem?_append_left (by omega), accepted_all hpre] at h1
      rw [List.getElem?_take_of_lt (by omega), List.getElem?_eq_getElem hlt] at h1
      simp at h1
      obtain ⟨rfl, rfl⟩ := h1
      exact ⟨_, List.getElem?_eq_getElem hlt, by rw [h2, B.open_seal]⟩
    · exfalso
      rw [List.drop_of_length_le (by omega), List.map_nil, accepted, List.append_nil,
        List.getElem?_eq_none (by omega)] at h1
      simp at h1

end Verif.Session
