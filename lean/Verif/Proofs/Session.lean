import Verif.Model.Session
import Mathlib.Tactic.Common
import Mathlib.Tactic.Ring

/-! Helper lemmas for the record layer (C03-C06). -/

namespace Verif.Session

open Verif.Xdr

/-! ### incSeq -/

/-- Little-endian value. -/
def leVal : Bytes → Nat
  | [] => 0
  | b :: bs => b.toNat + 256 * leVal bs

theorem incLoop_length (n : Nat) (l : Bytes) : (incLoop n l).length = l.length := by
  induction l generalizing n with
  | nil => rfl
  | cons b bs ih => simp [incLoop, ih]

theorem leVal_lt (l : Bytes) : leVal l < 256 ^ l.length := by
  induction l with
  | nil => simp [leVal]
  | cons b bs ih =>
    simp only [leVal, List.length_cons, Nat.pow_succ]
    have := b.toNat_lt
    omega

theorem leVal_incLoop (n : Nat) (l : Bytes) :
    leVal (incLoop n l) = (leVal l + n) % 256 ^ l.length := by
  induction l generalizing n with
  | nil => simp [incLoop, leVal, Nat.mod_one]
  | cons b bs ih =>
    simp only [incLoop, leVal, ih, List.length_cons, Nat.pow_succ]
    rw [UInt8.toNat_ofNat']
    have key : ∀ (x P v : Nat), x % 256 + 256 * ((v + x / 256) % P) =
        (256 * v + x) % (P * 256) := by
      intro x P v
      rw [Nat.mul_comm P 256, Nat.mod_mul]
      congr 1
      · omega
      · congr 2
        omega
    have := key (n + b.toNat) (256 ^ bs.length) (leVal bs)
    simp only [Nat.reducePow]
    rw [this]
    congr 1
    omega

theorem leVal_inj {l l' : Bytes} (hl : l.length = l'.length) (h : leVal l = leVal l') :
    l = l' := by
  induction l generalizing l' with
  | nil => cases l' <;> simp_all
  | cons b bs ih =>
    cases l' with
    | nil => simp at hl
    | cons c cs =>
      simp only [leVal] at h
      have hb := b.toNat_lt
      have hc := c.toNat_lt
      have h1 : b.toNat = c.toNat := by omega
      have h2 : leVal bs = leVal cs := by omega
      rw [ih (by simpa using hl) h2, UInt8.toNat_inj.mp h1]

/-- Sequence number after `n` increments. -/
def nth (n : Nat) : Bytes := (incSeq^[n]) seq0

theorem nth_succ (n : Nat) : nth (n + 1) = incSeq (nth n) :=
  Function.iterate_succ_apply' incSeq n seq0

theorem nth_spec (n : Nat) : (nth n).length = 24 ∧ leVal ((nth n).take 8) = n % 2 ^ 64 ∧
    (nth n).drop 8 = List.replicate 16 0 := by
  induction n with
  | zero => decide
  | succ n ih =>
    obtain ⟨h1, h2, h3⟩ := ih
    rw [nth_succ]
    have hl : (incLoop 1 ((nth n).take 8)).length = 8 := by
      rw [incLoop_length]; simp [h1]
    refine ⟨?_, ?_, ?_⟩
    · simp [incSeq, hl, h1]
    · simp only [incSeq]
      rw [List.take_append_of_le_length (by omega), List.take_of_length_le (by omega),
        leVal_incLoop, h2]
      have : ((nth n).take 8).length = 8 := by simp [h1]
      rw [this]
      omega
    · simp only [incSeq]
      rw [List.drop_append_of_le_length (by omega), List.drop_of_length_le (by omega)]
      simp [h3]

theorem nth_inj {i j : Nat} (hi : i < 2 ^ 64) (hj : j < 2 ^ 64) (h : nth i = nth j) : i = j := by
  have h1 := (nth_spec i).2.1
  have h2 := (nth_spec j).2.1
  rw [h] at h1
  rw [h1] at h2
  rwa [Nat.mod_eq_of_lt hi, Nat.mod_eq_of_lt hj] at h2

/-! ### XDR framing -/

theorem ofBe32_be32 {n : Nat} (h : n < 2 ^ 32) :
    ofBe32 (UInt8.ofNat (n / 2 ^ 24)) (UInt8.ofNat (n / 2 ^ 16)) (UInt8.ofNat (n / 2 ^ 8))
      (UInt8.ofNat n) = n := by
  unfold ofBe32
  simp only [UInt8.toNat_ofNat']
  omega

theorem decOpaque_encOpaque {limit : Nat} {p : Bytes} (h1 : p.length ≤ limit)
    (h2 : p.length < 2 ^ 31) (rest : Bytes) :
    decOpaque limit (encOpaque p ++ rest) = .got p rest := by
  unfold encOpaque be32
  simp only [List.cons_append, List.nil_append, List.append_assoc, decOpaque, decBody,
    ofBe32_be32 (show p.length < 2 ^ 32 by omega)]
  rw [if_neg (by simp [tooLong]; omega),
    if_neg (by simp only [List.length_append, List.length_replicate]; omega)]
  congr 1
  · simp
  · rw [← List.append_assoc]
    exact List.drop_left' (by simp)

theorem decBody_append (limit n : Nat) (rest s : Bytes) :
    match decBody limit n rest with
    | .blocked => True
    | .bad r => decBody limit n (rest ++ s) = .bad (r ++ s)
    | .got p r => decBody limit n (rest ++ s) = .got p (r ++ s) := by
  unfold decBody
  cases hc : tooLong limit n with
  | true => simp
  | false =>
    simp only [Bool.false_eq_true, if_false]
    by_cases hl : rest.length < n + padLen n
    · simp [hl]
    · rw [if_neg hl]
      simp only
      rw [if_neg (by simp only [List.length_append]; omega),
        List.take_append_of_le_length (by omega), List.drop_append_of_le_length (by omega)]

theorem decOpaque_append (limit : Nat) (buf s : Bytes) :
    match decOpaque limit buf with
    | .blocked => True
    | .bad r => decOpaque limit (buf ++ s) = .bad (r ++ s)
    | .got p r => decOpaque limit (buf ++ s) = .got p (r ++ s) := by
  match buf with
  | [] => exact True.intro
  | [_] => exact True.intro
  | [_, _] => exact True.intro
  | [_, _, _] => exact True.intro
  | a :: b :: c :: d :: rest => exact decBody_append limit (ofBe32 a b c d) rest s

/-- Reading from a buffer that is a prefix of a stream starting with an encoded frame:
either not all of it is there yet, or exactly that frame is obtained. -/
theorem decOpaque_prefix {limit : Nat} {p buf s rest : Bytes} (h1 : p.length ≤ limit)
    (h2 : p.length < 2 ^ 31) (h : buf ++ s = encOpaque p ++ rest) :
    (decOpaque limit buf = .blocked ∧ s ≠ []) ∨
      ∃ r, decOpaque limit buf = .got p r ∧ r ++ s = rest := by
  have hd := decOpaque_encOpaque h1 h2 rest
  have ha := decOpaque_append limit buf s
  rw [h, hd] at ha
  rcases hb : decOpaque limit buf with _ | r | ⟨q, r⟩
  · left
    refine ⟨rfl, ?_⟩
    rintro rfl
    rw [List.append_nil] at h
    rw [h, hd] at hb
    simp at hb
  · rw [hb] at ha; simp at ha
  · rw [hb] at ha
    simp at ha
    exact .inr ⟨r, by rw [ha.1], ha.2.symm⟩

/-! ### Counters -/

/-- Basic invariant of any run: both sequence numbers count calls. -/
structure Cnt (d : Dir) : Prop where
  w : d.wseq = nth d.written.length
  r : d.rseq = nth d.reads.length

theorem writeWithKey_seq {Key : Type} (B : SecretBox Key) (max : Nat) (k : Key) (s m : Bytes) :
    (writeWithKey B max k s m).2.1 = incSeq s := by
  unfold writeWithKey
  simp only
  split
  · rfl
  · split <;> rfl

theorem cnt_step {Key : Type} {B : SecretBox Key} {max : Nat} {k : Key} {d : Dir} (h : Cnt d)
    (e : Ev) : Cnt (step B max k d e) := by
  obtain ⟨hw, hr⟩ := h
  cases e with
  | write m =>
    have := writeWithKey_seq B max k d.wseq m
    simp only [step]
    split <;> rename_i heq <;> rw [heq] at this <;> simp only at this <;>
      exact ⟨by simp only [List.length_append, List.length_singleton, nth_succ, this, hw], hr⟩
  | arrive bs => exact ⟨hw, hr⟩
  | discard n => exact ⟨hw, hr⟩
  | read =>
    simp only [step, readWithKey]
    rcases decOpaque max d.buf with _ | r | ⟨p, r⟩
    · exact ⟨hw, hr⟩
    · exact ⟨hw, hr⟩
    · simp only
      rcases B.openB k d.rseq p with _ | m
      · exact ⟨hw, by simp [nth_succ, hr]⟩
      · exact ⟨hw, by simp [nth_succ, hr]⟩

theorem cnt_run {Key : Type} (B : SecretBox Key) (max : Nat) (k : Key) (evs : List Ev) :
    Cnt (run B max k evs) := by
  unfold run
  suffices H : ∀ d, Cnt d → Cnt (evs.foldl (step B max k) d) from H _ ⟨rfl, rfl⟩
  induction evs with
  | nil => intro d h; exact h
  | cons e es ih => intro d h; exact ih _ (cnt_step h e)

theorem run_append {Key : Type} (B : SecretBox Key) (max : Nat) (k : Key) (a b : List Ev) :
    run B max k (a ++ b) = b.foldl (step B max k) (run B max k a) := by
  unfold run; rw [List.foldl_append]

theorem step_written_prefix {Key : Type} (B : SecretBox Key) (max : Nat) (k : Key) (d : Dir)
    (e : Ev) : d.written <+: (step B max k d e).written := by
  cases e with
  | write m => simp only [step]; split <;> exact List.prefix_append _ _
  | arrive bs => exact List.prefix_refl _
  | discard n => exact List.prefix_refl _
  | read => simp only [step]; split <;> exact List.prefix_refl _

theorem foldl_written_prefix {Key : Type} (B : SecretBox Key) (max : Nat) (k : Key)
    (es : List Ev) (d : Dir) : d.written <+: (es.foldl (step B max k) d).written := by
  induction es generalizing d with
  | nil => exact List.prefix_refl _
  | cons e es ih => exact (step_written_prefix B max k d e).trans (ih _)

theorem step_reads {Key : Type} (B : SecretBox Key) (max : Nat) (k : Key) (d : Dir) (e : Ev) :
    (step B max k d e).reads = d.reads ∨
    ∃ p rest, e = .read ∧ decOpaque max d.buf = .got p rest ∧
      (step B max k d e).reads = d.reads ++ [B.openB k d.rseq p] := by
  cases e with
  | write m => left; simp only [step]; split <;> rfl
  | arrive bs => left; rfl
  | discard n => left; rfl
  | read =>
    simp only [step, readWithKey]
    rcases h : decOpaque max d.buf with _ | r | ⟨p, r⟩
    · left; rfl
    · left; rfl
    · right
      refine ⟨p, r, trivial, rfl, ?_⟩
      simp only
      rcases B.openB k d.rseq p with _ | m <;> rfl

theorem foldl_reads_length {Key : Type} (B : SecretBox Key) (max : Nat) (k : Key)
    (es : List Ev) (d : Dir) : d.reads.length ≤ (es.foldl (step B max k) d).reads.length := by
  induction es generalizing d with
  | nil => exact Nat.le_refl _
  | cons e es ih =>
    refine Nat.le_trans ?_ (ih (step B max k d e))
    rcases step_reads B max k d e with h | ⟨_, _, _, _, h⟩ <;> rw [h] <;> simp

/-! ### Honest transport -/

/-- Accepted writes with their position among all writes. -/
def accepted : Nat → List (Bytes × Bool) → List (Nat × Bytes)
  | _, [] => []
  | i, (m, true) :: l => (i, m) :: accepted (i + 1) l
  | i, (_, false) :: l => accepted (i + 1) l

theorem accepted_append (i : Nat) (a b : List (Bytes × Bool)) :
    accepted i (a ++ b) = accepted i a ++ accepted (i + a.length) b := by
  induction a generalizing i with
  | nil => rfl
  | cons x xs ih =>
    obtain ⟨m, f⟩ := x
    cases f <;> simp [accepted, ih, Nat.add_assoc, Nat.add_comm 1]

theorem accepted_of_all {i : Nat} {l : List (Bytes × Bool)} (h : ∀ x ∈ l, x.2 = true) :
    accepted i l = ((l.map Prod.fst).zipIdx i).map Prod.swap := by
  induction l generalizing i with
  | nil => rfl
  | cons x xs ih =>
    obtain ⟨m, f⟩ := x
    have : f = true := h (m, f) (by simp)
    subst this
    simp [accepted, ih (fun x hx => h x (by simp [hx])), List.zipIdx_cons]

/-- The frames of a list of numbered messages. -/
def frames {Key : Type} (B : SecretBox Key) (k : Key) : List (Nat × Bytes) → Bytes
  | [] => []
  | (i, m) :: l => encOpaque (B.sealB k (nth i) m) ++ frames B k l

theorem frames_append {Key : Type} (B : SecretBox Key) (k : Key) (a b : List (Nat × Bytes)) :
    frames B k (a ++ b) = frames B k a ++ frames B k b := by
  induction a with
  | nil => rfl
  | cons x xs ih => simp [frames, ih]

/-- Invariant of undisturbed runs. -/
structure Hon {Key : Type} (B : SecretBox Key) (max : Nat) (k : Key) (s : Dir × Nat) : Prop where
  cnt : Cnt s.1
  noErr : s.1.ioErrs = 0
  t_le : s.2 ≤ s.1.wire.length
  stream : s.1.buf ++ s.1.wire.drop s.2 =
    frames B k ((accepted 0 s.1.written).drop s.1.reads.length)
  le : s.1.reads.length ≤ (accepted 0 s.1.written).length
  res : ∀ (j : Nat) r, s.1.reads[j]? = some r → ∃ i m, (accepted 0 s.1.written)[j]? = some (i, m) ∧
    r = B.openB k (nth j) (B.sealB k (nth i) m)
  small : ∀ i m, (i, m) ∈ accepted 0 s.1.written → m.length + 16 ≤ max

theorem hon_write {Key : Type} {B : SecretBox Key} {max : Nat} (hmax : max < 2 ^ 31) {k : Key}
    {s : Dir × Nat} (h : Hon B max k s) (m : Bytes) : Hon B max k (hstep B max k s (.write m)) := by
  obtain ⟨d, t⟩ := s
  obtain ⟨hc, he, ht, hst, hle, hres, hsm⟩ := h
  simp only at hc he ht hst hle hres hsm
  have hcnt : Cnt (step B max k d (.write m)) := cnt_step hc _
  have hnotlt : ¬ (B.sealB k d.wseq m).length > max → ¬ (B.sealB k d.wseq m).length ≥ 2 ^ 32 := by
    omega
  simp only [hstep, step, writeWithKey] at hcnt ⊢
  by_cases hlen : (B.sealB k d.wseq m).length > max
  · simp only [hlen, if_true] at hcnt ⊢
    have hacc : accepted 0 (d.written ++ [(m, false)]) = accepted 0 d.written := by
      rw [accepted_append]; simp [accepted]
    refine ⟨hcnt, he, by simpa using ht, ?_, ?_, ?_, ?_⟩ <;>
      simp only [hacc, List.append_nil] <;> assumption
  · simp only [hlen, hnotlt hlen, if_false] at hcnt ⊢
    have hacc : accepted 0 (d.written ++ [(m, true)]) =
        accepted 0 d.written ++ [(d.written.length, m)] := by
      rw [accepted_append]; simp [accepted]
    refine ⟨hcnt, he, by simp only [List.length_append]; omega, ?_, ?_, ?_, ?_⟩
    · simp only [hacc]
      rw [List.drop_append_of_le_length ht, ← List.append_assoc, hst,
        List.drop_append_of_le_length hle, frames_append, hc.w]
      simp [frames]
    · simp only [hacc, List.length_append]; omega
    · intro j r hj
      obtain ⟨i, m', h1, h2⟩ := hres j r hj
      refine ⟨i, m', ?_, h2⟩
      simp only [hacc]
      exact (List.getElem?_append_left (List.getElem?_eq_some_iff.mp h1).1).trans h1
    · intro i m' hm
      simp only [hacc, List.mem_append, List.mem_singleton, Prod.mk.injEq] at hm
      rcases hm with hm | ⟨_, rfl⟩
      · exact hsm i m' hm
      · rw [B.seal_length] at hlen; omega

theorem hon_transfer {Key : Type} {B : SecretBox Key} {max : Nat} {k : Key}
    {s : Dir × Nat} (h : Hon B max k s) (n : Nat) :
    Hon B max k (hstep B max k s (.transfer n)) := by
  obtain ⟨d, t⟩ := s
  obtain ⟨hc, he, ht, hst, hle, hres, hsm⟩ := h
  simp only at hc he ht hst hle hres hsm
  simp only [hstep, step]
  refine ⟨⟨hc.w, hc.r⟩, he, ?_, ?_, hle, hres, hsm⟩
  · simp only [List.length_take, List.length_drop]; omega
  · simp only
    rw [← hst, List.append_assoc]
    congr 1
    rw [← List.drop_drop]
    conv_rhs => rw [← List.take_append_drop n (d.wire.drop t)]
    congr 1
    rw [List.length_take]
    rcases Nat.le_total n (d.wire.drop t).length with hn | hn
    · rw [Nat.min_eq_left hn]
    · rw [Nat.min_eq_right hn, List.drop_of_length_le (Nat.le_refl _), List.drop_of_length_le hn]

theorem hon_read {Key : Type} {B : SecretBox Key} {max : Nat} (hmax : max < 2 ^ 31) {k : Key}
    {s : Dir × Nat} (h : Hon B max k s) :
    Hon B max k (hstep B max k s .read) ∧
    (s.2 = s.1.wire.length → s.1.reads.length < (accepted 0 s.1.written).length →
      (hstep B max k s .read).1.reads.length = s.1.reads.length + 1) := by
  obtain ⟨d, t⟩ := s
  have horig := h
  obtain ⟨hc, he, ht, hst, hle, hres, hsm⟩ := h
  simp only at hc he ht hst hle hres hsm
  have hcnt : Cnt (step B max k d .read) := cnt_step hc _
  simp only [hstep, step, readWithKey] at hcnt ⊢
  rcases Nat.lt_or_ge d.reads.length (accepted 0 d.written).length with hlt | hge
  · -- a frame is outstanding
    obtain ⟨i, m, him⟩ : ∃ i m, (accepted 0 d.written)[d.reads.length] = (i, m) := ⟨_, _, rfl⟩
    rw [List.drop_eq_getElem_cons hlt, him] at hst
    simp only [frames] at hst
    have hm : m.length + 16 ≤ max := hsm i m (him ▸ List.getElem_mem hlt)
    have hlen : (B.sealB k (nth i) m).length ≤ max := by rw [B.seal_length]; omega
    rcases decOpaque_prefix hlen (by omega) hst with ⟨hb, hne⟩ | ⟨r, hb, hr⟩
    · rw [hb]
      refine ⟨horig, fun hall => ?_⟩
      exact absurd (by rw [hall]; simp) hne
    · rw [hb] at hcnt ⊢
      simp only at hcnt ⊢
      have key : ∀ o, o = B.openB k d.rseq (B.sealB k (nth i) m) →
          ∀ d' : Dir, Cnt d' → d'.ioErrs = d.ioErrs → d'.wire = d.wire → d'.buf = r →
          d'.written = d.written → d'.reads = d.reads ++ [o] → Hon B max k (d', t) := by
        intro o ho d' h0 h1 h2 h3 h4 h5
        refine ⟨h0, by simp only [h1, he], by simp only [h2]; exact ht, ?_, ?_, ?_, ?_⟩
        · simp only [h2, h3, h4, h5, hr, List.length_append, List.length_singleton]
        · simp only [h4, h5, List.length_append, List.length_singleton]; omega
        · intro j r' hj
          simp only [h4, h5] at hj ⊢
          by_cases hj' : j < d.reads.length
          · rw [List.getElem?_append_left hj'] at hj
            exact hres j r' hj
          · have : j = d.reads.length := by
              have := (List.getElem?_eq_some_iff.mp hj).1
              simp at this
              omega
            subst this
            simp at hj
            refine ⟨i, m, by rw [List.getElem?_eq_getElem hlt, him], ?_⟩
            rw [← hj, ho, hc.r]
        · simp only [h4]; exact hsm
      rcases ho : B.openB k d.rseq (B.sealB k (nth i) m) with _ | m'
      · rw [ho] at hcnt
        exact ⟨key none ho.symm _ hcnt rfl rfl rfl rfl rfl, fun _ _ => by simp⟩
      · rw [ho] at hcnt
        exact ⟨key (some m') ho.symm _ hcnt rfl rfl rfl rfl rfl, fun _ _ => by simp⟩
  · -- nothing outstanding: the stream is empty and the reader waits
    have hz : (accepted 0 d.written).drop d.reads.length = [] := List.drop_of_length_le hge
    rw [hz] at hst
    have hb : d.buf = [] := (List.append_eq_nil_iff.mp hst).1
    have : decOpaque max d.buf = .blocked := by rw [hb]; rfl
    rw [this]
    exact ⟨horig, fun _ h => absurd h (by omega)⟩

theorem hon_run {Key : Type} {B : SecretBox Key} {max : Nat} (hmax : max < 2 ^ 31) {k : Key}
    (evs : List HEv) : Hon B max k (hrun B max k evs) := by
  unfold hrun
  suffices H : ∀ s, Hon B max k s → Hon B max k (evs.foldl (hstep B max k) s) by
    apply H
    refine ⟨⟨rfl, rfl⟩, rfl, Nat.le_refl _, rfl, Nat.le_refl _, ?_, ?_⟩
    · intro j r h; simp at h
    · intro i m h; simp [accepted] at h
  induction evs with
  | nil => intro s h; exact h
  | cons e es ih =>
    intro s h
    refine ih _ ?_
    cases e with
    | write m => exact hon_write hmax h m
    | transfer n => exact hon_transfer h n
    | read => exact (hon_read hmax h).1

theorem written_eq {Key : Type} (B : SecretBox Key) {max : Nat} (hmax : max < 2 ^ 31) (k : Key)
    (evs : List HEv) :
    (hrun B max k evs).1.written =
      (writesOf evs).map (fun m => (m, decide (m.length + 16 ≤ max))) := by
  unfold hrun
  suffices H : ∀ s : Dir × Nat, (evs.foldl (hstep B max k) s).1.written = s.1.written ++
      (writesOf evs).map (fun m => (m, decide (m.length + 16 ≤ max))) by
    rw [H]; rfl
  induction evs with
  | nil => intro s; simp [writesOf]
  | cons e es ih =>
    intro s
    simp only [List.foldl_cons, ih]
    cases e with
    | write m =>
      simp only [writesOf, List.map_cons, hstep, step, writeWithKey, B.seal_length]
      by_cases h : m.length + 16 > max
      · simp only [h, if_true, List.append_assoc, List.singleton_append]
        simp only [show ¬ (m.length + 16 ≤ max) by omega, decide_false]
      · simp only [h, if_false, show ¬ (m.length + 16 ≥ 2 ^ 32) by omega,
          show m.length + 16 ≤ max by omega, decide_true, List.append_assoc,
          List.singleton_append]
    | transfer n => rfl
    | read =>
      simp only [writesOf, hstep]
      congr 1
      simp only [step]
      split <;> rfl

theorem accepted_all {max : Nat} {ms : List Bytes} (h : ∀ m ∈ ms, m.length + 16 ≤ max) (j : Nat) :
    (accepted 0 (ms.map (fun m => (m, decide (m.length + 16 ≤ max)))))[j]? =
      (ms[j]?).map (fun m => (j, m)) := by
  rw [accepted_of_all (by
    intro x hx
    simp only [List.mem_map] at hx
    obtain ⟨m, hm, rfl⟩ := hx
    simpa using h m hm)]
  simp only [List.map_map, List.getElem?_map, List.getElem?_zipIdx]
  cases ms[j]? <;> simp [Prod.swap]

end Verif.Session
