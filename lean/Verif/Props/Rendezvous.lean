import Verif.Model.Rendezvous
import Verif.Proofs.Base64
import Verif.Props.Xdr
import Verif.Props.IniDB
import Verif.Proofs.GoMap
import Mathlib.Tactic.Common

/-! # C41: a rendezvous PIN retrieves exactly the blob it was issued for -/

namespace Verif.Rendezvous

open Verif

/-! ## PINs -/

/-- A decimal number of at most six digits. -/
def IsPin (t : Bytes) : Prop := ∃ n, n < 1000000 ∧ t = format n

theorem digits_append (a : Bytes) (d : Nat) (hd : d < 10) : ∀ acc n, Policy.digits acc a = some n →
    Policy.digits acc (a ++ [UInt8.ofNat (48 + d)]) = some (10 * n + d) := by
  induction a with
  | nil =>
    intro acc n h
    simp only [Policy.digits, Option.some.injEq] at h
    subst h
    have : (UInt8.ofNat (48 + d)).toNat = 48 + d := by simp; omega
    simp only [List.nil_append, Policy.digits, this]
    rw [if_pos (by omega)]
    simp
  | cons b a ih =>
    intro acc n h
    simp only [Policy.digits, List.cons_append] at h ⊢
    split at h
    · next hb => rw [if_pos hb]; exact ih _ _ h
    · cases h

/-- A formatted number reads as that number. -/
theorem digits_format (k n : Nat) (h : n < 10 ^ k) : Policy.digits 0 (formatAux k n) = some n := by
  induction k generalizing n with
  | zero => simp at h; subst h; rfl
  | succ k ih =>
    simp only [formatAux]
    split
    · next hn =>
      have : (UInt8.ofNat (48 + n)).toNat = 48 + n := by simp; omega
      simp only [Policy.digits, this]
      rw [if_pos (by omega)]
      simp
    · have := digits_append (formatAux k (n / 10)) (n % 10) (by omega) 0 (n / 10)
        (ih _ (by rw [Nat.pow_succ] at h; omega))
      rw [this]
      congr 1; omega

theorem format_injective {m n : Nat} (hm : m < 1000000) (hn : n < 1000000) (h : format m = format n) : m = n := by
  have h1 := digits_format 20 m (by omega)
  have h2 := digits_format 20 n (by omega)
  unfold format at h
  rw [h, h2] at h1
  exact (Option.some.inj h1).symm

theorem formatAux_digits (k n : Nat) : ∀ c ∈ formatAux k n, 48 ≤ c.toNat ∧ c.toNat ≤ 57 := by
  induction k generalizing n with
  | zero => simp [formatAux]
  | succ k ih =>
    simp only [formatAux]
    split
    · next h =>
      intro c hc
      simp only [List.mem_singleton] at hc
      subst hc
      simp; omega
    · intro c hc
      rcases List.mem_append.1 hc with h | h
      · exact ih _ c h
      · simp only [List.mem_singleton] at h
        subst h
        simp; omega

theorem formatAux_ne_nil (k n : Nat) : formatAux (k + 1) n ≠ [] := by
  simp only [formatAux]; split <;> simp

/-! ## Answers -/

theorem pick_fresh {db : DB} {rand : Nat → Option Nat} {retry i : Nat} {t : Bytes}
    (h : pick db rand retry i = some t) : db.get t = none ∧ IsPin t := by
  induction retry generalizing i with
  | zero => cases h
  | succ r ih =>
    simp only [pick] at h
    split at h
    · exact ih h
    · next x _ =>
      split at h
      · exact ih h
      · next hn =>
        simp only [Option.some.injEq] at h
        subst h
        exact ⟨by simpa using hn, _, Nat.mod_lt _ (by omega), rfl⟩

/-- **C41** A PIN that is issued is a number below a million that is not in use. -/
theorem C41_pin_unused (c : Call) (rand : Nat → Option Nat) (t : Bytes) (h : (answer c rand).1 = .pin t) :
    c.snap.get t = none ∧ IsPin t := by
  unfold answer at h
  split at h
  · cases h
  · split at h
    · cases h
    · next tok ht =>
      simp only [Out.pin.injEq] at h
      subst h
      exact pick_fresh ht

/-- The blob is short enough and the expiration is a number of hours up to a week. -/
def Acceptable (blob exp : Bytes) : Prop :=
  blob.length ≤ 4096 ∧ ∃ n, Policy.parseUint64 exp = some n ∧ n ≤ 168

theorem refused_iff (blob exp : Bytes) : refused blob exp = true ↔ ¬ Acceptable blob exp := by
  unfold refused Acceptable
  rcases h : Policy.parseUint64 exp with _ | n
  · simp
  · simp; omega

/-- **C41** Over-long blobs and expirations are refused and nothing is stored. -/
theorem C41_refused (c : Call) (rand : Nat → Option Nat) (h : ¬ Acceptable c.blob c.exp) :
    answer c rand = (.failed, none) := by
  rw [answer, if_pos ((refused_iff _ _).2 h)]

theorem pick_some {db : DB} {rand : Nat → Option Nat} {retry i : Nat} (j : Nat) (hi : i ≤ j) (hj : j < i + retry)
    (x : Nat) (hx : rand j = some x) (hf : db.get (format (x % 1000000)) = none) :
    ∃ t, pick db rand retry i = some t := by
  induction retry generalizing i with
  | zero => omega
  | succ r ih =>
    simp only [pick]
    by_cases e : i = j
    · subst e
      rw [hx]
      simp only [hf]
      exact ⟨_, rfl⟩
    · split
      · exact ih (by omega) (by omega)
      · split
        · exact ih (by omega) (by omega)
        · exact ⟨_, rfl⟩

/-- **C41** All others get a PIN if one of the 25 attempts hits one that is not in use. -/
theorem C41_accepted (c : Call) (rand : Nat → Option Nat) (h : Acceptable c.blob c.exp) (j : Nat) (hj : j < 25)
    (x : Nat) (hx : rand j = some x) (hf : c.snap.get (format (x % 1000000)) = none) :
    ∃ t, answer c rand = (.pin t, some (c.snap.set t (record c.blob c.exp))) := by
  obtain ⟨t, ht⟩ := pick_some (retry := 25) (i := 0) j (by omega) (by omega) x hx hf
  have hr : ¬ refused c.blob c.exp = true := fun e => (refused_iff _ _).1 e h
  exact ⟨t, by rw [answer, if_neg hr, ht]⟩

/-! ## Records -/

/-- The message was read off the connection with the server's limit. -/
def Decoded (limit : Nat) (blob exp : Bytes) : Prop := Xdr.Fits limit Xdr.rendezvous (blob, exp)

theorem pull_record {limit : Nat} {db : DB} {t blob exp : Bytes} (hd : Decoded limit blob exp)
    (h : db.get t = some (record blob exp)) : pull limit db t = .blob t blob := by
  have hx := Xdr.C23_roundtrip limit Xdr.rendezvous (blob, exp) hd []
  rw [List.append_nil] at hx
  simp only [pull, h, record, Base64.decode_encode, hx]

/-- **C41** A blob is answered only if the record under just that PIN is there and is whole: base64 of an encoding that
begins with the blob. From a damaged record nothing is made up. -/
theorem C41_damaged (limit : Nat) (db : DB) (t t' blob : Bytes) (h : pull limit db t = .blob t' blob) :
    t' = t ∧ ∃ v b exp rest, db.get t = some v ∧ Base64.decode v = some b ∧
      Xdr.dec limit Xdr.rendezvous b = .ok (blob, exp) rest := by
  unfold pull at h
  split at h
  · cases h
  · rename_i v hv
    split at h
    · cases h
    · rename_i b hb
      split at h
      · rename_i r rest hr
        cases h
        exact ⟨rfl, v, b, r.2, rest, hv, hb, hr⟩
      · cases h

/-! ## Every blob that is returned was stored under that PIN -/

theorem run_snoc {limit : Nat} {G : State → Ev → Prop} {s0 s s' : State} {es : List (Ev × Out)} {e : Ev} {o : Out}
    (hr : Run limit G s0 es s) (hg : G s e) (hs : step limit s e = some (o, s')) :
    Run limit G s0 (es ++ [(e, o)]) s' := by
  induction hr with
  | nil => exact .cons hg hs (.nil _)
  | cons h1 h2 _ ih => exact .cons h1 h2 (ih hg hs)

theorem run_append {limit : Nat} {G : State → Ev → Prop} {s0 s : State} {es es' : List (Ev × Out)}
    (hr : Run limit G s0 (es ++ es') s) : ∃ s1, Run limit G s0 es s1 ∧ Run limit G s1 es' s := by
  induction es generalizing s0 with
  | nil => exact ⟨s0, .nil _, hr⟩
  | cons a es ih =>
    cases hr with
    | cons h1 h2 h3 =>
      obtain ⟨s1, h4, h5⟩ := ih h3
      exact ⟨s1, .cons h1 h2 h4, h5⟩

/-- Induction from the front. -/
theorem run_induct {limit : Nat} {G : State → Ev → Prop} {s0 : State} (P : List (Ev × Out) → State → Prop)
    (h0 : P [] s0)
    (hs : ∀ es s e o s', Run limit G s0 es s → P es s → G s e → step limit s e = some (o, s') → P (es ++ [(e, o)]) s')
    {es : List (Ev × Out)} {s : State} (hr : Run limit G s0 es s) : P es s := by
  suffices h : ∀ {s1 es1 s2}, Run limit G s1 es1 s2 → ∀ pre, Run limit G s0 pre s1 → P pre s1 → P (pre ++ es1) s2 by
    simpa using h hr [] (.nil _) h0
  intro s1 es1 s2 h
  induction h with
  | nil => intro pre _ hp; simpa using hp
  | cons h1 h2 _ ih =>
    intro pre hpre hp
    simpa using ih _ (run_snoc hpre h1 h2) (hs _ _ _ _ _ hpre hp h1 h2)

/-- What comes in has been decoded. -/
def Received (limit : Nat) : State → Ev → Prop
  | _, .begin blob exp => Decoded limit blob exp
  | _, _ => True

/-- Blob `b` was answered with PIN `t`. -/
def Issued (es : List (Ev × Out)) (t b : Bytes) : Prop :=
  ∃ c rand, (Ev.reply c rand, Out.pin t) ∈ es ∧ c.blob = b

/-- Every record of the database was issued. -/
def Sound (limit : Nat) (es : List (Ev × Out)) (db : DB) : Prop :=
  ∀ t v, db.get t = some v → ∃ b x, v = record b x ∧ Decoded limit b x ∧ Issued es t b

theorem Sound.mono {limit : Nat} {es : List (Ev × Out)} {db : DB} (h : Sound limit es db) (e : Ev × Out) :
    Sound limit (es ++ [e]) db := by
  intro t v hv
  obtain ⟨b, x, h1, h2, c, rand, h3, h4⟩ := h t v hv
  exact ⟨b, x, h1, h2, c, rand, List.mem_append_left _ h3, h4⟩

theorem sound_nil (limit : Nat) (es : List (Ev × Out)) : Sound limit es [] := by
  intro t v h; cases h

structure Inv (limit : Nat) (es : List (Ev × Out)) (s : State) : Prop where
  file : ∀ db, s.file = some db → Sound limit es db
  calls : ∀ c ∈ s.calls, Sound limit es c.snap ∧ Decoded limit c.blob c.exp
  saving : ∀ db ∈ s.saving, Sound limit es db
  pulls : ∀ t o, (Ev.pull t, o) ∈ es → ∀ t' b, o = .blob t' b → t' = t ∧ Issued es t b

theorem inv_run {limit : Nat} {es : List (Ev × Out)} {s : State} (hr : Run limit (Received limit) init es s) :
    Inv limit es s := by
  refine run_induct (Inv limit) ⟨by simp [init], by simp [init], by simp [init], by simp⟩ ?_ hr
  clear hr
  rintro es s e o s' - hi hg hs
  have hfile : Sound limit es (s.file.getD []) := by
    rcases h : s.file with _ | db
    · exact sound_nil _ _
    · exact hi.file db h
  have iss : ∀ {t b}, Issued es t b → Issued (es ++ [(e, o)]) t b := by
    rintro t b ⟨c, r, h1, h2⟩
    exact ⟨c, r, List.mem_append_left _ h1, h2⟩
  have old : ∀ t o', (Ev.pull t, o') ∈ es → ∀ t' b, o' = .blob t' b → t' = t ∧ Issued (es ++ [(e, o)]) t b := by
    intro t o' h t' b h'
    obtain ⟨h1, h2⟩ := hi.pulls t o' h t' b h'
    exact ⟨h1, iss h2⟩
  have hcalls : ∀ c ∈ s.calls, Sound limit (es ++ [(e, o)]) c.snap ∧ Decoded limit c.blob c.exp :=
    fun c hc => ⟨(hi.calls c hc).1.mono _, (hi.calls c hc).2⟩
  have hsaving : ∀ db ∈ s.saving, Sound limit (es ++ [(e, o)]) db := fun db h => (hi.saving db h).mono _
  cases e with
  | begin blob exp =>
    simp only [step, Option.some.injEq, Prod.mk.injEq] at hs
    obtain ⟨rfl, rfl⟩ := hs
    refine ⟨?_, ?_, hsaving, ?_⟩
    · intro db h
      simp only [Option.some.injEq] at h
      subst h; exact hfile.mono _
    · intro c hc
      rcases List.mem_cons.1 hc with rfl | hc
      · exact ⟨hfile.mono _, hg⟩
      · exact hcalls c hc
    · intro t o' h
      rcases List.mem_append.1 h with h | h
      · exact old t o' h
      · simp at h
  | reply c rand =>
    simp only [step] at hs
    split at hs
    · next hc =>
      have hp : ∀ t o', (Ev.pull t, o') ∈ es ++ [(Ev.reply c rand, o)] → ∀ t' b, o' = .blob t' b →
          t' = t ∧ Issued (es ++ [(Ev.reply c rand, o)]) t b := by
        intro t o' h
        rcases List.mem_append.1 h with h | h
        · exact old t o' h
        · simp at h
      unfold answer at hs
      split at hs
      · next hh =>
        simp only [Option.some.injEq, Prod.mk.injEq] at hs
        obtain ⟨rfl, rfl⟩ := hs
        exact ⟨fun db h => (hi.file db h).mono _, fun d hd => hcalls d (List.mem_of_mem_erase hd), hsaving, hp⟩
      · next hh =>
        simp only [Option.some.injEq, Prod.mk.injEq] at hs
        obtain ⟨rfl, rfl⟩ := hs
        refine ⟨fun db h => (hi.file db h).mono _, fun d hd => hcalls d (List.mem_of_mem_erase hd), ?_, hp⟩
        intro db hdb
        rcases List.mem_cons.1 hdb with rfl | hdb
        · split at hh
          · simp at hh
          · split at hh
            · simp at hh
            · next tok htok =>
              simp only [Prod.mk.injEq, Option.some.injEq] at hh
              obtain ⟨rfl, rfl⟩ := hh
              intro t v hv
              rw [GoMap.get_set] at hv
              split at hv
              · next e =>
                subst e
                simp only [Option.some.injEq] at hv
                exact ⟨c.blob, c.exp, hv.symm, (hi.calls c hc).2, c, rand, by simp, rfl⟩
              · exact (hi.calls c hc).1.mono _ t v hv
        · exact hsaving db hdb
    · cases hs
  | save db sv =>
    simp only [step] at hs
    split at hs
    · next hd =>
      simp only [Option.some.injEq, Prod.mk.injEq] at hs
      obtain ⟨rfl, rfl⟩ := hs
      refine ⟨?_, hcalls, fun d h => hsaving d (List.mem_of_mem_erase h), ?_⟩
      · intro d h
        cases sv with
        | ok => simp only [Policy.saved, Option.some.injEq] at h; subst h; exact hsaving db hd
        | fail => exact (hi.file d h).mono _
        | lost => cases h
      · intro t o' h
        rcases List.mem_append.1 h with h | h
        · exact old t o' h
        · simp at h
    · cases hs
  | pull t =>
    simp only [step, Option.some.injEq, Prod.mk.injEq] at hs
    obtain ⟨rfl, rfl⟩ := hs
    refine ⟨?_, hcalls, hsaving, ?_⟩
    · intro db h
      simp only [Option.some.injEq] at h
      subst h; exact hfile.mono _
    · intro t' o' h t'' b hb
      rcases List.mem_append.1 h with h | h
      · exact old t' o' h t'' b hb
      · simp only [List.mem_singleton, Prod.mk.injEq, Ev.pull.injEq] at h
        obtain ⟨rfl, rfl⟩ := h
        rcases hv : (s.file.getD []).get t' with _ | v
        · simp [pull, hv] at hb
        · obtain ⟨b', x, rfl, hdec, hiss⟩ := hfile t' v hv
          rw [pull_record hdec hv] at hb
          simp only [Out.blob.injEq] at hb
          obtain ⟨rfl, rfl⟩ := hb
          exact ⟨rfl, iss hiss⟩
  | tick h =>
    simp only [step, Option.some.injEq, Prod.mk.injEq] at hs
    obtain ⟨rfl, rfl⟩ := hs
    refine ⟨fun db h => (hi.file db h).mono _, hcalls, hsaving, ?_⟩
    intro t o' h
    rcases List.mem_append.1 h with h | h
    · exact old t o' h
    · simp at h

/-- **C41** In every history, whatever the interleaving and whatever fails, a blob that is returned for a PIN
is one for which that PIN was issued before. -/
theorem C41_sound (limit : Nat) (es : List (Ev × Out)) (s : State)
    (hr : Run limit (Received limit) init es s) (t t' b : Bytes) (s' : State)
    (hp : step limit s (.pull t) = some (.blob t' b, s')) : t' = t ∧ Issued es t b := by
  have hi := inv_run (run_snoc (e := .pull t) hr trivial hp)
  obtain ⟨h1, c, r, h2, h3⟩ := hi.pulls t (.blob t' b) (by simp) t' b rfl
  refine ⟨h1, c, r, ?_, h3⟩
  simpa using h2

/-! ## And it is the right one, if calls do not overlap -/

/-- One rendezvous at a time, and saving succeeds. -/
def Serial : State → Ev → Prop
  | s, .begin .. => s.calls = [] ∧ s.saving = []
  | _, .save _ sv => sv = .ok
  | _, _ => True

/-- What the file contains, or is going to contain. -/
def view (s : State) : DB :=
  match s.saving with
  | db :: _ => db
  | [] => s.file.getD []

def Alone (s : State) : Prop :=
  (s.calls = [] ∧ s.saving = []) ∨ (∃ c, s.calls = [c] ∧ s.saving = [] ∧ s.file.getD [] = c.snap) ∨
    (∃ db, s.calls = [] ∧ s.saving = [db])

theorem serial_step {limit : Nat} {s s' : State} {e : Ev} {o : Out} (ha : Alone s) (hg : Serial s e)
    (hs : step limit s e = some (o, s')) :
    Alone s' ∧ (∀ t v, (view s).get t = some v → (view s').get t = some v) ∧
      (∀ c rand t, e = .reply c rand → o = .pin t →
        (view s).get t = none ∧ (view s').get t = some (record c.blob c.exp)) := by
  cases e with
  | begin blob exp =>
    obtain ⟨hc, hv⟩ := hg
    simp only [step, Option.some.injEq, Prod.mk.injEq] at hs
    obtain ⟨rfl, rfl⟩ := hs
    refine ⟨.inr (.inl ⟨⟨blob, exp, s.file.getD []⟩, by simp [hc], hv, rfl⟩), ?_, by simp⟩
    intro t v h
    simpa [view, hv] using h
  | reply c rand =>
    simp only [step] at hs
    split at hs
    · next hc =>
      rcases ha with ⟨h, _⟩ | ⟨c', h1, h2, h3⟩ | ⟨d, h, _⟩
      · rw [h] at hc; cases hc
      · rw [h1] at hc
        obtain rfl : c = c' := by simpa using hc
        have hview : view s = c.snap := by simp [view, h2, h3]
        rcases hans : answer c rand with ⟨o', _ | db⟩
        · rw [hans] at hs
          simp only [Option.some.injEq, Prod.mk.injEq] at hs
          obtain ⟨rfl, rfl⟩ := hs
          refine ⟨.inl ⟨by simp [h1], h2⟩, fun t v h => h, ?_⟩
          rintro c' rand' t he rfl
          simp only [Ev.reply.injEq] at he
          obtain ⟨rfl, rfl⟩ := he
          unfold answer at hans
          split at hans
          · cases hans
          · split at hans <;> cases hans
        · rw [hans] at hs
          simp only [Option.some.injEq, Prod.mk.injEq] at hs
          obtain ⟨rfl, rfl⟩ := hs
          unfold answer at hans
          split at hans
          · cases hans
          · split at hans
            · cases hans
            · next tok htok =>
              simp only [Prod.mk.injEq, Option.some.injEq] at hans
              obtain ⟨rfl, rfl⟩ := hans
              obtain ⟨hf, _⟩ := pick_fresh htok
              refine ⟨.inr (.inr ⟨_, by simp [h1], by simp [h2]; rfl⟩), ?_, ?_⟩
              · intro t v h
                rw [hview] at h
                show (c.snap.set tok _).get t = _
                rw [GoMap.get_set]
                split
                · next e => subst e; rw [hf] at h; cases h
                · exact h
              · rintro c' rand' t he ht
                simp only [Ev.reply.injEq] at he
                simp only [Out.pin.injEq] at ht
                obtain ⟨rfl, rfl⟩ := he
                subst ht
                rw [hview]
                exact ⟨hf, GoMap.get_set_self _ _ _⟩
      · rw [h] at hc; cases hc
    · cases hs
  | save db sv =>
    simp only [Serial] at hg
    subst hg
    simp only [step] at hs
    split at hs
    · next hd =>
      simp only [Option.some.injEq, Prod.mk.injEq] at hs
      obtain ⟨rfl, rfl⟩ := hs
      rcases ha with ⟨_, h⟩ | ⟨c, _, h, _⟩ | ⟨d, h1, h2⟩
      · rw [h] at hd; cases hd
      · rw [h] at hd; cases hd
      · rw [h2] at hd
        obtain rfl : db = d := by simpa using hd
        refine ⟨.inl ⟨h1, by simp [h2]⟩, ?_, by simp⟩
        intro t v h
        simpa [view, h2, Policy.saved] using h
    · cases hs
  | pull t =>
    simp only [step, Option.some.injEq, Prod.mk.injEq] at hs
    obtain ⟨_, rfl⟩ := hs
    refine ⟨ha, ?_, by simp⟩
    intro t v h
    simpa [view] using h
  | tick h =>
    simp only [step, Option.some.injEq, Prod.mk.injEq] at hs
    obtain ⟨_, rfl⟩ := hs
    exact ⟨ha, fun t v h => h, by simp⟩

theorem serial_run {limit : Nat} {s s' : State} {es : List (Ev × Out)} (ha : Alone s)
    (hr : Run limit Serial s es s') :
    Alone s' ∧ ∀ t v, (view s).get t = some v → (view s').get t = some v := by
  induction hr with
  | nil => exact ⟨ha, fun t v h => h⟩
  | cons hg hs _ ih =>
    obtain ⟨h1, h2, _⟩ := serial_step ha hg hs
    obtain ⟨h3, h4⟩ := ih h1
    exact ⟨h3, fun t v h => h4 t v (h2 t v h)⟩

/-- **C41** If calls of `handleRendezvous` do not overlap and saving succeeds, pulling a PIN returns exactly
the blob it was issued for, whatever happens in between. The full statement, without the conditions, is
false: see the theorems below. -/
theorem C41_pull_exact_partial (limit : Nat) (es es' : List (Ev × Out)) (c : Call) (rand : Nat → Option Nat)
    (t : Bytes) (s : State) (hr : Run limit Serial init (es ++ (.reply c rand, .pin t) :: es') s)
    (hd : Decoded limit c.blob c.exp) (hs : s.saving = []) :
    ∃ s', step limit s (.pull t) = some (.blob t c.blob, s') := by
  obtain ⟨s1, h1, h2⟩ := run_append hr
  obtain ⟨ha, _⟩ := serial_run (.inl ⟨rfl, rfl⟩) h1
  cases h2 with
  | cons hg hst h3 =>
    obtain ⟨ha', _, hp⟩ := serial_step ha hg hst
    have hrec := (hp c rand t rfl rfl).2
    have := (serial_run ha' h3).2 t _ hrec
    refine ⟨_, by
      simp only [step]
      rw [pull_record hd (by simpa [view, hs] using this)]⟩

/-- **C41** Under the same conditions no PIN is issued twice. -/
theorem C41_distinct_partial (limit : Nat) (es1 es2 es3 : List (Ev × Out)) (c c' : Call)
    (rand rand' : Nat → Option Nat) (t t' : Bytes) (s : State)
    (hr : Run limit Serial init (es1 ++ (.reply c rand, .pin t) :: (es2 ++ (.reply c' rand', .pin t') :: es3)) s) :
    t ≠ t' := by
  obtain ⟨s1, h1, h2⟩ := run_append hr
  obtain ⟨ha, _⟩ := serial_run (.inl ⟨rfl, rfl⟩) h1
  cases h2 with
  | cons hg hst h3 =>
    obtain ⟨ha', _, hp⟩ := serial_step ha hg hst
    have hrec := (hp c rand t rfl rfl).2
    obtain ⟨s2, h4, h5⟩ := run_append h3
    obtain ⟨ha2, hv⟩ := serial_run ha' h4
    cases h5 with
    | cons hg2 hst2 _ =>
      have := ((serial_step ha2 hg2 hst2).2.2 c' rand' t' rfl rfl).1
      rintro rfl
      rw [hv t _ hrec] at this
      cases this

/-! ## The file -/

/-- Bytes as characters; here they are all ASCII. -/
def str (b : Bytes) : IniDB.Str := b.map fun c => Char.ofNat c.toNat

theorem ofNat_toNat {n : Nat} (h : n < 128) : (Char.ofNat n).toNat = n := by
  have : ∀ i : Fin 128, (Char.ofNat i.1).toNat = i.1 := by decide
  exact this ⟨n, h⟩

theorem str_injective {a b : Bytes} (ha : ∀ c ∈ a, c.toNat < 128) (hb : ∀ c ∈ b, c.toNat < 128)
    (h : str a = str b) : a = b := by
  induction a generalizing b with
  | nil => cases b with
    | nil => rfl
    | cons y b => simp [str] at h
  | cons x a ih => cases b with
    | nil => simp [str] at h
    | cons y b =>
      simp only [str, List.map_cons, List.cons.injEq] at h
      have hx := ofNat_toNat (ha x (by simp))
      rw [h.1, ofNat_toNat (hb y (by simp))] at hx
      have : x = y := UInt8.toNat_inj.1 hx.symm
      subst this
      rw [ih (fun c hc => ha c (by simp [hc])) (fun c hc => hb c (by simp [hc])) h.2]

theorem mem_str {b : Bytes} {x : Char} (hb : ∀ c ∈ b, 43 ≤ c.toNat ∧ c.toNat ≤ 122) (h : x ∈ str b) :
    43 ≤ x.toNat ∧ x.toNat ≤ 122 ∧ ∃ c ∈ b, c.toNat = x.toNat := by
  simp only [str, List.mem_map] at h
  obtain ⟨c, hc, rfl⟩ := h
  have := hb c hc
  rw [ofNat_toNat (by omega)]
  exact ⟨this.1, this.2, c, hc, rfl⟩

theorem no_space {x : Char} (h : 43 ≤ x.toNat ∧ x.toNat ≤ 122) : IniDB.isSpace x = false := by
  simp only [IniDB.isSpace, Bool.or_eq_false_iff, Bool.and_eq_false_iff, beq_eq_false_iff_ne, ne_eq,
    decide_eq_false_iff_not]
  omega

theorem trim_str {b : Bytes} (hb : ∀ c ∈ b, 43 ≤ c.toNat ∧ c.toNat ≤ 122) : IniDB.trim (str b) = str b := by
  have key : ∀ l : IniDB.Str, (∀ x ∈ l, IniDB.isSpace x = false) → l.dropWhile IniDB.isSpace = l := by
    intro l hl
    cases l with
    | nil => rfl
    | cons x l => rw [List.dropWhile_cons, hl x (by simp)]; rfl
  have hs : ∀ x ∈ str b, IniDB.isSpace x = false := fun x hx => no_space ⟨(mem_str hb hx).1, (mem_str hb hx).2.1⟩
  rw [IniDB.trim, key _ hs, key _ (by intro x hx; exact hs x (by simpa using hx)), List.reverse_reverse]

theorem pin_chars {t : Bytes} (h : IsPin t) : ∀ c ∈ t, 48 ≤ c.toNat ∧ c.toNat ≤ 57 := by
  obtain ⟨n, _, rfl⟩ := h
  exact formatAux_digits _ _

theorem pin_good {t : Bytes} (h : IsPin t) : IniDB.GoodKey (str t) := by
  have hc := pin_chars h
  have hb : ∀ c ∈ t, 43 ≤ c.toNat ∧ c.toNat ≤ 122 := fun c h => by have := hc c h; omega
  have ne : ∀ x ∈ str t, 48 ≤ x.toNat ∧ x.toNat ≤ 57 := by
    intro x hx
    obtain ⟨_, _, c, h1, h2⟩ := mem_str hb hx
    have := hc c h1
    omega
  refine ⟨?_, trim_str hb, ?_, ?_, ?_, ?_⟩
  · obtain ⟨n, _, rfl⟩ := h
    intro e
    simp only [str, List.map_eq_nil_iff] at e
    exact formatAux_ne_nil _ _ e
  · intro e; have := ne _ e; revert this; decide
  · intro e; have := ne _ e; revert this; decide
  · intro e; have := ne _ (List.mem_of_head? e); revert this; decide
  · intro e; have := ne _ (List.mem_of_head? e); revert this; decide

theorem record_good (b x : Bytes) : IniDB.GoodVal (str (record b x)) := by
  have hb := Base64.encode_safe (Xdr.enc Xdr.rendezvous (b, x))
  refine ⟨trim_str hb, ?_⟩
  intro e
  have := (mem_str hb e).1
  revert this; decide

/-- The database that the records stand for, in memory before `Save`. -/
def toIni (base : IniDB.Str) (created : Bool) (db : DB) : IniDB.DB :=
  { base := base, depth := 10, dirty := true, created := created,
    tables := [([], db.map fun kv => (str kv.1, str kv.2))] }

/-- Records as the server makes them. -/
def Proper (db : DB) : Prop := GoMap.WF db ∧ ∀ k v, (k, v) ∈ db → IsPin k ∧ ∃ b x, v = record b x

theorem get_map {db : DB} (h : ∀ k v, (k, v) ∈ db → IsPin k) (t : Bytes) (ht : ∀ c ∈ t, c.toNat < 128) :
    GoMap.get (db.map fun kv => (str kv.1, str kv.2)) (str t) = (db.get t).map str := by
  induction db with
  | nil => rfl
  | cons a db ih =>
    obtain ⟨k, v⟩ := a
    have hk := pin_chars (h k v (by simp))
    rw [List.map_cons, GoMap.get_cons, GoMap.get_cons]
    by_cases e : k = t
    · subst e; simp
    · have : str k ≠ str t := fun e' => e (str_injective (fun c hc => by have := hk c hc; omega) ht e')
      rw [if_neg this, if_neg e]
      exact ih fun k v hm => h k v (by simp [hm])

/-- **C41** The records survive the file: saving them and opening the file again gives the same answer for
every PIN. -/
theorem C41_file (db : DB) (hp : Proper db) (base : IniDB.Str) (created : Bool) (d : IniDB.Dir)
    (tmp stamp : IniDB.Str) (order : List (IniDB.Str × List (IniDB.Str × IniDB.Str))) (c : Bool) (depth : Int)
    (tmp' : IniDB.Str) (ht : IniDB.TmpOK (toIni base created db) tmp)
    (hb : created = true ∨ (d.get base).isSome) (ho : IniDB.IsOrder (toIni base created db).tables order) :
    ∃ j, IniDB.new base c depth (IniDB.save (toIni base created db) d tmp stamp order).2.2 tmp' = .opened j ∧
      ∀ t, IsPin t → IniDB.get j [] (str t) = (db.get t).map str := by
  have hpin : ∀ k v, (k, v) ∈ db → IsPin k := fun k v h => (hp.2 k v h).1
  have hget : ∀ s, (toIni base created db).tables.get [] = some s → s = db.map fun kv => (str kv.1, str kv.2) := by
    intro s h; simpa [toIni, GoMap.get_cons] using h.symm
  have htab : ∀ t s, (toIni base created db).tables.get t = some s → t = [] ∧ s = db.map fun kv => (str kv.1, str kv.2) := by
    intro t s h
    simp only [toIni, GoMap.get_cons, GoMap.get_nil] at h
    split at h
    · next e => exact ⟨e.symm, (Option.some.inj h).symm⟩
    · cases h
  have hwf : GoMap.WF (db.map fun kv => (str kv.1, str kv.2)) := by
    have h1 := hp.1
    unfold GoMap.WF GoMap.keys at h1 ⊢
    rw [List.map_map]
    have : (Prod.fst ∘ fun kv : Bytes × Bytes => (str kv.1, str kv.2)) = str ∘ Prod.fst := rfl
    rw [this, ← List.map_map]
    refine List.Nodup.map_on ?_ h1
    intro x hx y hy e
    simp only [List.mem_map] at hx hy
    obtain ⟨⟨k, v⟩, h3, rfl⟩ := hx
    obtain ⟨⟨k', v'⟩, h4, rfl⟩ := hy
    exact str_injective (fun c hc => by have := pin_chars (hpin k v h3) c hc; omega)
      (fun c hc => by have := pin_chars (hpin k' v' h4) c hc; omega) e
  have hm : IniDB.MapsOK (toIni base created db) := by
    refine ⟨by simp [toIni, GoMap.WF, GoMap.keys], ?_⟩
    intro t s h
    obtain ⟨rfl, rfl⟩ := htab t s h
    exact hwf
  have hgood : IniDB.GoodContent (toIni base created db).tables := by
    intro t s h
    obtain ⟨rfl, rfl⟩ := htab t s h
    refine ⟨⟨rfl, by simp, by simp⟩, ?_⟩
    intro k v hkv
    have := GoMap.mem_of_get hkv
    simp only [List.mem_map, Prod.mk.injEq] at this
    obtain ⟨⟨k', v'⟩, h1, rfl, rfl⟩ := this
    obtain ⟨h2, b, x, rfl⟩ := hp.2 k' v' h1
    exact ⟨pin_good h2, record_good b x⟩
  obtain ⟨-, j, hj, -, hgets⟩ := IniDB.C28_save_reopen_partial (toIni base created db) d tmp stamp order c depth tmp'
    hm rfl ht hb ho hgood (by simp [toIni, GoMap.get_cons]) (by
      right
      have h1 := ho.1
      simp only [toIni, GoMap.keys, List.map_cons, List.map_nil] at h1
      have := List.perm_singleton.1 h1
      cases order with
      | nil => simp at this
      | cons a o => simp at this; simp [this.1])
  refine ⟨j, hj, ?_⟩
  intro t ht'
  rw [hgets]
  simp only [IniDB.get, toIni, GoMap.get_cons, if_true]
  exact get_map hpin t fun c hc => by have := pin_chars ht' c hc; omega

/-! ## Examples and violations -/

def exec (limit : Nat) (s : State) : List Ev → Option (List (Ev × Out) × State)
  | [] => some ([], s)
  | e :: es =>
    match step limit s e with
    | none => none
    | some (o, s') => (exec limit s' es).map fun r => ((e, o) :: r.1, r.2)

theorem run_of_exec {limit : Nat} {s s' : State} {es : List Ev} {tr : List (Ev × Out)}
    (h : exec limit s es = some (tr, s')) : Run limit (fun _ _ => True) s tr s' := by
  induction es generalizing s tr with
  | nil => simp only [exec, Option.some.injEq, Prod.mk.injEq] at h; obtain ⟨rfl, rfl⟩ := h; exact .nil _
  | cons e es ih =>
    simp only [exec] at h
    split at h
    · cases h
    · next o s1 h1 =>
      simp only [Option.map_eq_some_iff, Prod.mk.injEq] at h
      obtain ⟨⟨tr', s2⟩, h2, rfl, rfl⟩ := h
      exact .cons trivial h1 (ih h2)

/-- "24", "1" -/
def day : Bytes := [50, 52]
def hour : Bytes := [49]
def blob1 : Bytes := [1, 2, 3]
def blob2 : Bytes := [4]
def pin7 : Bytes := [55]
def rand7 : Nat → Option Nat := fun _ => some 7000007
def rec1 : Bytes := record blob1 hour
def rec2 : Bytes := record blob2 hour

example : format 7 = pin7 ∧ format 120 = [49, 50, 48] ∧ format 0 = [48] := by decide
example : Acceptable blob1 day ∧ ¬ Acceptable blob1 [49, 54, 57] ∧ ¬ Acceptable blob1 [] ∧ ¬ Acceptable blob1 [45, 49] := by
  refine ⟨⟨by decide, 24, by decide⟩, ?_, ?_, ?_⟩ <;> rw [← refused_iff] <;> decide
example : Decoded 0 blob1 hour := ⟨⟨by decide, by decide⟩, ⟨by decide, by decide⟩⟩
/-- A used PIN is not issued again. -/
example : answer ⟨blob1, day, [(pin7, rec2)]⟩ rand7 = (.failed, none) ∧
    (answer ⟨blob1, day, [(pin7, rec2)]⟩ (fun i => if i = 0 then some 7 else if i = 1 then none else some 8)).1 =
      .pin [56] := by decide
/-- Two blobs, both can be pulled. -/
example : ∃ tr s, exec 0 init [.begin blob1 hour, .reply ⟨blob1, hour, []⟩ rand7, .save [(pin7, rec1)] .ok,
      .begin blob2 hour, .reply ⟨blob2, hour, [(pin7, rec1)]⟩ (fun _ => some 8),
      .save [([56], rec2), (pin7, rec1)] .ok, .pull pin7, .pull [56], .pull [57]] = some (tr, s) ∧
    tr.map Prod.snd = [.nothing, .pin pin7, .nothing, .nothing, .pin [56], .nothing,
      .blob pin7 blob1, .blob [56] blob2, .notFound] :=
  ⟨_, _, rfl, by decide⟩
example : Proper [(pin7, rec1)] := by
  refine ⟨by decide, ?_⟩
  intro k v h
  simp only [List.mem_singleton, Prod.mk.injEq] at h
  obtain ⟨rfl, rfl⟩ := h
  exact ⟨⟨7, by decide, by decide⟩, _, _, rfl⟩

/-- **C41** Expired blobs are returned: this one was to be kept for one hour. -/
theorem C41_expired_violated : ∃ tr s s', Run 0 (fun _ _ => True) init tr s ∧
    (∃ es c rand es', tr = es ++ (.reply c rand, .pin pin7) :: es' ∧ c.exp = hour ∧ (Ev.tick 1000, Out.nothing) ∈ es') ∧
    step 0 s (.pull pin7) = some (.blob pin7 blob1, s') :=
  ⟨_, _, _, run_of_exec (es := [.begin blob1 hour, .reply ⟨blob1, hour, []⟩ rand7, .save [(pin7, rec1)] .ok,
      .tick 1000]) rfl,
    ⟨[(.begin blob1 hour, .nothing)], ⟨blob1, hour, []⟩, rand7, _, rfl, rfl, by simp⟩, rfl⟩

/-- **C41** Two overlapping rendezvous can get the same PIN, and a pull then returns the other blob. -/
theorem C41_overlap_violated : ∃ tr s s' c c' rand, Run 0 (fun _ _ => True) init tr s ∧
    (Ev.reply c rand, Out.pin pin7) ∈ tr ∧ c.blob = blob1 ∧
    (Ev.reply c' rand, Out.pin pin7) ∈ tr ∧ c'.blob = blob2 ∧
    step 0 s (.pull pin7) = some (.blob pin7 blob2, s') :=
  ⟨_, _, _, ⟨blob1, hour, []⟩, ⟨blob2, hour, []⟩, rand7,
    run_of_exec (es := [.begin blob1 hour, .begin blob2 hour, .reply ⟨blob1, hour, []⟩ rand7,
      .reply ⟨blob2, hour, []⟩ rand7, .save [(pin7, rec1)] .ok, .save [(pin7, rec2)] .ok]) rfl,
    List.mem_cons_of_mem _ (List.mem_cons_of_mem _ List.mem_cons_self), rfl,
    List.mem_cons_of_mem _ (List.mem_cons_of_mem _ (List.mem_cons_of_mem _ List.mem_cons_self)), rfl, rfl⟩

/-- **C41** And with different PINs the first blob is lost. -/
theorem C41_lost_violated : ∃ tr s s' c rand, Run 0 (fun _ _ => True) init tr s ∧
    (Ev.reply c rand, Out.pin pin7) ∈ tr ∧ c.blob = blob1 ∧ s.saving = [] ∧
    step 0 s (.pull pin7) = some (.notFound, s') :=
  ⟨_, _, _, ⟨blob1, hour, []⟩, rand7,
    run_of_exec (es := [.begin blob1 hour, .begin blob2 hour, .reply ⟨blob1, hour, []⟩ rand7,
      .reply ⟨blob2, hour, []⟩ (fun _ => some 8), .save [(pin7, rec1)] .ok, .save [([56], rec2)] .ok]) rfl,
    List.mem_cons_of_mem _ (List.mem_cons_of_mem _ List.mem_cons_self), rfl, rfl, rfl⟩

/-- **C41** The PIN is sent before the file is saved: whoever pulls it at once is told that it is invalid;
and if saving fails that is final. -/
theorem C41_early_violated : ∃ tr s s' c rand, Run 0 (fun _ _ => True) init tr s ∧
    (Ev.reply c rand, Out.pin pin7) ∈ tr ∧ c.blob = blob1 ∧
    step 0 s (.pull pin7) = some (.notFound, s') ∧
    ∃ s2, step 0 s' (.save [(pin7, rec1)] .fail) = some (.nothing, s2) ∧ s2.saving = [] ∧
      ∃ s3, step 0 s2 (.pull pin7) = some (.notFound, s3) :=
  ⟨_, _, _, ⟨blob1, hour, []⟩, rand7,
    run_of_exec (es := [.begin blob1 hour, .reply ⟨blob1, hour, []⟩ rand7]) rfl,
    List.mem_cons_of_mem _ List.mem_cons_self, rfl, rfl, _, rfl, rfl, _, rfl⟩

end Verif.Rendezvous
