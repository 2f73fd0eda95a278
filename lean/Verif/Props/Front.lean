import Verif.Model.Front
import Verif.Props.Xdr
import Mathlib.Tactic.ByContra

/-! # C102: what can be had before a session -/

namespace Verif.Front

open Verif Xdr

/-! ## Decoders -/

/-- A decoder that, having failed, is not influenced by what follows. -/
def StableBad {α : Type} (f : Bytes → Res α) : Prop := ∀ buf x, f buf = .bad → f (buf ++ x) = .bad

theorem stableBad_readFull (n : Nat) : StableBad (readFull n) := by
  intro buf x h
  unfold readFull at h
  split at h
  · cases h
  · split at h
    · cases h
    · split at h <;> cases h

theorem StableBad.bind {α β : Type} {f : Bytes → Res α} {g : α → Bytes → Res β} (hf : StableBad f) (hf' : Stable f)
    (hg : ∀ a, StableBad (g a)) : StableBad (fun buf => (f buf).bind g) := by
  intro buf x h
  cases hfb : f buf with
  | ok a r =>
    simp only [hfb, Res.bind] at h
    simp only [hf' buf a r x hfb, Res.bind]
    exact hg a r x h
  | eof => simp [hfb, Res.bind] at h
  | unexpected => simp [hfb, Res.bind] at h
  | bad => simp only [hf buf x hfb, Res.bind]

theorem stableBad_ok {α : Type} (a : α) : StableBad (fun r => Res.ok a r) := by
  intro buf x h; cases h

theorem stableBad_bad {α : Type} : StableBad (fun _ => (Res.bad : Res α)) := by
  intro buf x h; rfl

theorem stableBad_u32 : StableBad readU32 := (stableBad_readFull 4).bind (stable_readFull 4) (fun _ => stableBad_ok _)

theorem stableBad_u64 : StableBad readU64 := (stableBad_readFull 8).bind (stable_readFull 8) (fun _ => stableBad_ok _)

theorem stableBad_fixed (n : Nat) : StableBad (readFixed n) :=
  (stableBad_readFull _).bind (stable_readFull _) (fun _ => stableBad_ok _)

theorem stableBad_many {α : Type} {f : Bytes → Res α} (hf : StableBad f) (hf' : Stable f) (n : Nat) :
    StableBad (readMany f n) := by
  induction n with
  | zero => exact stableBad_ok _
  | succ n ih => exact hf.bind hf' (fun a => ih.bind (stable_many hf' n) (fun l => stableBad_ok _))

theorem stableBad_dec (limit : Nat) (t : Ty) : StableBad (dec limit t) := by
  induction t with
  | u32 => exact stableBad_u32
  | i32 => exact stableBad_u32.bind stable_u32 (fun _ => stableBad_ok _)
  | u64 => exact stableBad_u64
  | i64 => exact stableBad_u64.bind stable_u64 (fun _ => stableBad_ok _)
  | bool =>
    refine stableBad_u32.bind stable_u32 (fun n => ?_)
    by_cases h0 : n = 0
    · simp only [h0, if_true]; exact stableBad_ok _
    · by_cases h1 : n = 1
      · simp only [h1, if_true]; exact stableBad_ok _
      · simp only [h0, h1, if_false]; exact stableBad_bad
  | «opaque» =>
    refine stableBad_u32.bind stable_u32 (fun n => ?_)
    cases tooLong limit n
    · exact stableBad_fixed n
    · exact stableBad_bad
  | fixed n =>
    refine (stableBad_fixed n).bind (stable_fixed n) (fun b => ?_)
    by_cases hb : b.length = n
    · simp only [hb, dite_true]; exact stableBad_ok _
    · simp only [hb, dite_false]; exact stableBad_bad
  | unit => exact stableBad_ok _
  | pair a b iha ihb =>
    exact iha.bind (stable_dec limit a) (fun x => ihb.bind (stable_dec limit b) (fun y => stableBad_ok _))
  | list a ih =>
    refine stableBad_u32.bind stable_u32 (fun n => ?_)
    cases tooLong limit n
    · exact stableBad_many ih (stable_dec limit a) n
    · exact stableBad_bad

/-- What is read is taken from the front. -/
def Eats {α : Type} (k : Nat) (f : Bytes → Res α) : Prop := ∀ buf a rest, f buf = .ok a rest → rest.length + k ≤ buf.length

theorem eats_readFull (n : Nat) : Eats n (readFull n) := by
  intro buf a rest h
  unfold readFull at h
  split at h
  · next h0 => cases h; omega
  · split at h
    · cases h
    · split at h
      · cases h
      · next hl => cases h; simp; omega

theorem Eats.bind {α β : Type} {k l : Nat} {f : Bytes → Res α} {g : α → Bytes → Res β} (hf : Eats k f) (hg : ∀ a, Eats l (g a)) :
    Eats (k + l) (fun buf => (f buf).bind g) := by
  intro buf b rest h
  cases hfb : f buf with
  | ok a r =>
    simp only [hfb, Res.bind] at h
    have := hf buf a r hfb
    have := hg a r b rest h
    omega
  | eof => simp [hfb, Res.bind] at h
  | unexpected => simp [hfb, Res.bind] at h
  | bad => simp [hfb, Res.bind] at h

theorem eats_ok {α : Type} (a : α) : Eats 0 (fun r => Res.ok a r) := by
  intro buf b rest h; cases h; simp

theorem eats_bad {α : Type} : Eats 0 (fun _ => (Res.bad : Res α)) := by
  intro buf b rest h; cases h

theorem Eats.le {α : Type} {k l : Nat} {f : Bytes → Res α} (h : Eats k f) (hl : l ≤ k) : Eats l f := by
  intro buf a rest e
  have := h buf a rest e
  omega

theorem eats_u32 : Eats 4 readU32 := (eats_readFull 4).bind (fun _ => eats_ok _)

theorem eats_u64 : Eats 8 readU64 := (eats_readFull 8).bind (fun _ => eats_ok _)

theorem eats_fixed (n : Nat) : Eats 0 (readFixed n) := ((eats_readFull _).bind (fun _ => eats_ok _)).le (by omega)

theorem eats_many {α : Type} {f : Bytes → Res α} (hf : Eats 0 f) (n : Nat) : Eats 0 (readMany f n) := by
  induction n with
  | zero => exact eats_ok _
  | succ n ih => exact hf.bind (fun a => ih.bind (fun l => eats_ok _))

theorem eats_opaque (limit : Nat) : Eats 4 (dec limit .opaque) := by
  refine eats_u32.bind (l := 0) (fun n => ?_)
  cases tooLong limit n
  · exact eats_fixed n
  · exact eats_bad

theorem eats_dec (limit : Nat) (t : Ty) : Eats 0 (dec limit t) := by
  induction t with
  | u32 => exact eats_u32.le (by omega)
  | i32 => exact (eats_u32.bind (fun _ => eats_ok _)).le (by omega)
  | u64 => exact eats_u64.le (by omega)
  | i64 => exact (eats_u64.bind (fun _ => eats_ok _)).le (by omega)
  | bool =>
    refine (eats_u32.bind (l := 0) (fun n => ?_)).le (by omega)
    by_cases h0 : n = 0
    · simp only [h0, if_true]; exact eats_ok _
    · by_cases h1 : n = 1
      · simp only [h1, if_true]; exact eats_ok _
      · simp only [h0, h1, if_false]; exact eats_bad
  | «opaque» => exact (eats_opaque limit).le (by omega)
  | fixed n =>
    refine (eats_fixed n).bind (l := 0) (fun b => ?_)
    by_cases hb : b.length = n
    · simp only [hb, dite_true]; exact eats_ok _
    · simp only [hb, dite_false]; exact eats_bad
  | unit => exact eats_ok _
  | pair a b iha ihb => exact iha.bind (l := 0) (fun x => ihb.bind (l := 0) (fun y => eats_ok _))
  | list a ih =>
    refine (eats_u32.bind (l := 0) (fun n => ?_)).le (by omega)
    cases tooLong limit n
    · exact eats_many ih n
    · exact eats_bad

/-- A value of Go is read back, or refused because of the limit. -/
theorem dec_limit (limit : Nat) (t : Ty) (v : Val t) (h : Fits 0 t v) (rest : Bytes) :
    dec limit t (enc t v ++ rest) = .ok v rest ∨ dec limit t (enc t v ++ rest) = .bad := by
  induction t generalizing rest with
  | u32 => exact Or.inl (C23_roundtrip limit .u32 v h rest)
  | i32 => exact Or.inl (C23_roundtrip limit .i32 v h rest)
  | u64 => exact Or.inl (C23_roundtrip limit .u64 v h rest)
  | i64 => exact Or.inl (C23_roundtrip limit .i64 v h rest)
  | bool => exact Or.inl (C23_roundtrip limit .bool v trivial rest)
  | «opaque» =>
    have h1 : v.length < 2 ^ 32 := by have := h.1; omega
    simp only [dec, enc, List.append_assoc, readU32_be32 h1, Res.bind]
    cases tooLong limit v.length
    · exact Or.inl (readFixed_encFixed v rest)
    · exact Or.inr rfl
  | fixed n => exact Or.inl (C23_roundtrip limit (.fixed n) v h rest)
  | unit => exact Or.inl rfl
  | pair a b iha ihb =>
    simp only [dec, enc, List.append_assoc]
    rcases iha v.1 h.1 (enc b v.2 ++ rest) with e | e
    · rw [e]
      simp only [Res.bind]
      rcases ihb v.2 h.2 rest with e | e
      · rw [e]; exact Or.inl rfl
      · rw [e]; exact Or.inr rfl
    · rw [e]; exact Or.inr rfl
  | list a ih =>
    have h1 : v.length < 2 ^ 32 := by have := h.1; omega
    simp only [dec, enc, List.append_assoc, readU32_be32 h1, Res.bind]
    cases tooLong limit v.length
    · have key : ∀ (l : List (Val a)), (∀ x ∈ l, Fits 0 a x) → ∀ rest,
          readMany (dec limit a) l.length (l.flatMap (enc a) ++ rest) = .ok l rest ∨
          readMany (dec limit a) l.length (l.flatMap (enc a) ++ rest) = .bad := by
        intro l
        induction l with
        | nil => intro _ rest; exact Or.inl rfl
        | cons x r ihl =>
          intro hx rest
          simp only [List.length_cons, readMany, List.flatMap_cons, List.append_assoc]
          rcases ih x (hx x List.mem_cons_self) (r.flatMap (enc a) ++ rest) with e | e
          · rw [e]
            simp only [Res.bind]
            rcases ihl (fun y hy => hx y (List.mem_cons_of_mem _ hy)) rest with e | e
            · rw [e]; exact Or.inl rfl
            · rw [e]; exact Or.inr rfl
          · rw [e]; exact Or.inr rfl
      exact key v h.2.2 rest
    · exact Or.inr rfl

/-! ## The server, whatever it gets -/

/-- More bytes than there are make no difference to the first argument. -/
theorem serve_fuel (cfg : Cfg) (o : Rest) : ∀ (f g n : Nat) (bytes : Bytes), bytes.length < f → bytes.length < g →
    serve cfg o f n bytes = serve cfg o g n bytes := by
  intro f
  induction f with
  | zero => intro g n bytes h; omega
  | succ f ih =>
    intro g n bytes hf hg
    cases g with
    | zero => omega
    | succ g =>
      unfold serve
      cases e : dec cfg.limit .opaque bytes with
      | eof => rfl
      | unexpected => rfl
      | bad => rfl
      | ok mode rest =>
        have h1 := eats_opaque cfg.limit bytes mode rest e
        simp only
        rw [ih g n rest (by omega) (by omega)]
        cases e2 : dec cfg.limit createAccount rest with
        | eof => rfl
        | unexpected => rfl
        | bad => rfl
        | ok ca rest' =>
          have h2 := eats_dec cfg.limit createAccount rest ca rest' e2
          simp only
          rw [ih g (n + 1) rest' (by omega) (by omega)]

/-- What is known of the server once more bytes have come: what it has done stays, and nothing comes after the end. -/
def Extends (a b : List Ev × Fate) (x : Bytes) : Prop :=
  a.1 <+: b.1 ∧ (a.2 = .closed → b = a) ∧ (∀ r, a.2 = .session r → b = (a.1, .session (r ++ x)))

theorem extends_waiting (b : List Ev × Fate) (x : Bytes) : Extends ([], .waiting) b x :=
  ⟨List.nil_prefix, fun h => by simp at h, fun r h => by simp at h⟩

theorem extends_closed (e : List Ev) (x : Bytes) : Extends (e, .closed) (e, .closed) x :=
  ⟨List.prefix_refl _, fun _ => rfl, fun r h => by simp at h⟩

theorem Extends.more {a b : List Ev × Fate} {x : Bytes} (h : Extends a b x) (p : List Ev) :
    Extends (p ++ a.1, a.2) (p ++ b.1, b.2) x := by
  obtain ⟨h1, h2, h3⟩ := h
  refine ⟨(List.prefix_append_right_inj p).mpr h1, fun e => ?_, fun r e => ?_⟩
  · rw [h2 e]
  · rw [h3 r e]

theorem serve_extends (cfg : Cfg) (o : Rest) : ∀ (f n : Nat) (bytes x : Bytes), bytes.length + x.length < f →
    Extends (serve cfg o f n bytes) (serve cfg o f n (bytes ++ x)) x := by
  intro f
  induction f with
  | zero => intro n bytes x h; omega
  | succ f ih =>
    intro n bytes x hl
    cases e : dec cfg.limit .opaque bytes with
    | eof => simp only [serve, e]; exact extends_waiting _ _
    | unexpected => simp only [serve, e]; exact extends_waiting _ _
    | bad =>
      have e' := stableBad_dec cfg.limit .opaque bytes x e
      simp only [serve, e, e']
      exact extends_closed _ _
    | ok mode rest =>
      have e' := stable_dec cfg.limit .opaque bytes mode rest x e
      have h1 := eats_opaque cfg.limit bytes mode rest e
      simp only [serve, e, e']
      by_cases m1 : mode = mIdentify
      · rw [if_pos m1, if_pos m1]
        cases cfg.identify with
        | false => exact extends_closed _ _
        | true => exact (ih n rest x (by omega)).more [.reply .identity]
      · rw [if_neg m1, if_neg m1]
        by_cases m2 : mode = mCreate
        · rw [if_pos m2, if_pos m2]
          cases e2 : dec cfg.limit createAccount rest with
          | eof => exact extends_waiting _ _
          | unexpected => exact extends_waiting _ _
          | bad =>
            rw [stableBad_dec cfg.limit createAccount rest x e2]
            exact extends_closed _ _
          | ok ca rest' =>
            have h2 := eats_dec cfg.limit createAccount rest ca rest' e2
            rw [stable_dec cfg.limit createAccount rest ca rest' x e2]
            simp only
            cases (handle cfg o n ca.1 ca.2).2 with
            | false => exact extends_closed _ _
            | true => exact (ih (n + 1) rest' x (by omega)).more _
        · rw [if_neg m2, if_neg m2]
          by_cases m3 : mode = mSession
          · rw [if_pos m3, if_pos m3]
            refine ⟨List.prefix_refl _, fun h => by simp at h, fun r h => ?_⟩
            simp only [Fate.session.injEq] at h
            rw [h]
          · rw [if_neg m3, if_neg m3]
            exact extends_closed _ _

theorem server_extends (cfg : Cfg) (o : Rest) (bytes x : Bytes) : Extends (server cfg o bytes) (server cfg o (bytes ++ x)) x := by
  have h := serve_extends cfg o ((bytes ++ x).length + 1) 0 bytes x (by simp)
  unfold server
  rw [serve_fuel cfg o (bytes.length + 1) ((bytes ++ x).length + 1) 0 bytes (by omega) (by simp; omega)]
  exact h

/-- C102: in which pieces the bytes arrive makes no difference: what the server has done stays, once it has closed the connection
nothing more happens, and once it is in the key exchange everything that comes belongs to that. -/
theorem C102_pieces (cfg : Cfg) (o : Rest) (bytes x : Bytes) :
    (server cfg o bytes).1 <+: (server cfg o (bytes ++ x)).1 ∧
    ((server cfg o bytes).2 = .closed → server cfg o (bytes ++ x) = server cfg o bytes) ∧
    ∀ r, (server cfg o bytes).2 = .session r → server cfg o (bytes ++ x) = ((server cfg o bytes).1, .session (r ++ x)) :=
  server_extends cfg o bytes x

/-- What the server may do on a connection with somebody it does not know. -/
structure Proper (cfg : Cfg) (evs : List Ev) (fate : Fate) : Prop where
  /-- the identity is given only if the settings say so -/
  identity : Ev.reply .identity ∈ evs → cfg.identify = true
  /-- an account is made only if anybody may have one, or just after a valid token was found -/
  create : ∀ a pub ok b, evs = a ++ Ev.create pub ok :: b →
    cfg.policy = Policy.sYes ∨ (cfg.policy = Policy.sToken ∧ ∃ a' token, a = a' ++ [.check token true])
  /-- tokens are looked at only if the settings say so -/
  check : ∀ token ok, Ev.check token ok ∈ evs → cfg.policy = Policy.sToken
  /-- success is reported just after an account was made, and then only -/
  created : ∀ a b, evs = a ++ Ev.reply .created :: b → ∃ a' pub, a = a' ++ [.create pub true]
  told : ∀ a pub ok b, evs = a ++ Ev.create pub ok :: b → ∃ b', b = .reply (if ok then .created else .internal) :: b'
  /-- nothing comes after a refusal -/
  refused : ∀ a b, evs = a ++ Ev.reply .refused :: b → b = [] ∧ fate = .closed

theorem split_append {α : Type} {c r a b : List α} {x : α} (h : c ++ r = a ++ x :: b) :
    (∃ b1, c = a ++ x :: b1 ∧ b = b1 ++ r) ∨ ∃ a2, a = c ++ a2 ∧ r = a2 ++ x :: b := by
  rcases List.append_eq_append_iff.mp h with ⟨a2, h1, h2⟩ | ⟨c2, h1, h2⟩
  · exact Or.inr ⟨a2, h1, h2⟩
  · cases c2 with
    | nil => exact Or.inr ⟨[], by simpa using h1.symm, by simpa using h2.symm⟩
    | cons y t =>
      simp only [List.cons_append, List.cons.injEq] at h2
      exact Or.inl ⟨t, by rw [h1, h2.1], h2.2⟩

theorem Proper.append {cfg : Cfg} {c r : List Ev} {f : Fate} (hc : Proper cfg c .waiting) (hr : Proper cfg r f) :
    Proper cfg (c ++ r) f where
  identity h := by
    rcases List.mem_append.mp h with h | h
    · exact hc.identity h
    · exact hr.identity h
  check t ok h := by
    rcases List.mem_append.mp h with h | h
    · exact hc.check t ok h
    · exact hr.check t ok h
  create a pub ok b h := by
    rcases split_append h with ⟨b1, h1, _⟩ | ⟨a2, h1, h2⟩
    · exact hc.create a pub ok b1 h1
    · rcases hr.create a2 pub ok b h2 with g | ⟨g1, a', t, g2⟩
      · exact Or.inl g
      · exact Or.inr ⟨g1, c ++ a', t, by rw [h1, g2, List.append_assoc]⟩
  created a b h := by
    rcases split_append h with ⟨b1, h1, _⟩ | ⟨a2, h1, h2⟩
    · exact hc.created a b1 h1
    · obtain ⟨a', pub, g⟩ := hr.created a2 b h2
      exact ⟨c ++ a', pub, by rw [h1, g, List.append_assoc]⟩
  told a pub ok b h := by
    rcases split_append h with ⟨b1, h1, h2⟩ | ⟨a2, h1, h2⟩
    · obtain ⟨b', g⟩ := hc.told a pub ok b1 h1
      exact ⟨b' ++ r, by rw [h2, g, List.cons_append]⟩
    · exact hr.told a2 pub ok b h2
  refused a b h := by
    rcases split_append h with ⟨b1, h1, h2⟩ | ⟨a2, h1, h2⟩
    · have := (hc.refused a b1 h1).2
      simp at this
    · exact hr.refused a2 b h2

theorem proper_nil (cfg : Cfg) (f : Fate) : Proper cfg [] f := by
  constructor <;> intros <;> simp_all

theorem proper_identity {cfg : Cfg} (h : cfg.identify = true) : Proper cfg [.reply .identity] .waiting := by
  constructor
  · intro _; exact h
  all_goals intro a; intros
  · rcases a with _ | ⟨_, _ | _⟩ <;> simp_all
  · simp_all
  · rcases a with _ | ⟨_, _ | _⟩ <;> simp_all
  · rcases a with _ | ⟨_, _ | _⟩ <;> simp_all
  · rcases a with _ | ⟨_, _ | _⟩ <;> simp_all

theorem verdict_allow {p : Bytes} (h : Policy.verdict p = .allow) : p = Policy.sYes := by
  unfold Policy.verdict at h
  split at h
  · cases h
  · split at h
    · cases h
    · split at h
      · assumption
      · cases h

theorem verdict_token {p : Bytes} (h : Policy.verdict p = .askToken) : p = Policy.sToken := by
  unfold Policy.verdict at h
  split at h
  · cases h
  · split at h
    · assumption
    · split at h <;> cases h

theorem proper_handle (cfg : Cfg) (o : Rest) (n : Nat) (token : Bytes) (pub : Pub) :
    Proper cfg (handle cfg o n token pub).1 (if (handle cfg o n token pub).2 then .waiting else .closed) := by
  unfold handle
  cases e : Policy.verdict cfg.policy with
  | refuse =>
    constructor
    · simp
    all_goals intro a; intros
    · rcases a with _ | ⟨_, _ | _⟩ <;> simp_all
    · simp_all
    · rcases a with _ | ⟨_, _ | _⟩ <;> simp_all
    · rcases a with _ | ⟨_, _ | _⟩ <;> simp_all
    · rcases a with _ | ⟨_, _ | _⟩ <;> simp_all
  | allow =>
    have hy := verdict_allow e
    simp only
    cases o.create n pub <;>
    · constructor
      · simp
      all_goals intro a; intros
      · exact Or.inl hy
      · simp_all
      · rcases a with _ | ⟨_, _ | ⟨_, _ | _⟩⟩ <;> simp_all
        try (rename_i h; exact ⟨[], pub, by rw [← h.1]; rfl⟩)
      · rcases a with _ | ⟨_, _ | ⟨_, _ | _⟩⟩ <;> simp_all
        rename_i h; exact ⟨[], h.2.symm⟩
      · rcases a with _ | ⟨_, _ | ⟨_, _ | _⟩⟩ <;> simp_all
  | askToken =>
    have ht := verdict_token e
    simp only
    cases o.token n token with
    | false =>
      constructor
      · simp
      all_goals intro a; intros
      · rcases a with _ | ⟨_, _ | ⟨_, _ | _⟩⟩ <;> simp_all
      · exact ht
      · rcases a with _ | ⟨_, _ | ⟨_, _ | _⟩⟩ <;> simp_all
      · rcases a with _ | ⟨_, _ | ⟨_, _ | _⟩⟩ <;> simp_all
      · rcases a with _ | ⟨_, _ | ⟨_, _ | _⟩⟩ <;> simp_all
    | true =>
      cases o.create n pub <;>
      · constructor
        · simp
        all_goals intro a; intros
        · refine Or.inr ⟨ht, ?_⟩
          rcases a with _ | ⟨_, _ | ⟨_, _ | ⟨_, _ | _⟩⟩⟩ <;> simp_all
          rename_i h; exact ⟨[], token, by rw [← h.1]; rfl⟩
        · exact ht
        · rcases a with _ | ⟨_, _ | ⟨_, _ | ⟨_, _ | _⟩⟩⟩ <;> simp_all
          try (rename_i h; exact ⟨[.check token true], pub, by rw [← h.1, ← h.2.1]; rfl⟩)
        · rcases a with _ | ⟨_, _ | ⟨_, _ | ⟨_, _ | _⟩⟩⟩ <;> simp_all
          rename_i h; exact ⟨[], h.2.2.symm⟩
        · rcases a with _ | ⟨_, _ | ⟨_, _ | ⟨_, _ | _⟩⟩⟩ <;> simp_all

theorem proper_serve (cfg : Cfg) (o : Rest) : ∀ (f n : Nat) (bytes : Bytes),
    Proper cfg (serve cfg o f n bytes).1 (serve cfg o f n bytes).2 := by
  intro f
  induction f with
  | zero => intro n bytes; exact proper_nil _ _
  | succ f ih =>
    intro n bytes
    cases e : dec cfg.limit .opaque bytes with
    | eof => simp only [serve, e]; exact proper_nil _ _
    | unexpected => simp only [serve, e]; exact proper_nil _ _
    | bad => simp only [serve, e]; exact proper_nil _ _
    | ok mode rest =>
      simp only [serve, e]
      by_cases m1 : mode = mIdentify
      · rw [if_pos m1]
        cases hi : cfg.identify with
        | false => exact proper_nil _ _
        | true => exact (proper_identity hi).append (ih n rest)
      · rw [if_neg m1]
        by_cases m2 : mode = mCreate
        · rw [if_pos m2]
          cases e2 : dec cfg.limit createAccount rest with
          | eof => exact proper_nil _ _
          | unexpected => exact proper_nil _ _
          | bad => exact proper_nil _ _
          | ok ca rest' =>
            simp only
            have hp := proper_handle cfg o n ca.1 ca.2
            cases hh : (handle cfg o n ca.1 ca.2).2 with
            | false =>
              rw [hh] at hp
              exact hp
            | true =>
              rw [hh] at hp
              exact Proper.append hp (ih (n + 1) rest')
        · rw [if_neg m2]
          by_cases m3 : mode = mSession
          · rw [if_pos m3]; exact proper_nil _ _
          · rw [if_neg m3]; exact proper_nil _ _

/-- C102: whatever bytes come, the server gives its identity, looks at tokens and makes accounts only as its settings say, reports
exactly what it did, and has done with the connection after one refusal. -/
theorem C102_policy (cfg : Cfg) (o : Rest) (bytes : Bytes) : Proper cfg (server cfg o bytes).1 (server cfg o bytes).2 :=
  proper_serve cfg o _ 0 bytes

/-! ## The server, on what clients write -/

theorem sent_append (cfg : Cfg) (a b : List Ev) : sent cfg (a ++ b) = sent cfg a ++ sent cfg b := by
  simp [sent]

/-- The server with the right first argument. -/
def srv (cfg : Cfg) (o : Rest) (n : Nat) (bytes : Bytes) : List Ev × Fate := serve cfg o (bytes.length + 1) n bytes

theorem srv_nil (cfg : Cfg) (o : Rest) (n : Nat) : srv cfg o n [] = ([], .waiting) := rfl

theorem srv_bad (cfg : Cfg) (o : Rest) (n : Nat) (bytes : Bytes) (h : dec cfg.limit .opaque bytes = .bad) :
    srv cfg o n bytes = ([], .closed) := by
  simp only [srv, serve, h]

theorem srv_identify (cfg : Cfg) (o : Rest) (n : Nat) (bytes r : Bytes) (h : dec cfg.limit .opaque bytes = .ok mIdentify r) :
    srv cfg o n bytes =
      if cfg.identify then (.reply .identity :: (srv cfg o n r).1, (srv cfg o n r).2) else ([], .closed) := by
  have hl := eats_opaque cfg.limit bytes mIdentify r h
  unfold srv
  rw [← serve_fuel cfg o bytes.length (r.length + 1) n r (by omega) (by omega)]
  simp only [serve, h, if_true]

theorem srv_session (cfg : Cfg) (o : Rest) (n : Nat) (bytes r : Bytes) (h : dec cfg.limit .opaque bytes = .ok mSession r) :
    srv cfg o n bytes = ([], .session r) := by
  simp only [srv, serve, h, if_neg (show ¬ mSession = mIdentify by decide), if_neg (show ¬ mSession = mCreate by decide), if_true]

theorem srv_create (cfg : Cfg) (o : Rest) (n : Nat) (bytes r r' : Bytes) (ca : Val createAccount)
    (h : dec cfg.limit .opaque bytes = .ok mCreate r) (h2 : dec cfg.limit createAccount r = .ok ca r') :
    srv cfg o n bytes = if (handle cfg o n ca.1 ca.2).2 then
      ((handle cfg o n ca.1 ca.2).1 ++ (srv cfg o (n + 1) r').1, (srv cfg o (n + 1) r').2)
      else ((handle cfg o n ca.1 ca.2).1, .closed) := by
  have hl := eats_opaque cfg.limit bytes mCreate r h
  have hl2 := eats_dec cfg.limit createAccount r ca r' h2
  unfold srv
  rw [← serve_fuel cfg o bytes.length (r'.length + 1) (n + 1) r' (by omega) (by omega)]
  simp only [serve, h, if_neg (show ¬ mCreate = mIdentify by decide), if_true, h2]

theorem srv_create_bad (cfg : Cfg) (o : Rest) (n : Nat) (bytes r : Bytes)
    (h : dec cfg.limit .opaque bytes = .ok mCreate r) (h2 : dec cfg.limit createAccount r = .bad) :
    srv cfg o n bytes = ([], .closed) := by
  simp only [srv, serve, h, if_neg (show ¬ mCreate = mIdentify by decide), if_true, h2]

/-- The settings let somebody with this token have an account. -/
def Allowed (cfg : Cfg) (o : Rest) (token : Bytes) : Prop :=
  cfg.policy = Policy.sYes ∨ (cfg.policy = Policy.sToken ∧ o.token 0 token = true)

instance (cfg : Cfg) (o : Rest) (token : Bytes) : Decidable (Allowed cfg o token) := by
  unfold Allowed
  infer_instance

/-- The answer they should get. -/
def answer (cfg : Cfg) (o : Rest) (token : Bytes) (pub : Pub) : Bytes :=
  if Allowed cfg o token then if o.create 0 pub then [] else eInternal else eDisallowed

theorem handle_facts (cfg : Cfg) (o : Rest) (token : Bytes) (pub : Pub) :
    sent cfg (handle cfg o 0 token pub).1 = enc createAccountReply (answer cfg o token pub) ∧
    ((handle cfg o 0 token pub).2 = true ↔ Allowed cfg o token) ∧
    (∃ p r, (handle cfg o 0 token pub).1 = p ++ [.reply r] ∧ sent cfg p = []) ∧
    (Allowed cfg o token → Ev.create pub (o.create 0 pub) ∈ (handle cfg o 0 token pub).1) ∧
    (∀ q b, Ev.create q b ∈ (handle cfg o 0 token pub).1 → Allowed cfg o token ∧ q = pub ∧ b = o.create 0 pub) := by
  unfold handle answer
  cases e : Policy.verdict cfg.policy with
  | refuse =>
    have hn : ¬ Allowed cfg o token := by
      rintro (h | ⟨h, _⟩) <;> rw [h] at e <;> revert e <;> decide
    simp only [if_neg hn]
    exact ⟨by simp [sent, Reply.bytes], by simp [hn], ⟨[], .refused, rfl, rfl⟩, fun h => absurd h hn, by simp⟩
  | allow =>
    have hy : Allowed cfg o token := Or.inl (verdict_allow e)
    simp only [if_pos hy]
    refine ⟨?_, by simp [hy], ⟨[.create pub (o.create 0 pub)], _, rfl, rfl⟩, by simp, ?_⟩
    · cases o.create 0 pub <;> simp [sent, Reply.bytes]
    · intro q b h
      simp only [List.mem_cons, Ev.create.injEq, reduceCtorEq, List.not_mem_nil, or_false] at h
      exact ⟨hy, h⟩
  | askToken =>
    have ht := verdict_token e
    cases hk : o.token 0 token with
    | false =>
      have hn : ¬ Allowed cfg o token := by
        rintro (h | ⟨_, h⟩)
        · rw [h] at e; revert e; decide
        · rw [hk] at h; cases h
      simp only [if_neg hn, Bool.false_eq_true, if_false]
      exact ⟨by simp [sent, Reply.bytes], by simp [hn], ⟨[.check token false], .refused, rfl, rfl⟩, fun h => absurd h hn, by simp⟩
    | true =>
      have hy : Allowed cfg o token := Or.inr ⟨ht, hk⟩
      simp only [if_pos hy, if_true]
      refine ⟨?_, by simp [hy], ⟨[.check token true, .create pub (o.create 0 pub)], _, rfl, rfl⟩, by simp, ?_⟩
      · cases o.create 0 pub <;> simp [sent, Reply.bytes]
      · intro q b h
        simp only [List.mem_cons, Ev.create.injEq, reduceCtorEq, List.not_mem_nil, or_false, false_or] at h
        exact ⟨hy, h⟩

/-! ## The client -/

theorem readReply_enc (why : Bytes) (h : why.length < 100) (r : Bytes) :
    readReply (enc createAccountReply why ++ r) = .ok why r :=
  C23_roundtrip 0 .opaque why ⟨by omega, by simp⟩ r

theorem answer_short (cfg : Cfg) (o : Rest) (token : Bytes) (pub : Pub) : (answer cfg o token pub).length < 100 := by
  unfold answer
  split
  · split <;> decide
  · decide

theorem finalize_mono (token : Bytes) (pub : Pub) (a x : Bytes) :
    (finalize token pub a).1 <+: (finalize token pub (a ++ x)).1 := by
  have h0 : ∀ b, askAccount token pub <+: (finalize token pub b).1 := by
    intro b
    unfold finalize
    cases readReply b with
    | ok why r =>
      simp only
      split
      · exact List.prefix_append _ _
      · exact List.prefix_refl _
    | _ => exact List.prefix_refl _
  cases e : readReply a with
  | ok why r =>
    have e' : readReply (a ++ x) = .ok why (r ++ x) := stable_dec 0 createAccountReply a why r x e
    simp only [finalize, e, e']
    split <;> exact List.prefix_refl _
  | eof => simpa only [finalize, e] using h0 (a ++ x)
  | unexpected => simpa only [finalize, e] using h0 (a ++ x)
  | bad => simpa only [finalize, e] using h0 (a ++ x)

theorem client_mono (known : Bool) (token : Bytes) (pub : Pub) (a x : Bytes) :
    (client known token pub a).1 <+: (client known token pub (a ++ x)).1 := by
  unfold client
  cases known with
  | true => exact finalize_mono token pub a x
  | false =>
    simp only [Bool.false_eq_true, if_false]
    have h0 : ∀ b : Bytes, askIdentity <+: (match dec 0 publicIdentity b with
        | .eof => (askIdentity, Status.asked)
        | .unexpected => (askIdentity, .asked)
        | .bad => (askIdentity, .failed)
        | .ok _ rest => (askIdentity ++ (finalize token pub rest).1, (finalize token pub rest).2)).1 := by
      intro b
      cases dec 0 publicIdentity b with
      | ok _ r => exact List.prefix_append _ _
      | _ => exact List.prefix_refl _
    cases e : dec 0 publicIdentity a with
    | ok p r =>
      rw [stable_dec 0 publicIdentity a p r x e]
      exact (List.prefix_append_right_inj _).mpr (finalize_mono token pub r x)
    | eof => exact h0 (a ++ x)
    | unexpected => exact h0 (a ++ x)
    | bad => exact h0 (a ++ x)

/-- All a client can ever write here. -/
def full (known : Bool) (token : Bytes) (pub : Pub) : Bytes :=
  (if known then [] else askIdentity) ++ (askAccount token pub ++ askSession)

theorem finalize_full (token : Bytes) (pub : Pub) (a : Bytes) :
    (finalize token pub a).1 <+: askAccount token pub ++ askSession := by
  unfold finalize
  cases readReply a with
  | ok why r =>
    simp only
    split
    · exact List.prefix_refl _
    · exact List.prefix_append _ _
  | _ => exact List.prefix_append _ _

theorem client_full (known : Bool) (token : Bytes) (pub : Pub) (a : Bytes) :
    (client known token pub a).1 <+: full known token pub := by
  unfold client full
  cases known with
  | true => simpa using finalize_full token pub a
  | false =>
    simp only [Bool.false_eq_true, if_false]
    cases dec 0 publicIdentity a with
    | ok _ r => exact (List.prefix_append_right_inj _).mpr (finalize_full token pub r)
    | _ => exact List.prefix_append _ _

/-! ## Both -/

theorem sent_mono (cfg : Cfg) {a b : List Ev} (h : a <+: b) : sent cfg a <+: sent cfg b := by
  obtain ⟨t, rfl⟩ := h
  rw [sent_append]
  exact List.prefix_append _ _

theorem server_mono (cfg : Cfg) (o : Rest) {a b : Bytes} (h : a <+: b) : (server cfg o a).1 <+: (server cfg o b).1 := by
  obtain ⟨t, rfl⟩ := h
  exact (server_extends cfg o a t).1

/-- Nothing arrives that was not sent. -/
theorem reach_inv {cfg : Cfg} {o : Rest} {known : Bool} {token : Bytes} {pub : Pub} {s : Conn}
    (h : Reach cfg o known token pub s) :
    s.up <+: (client known token pub s.down).1 ∧ s.down <+: sent cfg (server cfg o s.up).1 := by
  induction h with
  | start => exact ⟨List.nil_prefix, List.nil_prefix⟩
  | step h1 h2 ih =>
    cases h2 with
    | up x hx => exact ⟨hx, ih.2.trans (sent_mono cfg (server_mono cfg o (List.prefix_append _ _)))⟩
    | down x hx => exact ⟨ih.1.trans (client_mono known token pub _ x), hx⟩

theorem fits_word {w : Bytes} (h : w.length < 100) : Fits 0 .opaque w := ⟨by omega, by simp⟩

/-- What the server does on all a client writes after the question for the identity. -/
theorem srv_account (cfg : Cfg) (o : Rest) (token : Bytes) (pub : Pub) (hf : Fits 0 createAccount (token, pub)) (x : Bytes) :
    (srv cfg o 0 (askAccount token pub ++ x)).1 = [] ∨
    (srv cfg o 0 (askAccount token pub ++ x)).1 = (handle cfg o 0 token pub).1 ∨
    (srv cfg o 0 (askAccount token pub ++ x)).1 = (handle cfg o 0 token pub).1 ++ (srv cfg o 1 x).1 := by
  unfold askAccount
  rw [List.append_assoc]
  rcases dec_limit cfg.limit .opaque mCreate (fits_word (by decide)) (enc createAccount (token, pub) ++ x) with e | e
  · rcases dec_limit cfg.limit createAccount (token, pub) hf x with e2 | e2
    · rw [srv_create cfg o 0 _ _ _ _ e e2]
      split
      · exact Or.inr (Or.inr rfl)
      · exact Or.inr (Or.inl rfl)
    · rw [srv_create_bad cfg o 0 _ _ e e2]
      exact Or.inl rfl
  · rw [srv_bad cfg o 0 _ e]
    exact Or.inl rfl

theorem srv_askSession (cfg : Cfg) (o : Rest) (n : Nat) : (srv cfg o n askSession).1 = [] := by
  rcases dec_limit cfg.limit .opaque mSession (fits_word (by decide)) [] with e | e
  · rw [List.append_nil] at e
    rw [askSession, srv_session cfg o n _ _ e]
  · rw [List.append_nil] at e
    rw [askSession, srv_bad cfg o n _ e]

theorem full_events (cfg : Cfg) (o : Rest) (known : Bool) (token : Bytes) (pub : Pub) :
    ∃ p, (server cfg o (full known token pub)).1 = (if known then [] else p) ++ (if p = [] ∧ known = false then [] else
      (srv cfg o 0 (askAccount token pub ++ askSession)).1) ∧ (p = [] ∨ p = [.reply .identity]) := by
  cases known with
  | true => exact ⟨[], by simp [full, server, srv], Or.inl rfl⟩
  | false =>
    have hs : server cfg o (full false token pub) = srv cfg o 0 (askIdentity ++ (askAccount token pub ++ askSession)) := by
      simp [full, server, srv]
    rw [hs]
    unfold askIdentity
    rcases dec_limit cfg.limit .opaque mIdentify (fits_word (by decide)) (askAccount token pub ++ askSession) with e | e
    · rw [srv_identify cfg o 0 _ _ e]
      cases cfg.identify with
      | false => exact ⟨[], by simp, Or.inl rfl⟩
      | true => exact ⟨[.reply .identity], by simp, Or.inr rfl⟩
    · rw [srv_bad cfg o 0 _ e]
      exact ⟨[], by simp, Or.inl rfl⟩

theorem full_cases (cfg : Cfg) (o : Rest) (known : Bool) (token : Bytes) (pub : Pub) (hf : Fits 0 createAccount (token, pub)) :
    (server cfg o (full known token pub)).1 = [] ∨
    (known = false ∧ (server cfg o (full known token pub)).1 = [.reply .identity]) ∨
    (server cfg o (full known token pub)).1 = (if known then [] else [.reply .identity]) ++ (handle cfg o 0 token pub).1 := by
  obtain ⟨p, h1, h2⟩ := full_events cfg o known token pub
  have h3 : (srv cfg o 0 (askAccount token pub ++ askSession)).1 = [] ∨
      (srv cfg o 0 (askAccount token pub ++ askSession)).1 = (handle cfg o 0 token pub).1 := by
    rcases srv_account cfg o token pub hf askSession with h | h | h
    · exact Or.inl h
    · exact Or.inr h
    · rw [srv_askSession, List.append_nil] at h
      exact Or.inr h
  cases known with
  | true =>
    simp only [if_true, List.nil_append, Bool.true_eq_false, and_false, if_false] at h1
    rw [h1]
    rcases h3 with h | h
    · exact Or.inl h
    · exact Or.inr (Or.inr (by simpa using h))
  | false =>
    rcases h2 with rfl | rfl
    · exact Or.inl (by simpa using h1)
    · simp only [Bool.false_eq_true, if_false, List.cons_ne_self, false_and] at h1
      rw [h1]
      rcases h3 with h | h
      · rw [h]; exact Or.inr (Or.inl ⟨rfl, rfl⟩)
      · rw [h]; exact Or.inr (Or.inr (by simp))

/-- What the client has read when it starts the key exchange. -/
theorem client_session {known : Bool} {token : Bytes} {pub : Pub} {down rest : Bytes}
    (h : (client known token pub down).2 = .session rest) :
    (known = true ∧ readReply down = .ok [] rest) ∨
    (known = false ∧ ∃ p r, dec 0 publicIdentity down = .ok p r ∧ readReply r = .ok [] rest) := by
  have hfin : ∀ b, (finalize token pub b).2 = .session rest → readReply b = .ok [] rest := by
    intro b hb
    unfold finalize at hb
    cases e : readReply b with
    | ok why r =>
      simp only [e] at hb
      by_cases hw : why = []
      · rw [if_pos hw] at hb
        simp only [Status.session.injEq] at hb
        rw [hw, hb]
      · rw [if_neg hw] at hb
        cases hb
    | eof => simp only [e] at hb; cases hb
    | unexpected => simp only [e] at hb; cases hb
    | bad => simp only [e] at hb; cases hb
  unfold client at h
  cases known with
  | true => exact Or.inl ⟨rfl, hfin _ h⟩
  | false =>
    simp only [Bool.false_eq_true, if_false] at h
    cases e : dec 0 publicIdentity down with
    | ok p r =>
      simp only [e] at h
      exact Or.inr ⟨rfl, p, r, rfl, hfin _ h⟩
    | eof => simp only [e] at h; cases h
    | unexpected => simp only [e] at h; cases h
    | bad => simp only [e] at h; cases h

theorem readReply_nil : readReply [] = .eof := rfl

theorem readReply_stable {b why r : Bytes} (x : Bytes) (h : readReply b = .ok why r) : readReply (b ++ x) = .ok why (r ++ x) :=
  stable_dec 0 createAccountReply b why r x h

/-- C102: if the client believes that there is an account and starts the key exchange, then the server has made it, for the identity of
this client; the client has read exactly what was sent.  At no time has the server made an account for anybody else. -/
theorem C102_agree (cfg : Cfg) (o : Rest) (known : Bool) (token : Bytes) (pub : Pub) (s : Conn)
    (hself : Fits 0 publicIdentity cfg.self) (hf : Fits 0 createAccount (token, pub)) (h : Reach cfg o known token pub s) :
    (∀ rest, (client known token pub s.down).2 = .session rest → rest = [] ∧ Ev.create pub true ∈ (server cfg o s.up).1) ∧
    (∀ q b, Ev.create q b ∈ (server cfg o s.up).1 → q = pub) := by
  obtain ⟨i1, i2⟩ := reach_inv h
  have hup : s.up <+: full known token pub := i1.trans (client_full known token pub s.down)
  have hev := server_mono cfg o hup
  obtain ⟨f1, f2, ⟨p, rp, f3, f3'⟩, f4, f5⟩ := handle_facts cfg o token pub
  have hcases := full_cases cfg o known token pub hf
  constructor
  · intro rest hs
    have hdown : s.down <+: sent cfg (server cfg o (full known token pub)).1 := i2.trans (sent_mono cfg hev)
    have hcl := client_session hs
    rcases hcases with e | ⟨hk, e⟩ | e
    · rw [e] at hdown
      have hd : s.down = [] := List.prefix_nil.mp hdown
      rw [hd] at hcl
      rcases hcl with ⟨_, g⟩ | ⟨_, p', r', g, _⟩
      · rw [readReply_nil] at g; cases g
      · rw [show dec 0 publicIdentity [] = .eof from rfl] at g; cases g
    · rcases hcl with ⟨g0, _⟩ | ⟨_, p', r', g, g2⟩
      · rw [hk] at g0; cases g0
      · rw [e] at hdown
        obtain ⟨z, hz⟩ := hdown
        have hz' : s.down ++ z = enc publicIdentity cfg.self ++ [] := by
          rw [hz]; simp [sent, Reply.bytes]
        have h1 := stable_dec 0 publicIdentity s.down p' r' z g
        rw [hz', C23_roundtrip 0 publicIdentity cfg.self hself []] at h1
        simp only [Res.ok.injEq] at h1
        have hr : r' = [] := (List.append_eq_nil_iff.mp h1.2.symm).1
        rw [hr, readReply_nil] at g2
        cases g2
    · obtain ⟨z, hz⟩ := hdown
      have hsent : sent cfg (server cfg o (full known token pub)).1 =
          (if known then [] else enc publicIdentity cfg.self) ++ enc createAccountReply (answer cfg o token pub) := by
        rw [e, sent_append, f1]
        cases known <;> simp [sent, Reply.bytes]
      have hfin : answer cfg o token pub = [] ∧ rest = [] ∧ z = [] := by
        have hshort := answer_short cfg o token pub
        rcases hcl with ⟨g0, g⟩ | ⟨g0, p', r', g, g2⟩
        · have h1 := readReply_stable z g
          rw [hz, hsent, g0, if_pos rfl, List.nil_append] at h1
          have h2 := readReply_enc _ hshort []
          rw [List.append_nil, h1] at h2
          simp only [Res.ok.injEq] at h2
          obtain ⟨h3, h4⟩ := List.append_eq_nil_iff.mp h2.2
          exact ⟨h2.1.symm, h3, h4⟩
        · have h1 := stable_dec 0 publicIdentity s.down p' r' z g
          rw [hz, hsent, g0, if_neg (by simp), C23_roundtrip 0 publicIdentity cfg.self hself] at h1
          simp only [Res.ok.injEq] at h1
          have h1' := readReply_stable z g2
          rw [← h1.2] at h1'
          have h2 := readReply_enc _ hshort []
          rw [List.append_nil, h1'] at h2
          simp only [Res.ok.injEq] at h2
          obtain ⟨h3, h4⟩ := List.append_eq_nil_iff.mp h2.2
          exact ⟨h2.1.symm, h3, h4⟩
      obtain ⟨ha, hrest, hz0⟩ := hfin
      refine ⟨hrest, ?_⟩
      have hok : Allowed cfg o token ∧ o.create 0 pub = true := by
        unfold answer at ha
        by_cases hal : Allowed cfg o token
        · rw [if_pos hal] at ha
          cases hc : o.create 0 pub with
          | true => exact ⟨hal, rfl⟩
          | false => rw [hc] at ha; exact absurd ha (by decide)
        · rw [if_neg hal] at ha
          exact absurd ha (by decide)
      -- the server has sent everything, so it has done everything
      have heq : (server cfg o s.up).1 = (server cfg o (full known token pub)).1 := by
        rw [e, f3, ← List.append_assoc] at hev ⊢
        rcases List.prefix_concat_iff.mp hev with g | g
        · exact g
        · exfalso
          have g1 := (i2.trans (sent_mono cfg g)).length_le
          have g2 : s.down.length = (sent cfg ((if known then [] else [Ev.reply .identity]) ++ p ++ [.reply rp])).length := by
            rw [hz0, List.append_nil, e, f3, ← List.append_assoc] at hz
            rw [← hz]
          rw [sent_append] at g2
          have g3 : 0 < (sent cfg [.reply rp]).length := by
            have : 0 < (enc createAccountReply (answer cfg o token pub)).length := by
              simp [createAccountReply, enc, be32]
            rw [← f1, f3, sent_append, f3'] at this
            simpa using this
          rw [List.length_append] at g2
          omega
      rw [heq, e]
      have := f4 hok.1
      rw [hok.2] at this
      exact List.mem_append_right _ this
  · intro q b hq
    have := hev.subset hq
    rcases hcases with e | ⟨_, e⟩ | e
    · rw [e] at this; simp at this
    · rw [e] at this; simp at this
    · rw [e] at this
      rcases List.mem_append.mp this with g | g
      · cases known <;> simp at g
      · exact (f5 q b g).2.1

/-- Everything that was written has arrived. -/
def AtRest (cfg : Cfg) (o : Rest) (known : Bool) (token : Bytes) (pub : Pub) (s : Conn) : Prop :=
  ∀ t, Step cfg o known token pub s t → t = s

theorem rest_eq {cfg : Cfg} {o : Rest} {known : Bool} {token : Bytes} {pub : Pub} {s : Conn}
    (h : Reach cfg o known token pub s) (hr : AtRest cfg o known token pub s) :
    s.up = (client known token pub s.down).1 ∧ s.down = sent cfg (server cfg o s.up).1 := by
  obtain ⟨⟨x, hx⟩, ⟨y, hy⟩⟩ := reach_inv h
  have h1 := congrArg Conn.up (hr _ (.up s x (by rw [hx]; exact List.prefix_refl _)))
  have h2 := congrArg Conn.down (hr _ (.down s y (by rw [hy]; exact List.prefix_refl _)))
  simp only at h1 h2
  rw [hx] at h1
  rw [hy] at h2
  exact ⟨h1.symm, h2.symm⟩

/-- The limit of the server lets the words and the request pass. -/
def Room (cfg : Cfg) (token : Bytes) (pub : Pub) : Prop :=
  Fits cfg.limit .opaque mIdentify ∧ Fits cfg.limit .opaque mCreate ∧ Fits cfg.limit .opaque mSession ∧
  Fits cfg.limit createAccount (token, pub)

theorem server_account (cfg : Cfg) (o : Rest) (token : Bytes) (pub : Pub) (hr : Room cfg token pub) (x : Bytes)
    (hx : x = [] ∨ x = askSession) : srv cfg o 0 (askAccount token pub ++ x) = ((handle cfg o 0 token pub).1,
      if (handle cfg o 0 token pub).2 then (if x = [] then .waiting else .session []) else .closed) := by
  have e := C23_roundtrip cfg.limit .opaque mCreate hr.2.1 (enc createAccount (token, pub) ++ x)
  have e2 := C23_roundtrip cfg.limit createAccount (token, pub) hr.2.2.2 x
  unfold askAccount
  rw [List.append_assoc, srv_create cfg o 0 _ _ _ _ e e2]
  have e3 := C23_roundtrip cfg.limit .opaque mSession hr.2.2.1 []
  rw [List.append_nil] at e3
  have hne : askSession ≠ [] := by decide
  rcases hx with rfl | rfl
  · rw [srv_nil]
    cases (handle cfg o 0 token pub).2 <;> simp
  · rw [show srv cfg o (0 + 1) askSession = ([], .session []) from srv_session cfg o 1 _ _ e3]
    cases (handle cfg o 0 token pub).2 <;> simp [hne]

/-- The question for the identity and what follows. -/
theorem server_lead (cfg : Cfg) (o : Rest) (known : Bool) (token : Bytes) (pub : Pub) (hr : Room cfg token pub)
    (hi : known = false → cfg.identify = true) (x : Bytes) :
    server cfg o ((if known then [] else askIdentity) ++ x) =
      ((if known then [] else [.reply .identity]) ++ (srv cfg o 0 x).1, (srv cfg o 0 x).2) := by
  cases known with
  | true => simp [server, srv]
  | false =>
    have e := C23_roundtrip cfg.limit .opaque mIdentify hr.1 x
    have := srv_identify cfg o 0 _ _ e
    rw [hi rfl, if_pos rfl] at this
    simpa [server, srv, askIdentity] using this

/-- C102: if the server lets the request pass and says who it is (or the client knows), then, when everything has arrived: if the
settings allow it and the account could be made, both are in the key exchange and no byte is left over; if it could not be made, or the
settings do not allow it, the client knows, and in the latter case no account was made and the connection is closed. -/
theorem C102_outcome (cfg : Cfg) (o : Rest) (known : Bool) (token : Bytes) (pub : Pub) (s : Conn)
    (hself : Fits 0 publicIdentity cfg.self) (hr : Room cfg token pub) (hi : known = false → cfg.identify = true)
    (h : Reach cfg o known token pub s) (hrest : AtRest cfg o known token pub s) :
    (Allowed cfg o token → o.create 0 pub = true → (client known token pub s.down).2 = .session [] ∧
      (server cfg o s.up).2 = .session []) ∧
    (Allowed cfg o token → o.create 0 pub = false → (client known token pub s.down).2 = .refused eInternal) ∧
    (¬ Allowed cfg o token → (client known token pub s.down).2 = .refused eDisallowed ∧ (server cfg o s.up).2 = .closed ∧
      ∀ q b, Ev.create q b ∉ (server cfg o s.up).1) := by
  obtain ⟨e1, e2⟩ := rest_eq h hrest
  obtain ⟨f1, f2, -, f4, f5⟩ := handle_facts cfg o token pub
  have hshort := answer_short cfg o token pub
  -- the client has got past the identity
  have hlead : ∃ r, s.down = (if known then [] else enc publicIdentity cfg.self) ++ r ∧
      client known token pub s.down = ((if known then [] else askIdentity) ++ (finalize token pub r).1, (finalize token pub r).2) := by
    cases known with
    | true => exact ⟨s.down, by simp, by simp [client]⟩
    | false =>
      have hpre : ∃ x, s.up = askIdentity ++ x := by
        have := client_mono false token pub [] s.down
        rw [List.nil_append, ← e1] at this
        obtain ⟨x, hx⟩ := this
        exact ⟨x, hx.symm⟩
      obtain ⟨x, hx⟩ := hpre
      have hs := server_lead cfg o false token pub hr hi x
      simp only [Bool.false_eq_true, if_false] at hs
      rw [hx, hs, sent_append] at e2
      have hd : s.down = enc publicIdentity cfg.self ++ sent cfg (srv cfg o 0 x).1 := by
        rw [e2]; simp [sent, Reply.bytes]
      refine ⟨_, by simpa using hd, ?_⟩
      rw [hd]
      simp only [client, Bool.false_eq_true, if_false, C23_roundtrip 0 publicIdentity cfg.self hself]
  obtain ⟨r, hd, hc⟩ := hlead
  -- and has got the answer
  have hfin : ∃ x, (finalize token pub r).1 = askAccount token pub ++ x ∧ (x = [] ∨ x = askSession) := by
    unfold finalize
    cases readReply r with
    | ok why q =>
      simp only
      split
      · exact ⟨_, rfl, Or.inr rfl⟩
      · exact ⟨[], by simp, Or.inl rfl⟩
    | _ => exact ⟨[], by simp, Or.inl rfl⟩
  obtain ⟨x, hx, hx2⟩ := hfin
  have hs := server_lead cfg o known token pub hr hi (askAccount token pub ++ x)
  rw [server_account cfg o token pub hr x hx2] at hs
  rw [hc, hx] at e1
  simp only at e1 hs
  rw [← e1] at hs
  have hr2 : r = enc createAccountReply (answer cfg o token pub) := by
    rw [hs, hd] at e2
    simp only [sent_append, f1] at e2
    cases known with
    | true => simpa [sent] using e2
    | false => simpa [sent, Reply.bytes] using e2
  have hread : readReply r = .ok (answer cfg o token pub) [] := by
    rw [hr2]
    simpa using readReply_enc _ hshort []
  have hst : (client known token pub s.down).2 =
      if answer cfg o token pub = [] then .session [] else .refused (answer cfg o token pub) := by
    rw [hc]
    simp only [finalize, hread]
    split <;> rfl
  have hx3 : answer cfg o token pub = [] → x = askSession := by
    intro ha
    simp only [finalize, hread, ha, if_true] at hx
    exact (List.append_cancel_left hx).symm
  rw [hst, hs]
  refine ⟨fun ha hcr => ?_, fun ha hcr => ?_, fun ha => ?_⟩
  · have hans : answer cfg o token pub = [] := by simp [answer, ha, hcr]
    rw [if_pos hans]
    refine ⟨rfl, ?_⟩
    simp only [f2.mpr ha, if_true, hx3 hans]
    rw [if_neg (by decide)]
  · have hans : answer cfg o token pub = eInternal := by simp [answer, ha, hcr]
    rw [hans]
    rfl
  · have hans : answer cfg o token pub = eDisallowed := by simp [answer, ha]
    have hh : (handle cfg o 0 token pub).2 = false := by
      cases hb : (handle cfg o 0 token pub).2 with
      | false => rfl
      | true => exact absurd (f2.mp hb) ha
    rw [hans, hh]
    refine ⟨rfl, rfl, fun q b hq => ?_⟩
    rcases List.mem_append.mp hq with g | g
    · cases known <;> simp at g
    · exact ha (f5 q b g).1

/-- C102: a connection on which not everything has arrived can go on, and does so only as long as there is something to deliver. -/
theorem C102_ends (cfg : Cfg) (o : Rest) (known : Bool) (token : Bytes) (pub : Pub) (s : Conn)
    (h : Reach cfg o known token pub s) :
    s.up.length ≤ (full known token pub).length ∧
    s.down.length ≤ (sent cfg (server cfg o (full known token pub)).1).length ∧
    (AtRest cfg o known token pub s ∨ ∃ t, Step cfg o known token pub s t ∧ s.up.length + s.down.length < t.up.length + t.down.length) := by
  obtain ⟨i1, i2⟩ := reach_inv h
  have hup : s.up <+: full known token pub := i1.trans (client_full known token pub s.down)
  refine ⟨hup.length_le, (i2.trans (sent_mono cfg (server_mono cfg o hup))).length_le, ?_⟩
  by_cases hr : AtRest cfg o known token pub s
  · exact Or.inl hr
  · right
    unfold AtRest at hr
    simp only [not_forall] at hr
    obtain ⟨t, ht, hne⟩ := hr
    refine ⟨t, ht, ?_⟩
    cases ht with
    | up x hx =>
      cases x with
      | nil => exact absurd (by simp) hne
      | cons a b => simp
    | down x hx =>
      cases x with
      | nil => exact absurd (by simp) hne
      | cons a b => simp

/-! ## Examples -/

/-- An identity. -/
def demoPub (b : UInt8) : Pub :=
  ([b], [b, b], ⟨List.replicate 32 b, List.length_replicate⟩, ⟨List.replicate 1218 b, List.length_replicate⟩,
    ⟨List.replicate 32 b, List.length_replicate⟩, ⟨List.replicate 32 b, List.length_replicate⟩,
    ⟨List.replicate 64 b, List.length_replicate⟩)

theorem demoPub_fits (limit : Nat) (h : limit ≠ 0 → 2 ≤ limit) (b : UInt8) : Fits limit publicIdentity (demoPub b) := by
  refine ⟨⟨?_, ?_⟩, ⟨?_, ?_⟩, ?_, ?_, ?_, ?_, ?_⟩
  · show 1 + 3 < 2 ^ 31; decide
  · intro e; have := h e; show 1 ≤ limit; omega
  · show 2 + 3 < 2 ^ 31; decide
  · intro e; exact h e
  · show 32 + 3 < 2 ^ 31; decide
  · show 1218 + 3 < 2 ^ 31; decide
  · show 32 + 3 < 2 ^ 31; decide
  · show 32 + 3 < 2 ^ 31; decide
  · show 64 + 3 < 2 ^ 31; decide

/-- A server that wants tokens; the token is `[7]`, and it makes any account. -/
def demoCfg : Cfg := ⟨100, true, Policy.sToken, demoPub 1⟩
def demoRest : Rest := ⟨fun _ t => t = [7], fun _ _ => true⟩

example : Fits 0 publicIdentity demoCfg.self ∧ Room demoCfg [7] (demoPub 2) ∧ Allowed demoCfg demoRest [7] ∧
    ¬ Allowed demoCfg demoRest [8] := by
  refine ⟨?_, ⟨?_, ?_, ?_, ?_⟩, by decide, by decide⟩
  · exact demoPub_fits 0 (by simp) 1
  · exact ⟨by decide, fun _ => by decide⟩
  · exact ⟨by decide, fun _ => by decide⟩
  · exact ⟨by decide, fun _ => by decide⟩
  · exact ⟨⟨by decide, fun _ => by decide⟩, demoPub_fits 100 (by simp) 2⟩

/-- All at once: the server on everything the client writes. -/
example : server demoCfg demoRest (full false [7] (demoPub 2)) =
    ([.reply .identity, .check [7] true, .create (demoPub 2) true, .reply .created], .session []) := by decide +kernel

/-- A wrong token, and another try on the same connection. -/
example : server demoCfg demoRest (full true [8] (demoPub 2) ++ full true [7] (demoPub 2)) =
    ([.check [8] false, .reply .refused], .closed) := by decide +kernel

/-- The client on all the server answers, and on half of it. -/
example : (client false [7] (demoPub 2) (sent demoCfg (server demoCfg demoRest (full false [7] (demoPub 2))).1)).2 = .session [] ∧
    (client false [7] (demoPub 2) ((sent demoCfg (server demoCfg demoRest (full false [7] (demoPub 2))).1).take 700)).2 = .asked := by
  decide +kernel

/-- A stranger may ask who the server is as often as they like, and may go on to whatever they like. -/
example : server demoCfg demoRest (askIdentity ++ askIdentity ++ askSession ++ [1, 2]) =
    ([.reply .identity, .reply .identity], .session [1, 2]) := by decide +kernel

/-- A word the server does not know; half a word; a server that does not say who it is; a limit below the length of the words. -/
example : server demoCfg demoRest (enc .opaque [0x78]) = ([], .closed) ∧ server demoCfg demoRest [0, 0, 0, 8, 0x69] = ([], .waiting) ∧
    server { demoCfg with identify := false } demoRest (full false [7] (demoPub 2)) = ([], .closed) ∧
    server { demoCfg with limit := 12 } demoRest (full true [7] (demoPub 2)) = ([], .closed) := by decide +kernel

/-- The whole exchange can happen: a reachable connection at whose end both are in the key exchange. -/
example : ∃ s, Reach demoCfg demoRest true [7] (demoPub 2) s ∧ (client true [7] (demoPub 2) s.down).2 = .session [] := by
  refine ⟨⟨askAccount [7] (demoPub 2), enc createAccountReply []⟩, ?_, by decide +kernel⟩
  have h1 : Reach demoCfg demoRest true [7] (demoPub 2) ⟨askAccount [7] (demoPub 2), []⟩ :=
    .step .start (.up ⟨[], []⟩ (askAccount [7] (demoPub 2)) (by
      rw [List.nil_append, show (client true [7] (demoPub 2) []).1 = askAccount [7] (demoPub 2) from rfl]
      exact List.prefix_refl _))
  have hs : sent demoCfg (server demoCfg demoRest (askAccount [7] (demoPub 2))).1 = enc createAccountReply [] := by decide +kernel
  exact .step h1 (.down ⟨askAccount [7] (demoPub 2), []⟩ (enc createAccountReply []) (by
    rw [hs]
    exact List.prefix_refl _))

end Verif.Front
