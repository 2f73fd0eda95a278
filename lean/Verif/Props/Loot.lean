import Verif.Model.Loot
import Verif.Props.KXNet

/-! # C150: what it takes to open a session that is over -/

namespace Verif.Loot

open Verif.KX Verif.KXNet

/-! ## What the thief does not know -/

/-- Randomness that was only sent to keys that are not lost. -/
def Safe (lost : KeyName → Prop) (net : M → Prop) : Rnd → Prop
  | .adv _ => False
  | .own j f => ∀ p m, net m → HasCt m p (.own j f) → ¬ lost p ∧ ∀ n, p ≠ .adv n

def Secret (lost : KeyName → Prop) (net : M → Prop) : SKey → Prop
  | .kem r => Safe lost net r
  | .kdf _ k1 k2 k3 k4 => Secret lost net k1 ∨ Secret lost net k2 ∨ Secret lost net k3 ∨ Secret lost net k4

def PayOK (lost : KeyName → Prop) (net : M → Prop) : Pay → Prop
  | .ct (p, r) => Safe lost net r → ∃ m, net m ∧ HasCt m p r
  | _ => True

def TermOK (lost : KeyName → Prop) (net : M → Prop) : Term → Prop
  | .sk x => lost x ∨ ∃ n, x = .adv n
  | .rnd r => ¬ Safe lost net r
  | .key k => ¬ Secret lost net k
  | .pay p => PayOK lost net p
  | .frame (_, _, p) => PayOK lost net p

theorem know_ok {lost : KeyName → Prop} {net : M → Prop} {t : Term} (h : Know lost net t) : TermOK lost net t := by
  induction h with
  | @msg m hm =>
    cases m with
    | raw c => intro _; exact ⟨_, hm, Or.inl rfl⟩
    | frame f =>
      obtain ⟨k, n, p⟩ := f
      cases p with
      | ct c => intro _; exact ⟨_, hm, Or.inr ⟨k, n, rfl⟩⟩
      | pk q => trivial
      | mac q => trivial
      | other b => trivial
  | lost h => exact .inl h
  | ownSk n => exact .inr ⟨n, rfl⟩
  | ownRnd n => intro hh; exact hh
  | pk p => trivial
  | other b => trivial
  | encapC _ ih => intro hs; exact absurd hs ih
  | encapK _ ih => exact ih
  | @decap p r _ _ ih1 ih2 =>
    intro hs
    obtain ⟨m, hm, hc⟩ := ih2 hs
    cases r with
    | adv n => exact hs
    | own j f =>
      rcases ih1 with h | ⟨n, h⟩
      · exact (hs p m hm hc).1 h
      · exact (hs p m hm hc).2 n h
  | encrypt _ _ _ ih2 => exact ih2
  | decrypt _ _ _ ih2 => exact ih2
  | hmac _ _ _ _ => trivial
  | kdf _ _ _ _ i1 i2 i3 i4 =>
    rintro (h | h | h | h)
    · exact i1 h
    · exact i2 h
    · exact i3 h
    · exact i4 h

theorem frame_origin {lost : KeyName → Prop} {net : M → Prop} {k : SKey} {n : Nat} {p : Pay}
    (h : Know lost net (.frame (k, n, p))) (hk : Secret lost net k) : net (.frame (k, n, p)) := by
  generalize ht : Term.frame (k, n, p) = t at h
  cases h with
  | @msg m hm =>
    cases m with
    | raw c => simp [ofMsg] at ht
    | frame f => simp only [ofMsg, Term.frame.injEq] at ht; rw [ht]; exact hm
  | encrypt h1 _ =>
    simp only [Term.frame.injEq, Prod.mk.injEq] at ht
    obtain ⟨rfl, rfl, rfl⟩ := ht
    exact absurd hk (know_ok h1)
  | _ => simp at ht

theorem step_later {s s' : State} (h : Step s s') : Later s.on s'.on := by
  cases h with
  | start role => exact KXNet.step_later (.start s.on role)
  | deliver j r m hr _ => exact set_later hr ⟨rfl, ⟨[m], rfl⟩, List.prefix_refl _⟩
  | write j r b hr hx => exact KXNet.step_later (.write s.on j r b hr hx)
  | lose x => exact Later.refl _

theorem steps_later {s s' : State} (h : Steps s s') : Later s.on s'.on := by
  induction h with
  | refl => exact Later.refl _
  | tail _ h ih => exact ih.trans (step_later h)

/-! ## The two ends of a session -/

/-- Runs `j`, of client `a`, and `j'`, of server `b` with ephemeral key `e`, have completed the same exchange. -/
structure Ends (s : KXNet.State) (j j' a b e : Nat) : Prop where
  client : ∃ r, s.runs[j]? = some r ∧ r.role = .init a (.long b) ∧
    iIns j a (.long b) (.own j' false) (.srv e) (.own j' true) = r.ins.take 5 ∧
    result j r = some (iRes j (.long b) (.own j' false) (.own j' true))
  server : ∃ r, s.runs[j']? = some r ∧ r.role = .resp b e ∧
    rIns j' b e (.own j false) (.cli j) (.own j true) (.long a) = r.ins.take 5 ∧
    result j' r = some (rRes j' (.own j false) (.own j true) (.long a))

theorem take_ext {r r' : Run} (h : Ext r r') {l : List M} (hl : l.length = 5) (ht : l = r.ins.take 5) : l = r'.ins.take 5 := by
  obtain ⟨t, h2⟩ := h.ins
  have : 5 ≤ r.ins.length := by
    have := congrArg List.length ht
    rw [hl, List.length_take] at this
    omega
  rw [← h2, List.take_append_of_le_length this]
  exact ht

theorem Ends.later {s s' : KXNet.State} {j j' a b e : Nat} (h : Ends s j j' a b e) (hl : Later s s') : Ends s' j j' a b e := by
  constructor
  · obtain ⟨r, h1, h2, h3, h4⟩ := h.client
    obtain ⟨q, hq, e1⟩ := hl.runs j r h1
    exact ⟨q, hq, e1.role.trans h2, take_ext e1 rfl h3, e1.result h4⟩
  · obtain ⟨r, h1, h2, h3, h4⟩ := h.server
    obtain ⟨q, hq, e1⟩ := hl.runs j' r h1
    exact ⟨q, hq, e1.role.trans h2, take_ext e1 rfl h3, e1.result h4⟩

theorem ends_of {s : KXNet.State} (hs : Heard s) {j j' a b e : Nat} {r r' : Run} (hr : s.runs[j]? = some r)
    (hrole : r.role = .init a (.long b)) (hx : result j r = some (iRes j (.long b) (.own j' false) (.own j' true)))
    (hr' : s.runs[j']? = some r') (hrole' : r'.role = .resp b e)
    (hx' : result j' r' = some (rRes j' (.own j false) (.own j true) (.long a)))
    (hi : r'.ins[1]? = some (.frame (.kem (.own j false), 0, .pk (.cli j)))) : Ends s j j' a b e := by
  obtain ⟨r2, th, r4, hin, h2⟩ := init_result hrole hx
  obtain ⟨r1, th', r3, pk, hin', h2'⟩ := resp_result hrole' hx'
  cases h2
  cases h2'
  have h1 := ins_get hin' (i := 1) rfl
  rw [hi] at h1
  cases h1
  have s2 := safe_resp_first hr' hrole' hi (show Honest s.lk (.cli j) from trivial)
  obtain ⟨j2, q2, b2, e2, hq2, hrole2, hj2, rfl⟩ :=
    sender_1 (KXNet.frame_origin (hs j r hr _ (mem_of_take hin (i := 1) rfl)) s2)
  cases hj2
  rw [hr'] at hq2; cases hq2
  rw [hrole'] at hrole2; cases hrole2
  exact ⟨⟨r, hr, hrole, hin, hx⟩, r', hr', hrole', hin', hx'⟩

/-- What went over the network. -/
theorem Ends.sent {s : KXNet.State} {j j' a b e : Nat} (h : Ends s j j' a b e) :
    s.net (.raw (.long b, .own j false)) ∧ s.net (.frame (.kem (.own j false), 0, .ct (.cli j, .own j' false))) ∧
      s.net (.frame (.kem (.own j' false), 1, .ct (.srv e, .own j true))) ∧
      s.net (.frame (.kem (.own j true), 3, .ct (.long a, .own j' true))) := by
  obtain ⟨r, h1, h2, h3, h4⟩ := h.client
  obtain ⟨r', h1', h2', h3', h4'⟩ := h.server
  have hc : ∀ m ∈ iOuts j a (.long b) (.own j' false) (.srv e), m ∈ outs j r := by
    obtain ⟨n, r2, th, r4, _, ht, ho, hd⟩ := init_spec j a (.long b) r.ins
    rw [result_eq, h2] at h4
    obtain ⟨rfl, hx⟩ := (hd _).1 h4
    cases hx
    have h5 := get_of_take ht (by omega : 1 < 5)
    rw [ins_get h3 (i := 1) rfl] at h5
    cases h5
    intro m hm
    unfold outs
    rw [h2, ho]
    exact List.mem_append_left _ hm
  have hs : ∀ m ∈ rOuts j' b e (.own j false) (.cli j) (.own j true) (.long a), m ∈ outs j' r' := by
    obtain ⟨n, r1, th, r3, pk, _, ht, ho, hd⟩ := resp_spec j' b e r'.ins
    rw [result_eq, h2'] at h4'
    obtain ⟨rfl, hx⟩ := (hd _).1 h4'
    cases hx
    have h5 := get_of_take ht (by omega : 1 < 5)
    rw [ins_get h3' (i := 1) rfl] at h5
    cases h5
    intro m hm
    unfold outs
    rw [h2', ho]
    exact List.mem_append_left _ hm
  exact ⟨⟨j, r, h1, hc _ (List.mem_of_getElem? (i := 0) rfl)⟩, ⟨j', r', h1', hs _ (List.mem_of_getElem? (i := 0) rfl)⟩,
    ⟨j, r, h1, hc _ (List.mem_of_getElem? (i := 2) rfl)⟩, ⟨j', r', h1', hs _ (List.mem_of_getElem? (i := 3) rfl)⟩⟩

/-- Each of the four was only sent to the one it was for. -/
theorem Ends.for {s : KXNet.State} {j j' a b e : Nat} (h : Ends s j j' a b e) {p : KeyName} {m : M} (hm : s.net m) :
    (HasCt m p (.own j false) → p = .long b) ∧ (HasCt m p (.own j' false) → p = .cli j) ∧
      (HasCt m p (.own j true) → p = .srv e) ∧ (HasCt m p (.own j' true) → p = .long a) := by
  obtain ⟨r, h1, h2, h3, h4⟩ := h.client
  obtain ⟨r', h1', h2', h3', h4'⟩ := h.server
  refine ⟨fun hc => ?_, fun hc => ?_, fun hc => ?_, fun hc => ?_⟩
  · obtain ⟨q, hq, h⟩ := ct_sender hm hc
    rw [h1] at hq; cases hq
    rcases h with ⟨_, _, hr, h | h⟩ | ⟨_, _, hr, _⟩
    · rw [h2] at hr; cases hr; exact h.2
    · exact absurd h.1 (by simp)
    · rw [h2] at hr; cases hr
  · obtain ⟨q, hq, h⟩ := ct_sender hm hc
    rw [h1'] at hq; cases hq
    rcases h with ⟨_, _, hr, _⟩ | ⟨_, _, hr, ⟨_, _, h⟩ | h⟩
    · rw [h2'] at hr; cases hr
    · rw [ins_get h3' (i := 1) rfl] at h; cases h; rfl
    · exact absurd h.1 (by simp)
  · obtain ⟨q, hq, h⟩ := ct_sender hm hc
    rw [h1] at hq; cases hq
    rcases h with ⟨_, _, hr, h | ⟨_, _, h⟩⟩ | ⟨_, _, hr, _⟩
    · exact absurd h.1 (by simp)
    · rw [ins_get h3 (i := 1) rfl] at h; cases h; rfl
    · rw [h2] at hr; cases hr
  · obtain ⟨q, hq, h⟩ := ct_sender hm hc
    rw [h1'] at hq; cases hq
    rcases h with ⟨_, _, hr, _⟩ | ⟨_, _, hr, h | ⟨_, _, h⟩⟩
    · rw [h2'] at hr; cases hr
    · exact absurd h.1 (by simp)
    · rw [ins_get h3' (i := 3) rfl] at h; cases h; rfl

/-! ## C150 -/

/-- All four private keys of an exchange are lost: of the server, of the client, and the ephemeral ones. -/
def All (lost : List KeyName) (j a b e : Nat) : Prop :=
  .long b ∈ lost ∧ .cli j ∈ lost ∧ .srv e ∈ lost ∧ .long a ∈ lost

theorem not_all {s : State} {j j' a b e : Nat} (h : Ends s.on j j' a b e) (hl : ¬ All s.lost j a b e) (side : Bool) :
    Secret (· ∈ s.lost) s.on.net
      (.kdf side (.kem (.own j false)) (.kem (.own j' false)) (.kem (.own j true)) (.kem (.own j' true))) := by
  by_cases h1 : .long b ∈ s.lost
  · by_cases h2 : .cli j ∈ s.lost
    · by_cases h3 : .srv e ∈ s.lost
      · refine .inr (.inr (.inr fun p m hm hc => ?_))
        have h4 : .long a ∉ s.lost := fun h4 => hl ⟨h1, h2, h3, h4⟩
        rw [(h.for hm).2.2.2 hc]
        exact ⟨h4, fun n hn => by cases hn⟩
      · refine .inr (.inr (.inl fun p m hm hc => ?_))
        rw [(h.for hm).2.2.1 hc]
        exact ⟨h3, fun n hn => by cases hn⟩
    · refine .inr (.inl fun p m hm hc => ?_)
      rw [(h.for hm).2.1 hc]
      exact ⟨h2, fun n hn => by cases hn⟩
  · refine .inl fun p m hm hc => ?_
    rw [(h.for hm).1 hc]
    exact ⟨h1, fun n hn => by cases hn⟩

theorem opens {s : State} {j j' a b e : Nat} (h : Ends s.on j j' a b e) (side : Bool) :
    s.Knows (.key (.kdf side (.kem (.own j false)) (.kem (.own j' false)) (.kem (.own j true)) (.kem (.own j' true)))) ↔
      All s.lost j a b e := by
  constructor
  · intro hk
    by_cases hl : All s.lost j a b e
    · exact hl
    · exact absurd (not_all h hl side) (know_ok hk)
  · rintro ⟨h1, h2, h3, h4⟩
    obtain ⟨m1, m2, m3, m4⟩ := h.sent
    have r1 : s.Knows (.rnd (.own j false)) := .decap (.lost h1) (.msg m1)
    have r2 : s.Knows (.rnd (.own j' false)) := .decap (.lost h2) (.decrypt (.encapK r1) (.msg m2))
    have r3 : s.Knows (.rnd (.own j true)) := .decap (.lost h3) (.decrypt (.encapK r2) (.msg m3))
    have r4 : s.Knows (.rnd (.own j' true)) := .decap (.lost h4) (.decrypt (.encapK r3) (.msg m4))
    exact .kdf (.encapK r1) (.encapK r2) (.encapK r3) (.encapK r4)

/-- **C150**, the client. A session that client `a` made with server `b`, whose private key was not lost then, is opened later,
in either direction, by exactly those who have stolen four private keys: those of both identities and both ephemeral ones. -/
theorem C150_client {s : KXNet.State} (hs : Reach s) {j a b : Nat} {r : Run} (hr : s.runs[j]? = some r)
    (hrole : r.role = .init a (.long b)) {x : Result Sym} (hx : result j r = some x) (hb : b ∉ s.leaked) :
    ∃ e, (∃ (j' : Nat) (r' : Run) (x' : Result Sym), s.runs[j']? = some r' ∧ r'.role = .resp b e ∧ result j' r' = some x' ∧
      Match x x') ∧ ∀ t, Steps (after s) t →
      ((t.Knows (.key x.readKey) ↔ All t.lost j a b e) ∧ (t.Knows (.key x.writeKey) ↔ All t.lost j a b e)) := by
  obtain ⟨j', r', e, h1, h2, h3, h4, h5⟩ := init_partner (heard_reach hs) hr hrole hx hb
  subst h3
  have he := ends_of (heard_reach hs) hr hrole hx h1 h2 h4 h5
  refine ⟨e, ⟨j', r', _, h1, h2, h4, rfl, rfl, rfl, rfl⟩, fun t ht => ?_⟩
  have ht' : Ends t.on j j' a b e := he.later (steps_later ht)
  exact ⟨opens ht' false, opens ht' true⟩

/-- **C150**, the server: the same for a session in which it has received something from client `a`, whose private key was not
lost then. -/
theorem C150_server {s : KXNet.State} (hs : Reach s) {j a b e : Nat} {r : Run} (hr : s.runs[j]? = some r)
    (hrole : r.role = .resp b e) {x : Result Sym} (hx : result j r = some x) (hpk : x.theirPK = .long a) (ha : a ∉ s.leaked)
    {n : Nat} {q : Pay} (hc : CanRead s x n q) :
    ∃ i, (∃ (r' : Run) (x' : Result Sym), s.runs[i]? = some r' ∧ r'.role = .init a (.long b) ∧ result i r' = some x' ∧
      Match x x') ∧ ∀ t, Steps (after s) t →
      ((t.Knows (.key x.readKey) ↔ All t.lost i a b e) ∧ (t.Knows (.key x.writeKey) ↔ All t.lost i a b e)) := by
  obtain ⟨j', r', _, _, h1, h2, h3, h4, h5, _⟩ := resp_partner (heard_reach hs) hr hrole hx hpk ha (canRead_frame hc)
  subst h3
  have he := ends_of (heard_reach hs) h1 h2 h4 hr hrole hx h5
  refine ⟨j', ⟨r', _, h1, h2, h4, rfl, rfl, rfl, rfl⟩, fun t ht => ?_⟩
  have ht' : Ends t.on j' j a b e := he.later (steps_later ht)
  exact ⟨opens ht' true, opens ht' false⟩

/-- **C150** Nor can anybody with less than the four write into the session: the client reads what the server has written, in that
order. -/
theorem C150_forge {s : KXNet.State} (hs : Reach s) {j a b : Nat} {r : Run} (hr : s.runs[j]? = some r)
    (hrole : r.role = .init a (.long b)) {x : Result Sym} (hx : result j r = some x) (hb : b ∉ s.leaked) :
    ∃ (j' e : Nat), (∃ r' : Run, s.runs[j']? = some r' ∧ r'.role = .resp b e) ∧ ∀ t, Steps (after s) t → ¬ All t.lost j a b e →
      ∀ i f p, t.Knows (.frame f) → Sym.openF x.readKey (x.rseq + i) f = some p → Wrote t.on j' i p := by
  obtain ⟨j', r', e, h1, h2, h3, h4, h5⟩ := init_partner (heard_reach hs) hr hrole hx hb
  subst h3
  have he := ends_of (heard_reach hs) hr hrole hx h1 h2 h4 h5
  refine ⟨j', e, ⟨r', h1, h2⟩, fun t ht hl i f p hf ho => ?_⟩
  have ht' : Ends t.on j j' a b e := he.later (steps_later ht)
  obtain ⟨k, n, q⟩ := f
  simp only [Option.ite_none_right_eq_some, Option.some.injEq] at ho
  obtain ⟨⟨rfl, rfl⟩, rfl⟩ := ho
  obtain ⟨j2, q2, x2, i2, c, hq, hx2, hk, hn, hc2, hp⟩ := sender_data (frame_origin hf (not_all ht' hl false))
  obtain ⟨q', hq', _, _, hres⟩ := ht'.server
  have hj : j2 = j' := by
    refine C66_unique j2 j' q2 q' x2 _ hx2 hres (Or.inr ?_)
    rw [hk]; rfl
  subst hj
  rw [hq] at hq'; cases hq'
  rw [hres] at hx2; cases hx2
  have : i = i2 := by simp only [iRes, rRes] at hn; omega
  subst this
  exact ⟨q2, c, hq, hc2, hp⟩

/-- What the attacker on the network can compute, the thief can. -/
theorem know_more {s : KXNet.State} {t : State} (hr : t.on.runs = s.runs) (hl : ∀ i ∈ s.leaked, .long i ∈ t.lost) {x : Term}
    (h : s.Knows x) : t.Knows x := by
  have hn : ∀ m, s.net m → t.on.net m := by
    rintro m ⟨j, r, h1, h2⟩
    exact ⟨j, r, by rw [hr]; exact h1, h2⟩
  induction h with
  | msg h => exact .msg (hn _ h)
  | leaked h => exact .lost (hl _ h)
  | ownSk n => exact .ownSk n
  | ownRnd n => exact .ownRnd n
  | pk p => exact .pk p
  | other b => exact .other b
  | encapC _ ih => exact .encapC ih
  | encapK _ ih => exact .encapK ih
  | decap _ _ ih1 ih2 => exact .decap ih1 ih2
  | encrypt _ _ ih1 ih2 => exact .encrypt ih1 ih2
  | decrypt _ _ ih1 ih2 => exact .decrypt ih1 ih2
  | hmac _ _ ih1 ih2 => exact .hmac ih1 ih2
  | kdf _ _ _ _ ih1 ih2 ih3 ih4 => exact .kdf ih1 ih2 ih3 ih4

/-- **C150** The thief is no weaker than the attacker of C65 to C67: every execution that is possible on that network goes on in the
same way with the thief in it, who then knows all that the attacker knows. -/
theorem C150_thief {s u : KXNet.State} (h : KXNet.Steps s u) :
    ∃ t, Steps (after s) t ∧ t.on.runs = u.runs ∧ ∀ x, u.Knows x → t.Knows x := by
  have key : ∃ t, Steps (after s) t ∧ t.on.runs = u.runs ∧ ∀ i ∈ u.leaked, .long i ∈ t.lost := by
    induction h with
    | refl => exact ⟨_, .refl _, rfl, fun i hi => List.mem_map_of_mem hi⟩
    | tail _ st ih =>
      obtain ⟨t, h1, h2, h3⟩ := ih
      cases st with
      | start role => exact ⟨_, .tail h1 (.start t role), by simp [h2], h3⟩
      | deliver j r m hj hk => exact ⟨_, .tail h1 (.deliver t j r m (by rw [h2]; exact hj) (know_more h2 h3 hk)), by simp [h2], h3⟩
      | write j r b hj hc => exact ⟨_, .tail h1 (.write t j r b (by rw [h2]; exact hj) hc), by simp [h2], h3⟩
      | leak i =>
        refine ⟨_, .tail h1 (.lose t (.long i)), h2, fun k hk => ?_⟩
        rcases List.mem_cons.1 hk with rfl | hk
        · exact List.mem_cons_self
        · exact List.mem_cons_of_mem _ (h3 k hk)
  obtain ⟨t, h1, h2, h3⟩ := key
  exact ⟨t, h1, h2, fun x hx => know_more h2 h3 hx⟩

/-! ## Instances -/

/-- Everything but the ephemeral key of the client is lost: the session stays closed. Then that is lost as well, and it is open. -/
example : ∃ t u, Steps (after met) t ∧ Steps t u ∧ t.lost = [.srv 0, .long 2, .long 1] ∧
    ¬ t.Knows (.key (iRes 0 (.long 1) (.own 1 false) (.own 1 true)).readKey) ∧
    u.Knows (.key (iRes 0 (.long 1) (.own 1 false) (.own 1 true)).readKey) := by
  have p1 : Steps (after met) ⟨met, [.srv 0, .long 2, .long 1]⟩ :=
    .tail (.tail (.tail (.refl _) (.lose ⟨met, []⟩ (.long 1))) (.lose ⟨met, [.long 1]⟩ (.long 2)))
      (.lose ⟨met, [.long 2, .long 1]⟩ (.srv 0))
  have p2 : Steps ⟨met, [.srv 0, .long 2, .long 1]⟩ ⟨met, [.cli 0, .srv 0, .long 2, .long 1]⟩ :=
    .tail (.refl _) (.lose _ (.cli 0))
  obtain ⟨e, ⟨j', r', _, h1, h2, _⟩, h⟩ := C150_client met_reach (j := 0) (r := metC) rfl rfl met_resC (by simp [met])
  have he : e = 0 := by
    match j', h1 with
    | 0, h1 => cases h1; cases h2
    | 1, h1 => cases h1; cases h2; rfl
    | _ + 2, h1 => simp [met] at h1
  subst he
  refine ⟨_, _, p1, p2, rfl, fun hk => ?_, (h _ (.tail p1 (.lose _ (.cli 0)))).1.2 (by simp [All])⟩
  have := ((h _ p1).1.1 hk).2.1
  simp at this

example : ∃ i : Nat, ∀ t, Steps (after spoken) t →
    ((t.Knows (.key (rRes 1 (.own 0 false) (.own 0 true) (.long 2)).readKey) ↔ All t.lost i 2 1 0) ∧
      (t.Knows (.key (rRes 1 (.own 0 false) (.own 0 true) (.long 2)).writeKey) ↔ All t.lost i 2 1 0)) :=
  let ⟨i, _, h⟩ := C150_server spoken_reach (j := 1) (r := metS) rfl rfl met_resS rfl (by simp [spoken]) spoken_read
  ⟨i, h⟩

/-- The whole exchange of the instance above, with the thief there from the beginning. -/
example : ∃ t, Steps (after ⟨[], []⟩) t ∧ t.on.runs = met.runs :=
  let ⟨t, h1, h2, _⟩ := C150_thief met_reach
  ⟨t, h1, h2⟩

end Verif.Loot
