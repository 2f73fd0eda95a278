import Verif.Props.KXNet

/-! # C149: who logs in is told to the server only

"client identity is only disclosed after server auth", /repo/doc/session.txt. The exchange is that of
Verif.Model.KXNet, with the attacker of C65 and C66. -/

namespace Verif.KXNet

open Verif.KX

/-! ## What names a client -/

def SMac.names (a : Nat) : SMac → Prop
  | .key _ => False
  | .consPk p rest => p = .long a ∨ rest.names a
  | .consMac m rest => m.names a ∨ rest.names a

/-- The public key of `a`, a ciphertext for `a`, or a code that was computed from the public key of `a`. -/
def PayNames (a : Nat) : Pay → Prop
  | .pk p => p = .long a
  | .ct c => c.1 = .long a
  | .mac m => m.names a
  | .other _ => False

def Names (a : Nat) : M → Prop
  | .raw c => c.1 = .long a
  | .frame f => PayNames a f.2.2

/-- Nobody but those who made the key ever has it. -/
def Forever (s : State) (k : SKey) : Prop := ∀ s', Steps s s' → ¬ s'.Knows (.key k)

/-! ## Ciphertexts in frames that the attacker can not open -/

/-- Randomness that was sent to recipients whose key the attacker does not have, or under a key that it does not have. -/
def Kept (leak : Nat → Prop) (net : M → Prop) : Rnd → Prop
  | .adv _ => False
  | .own j f => ∀ p m, net m → HasCt m p (.own j f) →
      Honest leak p ∨ ∃ k n q, m = .frame (k, n, q) ∧ Secret leak net k

/-- The message can be opened, or needs not be. -/
def Bare (leak : Nat → Prop) (net : M → Prop) (m : M) : Prop := ∀ k n q, m = .frame (k, n, q) → ¬ Secret leak net k

def PayKept (leak : Nat → Prop) (net : M → Prop) : Pay → Prop
  | .ct (p, r) => Kept leak net r → ∃ m, net m ∧ HasCt m p r ∧ Bare leak net m
  | _ => True

def TermKept (leak : Nat → Prop) (net : M → Prop) : Term → Prop
  | .rnd r => ¬ Kept leak net r
  | .key (.kem r) => ¬ Kept leak net r
  | .pay p => PayKept leak net p
  | .frame (k, _, p) => PayKept leak net p ∨ Secret leak net k
  | _ => True

theorem know_kept {leak : Nat → Prop} {net : M → Prop} {t : Term} (h : Know leak net t) : TermKept leak net t := by
  induction h with
  | @msg m hm =>
    cases m with
    | raw c => intro _; exact ⟨_, hm, Or.inl rfl, by intro k n q h; cases h⟩
    | frame f =>
      obtain ⟨k, n, p⟩ := f
      by_cases hk : Secret leak net k
      · exact .inr hk
      · cases p with
        | ct c =>
          refine .inl fun _ => ⟨_, hm, Or.inr ⟨k, n, rfl⟩, ?_⟩
          intro k' n' q h
          cases h
          exact hk
        | pk q => exact .inl trivial
        | mac q => exact .inl trivial
        | other b => exact .inl trivial
  | leaked h => trivial
  | ownSk n => trivial
  | ownRnd n => exact id
  | pk p => trivial
  | other b => trivial
  | encapC _ ih => intro hs; exact absurd hs ih
  | encapK _ ih => exact ih
  | @decap p r h1 _ _ ih2 =>
    intro hs
    obtain ⟨m, hm, hc, hb⟩ := ih2 hs
    cases r with
    | adv n => exact hs
    | own j f =>
      rcases hs p m hm hc with hh | ⟨k, n, q, hq, hk⟩
      · exact know_ok h1 hh
      · exact hb k n q hq hk
  | encrypt _ _ _ ih2 => exact .inl ih2
  | decrypt h1 _ _ ih2 =>
    rcases ih2 with h | h
    · exact h
    · exact absurd h (know_ok h1)
  | hmac _ _ _ _ => trivial
  | kdf _ _ _ _ _ _ _ _ => trivial

/-! ## The client -/

/-- A client that has accepted three messages is talking to the server. -/
theorem halfway {s : State} (hs : Heard s) {j a b : Nat} {r : Run} (hr : s.runs[j]? = some r)
    (hrole : r.role = .init a (.long b)) (hb : b ∉ s.leaked) {r2 r4 : Rnd} {th : KeyName}
    (hin : (iIns j a (.long b) r2 th r4).take 3 = r.ins.take 3) :
    ∃ j' r' e, s.runs[j']? = some r' ∧ r'.role = .resp b e ∧ r2 = .own j' false ∧ th = .srv e ∧
      r'.ins[1]? = some (.frame (.kem (.own j false), 0, .pk (.cli j))) := by
  have at_ : ∀ {i : Nat} {m : M}, i < 3 → (iIns j a (.long b) r2 th r4)[i]? = some m → r.ins[i]? = some m := by
    intro i m hi hm
    rw [← get_of_take hin hi]; exact hm
  have known : ∀ {i : Nat} {m : M}, i < 3 → (iIns j a (.long b) r2 th r4)[i]? = some m → s.Knows (ofMsg m) :=
    fun hi hm => hs j r hr _ (List.mem_of_getElem? (at_ hi hm))
  have s1 := safe_init_first hr hrole (show Honest s.lk (.long b) from hb)
  obtain ⟨j', r', b', e', hr', hrole', hi0, hi1, rfl⟩ := sender_0 (frame_origin (known (i := 0) (by omega) rfl) s1)
  obtain ⟨m', hm', hc'⟩ := ct_origin (hs j' r' hr' _ (List.mem_of_getElem? hi0)) (Or.inl rfl) s1
  have hbb : b' = b := by
    obtain ⟨q, hq, h⟩ := ct_sender hm' hc'
    rw [hr] at hq; cases hq
    rcases h with ⟨a', p', h1, h | h⟩ | ⟨_, _, h1, h⟩
    · rw [hrole] at h1; cases h1; cases h.2; rfl
    · exact absurd h.1 (by simp)
    · rw [hrole] at h1; cases h1
  subst hbb
  have s2 := safe_resp_first hr' hrole' hi1 (show Honest s.lk (.cli j) from trivial)
  obtain ⟨j2, q2, b2, e2, hq2, hrole2, hj2, rfl⟩ := sender_1 (frame_origin (known (i := 1) (by omega) rfl) s2)
  cases hj2
  rw [hr'] at hq2; cases hq2
  rw [hrole'] at hrole2; cases hrole2
  exact ⟨j', r', e', hr', hrole', rfl, rfl, hi1⟩

/-- The key under which a client sends its identity stays secret. -/
theorem third_forever {s s' : State} (hs : Heard s) (hl : Later s s') {j a b : Nat} {r : Run} (hr : s.runs[j]? = some r)
    (hrole : r.role = .init a (.long b)) (hb : b ∉ s.leaked) {r2 r4 : Rnd} {th : KeyName}
    (hin : (iIns j a (.long b) r2 th r4).take 3 = r.ins.take 3) : SafeR s'.lk s'.net (.own j true) := by
  obtain ⟨j', r', e, _, _, _, rfl, _⟩ := halfway hs hr hrole hb hin
  obtain ⟨q, hq, e1⟩ := hl.runs j r hr
  refine safe_init_second hq (e1.role.trans hrole) (k := .kem r2) (th := .srv e) ?_ trivial
  obtain ⟨l, hl⟩ := e1.ins
  have h1 : r.ins[1]? = some (.frame (.kem r2, 1, .pk (.srv e))) := by
    rw [← get_of_take hin (by omega : 1 < 3)]; rfl
  rw [← hl, List.getElem?_append, if_pos (List.getElem?_eq_some_iff.1 h1).1]
  exact h1

theorem not_names_data {a : Nat} {m : M} {k : SKey} {n : Nat} {l : List Bytes} (h : m ∈ dataFrames k n l) : ¬ Names a m := by
  obtain ⟨i, b, _, rfl⟩ := mem_dataFrames.1 h
  exact id

/-- **C149** Whatever a client `a` sends that names it is sealed with a key that nobody else ever has, if the attacker does not
have the private key of the server: not even when it gets all private keys later. -/
theorem C149_client {s : State} (hs : Reach s) {j a b : Nat} {r : Run} (hr : s.runs[j]? = some r)
    (hrole : r.role = .init a (.long b)) (hab : a ≠ b) (hb : b ∉ s.leaked) {m : M} (hm : m ∈ outs j r) (hn : Names a m) :
    ∃ k n p, m = .frame (k, n, p) ∧ Forever s k := by
  have key : ∀ {r2 r4 : Rnd} {th : KeyName}, (iIns j a (.long b) r2 th r4).take 3 = r.ins.take 3 →
      Forever s (.kem (.own j true)) := by
    intro r2 r4 th hin s' hs' hk
    exact know_ok hk (third_forever (heard_reach hs) (steps_later hs') hr hrole hb hin)
  rcases mem_init hrole hm with rfl | rfl | ⟨r2, th, r4, hin, h⟩
  · exact absurd (KeyName.long.inj hn).symm hab
  · cases hn
  · rcases h with rfl | rfl | rfl | ⟨_, _, h⟩
    · obtain ⟨_, _, e, _, _, _, rfl, _⟩ := halfway (heard_reach hs) hr hrole hb hin
      cases hn
    · exact ⟨_, _, _, rfl, key hin⟩
    · exact ⟨_, _, _, rfl, key hin⟩
    · exact absurd hn (not_names_data h)

/-! ## The server -/

/-- The second ciphertext of a server is in the frame under the third key and nowhere else. -/
theorem second_ct {s : State} {j b e : Nat} {r : Run} (hr : s.runs[j]? = some r) (hrole : r.role = .resp b e) {r1 r3 : Rnd}
    {pk p : KeyName} (hx : result j r = some (rRes j r1 r3 pk)) {m : M} (hm : s.net m) (hc : HasCt m p (.own j true)) :
    m = .frame (.kem r3, 3, .ct (pk, .own j true)) := by
  obtain ⟨j2, q, hq, hmq⟩ := hm
  have none_data : ∀ {k n l}, m ∈ dataFrames k n l → False := by
    intro k n l h
    obtain ⟨i, b, _, rfl⟩ := mem_dataFrames.1 h
    rcases hc with h | ⟨_, _, h⟩ <;> cases h
  cases hq2 : q.role with
  | init a peer =>
    exfalso
    have hj : j2 ≠ j := by
      rintro rfl
      rw [hr] at hq; cases hq
      rw [hrole] at hq2; cases hq2
    rcases mem_init hq2 hmq with rfl | rfl | ⟨r2, th, r4, _, h⟩
    · rcases hc with h | ⟨_, _, h⟩ <;> cases h
    · rcases hc with h | ⟨_, _, h⟩ <;> cases h
    · rcases h with rfl | rfl | rfl | ⟨_, _, h⟩
      · rcases hc with h | ⟨_, _, h⟩
        · cases h
        · cases h; exact hj rfl
      · rcases hc with h | ⟨_, _, h⟩ <;> cases h
      · rcases hc with h | ⟨_, _, h⟩ <;> cases h
      · exact none_data h
  | resp b' e' =>
    obtain ⟨r1', th', r3', pk', _, h⟩ := mem_resp hq2 hmq
    rcases h with rfl | rfl | rfl | ⟨_, hres, h⟩
    · rcases hc with h | ⟨_, _, h⟩ <;> cases h
    · rcases hc with h | ⟨_, _, h⟩ <;> cases h
    · rcases hc with h | ⟨_, _, h⟩ <;> cases h
    · rcases h with rfl | rfl | h
      · rcases hc with h | ⟨_, _, h⟩
        · cases h
        · cases h
          rw [hr] at hq; cases hq
          rw [hx] at hres
          cases hres
          rfl
      · rcases hc with h | ⟨_, _, h⟩ <;> cases h
      · exact (none_data h).elim

/-- **C149** The same for what the server answers to the client, even if the attacker has the private key of the client from the
start: the server has completed `Respond` for `a` with the third key of a client that had reached it. -/
theorem C149_server {s t : State} (hs : Reach s) {j a b : Nat} {r : Run} (hr : s.runs[j]? = some r)
    (hrole : r.role = .init a (.long b)) (hab : a ≠ b) (hb : b ∉ s.leaked)
    (hsent : ∃ m ∈ outs j r, Names a m) (ht : Steps s t) {j' b' e : Nat} {r' : Run}
    (hr' : t.runs[j']? = some r') (hrole' : r'.role = .resp b' e) {r1 : Rnd} {pk : KeyName}
    (hx : result j' r' = some (rRes j' r1 (.own j true) pk)) {m : M} (hm : m ∈ outs j' r') (hn : Names a m) :
    ∃ k n p, m = .frame (k, n, p) ∧ Forever t k := by
  obtain ⟨m0, hm0, hn0⟩ := hsent
  have hin : ∃ r2 th r4, (iIns j a (.long b) r2 th r4).take 3 = r.ins.take 3 := by
    rcases mem_init hrole hm0 with rfl | rfl | ⟨r2, th, r4, hin, _⟩
    · exact absurd (KeyName.long.inj hn0).symm hab
    · cases hn0
    · exact ⟨r2, th, r4, hin⟩
  obtain ⟨r2, th, r4, hin⟩ := hin
  have trans : ∀ {t'}, Steps t t' → Later s t' := fun h => (steps_later ht).trans (steps_later h)
  have safe3 : ∀ {t'}, Steps t t' → SafeR t'.lk t'.net (.own j true) := fun h =>
    third_forever (heard_reach hs) (trans h) hr hrole hb hin
  have key3 : Forever t (.kem (.own j true)) := fun t' ht' hk => know_ok hk (safe3 ht')
  have key4 : Forever t (.kem (.own j' true)) := by
    intro t' ht' hk
    refine know_kept hk ?_
    intro p m hm hc
    obtain ⟨q, hq, e1⟩ := (steps_later ht').runs j' r' hr'
    have := second_ct hq (e1.role.trans hrole') (e1.result hx) hm hc
    exact .inr ⟨_, _, _, this, safe3 ht'⟩
  -- the first key of the server is that of the client
  have hth : r'.ins[1]? = some (.frame (.kem (.own j false), 0, .pk (.cli j))) := by
    obtain ⟨r1', th', r3', pk', h5, hres⟩ := resp_result hrole' hx
    cases hres
    have hheard : Heard t := heard_steps ht (heard_reach hs)
    have s3 := safe3 (.refl t)
    obtain ⟨j4, q4, a4, p4, r24, th4, r44, hq4, hrole4, hj4, ht4, hmac⟩ :=
      sender_3m (frame_origin (hheard j' r' hr' _ (mem_of_take h5 (i := 4) rfl)) s3)
    cases hj4
    cases hmac
    exact ins_get h5 (i := 1) rfl
  obtain ⟨r1', th', r3', pk', h2, h⟩ := mem_resp hrole' hm
  have h1 := get_of_take h2 (by omega : 1 < 2)
  rw [hth] at h1
  cases h1
  rcases h with rfl | rfl | rfl | ⟨_, hres, h⟩
  · cases hn
  · cases hn
  · rcases hn with h | h | h <;> cases h
  · rw [hx] at hres
    cases hres
    rcases h with rfl | rfl | h
    · exact ⟨_, _, _, rfl, key3⟩
    · exact ⟨_, _, _, rfl, key4⟩
    · exact absurd hn (not_names_data h)

/-! ## What can be seen of a client -/

/-- What is to be seen of a payload in a frame that can not be opened: how long it is. -/
inductive Size where
  | pk
  | ct
  | mac
  | other (n : Nat)

def sizeOf : Pay → Size
  | .pk _ => .pk
  | .ct _ => .ct
  | .mac _ => .mac
  | .other b => .other b.length

/-- A message as it is seen without the key `k`. -/
def veil (k : SKey) : M → M ⊕ (Nat × Size)
  | .raw c => .inl (.raw c)
  | .frame (k', n, p) => if k' = k then .inr (n, sizeOf p) else .inl (.frame (k', n, p))

/-- Sends nothing whatever it receives. -/
inductive Quiet : Proc Sym → Prop where
  | done (r) : Quiet (.done r)
  | fail : Quiet .fail
  | recv (f) : (∀ m, Quiet (f m)) → Quiet (.recv f)

/-- Programs that send the same, as it is seen without the key `k`. -/
inductive Like (k : SKey) : Proc Sym → Proc Sym → Prop where
  | send (m m' p q) : veil k m = veil k m' → Like k p q → Like k (.send m p) (.send m' q)
  | recv (f g) : (∀ m, Like k (f m) (g m)) → Like k (.recv f) (.recv g)
  | quiet (p q) : Quiet p → Quiet q → Like k p q

theorem Quiet.nothing {p : Proc Sym} (h : Quiet p) : ∀ ins, (runAlone p ins).1 = [] := by
  induction h with
  | done r => intro ins; cases ins <;> rfl
  | fail => intro ins; cases ins <;> rfl
  | recv f _ ih =>
    intro ins
    cases ins with
    | nil => rfl
    | cons m l => exact ih m l

theorem Like.same {k : SKey} {p q : Proc Sym} (h : Like k p q) :
    ∀ ins, (runAlone p ins).1.map (veil k) = (runAlone q ins).1.map (veil k) := by
  induction h with
  | send m m' p q hm _ ih => intro ins; simp [runAlone, hm, ih ins]
  | recv f g _ ih =>
    intro ins
    cases ins with
    | nil => rfl
    | cons m l => exact ih m l
  | quiet p q hp hq => intro ins; rw [hp.nothing, hq.nothing]

theorem quiet_read {s : Ctr} {ek : SKey} {k : Ctr → Pay → Proc Sym} (h : ∀ c p, Quiet (k c p)) :
    Quiet (readWithKey (P := Sym) s ek k) := by
  refine .recv _ fun m => ?_
  cases m with
  | raw c => exact .fail
  | frame f =>
    simp only
    split
    · exact h _ _
    · exact .fail

theorem like_read {x : SKey} {s : Ctr} {ek : SKey} {k k' : Ctr → Pay → Proc Sym} (h : ∀ c p, Like x (k c p) (k' c p)) :
    Like x (readWithKey (P := Sym) s ek k) (readWithKey (P := Sym) s ek k') := by
  refine .recv _ _ fun m => ?_
  cases m with
  | raw c => exact .quiet _ _ .fail .fail
  | frame f =>
    simp only
    split
    · exact h _ _
    · exact .quiet _ _ .fail .fail

theorem quiet_cipher {s : Ctr} {sk : KeyName} {ek : SKey} {k : Ctr → SKey → Proc Sym} (h : ∀ c x, Quiet (k c x)) :
    Quiet (recvCipherAndGetKey (P := Sym) s sk (some ek) k) := by
  unfold recvCipherAndGetKey
  simp only
  refine quiet_read fun c p => ?_
  split
  · split
    · exact h _ _
    · exact .fail
  · exact .fail

theorem quiet_proof {s : Ctr} {mk ek : SKey} {l : List (Part KeyName SMac)} {k : Ctr → SMac → Proc Sym}
    (h : ∀ c x, Quiet (k c x)) : Quiet (recvProof (P := Sym) s mk ek l k) := by
  unfold recvProof
  simp only
  refine quiet_read fun c p => ?_
  split
  · split
    · exact h _ _
    · exact .fail
  · exact .fail

theorem like_cipher {x : SKey} {s : Ctr} {sk : KeyName} {ek : SKey} {k k' : Ctr → SKey → Proc Sym}
    (h : ∀ c y, Like x (k c y) (k' c y)) :
    Like x (recvCipherAndGetKey (P := Sym) s sk (some ek) k) (recvCipherAndGetKey (P := Sym) s sk (some ek) k') := by
  unfold recvCipherAndGetKey
  simp only
  refine like_read fun c p => ?_
  split
  · split
    · exact h _ _
    · exact .quiet _ _ .fail .fail
  · exact .quiet _ _ .fail .fail

theorem like_ident {x : SKey} {s : Ctr} {ek : SKey} {k k' : Ctr → KeyName → Proc Sym} (h : ∀ c y, Like x (k c y) (k' c y)) :
    Like x (recvEncryptedIdentity (P := Sym) s ek k) (recvEncryptedIdentity (P := Sym) s ek k') := by
  unfold recvEncryptedIdentity
  refine like_read fun c p => ?_
  split
  · exact h _ _
  · exact .quiet _ _ .fail .fail

theorem like_proof {x : SKey} {s : Ctr} {mk ek : SKey} {l : List (Part KeyName SMac)} {k k' : Ctr → SMac → Proc Sym}
    (h : ∀ c y, Like x (k c y) (k' c y)) :
    Like x (recvProof (P := Sym) s mk ek l k) (recvProof (P := Sym) s mk ek l k') := by
  unfold recvProof
  simp only
  refine like_read fun c p => ?_
  split
  · split
    · exact h _ _
    · exact .quiet _ _ .fail .fail
  · exact .quiet _ _ .fail .fail

theorem like_init (j a a' : Nat) (peer : KeyName) :
    Like (.kem (.own j true)) (proc j (.init a peer)) (proc j (.init a' peer)) := by
  refine .send _ _ _ _ rfl (.send _ _ _ _ rfl ?_)
  refine like_cipher fun s k2 => like_ident fun s th => like_proof fun s sp => ?_
  refine .send _ _ _ _ rfl (.send _ _ _ _ ?_ (.send _ _ _ _ ?_ (.quiet _ _ ?_ ?_)))
  · simp [veil, sizeOf]
  · simp [veil, sizeOf]
  · exact quiet_cipher fun s k4 => quiet_proof fun s _ => .done _
  · exact quiet_cipher fun s k4 => quiet_proof fun s _ => .done _

/-- **C149** Whoever a client is, and whatever it receives in the exchange, it sends the same, up to what is sealed with its
third key, of which the lengths are the same as well: the attacker that does not have that key (C149_client) can not tell
`a` from `a'`. -/
theorem C149_same (j a a' : Nat) (peer : KeyName) (ins : List M) :
    (runAlone (proc j (.init a peer)) ins).1.map (veil (.kem (.own j true))) =
      (runAlone (proc j (.init a' peer)) ins).1.map (veil (.kem (.own j true))) :=
  (like_init j a a' peer).same ins

/-! ## Somebody with the key of the server -/

/-- The messages of somebody who has the private key of server 1 to the client of run 0. -/
def lure : List M :=
  [.frame (.kem (.own 0 false), 0, .ct (.cli 0, .adv 0)), .frame (.kem (.adv 0), 1, .pk (.adv 1)),
   .frame (.kem (.adv 0), 2, .mac (SMac.of (.kem (.own 0 false)) [.pk (.cli 0), .pk (.adv 1)]))]

def lured (n : Nat) : State := ⟨[⟨.init 2 (.long 1), lure.take n, []⟩], [1]⟩

theorem lured_first (n : Nat) : (lured n).Knows (.key (.kem (.own 0 false))) := by
  refine .encapK (.decap (p := .long 1) (.leaked (by simp [lured])) (.msg (m := .raw (.long 1, .own 0 false)) ?_))
  exact ⟨0, _, rfl, List.mem_of_getElem? (i := 0) rfl⟩

theorem lured_own (n : Nat) : (lured n).Knows (.key (.kem (.adv 0))) := .encapK (.ownRnd 0)

theorem lured_reach : Reach (lured 3) := by
  refine .tail (.tail (.tail (.tail (.tail (.refl _) (.leak _ 1)) (.start _ (.init 2 (.long 1))))
    (.deliver (lured 0) 0 _ (.frame (.kem (.own 0 false), 0, .ct (.cli 0, .adv 0))) rfl ?_))
    (.deliver (lured 1) 0 _ (.frame (.kem (.adv 0), 1, .pk (.adv 1))) rfl ?_))
    (.deliver (lured 2) 0 _
      (.frame (.kem (.adv 0), 2, .mac (SMac.of (.kem (.own 0 false)) [.pk (.cli 0), .pk (.adv 1)]))) rfl ?_)
  · exact .encrypt (lured_first 0) (.encapC (.ownRnd 0))
  · exact .encrypt (lured_own 1) (.pk _)
  · refine .encrypt (lured_own 2) (.hmac (lured_first 2) ?_)
    intro x hx
    simp only [List.mem_cons, List.not_mem_nil, or_false] at hx
    rcases hx with rfl | rfl <;> exact .pk _

/-- **C149** That nobody has the private key of the server is needed: who has it is told who the client is. -/
theorem C149_key_needed : ∃ s j r, Reach s ∧ s.runs[j]? = some r ∧ r.role = .init 2 (.long 1) ∧ 1 ∈ s.leaked ∧
    ∃ k n p, Msg.frame (k, n, p) ∈ outs j r ∧ PayNames 2 p ∧ s.Knows (.key k) := by
  refine ⟨lured 3, 0, _, lured_reach, rfl, rfl, by simp [lured], .kem (.own 0 true), 2, .pk (.long 2),
    List.mem_of_getElem? (i := 3) rfl, rfl, ?_⟩
  refine .encapK (.decap (p := .adv 1) (.ownSk 1) (.decrypt (k := .kem (.adv 0)) (n := 1) (lured_own 3)
    (.msg (m := .frame (.kem (.adv 0), 1, .ct (.adv 1, .own 0 true))) ?_)))
  exact ⟨0, _, rfl, List.mem_of_getElem? (i := 2) rfl⟩

/-! ## Instances -/

/-- Client 2 has logged in to server 1: it has named itself, and so did the answer; the keys of both are lost later, and nobody
can tell. -/
example : ∃ s', Steps met s' ∧ 1 ∈ s'.leaked ∧ 2 ∈ s'.leaked ∧ ¬ s'.Knows (.key (.kem (.own 0 true))) := by
  have hm : Msg.frame (SKey.kem (.own 0 true), 2, Payload.pk (.long 2)) ∈ outs 0 metC :=
    List.mem_of_getElem? (i := 3) rfl
  obtain ⟨k, n, p, h, hk⟩ := C149_client met_reach (j := 0) (r := metC) rfl rfl (by decide) (by simp [met]) hm rfl
  cases h
  refine ⟨⟨met.runs, [2, 1]⟩, .tail (.tail (.refl _) (.leak met 1)) (.leak ⟨met.runs, [1]⟩ 2), by simp, by simp, ?_⟩
  exact hk _ (.tail (.tail (.refl _) (.leak met 1)) (.leak ⟨met.runs, [1]⟩ 2))

example : ∃ s', Steps met s' ∧ 1 ∈ s'.leaked ∧ 2 ∈ s'.leaked ∧ ¬ s'.Knows (.key (.kem (.own 1 true))) := by
  have hc : Msg.frame (SKey.kem (.own 0 true), 2, Payload.pk (.long 2)) ∈ outs 0 metC :=
    List.mem_of_getElem? (i := 3) rfl
  have hm : Msg.frame (SKey.kem (.own 1 true), 4, Payload.mac (SMac.of (.kem (.own 0 true))
      [.mac (SMac.of (.kem (.own 1 false)) [.mac (SMac.of (.kem (.own 0 false)) [.pk (.cli 0), .pk (.srv 0)]),
        .pk (.long 2)]), .pk (.long 1)])) ∈ outs 1 metS := List.mem_of_getElem? (i := 4) rfl
  obtain ⟨k, n, p, h, hk⟩ := C149_server met_reach (j := 0) (r := metC) rfl rfl (by decide) (by simp [met])
    ⟨_, hc, rfl⟩ (.refl _) (j' := 1) (r' := metS) rfl rfl met_resS hm (by simp [Names, PayNames, SMac.of, SMac.names])
  cases h
  refine ⟨⟨met.runs, [2, 1]⟩, .tail (.tail (.refl _) (.leak met 1)) (.leak ⟨met.runs, [1]⟩ 2), by simp, by simp, ?_⟩
  exact hk _ (.tail (.tail (.refl _) (.leak met 1)) (.leak ⟨met.runs, [1]⟩ 2))

/-- That the third key is veiled matters: without it the two clients differ. -/
example : (runAlone (proc 0 (.init 2 (.long 1))) metC.ins).1 ≠ (runAlone (proc 0 (.init 3 (.long 1))) metC.ins).1 := by
  intro h
  have h1 : (runAlone (proc 0 (.init 2 (.long 1))) metC.ins).1[3]? =
      some (.frame (SKey.kem (.own 0 true), 2, Payload.pk (.long 2))) := rfl
  have h2 : (runAlone (proc 0 (.init 3 (.long 1))) metC.ins).1[3]? =
      some (.frame (SKey.kem (.own 0 true), 2, Payload.pk (.long 3))) := rfl
  rw [h, h2] at h1
  cases h1

end Verif.KXNet
