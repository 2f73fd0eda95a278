import Verif.Proofs.KXNet

/-!
# C65, C66: key exchanges in the presence of an attacker

Any number of clients and servers run the key exchange at the same time. The attacker controls the network, can make
its own keys, and over time gets hold of long-term keys.
-/

namespace Verif.KXNet

open Verif.KX

/-- Two results belong together: each side writes what the other one reads, starting with the number the other side
expects. -/
structure Match (x x' : Result Sym) : Prop where
  read : x.readKey = x'.writeKey
  write : x.writeKey = x'.readKey
  rseq : x.rseq = x'.wseq
  wseq : x.wseq = x'.rseq

/-- A client or server reads payload `p` as message number `i` of the session, `Read` (/repo/session/kx.go:399-416):
some frame that the attacker can put on the connection opens with the key and number expected. -/
def CanRead (s : State) (x : Result Sym) (i : Nat) (p : Pay) : Prop :=
  ∃ f, s.Knows (.frame f) ∧ Sym.openF x.readKey (x.rseq + i) f = some p

theorem canRead_frame {s : State} {x : Result Sym} {i : Nat} {p : Pay} (h : CanRead s x i p) :
    s.Knows (.frame (x.readKey, x.rseq + i, p)) := by
  obtain ⟨⟨k, n, q⟩, h1, h2⟩ := h
  simp only [Option.ite_none_right_eq_some, Option.some.injEq] at h2
  obtain ⟨⟨rfl, rfl⟩, rfl⟩ := h2
  exact h1

/-! ## C66 -/

/-- **C66**, the client. When `Initiate` with the public key of server `b` completes, and the attacker does not have
the private key of `b`, then `b` has completed a `Respond` for this very client with the same keys. -/
theorem C66_client (s : State) (hs : Reach s) (j a b : Nat) (r : Run) (hr : s.runs[j]? = some r)
    (hrole : r.role = .init a (.long b)) (x : Result Sym) (hx : result j r = some x) (hb : b ∉ s.leaked) :
    ∃ j' r' e x', s.runs[j']? = some r' ∧ r'.role = .resp b e ∧ result j' r' = some x' ∧
      x'.theirPK = .long a ∧ Match x x' := by
  obtain ⟨j', r', e, h1, h2, h3, h4, _⟩ := init_partner (heard_reach hs) hr hrole hx hb
  subst h3
  exact ⟨j', r', e, _, h1, h2, h4, rfl, rfl, rfl, rfl, rfl⟩

/-- **C66**: no two sessions share keys: a session has at most one other end. -/
theorem C66_unique (j j' : Nat) (r r' : Run) (x x' : Result Sym) (hx : result j r = some x) (hx' : result j' r' = some x')
    (h : x.readKey = x'.readKey ∨ x.writeKey = x'.writeKey) : j = j' := by
  cases hrole : r.role with
  | init a peer =>
    obtain ⟨r2, th, r4, _, rfl⟩ := init_result hrole hx
    cases hrole' : r'.role with
    | init a' peer' =>
      obtain ⟨r2', th', r4', _, rfl⟩ := init_result hrole' hx'
      rcases h with h | h <;> cases h <;> rfl
    | resp b e =>
      obtain ⟨_, _, _, _, _, rfl⟩ := resp_result hrole' hx'
      rcases h with h | h <;> cases h
  | resp b e =>
    obtain ⟨r1, th, r3, pk, _, rfl⟩ := resp_result hrole hx
    cases hrole' : r'.role with
    | init a' peer' =>
      obtain ⟨_, _, _, _, rfl⟩ := init_result hrole' hx'
      rcases h with h | h <;> cases h
    | resp b' e' =>
      obtain ⟨_, _, _, _, _, rfl⟩ := resp_result hrole' hx'
      rcases h with h | h <;> cases h <;> rfl

/-- Message number `i` that was written by run `j`. -/
def Wrote (s : State) (j : Nat) (i : Nat) (p : Pay) : Prop :=
  ∃ r b, s.runs[j]? = some r ∧ r.data[i]? = some b ∧ p = .other b

/-- **C66**, the client: from then on, whatever keys leak, the client reads only what that run of the server has
written, in that order. -/
theorem C66_client_reads (s : State) (hs : Reach s) (j a b : Nat) (r : Run) (hr : s.runs[j]? = some r)
    (hrole : r.role = .init a (.long b)) (x : Result Sym) (hx : result j r = some x) (hb : b ∉ s.leaked) :
    ∃ j' r' e, s.runs[j']? = some r' ∧ r'.role = .resp b e ∧
      ∀ s', Steps s s' → ∀ i p, CanRead s' x i p → Wrote s' j' i p := by
  obtain ⟨j', r', e, h1, h2, h3, h4, h5⟩ := init_partner (heard_reach hs) hr hrole hx hb
  refine ⟨j', r', e, h1, h2, ?_⟩
  intro s' hs' i p hc
  have hl := steps_later hs'
  have safe := resp_first_forever hl h1 h2 h5
  subst h3
  obtain ⟨j2, q, x2, i2, c, hq, hx2, hk, hn, hc2, hp⟩ :=
    sender_data (frame_origin (canRead_frame hc) (show Secret s'.lk s'.net (.kdf _ _ _ _ _) from Or.inr (Or.inl safe)))
  obtain ⟨q', hq', e'⟩ := hl.runs j' r' h1
  have hj : j2 = j' := by
    refine C66_unique j2 j' q q' x2 _ hx2 (e'.result h4) (Or.inr ?_)
    rw [hk]; rfl
  subst hj
  rw [hq] at hq'; cases hq'
  rw [e'.result h4] at hx2; cases hx2
  have : i = i2 := by simp only [iRes, rRes] at hn; omega
  subst this
  exact ⟨q, c, hq, hc2, hp⟩

/-- **C66**, the server, partially. When `Respond` has completed for the public key of client `a`, whose private key
the attacker does not have, and there is anything that the server could read in that session, then `a` has completed
an `Initiate` with the public key of this server and the same keys, and what the server can read is what `a` wrote.
Missing: that `a` is there as soon as `Respond` has completed, see `C66_server_violated`. -/
theorem C66_server_partial (s : State) (hs : Reach s) (j a b e : Nat) (r : Run) (hr : s.runs[j]? = some r)
    (hrole : r.role = .resp b e) (x : Result Sym) (hx : result j r = some x) (hpk : x.theirPK = .long a)
    (ha : a ∉ s.leaked) (n : Nat) (q : Pay) (hc : CanRead s x n q) :
    ∃ j' r' x', s.runs[j']? = some r' ∧ r'.role = .init a (.long b) ∧ result j' r' = some x' ∧
      Match x x' ∧ ∀ s', Steps s s' → ∀ i p, CanRead s' x i p → Wrote s' j' i p := by
  obtain ⟨j', r', _, _, h1, h2, h3, h4, h5, _⟩ := resp_partner (heard_reach hs) hr hrole hx hpk ha (canRead_frame hc)
  subst h3
  refine ⟨j', r', _, h1, h2, h4, ⟨rfl, rfl, rfl, rfl⟩, ?_⟩
  intro s' hs' i p hcr
  have hl := steps_later hs'
  have safe := resp_first_forever hl hr hrole h5
  obtain ⟨j2, q, x2, i2, c, hq, hx2, hk, hn, hc2, hp⟩ :=
    sender_data (frame_origin (canRead_frame hcr) (show Secret s'.lk s'.net (.kdf _ _ _ _ _) from Or.inr (Or.inl safe)))
  obtain ⟨q', hq', e'⟩ := hl.runs j' r' h1
  have hj : j2 = j' := by
    refine C66_unique j2 j' q q' x2 _ hx2 (e'.result h4) (Or.inr ?_)
    rw [hk]; rfl
  subst hj
  rw [hq] at hq'; cases hq'
  rw [e'.result h4] at hx2; cases hx2
  have : i = i2 := by simp only [iRes, rRes] at hn; omega
  subst this
  exact ⟨q, c, hq, hc2, hp⟩

/-! ## C65 -/

/-- **C65**, the client: the keys of a session with server `b` stay unknown to the attacker for ever, if the attacker
did not have the private key of `b` when the exchange completed; in particular when it gets hold of all long-term keys
later. -/
theorem C65_client (s : State) (hs : Reach s) (j a b : Nat) (r : Run) (hr : s.runs[j]? = some r)
    (hrole : r.role = .init a (.long b)) (x : Result Sym) (hx : result j r = some x) (hb : b ∉ s.leaked)
    (s' : State) (hs' : Steps s s') : ¬ s'.Knows (.key x.readKey) ∧ ¬ s'.Knows (.key x.writeKey) := by
  obtain ⟨j', r', e, h1, h2, h3, h4, h5⟩ := init_partner (heard_reach hs) hr hrole hx hb
  have safe := resp_first_forever (steps_later hs') h1 h2 h5
  subst h3
  exact ⟨fun hk => know_ok hk (Or.inr (Or.inl safe)), fun hk => know_ok hk (Or.inr (Or.inl safe))⟩

/-- **C65**, the server, partially: the keys of a session with client `a` are unknown to the attacker as long as it
does not have the private key of `a`. Missing: that they stay unknown when it gets hold of that key later, see
`C65_server_violated`. -/
theorem C65_server_partial (s : State) (j a b e : Nat) (r : Run) (hr : s.runs[j]? = some r)
    (hrole : r.role = .resp b e) (x : Result Sym) (hx : result j r = some x) (hpk : x.theirPK = .long a)
    (ha : a ∉ s.leaked) : ¬ s.Knows (.key x.readKey) ∧ ¬ s.Knows (.key x.writeKey) := by
  have safe := resp_second_safe hr hrole hx hpk ha
  obtain ⟨_, _, _, _, _, rfl⟩ := resp_result hrole hx
  exact ⟨fun hk => know_ok hk (Or.inr (Or.inr (Or.inr safe))), fun hk => know_ok hk (Or.inr (Or.inr (Or.inr safe)))⟩

/-- **C65**, the server, partially: once there was something to read in a session, its keys stay unknown for ever,
whatever leaks. -/
theorem C65_server_confirmed_partial (s : State) (hs : Reach s) (j a b e : Nat) (r : Run) (hr : s.runs[j]? = some r)
    (hrole : r.role = .resp b e) (x : Result Sym) (hx : result j r = some x) (hpk : x.theirPK = .long a)
    (ha : a ∉ s.leaked) (n : Nat) (q : Pay) (hc : CanRead s x n q) (s' : State) (hs' : Steps s s') :
    ¬ s'.Knows (.key x.readKey) ∧ ¬ s'.Knows (.key x.writeKey) := by
  obtain ⟨j', r', _, _, h1, h2, h3, h4, h5, _⟩ := resp_partner (heard_reach hs) hr hrole hx hpk ha (canRead_frame hc)
  have safe := resp_first_forever (steps_later hs') hr hrole h5
  subst h3
  exact ⟨fun hk => know_ok hk (Or.inr (Or.inl safe)), fun hk => know_ok hk (Or.inr (Or.inl safe))⟩

/-! ## The violations -/

/-- The full statement for servers: a completed exchange means that the client is there. -/
def ServerAuth : Prop := ∀ s, Reach s → ∀ (j a b e : Nat) (r : Run), s.runs[j]? = some r → r.role = .resp b e →
  ∀ x, result j r = some x → x.theirPK = .long a → a ∉ s.leaked →
  ∃ (j' : Nat) (r' : Run), s.runs[j']? = some r' ∧ r'.role = .init a (.long b)

/-- The full statement for servers: the keys stay secret. -/
def ServerForward : Prop := ∀ s, Reach s → ∀ (j a b e : Nat) (r : Run), s.runs[j]? = some r → r.role = .resp b e →
  ∀ x, result j r = some x → x.theirPK = .long a → a ∉ s.leaked →
  ∀ s', Steps s s' → ¬ s'.Knows (.key x.readKey)

/-- Messages of the attacker to run `j` of server 1, in the name of client 2. -/
def fake (j : Nat) : List M := rIns j 1 0 (.adv 0) (.adv 0) (.adv 1) (.long 2)

/-- The server after receiving the first `n` of them, having started `runs` before. -/
def fooled (runs : List Run) (n : Nat) : State := ⟨runs ++ [⟨.resp 1 0, (fake runs.length).take n, []⟩], []⟩

theorem fooled_run (runs : List Run) (n : Nat) :
    (fooled runs n).runs[runs.length]? = some ⟨.resp 1 0, (fake runs.length).take n, []⟩ := by simp [fooled]

theorem fooled_step {s0 : State} (runs : List Run) (n : Nat) (m : M) (hm : (fake runs.length)[n]? = some m)
    (h : Steps s0 (fooled runs n)) (hk : (fooled runs n).Knows (ofMsg m)) : Steps s0 (fooled runs (n + 1)) := by
  have h2 := Steps.tail h (Step.deliver (fooled runs n) runs.length _ m (fooled_run runs n) hk)
  have he : (fake runs.length).take (n + 1) = (fake runs.length).take n ++ [m] := by rw [List.take_add_one, hm]; rfl
  unfold fooled at h2 ⊢
  rw [he]
  simpa [List.set_append] using h2

theorem k_adv (s : State) (n : Nat) : s.Knows (.key (.kem (.adv n))) := .encapK (.ownRnd n)

/-- From the first answer of the server the attacker learns the second key. -/
theorem k_second (runs : List Run) (n : Nat) (hn : 2 ≤ n) (hn5 : n ≤ 5) :
    (fooled runs n).Knows (.rnd (.own runs.length false)) := by
  refine .decap (.ownSk 0) (p := .adv 0) (.decrypt (k := .kem (.adv 0)) (n := 0) (k_adv _ 0) ?_)
  refine .msg (m := .frame (.kem (.adv 0), 0, .ct (.adv 0, .own runs.length false))) ⟨_, _, fooled_run runs n, ?_⟩
  have : n = 2 ∨ n = 3 ∨ n = 4 ∨ n = 5 := by omega
  rcases this with rfl | rfl | rfl | rfl <;> exact List.mem_append_left _ (List.mem_cons_self ..)

theorem fooled_reach {s0 : State} (runs : List Run) (h : Steps s0 ⟨runs, []⟩) : Steps s0 (fooled runs 5) := by
  have h0 : Steps s0 (fooled runs 0) := Steps.tail h (Step.start ⟨runs, []⟩ (.resp 1 0))
  have h1 := fooled_step runs 0 _ rfl h0 (.encapC (.ownRnd 0))
  have h2 := fooled_step runs 1 _ rfl h1 (.encrypt (k_adv _ 0) (.pk _))
  have h3 := fooled_step runs 2 _ rfl h2
    (.encrypt (.encapK (k_second runs 2 (by omega) (by omega))) (.encapC (.ownRnd 1)))
  have h4 := fooled_step runs 3 _ rfl h3 (.encrypt (k_adv _ 1) (.pk _))
  refine fooled_step runs 4 _ rfl h4
    (.encrypt (k_adv _ 1) (.hmac (.encapK (k_second runs 4 (by omega) (by omega))) ?_))
  intro y hy
  simp only [List.mem_cons, List.not_mem_nil, or_false] at hy
  rcases hy with rfl | rfl
  · refine .hmac (k_adv _ 0) ?_
    intro y hy
    simp only [List.mem_cons, List.not_mem_nil, or_false] at hy
    rcases hy with rfl | rfl <;> exact .pk _
  · exact .pk _

theorem fooled_result (j : Nat) : result j ⟨.resp 1 0, fake j, []⟩ = some (rRes j (.adv 0) (.adv 1) (.long 2)) := by
  rw [result_eq]
  show (runAlone (proc j (.resp 1 0)) (fake j)).2 = _
  simp [fake, rIns, proc, respond, recvCipherAndGetKey, recvEncryptedIdentity, recvProof, readWithKey,
    genKeyAndSendCipher, writeWithKey, sendProof, runAlone, rRes]

theorem start_reach : Reach ⟨[], []⟩ := Steps.refl _

/-- **C66**, the server: it completes the exchange for a client that has never said a word. Whoever knows the public
key of the client can do this. -/
theorem C66_server_violated : ¬ ServerAuth := by
  intro h
  obtain ⟨j', r', h1, h2⟩ := h _ (fooled_reach [] start_reach) 0 2 1 0 _ rfl rfl _ (fooled_result 0) rfl (by simp [fooled])
  match j' with
  | 0 => cases h1; cases h2
  | j' + 1 => simp [fooled] at h1

/-- **C65**, the server: the keys of such a session become known when the private key of the client leaks. -/
theorem C65_server_violated : ¬ ServerForward := by
  intro h
  refine h _ (fooled_reach [] start_reach) 0 2 1 0 _ rfl rfl _ (fooled_result 0) rfl (by simp [fooled]) _
    (.tail (.refl _) (.leak (fooled [] 5) 2)) ?_
  have hl : Later (fooled [] 5) { fooled [] 5 with leaked := 2 :: (fooled [] 5).leaked } := step_later (.leak (fooled [] 5) 2)
  refine .kdf (k_adv _ 0) (.encapK (hl.knows (k_second [] 5 (by omega) (by omega)))) (k_adv _ 1) (.encapK ?_)
  refine .decap (p := .long 2) (.leaked (by simp)) (.decrypt (k := .kem (.adv 1)) (n := 3) (k_adv _ 1) ?_)
  refine hl.knows (.msg (m := .frame (.kem (.adv 1), 3, .ct (.long 2, .own 0 true))) ⟨0, _, rfl, ?_⟩)
  exact List.mem_append_left _ (List.mem_cons_of_mem _ (List.mem_cons_of_mem _ (List.mem_cons_of_mem _
    (List.mem_cons_self ..))))

/-! ## An undisturbed exchange -/

/-- The attacker passes on message `i` of run `src` to run `dst`. -/
def relay (s : State) (src i dst : Nat) : Option State :=
  match s.runs[src]?, s.runs[dst]? with
  | some q, some r => ((outs src q)[i]?).map fun m => { s with runs := s.runs.set dst { r with ins := r.ins ++ [m] } }
  | _, _ => none

theorem relay_steps {s s' : State} {src i dst : Nat} (h : relay s src i dst = some s') : Step s s' := by
  unfold relay at h
  split at h
  · next q r hq hr =>
    cases hm : (outs src q)[i]? with
    | none => simp [hm] at h
    | some m =>
      simp only [hm, Option.map_some, Option.some.injEq] at h
      subst h
      exact .deliver s dst r m hr (.msg ⟨src, q, hq, List.mem_of_getElem? hm⟩)
  · simp at h

def relays (s : State) : List (Nat × Nat × Nat) → Option State
  | [] => some s
  | (a, b, c) :: l => (relay s a b c).bind fun t => relays t l

theorem relays_steps {s0 : State} : ∀ {l : List (Nat × Nat × Nat)} {s s' : State}, Steps s0 s → relays s l = some s' →
    Steps s0 s'
  | [], s, s', hs, h => by cases h; exact hs
  | (a, b, c) :: l, s, s', hs, h => by
    simp only [relays] at h
    cases ht : relay s a b c with
    | none => simp [ht] at h
    | some t =>
      simp only [ht, Option.bind_some] at h
      exact relays_steps (.tail hs (relay_steps ht)) h

/-- Client 2 (run 0) and server 1 (run 1). -/
def pair : State := ⟨[⟨.init 2 (.long 1), [], []⟩, ⟨.resp 1 0, [], []⟩], []⟩

theorem pair_reach : Reach pair :=
  .tail (.tail (.refl _) (.start ⟨[], []⟩ (.init 2 (.long 1)))) (.start ⟨[⟨.init 2 (.long 1), [], []⟩], []⟩ (.resp 1 0))

/-- The exchange. -/
def talk : List (Nat × Nat × Nat) :=
  [(0, 0, 1), (0, 1, 1), (1, 0, 0), (1, 1, 0), (1, 2, 0), (0, 2, 1), (0, 3, 1), (0, 4, 1), (1, 3, 0), (1, 4, 0)]

def metC : Run := ⟨.init 2 (.long 1), iIns 0 2 (.long 1) (.own 1 false) (.srv 0) (.own 1 true), []⟩
def metS : Run := ⟨.resp 1 0, rIns 1 1 0 (.own 0 false) (.cli 0) (.own 0 true) (.long 2), []⟩
def met : State := ⟨[metC, metS], []⟩

theorem met_reach : Reach met := relays_steps (l := talk) pair_reach rfl

theorem met_resC : result 0 metC = some (iRes 0 (.long 1) (.own 1 false) (.own 1 true)) := by rw [result_eq]; rfl
theorem met_resS : result 1 metS = some (rRes 1 (.own 0 false) (.own 0 true) (.long 2)) := by rw [result_eq]; rfl

/-- C65, C66 for the client: both sides complete, and the keys stay secret though both long-term keys leak. -/
example : ∃ s', Steps met s' ∧ 1 ∈ s'.leaked ∧ 2 ∈ s'.leaked ∧
    ¬ s'.Knows (.key (iRes 0 (.long 1) (.own 1 false) (.own 1 true)).readKey) := by
  refine ⟨⟨met.runs, [2, 1]⟩, .tail (.tail (.refl _) (.leak met 1)) (.leak ⟨met.runs, [1]⟩ 2), by simp, by simp, ?_⟩
  exact (C65_client met met_reach 0 2 1 metC rfl rfl _ met_resC (by simp [met]) _
    (.tail (.tail (.refl _) (.leak met 1)) (.leak ⟨met.runs, [1]⟩ 2))).1

example : ∃ j' r' e x', met.runs[j']? = some r' ∧ r'.role = .resp 1 e ∧ result j' r' = some x' ∧ x'.theirPK = .long 2 ∧
    Match (iRes 0 (.long 1) (.own 1 false) (.own 1 true)) x' :=
  C66_client met met_reach 0 2 1 metC rfl rfl _ met_resC (by simp [met])

/-- The client writes a message. -/
def spoken : State := ⟨[{ metC with data := [[104, 105]] }, metS], []⟩

theorem spoken_reach : Reach spoken := .tail met_reach (.write met 0 metC [104, 105] rfl (by rw [met_resC]; rfl))

/-- C66 for the server: it can read the message, and the client is there. -/
theorem spoken_read : CanRead spoken (rRes 1 (.own 0 false) (.own 0 true) (.long 2)) 0 (.other [104, 105]) := by
  refine ⟨(.kdf true (.kem (.own 0 false)) (.kem (.own 1 false)) (.kem (.own 0 true)) (.kem (.own 1 true)), 4, _),
    .msg (m := .frame _) ⟨0, { metC with data := [[104, 105]] }, rfl, ?_⟩, rfl⟩
  exact List.mem_append_right _ (List.mem_cons_self ..)

example : ∃ j' r' x', spoken.runs[j']? = some r' ∧ r'.role = .init 2 (.long 1) ∧ result j' r' = some x' ∧
    Match (rRes 1 (.own 0 false) (.own 0 true) (.long 2)) x' ∧
    ∀ s', Steps spoken s' → ∀ i p, CanRead s' (rRes 1 (.own 0 false) (.own 0 true) (.long 2)) i p → Wrote s' j' i p :=
  C66_server_partial spoken spoken_reach 1 2 1 0 metS rfl rfl _ met_resS rfl (by simp [spoken]) 0 _ spoken_read

example (s' : State) (h : Steps spoken s') :
    ¬ s'.Knows (.key (rRes 1 (.own 0 false) (.own 0 true) (.long 2)).readKey) :=
  (C65_server_confirmed_partial spoken spoken_reach 1 2 1 0 metS rfl rfl _ met_resS rfl (by simp [spoken]) 0 _
    spoken_read s' h).1

/-- C65 for the server: even of the session with somebody pretending to be client 2 the keys are not known. -/
example : ¬ (fooled [] 5).Knows (.key (rRes 0 (.adv 0) (.adv 1) (.long 2)).readKey) :=
  (C65_server_partial (fooled [] 5) 0 2 1 0 _ rfl rfl _ (fooled_result 0) rfl (by simp [fooled])).1

end Verif.KXNet
