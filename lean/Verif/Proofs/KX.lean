import Verif.Model.KX
import Mathlib.Logic.Relation
import Mathlib.Tactic.Common

/-! Helper lemmas for the key exchange (C07, C08). -/

namespace Verif.KX

variable {P : Prims}

/-- Two processes connected by queues are strongly confluent. -/
theorem diamond {c c1 c2 : Config P} (h1 : Step c c1) (h2 : Step c c2) :
    c1 = c2 ∨ ∃ d, Step c1 d ∧ Step c2 d := by
  cases h1 with
  | sendA m k b ab ba =>
    cases h2 with
    | sendA => exact .inl rfl
    | sendB m' k' => exact .inr ⟨_, .sendB m' k' _ _ _, .sendA m k _ _ _⟩
    | recvB k' _ m' ab' =>
      exact .inr ⟨_, .recvB k' _ m' _ _, .sendA m k _ _ _⟩
  | recvA k b ab m ba =>
    cases h2 with
    | recvA => exact .inl rfl
    | sendB m' k' => exact .inr ⟨_, .sendB m' k' _ _ _, .recvA k _ _ m _⟩
    | recvB k' _ m' ab' =>
      exact .inr ⟨_, .recvB k' _ m' _ _, .recvA k _ _ m _⟩
  | sendB m k a ab ba =>
    cases h2 with
    | sendB => exact .inl rfl
    | sendA m' k' => exact .inr ⟨_, .sendA m' k' _ _ _, .sendB m k _ _ _⟩
    | recvA k' _ _ m' =>
      exact .inr ⟨_, .recvA k' _ _ m' _, .sendB m k _ _ _⟩
  | recvB k a m ab ba =>
    cases h2 with
    | recvB => exact .inl rfl
    | sendA m' k' => exact .inr ⟨_, .sendA m' k' _ _ _, .recvB k _ m _ _⟩
    | recvA k' _ _ m' =>
      exact .inr ⟨_, .recvA k' _ _ m' _, .recvB k _ m _ _⟩

/-- `n` steps. -/
inductive Steps : Nat → Config P → Config P → Prop where
  | refl (c) : Steps 0 c c
  | head {n c d e} : Step c d → Steps n d e → Steps (n + 1) c e

/-- If some execution of length `n` ends in a configuration that cannot move, then after
any step the same configuration is reached in `n - 1` further steps. -/
theorem steps_step {n : Nat} {c t d : Config P} (h : Steps n c t) (ht : ∀ e, ¬ Step t e)
    (hd : Step c d) : ∃ m, n = m + 1 ∧ Steps m d t := by
  induction h generalizing d with
  | refl c => exact absurd hd (ht d)
  | head hs hrest ih =>
    rcases diamond hs hd with rfl | ⟨e, h1, h2⟩
    · exact ⟨_, rfl, hrest⟩
    · obtain ⟨m, rfl, hm⟩ := ih ht h1
      exact ⟨m + 1, rfl, .head h2 hm⟩

/-- Hence every execution can be continued to that configuration and has at most `n`
steps. -/
theorem steps_all {n : Nat} {c t : Config P} (h : Steps n c t) (ht : ∀ e, ¬ Step t e)
    {m : Nat} {d : Config P} (hd : Steps m c d) : ∃ l, n = m + l ∧ Steps l d t := by
  induction hd generalizing n with
  | refl c => exact ⟨n, by omega, h⟩
  | head hs _ ih =>
    obtain ⟨n', rfl, h'⟩ := steps_step h ht hs
    obtain ⟨l, rfl, hl⟩ := ih h'
    exact ⟨l, by omega, hl⟩

/-- A greedy scheduler. -/
def exec : Nat → Config P → Config P
  | 0, c => c
  | n + 1, ⟨.send m k, b, ab, ba⟩ => exec n ⟨k, b, ab ++ [m], ba⟩
  | n + 1, ⟨.recv k, b, ab, m :: ba⟩ => exec n ⟨k m, b, ab, ba⟩
  | n + 1, ⟨a, .send m k, ab, ba⟩ => exec n ⟨a, k, ab, ba ++ [m]⟩
  | n + 1, ⟨a, .recv k, m :: ab, ba⟩ => exec n ⟨a, k m, ab, ba⟩
  | _ + 1, c => c

theorem exec_steps (n : Nat) (c : Config P) : ∃ m, m ≤ n ∧ Steps m c (exec n c) := by
  fun_induction exec n c with
  | case1 c => exact ⟨0, Nat.le_refl _, .refl c⟩
  | case2 n m k b ab ba ih =>
    obtain ⟨l, h, hl⟩ := ih; exact ⟨l + 1, by omega, .head (.sendA ..) hl⟩
  | case3 n k b ab m ba ih =>
    obtain ⟨l, h, hl⟩ := ih; exact ⟨l + 1, by omega, .head (.recvA ..) hl⟩
  | case4 n a m k ab ba _ _ ih =>
    obtain ⟨l, h, hl⟩ := ih; exact ⟨l + 1, by omega, .head (.sendB ..) hl⟩
  | case5 n a k m ab ba _ _ ih =>
    obtain ⟨l, h, hl⟩ := ih; exact ⟨l + 1, by omega, .head (.recvB ..) hl⟩
  | case6 n c => exact ⟨0, Nat.zero_le _, .refl _⟩

/-- A failed side stays failed. -/
theorem steps_fail {n : Nat} {c d : Config P} (h : Steps n c d) :
    (c.a = .fail → d.a = .fail) ∧ (c.b = .fail → d.b = .fail) := by
  induction h with
  | refl c => exact ⟨id, id⟩
  | head hs _ ih =>
    refine ⟨fun h => ih.1 ?_, fun h => ih.2 ?_⟩ <;> cases hs <;> simp_all

/-- The final configuration of an undisturbed exchange. -/
theorem honest_exec (skA eA skB eB : P.SK) (r1 r2 r3 r4 : P.Rnd) :
    let k1 := (P.encap (P.pub skB) r1).2
    let k2 := (P.encap (P.pub eA) r2).2
    let k3 := (P.encap (P.pub eB) r3).2
    let k4 := (P.encap (P.pub skA) r4).2
    exec 20 ⟨initiate skA eA (P.pub skB) r1 r3, respond skB eB r2 r4, [], []⟩ =
      ⟨.done ⟨(P.kdf k1 k2 k3 k4).1, (P.kdf k1 k2 k3 k4).2, P.pub skB, 4, 5⟩,
       .done ⟨(P.kdf k1 k2 k3 k4).2, (P.kdf k1 k2 k3 k4).1, P.pub skA, 5, 4⟩, [], []⟩ := by
  simp [initiate, respond, genKeyAndSendCipher, recvCipherAndGetKey, sendProof, recvProof,
    recvEncryptedIdentity, writeWithKey, readWithKey, exec, P.open_seal, P.decap_encap]

/-- Inversion of a completed run that starts with a receive. -/
theorem runAlone_recv_done {k : Msg P → Proc P} {ins outs : List (Msg P)} {r : Result P}
    (h : runAlone (.recv k) ins = (outs, .done r)) :
    ∃ i rest, ins = i :: rest ∧ runAlone (k i) rest = (outs, .done r) := by
  cases ins with
  | nil => simp [runAlone] at h
  | cons i rest => exact ⟨i, rest, rfl, h⟩

theorem runAlone_send_done {m : Msg P} {k : Proc P} {ins outs : List (Msg P)} {r : Result P}
    (h : runAlone (.send m k) ins = (outs, .done r)) :
    ∃ o, outs = m :: o ∧ runAlone k ins = (o, .done r) := by
  simp only [runAlone, Prod.mk.injEq] at h
  exact ⟨_, h.1.symm, Prod.ext rfl h.2⟩

theorem runAlone_fail_done {ins outs : List (Msg P)} {r : Result P}
    (h : runAlone (.fail : Proc P) ins = (outs, .done r)) : False := by
  simp [runAlone] at h

theorem readWithKey_done {s : Ctr} {ek : P.Key} {k : Ctr → Payload P.PK P.CT P.Mac → Proc P}
    {ins outs : List (Msg P)} {r : Result P}
    (h0 : runAlone (readWithKey s ek k) ins = (outs, .done r)) :
    ∃ f p rest, ins = .frame f :: rest ∧ P.openF ek s.r f = some p ∧
      runAlone (k { s with r := s.r + 1 } p) rest = (outs, .done r) := by
  obtain ⟨i, rest, rfl, h⟩ := runAlone_recv_done h0
  cases i with
  | raw c => exact (runAlone_fail_done h).elim
  | frame f =>
    simp only at h
    cases ho : P.openF ek s.r f with
    | none => rw [ho] at h; exact (runAlone_fail_done h).elim
    | some p => rw [ho] at h; exact ⟨f, p, rest, rfl, ho, h⟩

theorem recvCipher_done {s : Ctr} {sk : P.SK} {ek : P.Key} {k : Ctr → P.Key → Proc P}
    {ins outs : List (Msg P)} {r : Result P}
    (h0 : runAlone (recvCipherAndGetKey s sk (some ek) k) ins = (outs, .done r)) :
    ∃ f c key rest, ins = .frame f :: rest ∧ P.openF ek s.r f = some (.ct c) ∧
      P.decap c sk = some key ∧ runAlone (k { s with r := s.r + 1 } key) rest = (outs, .done r) := by
  unfold recvCipherAndGetKey at h0
  obtain ⟨f, p, rest, rfl, ho, h⟩ := readWithKey_done h0
  cases p with
  | ct c =>
    simp only at h
    cases hd : P.decap c sk with
    | none => rw [hd] at h; exact (runAlone_fail_done h).elim
    | some key => rw [hd] at h; exact ⟨f, c, key, rest, rfl, ho, hd, h⟩
  | _ => exact (runAlone_fail_done h).elim

theorem recvCipherRaw_done {s : Ctr} {sk : P.SK} {k : Ctr → P.Key → Proc P}
    {ins outs : List (Msg P)} {r : Result P}
    (h0 : runAlone (recvCipherAndGetKey s sk none k) ins = (outs, .done r)) :
    ∃ c key rest, ins = .raw c :: rest ∧ P.decap c sk = some key ∧
      runAlone (k s key) rest = (outs, .done r) := by
  unfold recvCipherAndGetKey at h0
  obtain ⟨i, rest, rfl, h⟩ := runAlone_recv_done h0
  cases i with
  | frame f => exact (runAlone_fail_done h).elim
  | raw c =>
    simp only at h
    cases hd : P.decap c sk with
    | none => rw [hd] at h; exact (runAlone_fail_done h).elim
    | some key => rw [hd] at h; exact ⟨c, key, rest, rfl, hd, h⟩

theorem recvProof_done {s : Ctr} {mk ek : P.Key} {parts : List (Part P.PK P.Mac)}
    {k : Ctr → P.Mac → Proc P} {ins outs : List (Msg P)} {r : Result P}
    (h0 : runAlone (recvProof s mk ek parts k) ins = (outs, .done r)) :
    ∃ f rest, ins = .frame f :: rest ∧ P.openF ek s.r f = some (.mac (P.hmac mk parts)) ∧
      runAlone (k { s with r := s.r + 1 } (P.hmac mk parts)) rest = (outs, .done r) := by
  unfold recvProof at h0
  simp only at h0
  obtain ⟨f, p, rest, rfl, ho, h⟩ := readWithKey_done h0
  cases p with
  | mac rd =>
    simp only at h
    split at h
    · rename_i he; subst he; exact ⟨f, rest, rfl, ho, h⟩
    · exact (runAlone_fail_done h).elim
  | _ => exact (runAlone_fail_done h).elim

theorem recvIdentity_done {s : Ctr} {ek : P.Key} {k : Ctr → P.PK → Proc P}
    {ins outs : List (Msg P)} {r : Result P}
    (h0 : runAlone (recvEncryptedIdentity s ek k) ins = (outs, .done r)) :
    ∃ f q rest, ins = .frame f :: rest ∧ P.openF ek s.r f = some (.pk q) ∧
      runAlone (k { s with r := s.r + 1 } q) rest = (outs, .done r) := by
  obtain ⟨f, p, rest, rfl, ho, h⟩ := readWithKey_done h0
  cases p with
  | pk q => exact ⟨f, q, rest, rfl, ho, h⟩
  | _ => exact (runAlone_fail_done h).elim

/-- What a completed initiator has seen and sent. -/
theorem initiate_done {skA eA : P.SK} {pkB : P.PK} {r1 r3 : P.Rnd} {ins outs : List (Msg P)}
    {r : Result P} (h0 : runAlone (initiate skA eA pkB r1 r3) ins = (outs, .done r)) :
    ∃ (k2 k4 : P.Key) (epB : P.PK) (f4 : P.Frame),
      let k1 := (P.encap pkB r1).2
      let k3 := (P.encap epB r3).2
      let sp := P.hmac k1 [.pk (P.pub eA), .pk epB]
      let cp := P.hmac k2 [.mac sp, .pk (P.pub skA)]
      ins[4]? = some (.frame f4) ∧ P.openF k4 4 f4 = some (.mac (P.hmac k3 [.mac cp, .pk pkB])) ∧
      outs[4]? = some (.frame (P.sealF k3 3 (.mac cp))) ∧
      r = ⟨(P.kdf k1 k2 k3 k4).1, (P.kdf k1 k2 k3 k4).2, pkB, 4, 5⟩ := by
  unfold initiate genKeyAndSendCipher at h0
  simp only at h0
  obtain ⟨o1, rfl, h1⟩ := runAlone_send_done h0
  obtain ⟨o2, rfl, h2⟩ := runAlone_send_done h1
  obtain ⟨f0, c2, k2, i1, rfl, ho0, hd0, h3⟩ := recvCipher_done h2
  obtain ⟨f1, epB, i2, rfl, ho1, h4⟩ := recvIdentity_done h3
  obtain ⟨f2, i3, rfl, ho2, h5⟩ := recvProof_done h4
  obtain ⟨o3, rfl, h6⟩ := runAlone_send_done h5
  obtain ⟨o4, rfl, h7⟩ := runAlone_send_done h6
  obtain ⟨o5, rfl, h8⟩ := runAlone_send_done h7
  obtain ⟨f3, c4, k4, i4, rfl, ho3, hd3, h9⟩ := recvCipher_done h8
  obtain ⟨f4, i5, rfl, ho4, h10⟩ := recvProof_done h9
  simp only [runAlone, Prod.mk.injEq, Proc.done.injEq] at h10
  exact ⟨k2, k4, epB, f4, rfl, ho4, rfl, h10.2.symm⟩

/-- What a completed responder has seen and sent. -/
theorem respond_done {skB eB : P.SK} {r2 r4 : P.Rnd} {ins outs : List (Msg P)}
    {r : Result P} (h0 : runAlone (respond skB eB r2 r4) ins = (outs, .done r)) :
    ∃ (k1 k3 : P.Key) (epA pkA : P.PK) (f4 : P.Frame),
      let k2 := (P.encap epA r2).2
      let k4 := (P.encap pkA r4).2
      let sp := P.hmac k1 [.pk epA, .pk (P.pub eB)]
      let cp := P.hmac k2 [.mac sp, .pk pkA]
      ins[4]? = some (.frame f4) ∧ P.openF k3 3 f4 = some (.mac cp) ∧
      outs[4]? = some (.frame (P.sealF k4 4 (.mac (P.hmac k3 [.mac cp, .pk (P.pub skB)])))) ∧
      r = ⟨(P.kdf k1 k2 k3 k4).2, (P.kdf k1 k2 k3 k4).1, pkA, 5, 4⟩ := by
  unfold respond at h0
  obtain ⟨c1, k1, i1, rfl, hd1, h1⟩ := recvCipherRaw_done h0
  obtain ⟨f1, epA, i2, rfl, ho1, h2⟩ := recvIdentity_done h1
  unfold genKeyAndSendCipher at h2
  simp only at h2
  obtain ⟨o1, rfl, h3⟩ := runAlone_send_done h2
  obtain ⟨o2, rfl, h4⟩ := runAlone_send_done h3
  obtain ⟨o3, rfl, h5⟩ := runAlone_send_done h4
  obtain ⟨f2, c3, k3, i3, rfl, ho2, hd3, h6⟩ := recvCipher_done h5
  obtain ⟨f3, pkA, i4, rfl, ho3, h7⟩ := recvIdentity_done h6
  obtain ⟨f4, i5, rfl, ho4, h8⟩ := recvProof_done h7
  obtain ⟨o4, rfl, h9⟩ := runAlone_send_done h8
  obtain ⟨o5, rfl, h10⟩ := runAlone_send_done h9
  simp only [runAlone, Prod.mk.injEq, Proc.done.injEq] at h10
  exact ⟨k1, k3, epA, pkA, f4, rfl, ho4, rfl, h10.2.symm⟩

end Verif.KX
