import Verif.Model.KXNet
import Mathlib.Tactic.Common

/-! Helper lemmas for key exchanges with an attacker (C65, C66). -/

namespace Verif.KXNet

open Verif.KX

/-! ## What a run receives and sends -/

/-- The messages an initiator accepts, by what is left open in them. -/
def iIns (j a : Nat) (peer : KeyName) (r2 : Rnd) (th : KeyName) (r4 : Rnd) : List M :=
  let k1 : SKey := .kem (.own j false)
  let k2 : SKey := .kem r2
  let k3 : SKey := .kem (.own j true)
  let k4 : SKey := .kem r4
  let sp := SMac.of k1 [.pk (.cli j), .pk th]
  let cp := SMac.of k2 [.mac sp, .pk (.long a)]
  [.frame (k1, 0, .ct (.cli j, r2)), .frame (k2, 1, .pk th), .frame (k2, 2, .mac sp),
   .frame (k3, 3, .ct (.long a, r4)), .frame (k4, 4, .mac (SMac.of k3 [.mac cp, .pk peer]))]

/-- The messages an initiator sends. -/
def iOuts (j a : Nat) (peer : KeyName) (r2 : Rnd) (th : KeyName) : List M :=
  let k1 : SKey := .kem (.own j false)
  let k2 : SKey := .kem r2
  let k3 : SKey := .kem (.own j true)
  let sp := SMac.of k1 [.pk (.cli j), .pk th]
  [.raw (peer, .own j false), .frame (k1, 0, .pk (.cli j)), .frame (k2, 1, .ct (th, .own j true)),
   .frame (k3, 2, .pk (.long a)), .frame (k3, 3, .mac (SMac.of k2 [.mac sp, .pk (.long a)]))]

/-- The result of an initiator. -/
def iRes (j : Nat) (peer : KeyName) (r2 r4 : Rnd) : Result Sym :=
  let k1 : SKey := .kem (.own j false)
  let k2 : SKey := .kem r2
  let k3 : SKey := .kem (.own j true)
  let k4 : SKey := .kem r4
  { readKey := .kdf false k1 k2 k3 k4, writeKey := .kdf true k1 k2 k3 k4, theirPK := peer, wseq := 4, rseq := 5 }

/-- The messages a responder accepts. -/
def rIns (j b e : Nat) (r1 : Rnd) (th : KeyName) (r3 : Rnd) (pk : KeyName) : List M :=
  let k1 : SKey := .kem r1
  let k2 : SKey := .kem (.own j false)
  let k3 : SKey := .kem r3
  let sp := SMac.of k1 [.pk th, .pk (.srv e)]
  [.raw (.long b, r1), .frame (k1, 0, .pk th), .frame (k2, 1, .ct (.srv e, r3)), .frame (k3, 2, .pk pk),
   .frame (k3, 3, .mac (SMac.of k2 [.mac sp, .pk pk]))]

/-- The messages a responder sends. -/
def rOuts (j b e : Nat) (r1 : Rnd) (th : KeyName) (r3 : Rnd) (pk : KeyName) : List M :=
  let k1 : SKey := .kem r1
  let k2 : SKey := .kem (.own j false)
  let k3 : SKey := .kem r3
  let k4 : SKey := .kem (.own j true)
  let sp := SMac.of k1 [.pk th, .pk (.srv e)]
  let cp := SMac.of k2 [.mac sp, .pk pk]
  [.frame (k1, 0, .ct (th, .own j false)), .frame (k2, 1, .pk (.srv e)), .frame (k2, 2, .mac sp),
   .frame (k3, 3, .ct (pk, .own j true)), .frame (k4, 4, .mac (SMac.of k3 [.mac cp, .pk (.long b)]))]

/-- The result of a responder. -/
def rRes (j : Nat) (r1 r3 : Rnd) (pk : KeyName) : Result Sym :=
  let k1 : SKey := .kem r1
  let k2 : SKey := .kem (.own j false)
  let k3 : SKey := .kem r3
  let k4 : SKey := .kem (.own j true)
  { readKey := .kdf true k1 k2 k3 k4, writeKey := .kdf false k1 k2 k3 k4, theirPK := pk, wseq := 5, rseq := 4 }

/-- Reading from a run: it waits, fails, or accepts the frame. -/
theorem read_cases (s : Ctr) (ek : SKey) (k : Ctr → Pay → Proc Sym) (ins : List M) :
    (ins = [] ∧ runAlone (readWithKey (P := Sym) s ek k) ins = ([], readWithKey (P := Sym) s ek k)) ∨
    runAlone (readWithKey (P := Sym) s ek k) ins = ([], .fail) ∨
    ∃ p rest, ins = .frame (ek, s.r, p) :: rest ∧
      runAlone (readWithKey (P := Sym) s ek k) ins = runAlone (k { s with r := s.r + 1 } p) rest := by
  cases ins with
  | nil => left; exact ⟨rfl, rfl⟩
  | cons m rest =>
    right
    cases m with
    | raw c => left; rfl
    | frame f =>
      obtain ⟨k', n', p⟩ := f
      by_cases hf : k' = ek ∧ n' = s.r
      · right
        obtain ⟨rfl, rfl⟩ := hf
        refine ⟨p, rest, rfl, ?_⟩
        simp [readWithKey, runAlone]
      · left; simp [readWithKey, runAlone, hf]

/-- A process that has neither completed nor sent anything. -/
def Stuck (x : List M × Proc Sym) : Prop := x.1 = [] ∧ ∀ r, x.2 ≠ .done r

theorem read_stuck (s : Ctr) (ek : SKey) (k : Ctr → Pay → Proc Sym) (ins : List M) :
    Stuck (runAlone (readWithKey (P := Sym) s ek k) ins) ∨
    ∃ p rest, ins = .frame (ek, s.r, p) :: rest ∧
      runAlone (readWithKey (P := Sym) s ek k) ins = runAlone (k { s with r := s.r + 1 } p) rest := by
  rcases read_cases s ek k ins with ⟨_, h⟩ | h | h
  · left; rw [h]; exact ⟨rfl, by intro r hr; simp [readWithKey] at hr⟩
  · left; rw [h]; exact ⟨rfl, by intro r hr; simp at hr⟩
  · right; exact h

theorem stuck_fail (ins : List M) : Stuck (runAlone (.fail : Proc Sym) ins) := by
  cases ins <;> exact ⟨rfl, by intro r hr; simp [runAlone] at hr⟩

/-- `recvCipherAndGetKey` of an encrypted ciphertext. -/
theorem cipher_stuck (s : Ctr) (x : KeyName) (ek : SKey) (k : Ctr → SKey → Proc Sym) (ins : List M) :
    Stuck (runAlone (recvCipherAndGetKey (P := Sym) s x (some ek) k) ins) ∨
    ∃ r rest, ins = .frame (ek, s.r, .ct (x, r)) :: rest ∧
      runAlone (recvCipherAndGetKey (P := Sym) s x (some ek) k) ins =
        runAlone (k { s with r := s.r + 1 } (.kem r)) rest := by
  unfold recvCipherAndGetKey
  simp only
  rcases read_stuck s ek _ ins with h | ⟨p, rest, h1, h2⟩
  · left; exact h
  · rw [h2]
    cases p with
    | ct c =>
      obtain ⟨y, r⟩ := c
      by_cases hy : y = x
      · right; subst hy; exact ⟨r, rest, h1, by simp⟩
      · left; simp only [hy, if_false]; exact stuck_fail _
    | pk q => left; exact stuck_fail _
    | mac m => left; exact stuck_fail _
    | other b => left; exact stuck_fail _

/-- `recvEncryptedIdentity`. -/
theorem ident_stuck (s : Ctr) (ek : SKey) (k : Ctr → KeyName → Proc Sym) (ins : List M) :
    Stuck (runAlone (recvEncryptedIdentity (P := Sym) s ek k) ins) ∨
    ∃ q rest, ins = .frame (ek, s.r, .pk q) :: rest ∧
      runAlone (recvEncryptedIdentity (P := Sym) s ek k) ins = runAlone (k { s with r := s.r + 1 } q) rest := by
  unfold recvEncryptedIdentity
  rcases read_stuck s ek _ ins with h | ⟨p, rest, h1, h2⟩
  · left; exact h
  · rw [h2]
    cases p with
    | pk q => right; exact ⟨q, rest, h1, rfl⟩
    | ct c => left; exact stuck_fail _
    | mac m => left; exact stuck_fail _
    | other b => left; exact stuck_fail _

/-- `recvProof`. -/
theorem proof_stuck (s : Ctr) (mk ek : SKey) (l : List (Part KeyName SMac)) (k : Ctr → SMac → Proc Sym)
    (ins : List M) :
    Stuck (runAlone (recvProof (P := Sym) s mk ek l k) ins) ∨
    ∃ rest, ins = .frame (ek, s.r, .mac (SMac.of mk l)) :: rest ∧
      runAlone (recvProof (P := Sym) s mk ek l k) ins =
        runAlone (k { s with r := s.r + 1 } (SMac.of mk l)) rest := by
  unfold recvProof
  simp only
  rcases read_stuck s ek _ ins with h | ⟨p, rest, h1, h2⟩
  · left; exact h
  · rw [h2]
    cases p with
    | mac m =>
      simp only
      by_cases hm : SMac.of mk l = m
      · right; subst hm; exact ⟨rest, h1, by simp⟩
      · left; rw [if_neg hm]; exact stuck_fail _
    | pk q => left; exact stuck_fail _
    | ct c => left; exact stuck_fail _
    | other b => left; exact stuck_fail _

theorem cipher_of {s : Ctr} {x : KeyName} {ek : SKey} {k : Ctr → SKey → Proc Sym} {ins : List M}
    {R : List M × Proc Sym} (h : runAlone (recvCipherAndGetKey (P := Sym) s x (some ek) k) ins = R) :
    Stuck R ∨ ∃ r rest, ins = .frame (ek, s.r, .ct (x, r)) :: rest ∧
      R = runAlone (k { s with r := s.r + 1 } (.kem r)) rest := h ▸ cipher_stuck s x ek k ins

theorem ident_of {s : Ctr} {ek : SKey} {k : Ctr → KeyName → Proc Sym} {ins : List M}
    {R : List M × Proc Sym} (h : runAlone (recvEncryptedIdentity (P := Sym) s ek k) ins = R) :
    Stuck R ∨ ∃ q rest, ins = .frame (ek, s.r, .pk q) :: rest ∧
      R = runAlone (k { s with r := s.r + 1 } q) rest := h ▸ ident_stuck s ek k ins

theorem proof_of {s : Ctr} {mk ek : SKey} {l : List (Part KeyName SMac)} {k : Ctr → SMac → Proc Sym}
    {ins : List M} {R : List M × Proc Sym} (h : runAlone (recvProof (P := Sym) s mk ek l k) ins = R) :
    Stuck R ∨ ∃ rest, ins = .frame (ek, s.r, .mac (SMac.of mk l)) :: rest ∧
      R = runAlone (k { s with r := s.r + 1 } (SMac.of mk l)) rest := h ▸ proof_stuck s mk ek l k ins

theorem runAlone_done (x : Result Sym) (ins : List M) : runAlone (.done x) ins = ([], .done x) := by
  cases ins <;> rfl

/-- `recvCipherAndGetKey` of the first ciphertext. -/
theorem raw_of {s : Ctr} {x : KeyName} {k : Ctr → SKey → Proc Sym} {ins : List M} {R : List M × Proc Sym}
    (hR : runAlone (recvCipherAndGetKey (P := Sym) s x none k) ins = R) :
    Stuck R ∨ ∃ r rest, ins = .raw (x, r) :: rest ∧ R = runAlone (k s (.kem r)) rest := by
  subst hR
  cases ins with
  | nil => left; exact ⟨rfl, by intro r hr; simp [recvCipherAndGetKey, runAlone] at hr⟩
  | cons m rest =>
    cases m with
    | frame f => left; exact stuck_fail rest
    | raw c =>
      obtain ⟨y, r⟩ := c
      by_cases hy : y = x
      · right; subst hy; exact ⟨r, rest, rfl, by simp [recvCipherAndGetKey, runAlone]⟩
      · left
        have : runAlone (recvCipherAndGetKey (P := Sym) s x none k) (.raw (y, r) :: rest) =
            runAlone (.fail : Proc Sym) rest := by
          simp [recvCipherAndGetKey, runAlone, hy]
        rw [this]; exact stuck_fail rest

theorem runAlone_send (m : M) (k : Proc Sym) (ins : List M) :
    runAlone (.send m k) ins = (m :: (runAlone k ins).1, (runAlone k ins).2) := rfl

/-- What an initiator has done: it has accepted `n` messages. -/
theorem init_spec (j a : Nat) (peer : KeyName) (ins : List M) :
    ∃ n r2 th r4, n ≤ 5 ∧ (iIns j a peer r2 th r4).take n = ins.take n ∧
      (runAlone (proc j (.init a peer)) ins).1 = (iOuts j a peer r2 th).take (if n < 3 then 2 else 5) ∧
      ∀ x, (runAlone (proc j (.init a peer)) ins).2 = .done x ↔ n = 5 ∧ x = iRes j peer r2 r4 := by
  simp only [proc, initiate, genKeyAndSendCipher, writeWithKey, sendProof, runAlone_send]
  generalize hR : runAlone (recvCipherAndGetKey _ _ _ _) ins = R
  rcases cipher_of hR with h | ⟨r2, ins1, rfl, h⟩
  · refine ⟨0, .adv 0, .adv 0, .adv 0, by omega, by simp, by simp [h.1, iOuts], ?_⟩
    intro x; constructor
    · intro hx; exact absurd hx (h.2 x)
    · intro hx; exact absurd hx.1 (by omega)
  subst h; clear hR
  generalize hR : runAlone (recvEncryptedIdentity _ _ _) ins1 = R
  rcases ident_of hR with h | ⟨th, ins2, rfl, h⟩
  · refine ⟨1, r2, .adv 0, .adv 0, by omega, by simp [iIns], by simp [h.1, iOuts], ?_⟩
    intro x; constructor
    · intro hx; exact absurd hx (h.2 x)
    · intro hx; exact absurd hx.1 (by omega)
  subst h; clear hR
  generalize hR : runAlone (recvProof _ _ _ _ _) ins2 = R
  rcases proof_of hR with h | ⟨ins3, rfl, h⟩
  · refine ⟨2, r2, th, .adv 0, by omega, by simp [iIns], by simp [h.1, iOuts], ?_⟩
    intro x; constructor
    · intro hx; exact absurd hx (h.2 x)
    · intro hx; exact absurd hx.1 (by omega)
  subst h; clear hR
  simp only [runAlone_send]
  generalize hR : runAlone (recvCipherAndGetKey _ _ _ _) ins3 = R
  rcases cipher_of hR with h | ⟨r4, ins4, rfl, h⟩
  · refine ⟨3, r2, th, .adv 0, by omega, by simp [iIns], by simp [h.1, iOuts], ?_⟩
    intro x; constructor
    · intro hx; exact absurd hx (h.2 x)
    · intro hx; exact absurd hx.1 (by omega)
  subst h; clear hR
  generalize hR : runAlone (recvProof _ _ _ _ _) ins4 = R
  rcases proof_of hR with h | ⟨ins5, rfl, h⟩
  · refine ⟨4, r2, th, r4, by omega, by simp [iIns], by simp [h.1, iOuts], ?_⟩
    intro x; constructor
    · intro hx; exact absurd hx (h.2 x)
    · intro hx; exact absurd hx.1 (by omega)
  subst h; clear hR
  refine ⟨5, r2, th, r4, by omega, by simp [iIns], ?_, ?_⟩
  · rw [runAlone_done]; rfl
  · intro x
    rw [runAlone_done]
    constructor
    · intro hx; injection hx with hx; exact ⟨rfl, hx.symm⟩
    · rintro ⟨-, rfl⟩; rfl

/-- What a responder has done. -/
theorem resp_spec (j b e : Nat) (ins : List M) :
    ∃ n r1 th r3 pk, n ≤ 5 ∧ (rIns j b e r1 th r3 pk).take n = ins.take n ∧
      (runAlone (proc j (.resp b e)) ins).1 =
        (rOuts j b e r1 th r3 pk).take (if n < 2 then 0 else if n < 5 then 3 else 5) ∧
      ∀ x, (runAlone (proc j (.resp b e)) ins).2 = .done x ↔ n = 5 ∧ x = rRes j r1 r3 pk := by
  simp only [proc, respond]
  generalize hR : runAlone (recvCipherAndGetKey _ _ _ _) ins = R
  rcases raw_of hR with h | ⟨r1, ins1, rfl, h⟩
  · refine ⟨0, .adv 0, .adv 0, .adv 0, .adv 0, by omega, by simp, by simp [h.1], ?_⟩
    intro x; constructor
    · intro hx; exact absurd hx (h.2 x)
    · intro hx; exact absurd hx.1 (by omega)
  subst h; clear hR
  generalize hR : runAlone (recvEncryptedIdentity _ _ _) ins1 = R
  rcases ident_of hR with h | ⟨th, ins2, rfl, h⟩
  · refine ⟨1, r1, .adv 0, .adv 0, .adv 0, by omega, by simp [rIns], by simp [h.1], ?_⟩
    intro x; constructor
    · intro hx; exact absurd hx (h.2 x)
    · intro hx; exact absurd hx.1 (by omega)
  subst h; clear hR
  simp only [genKeyAndSendCipher, writeWithKey, sendProof, runAlone_send]
  generalize hR : runAlone (recvCipherAndGetKey _ _ _ _) ins2 = R
  rcases cipher_of hR with h | ⟨r3, ins3, rfl, h⟩
  · refine ⟨2, r1, th, .adv 0, .adv 0, by omega, by simp [rIns], by simp [h.1, rOuts], ?_⟩
    intro x; constructor
    · intro hx; exact absurd hx (h.2 x)
    · intro hx; exact absurd hx.1 (by omega)
  subst h; clear hR
  generalize hR : runAlone (recvEncryptedIdentity _ _ _) ins3 = R
  rcases ident_of hR with h | ⟨pk, ins4, rfl, h⟩
  · refine ⟨3, r1, th, r3, .adv 0, by omega, by simp [rIns], by simp [h.1, rOuts], ?_⟩
    intro x; constructor
    · intro hx; exact absurd hx (h.2 x)
    · intro hx; exact absurd hx.1 (by omega)
  subst h; clear hR
  generalize hR : runAlone (recvProof _ _ _ _ _) ins4 = R
  rcases proof_of hR with h | ⟨ins5, rfl, h⟩
  · refine ⟨4, r1, th, r3, pk, by omega, by simp [rIns], by simp [h.1, rOuts], ?_⟩
    intro x; constructor
    · intro hx; exact absurd hx (h.2 x)
    · intro hx; exact absurd hx.1 (by omega)
  subst h; clear hR
  refine ⟨5, r1, th, r3, pk, by omega, by simp [rIns], ?_, ?_⟩
  · rw [runAlone_send, runAlone_send, runAlone_done]; rfl
  · intro x
    rw [runAlone_send, runAlone_send, runAlone_done]
    constructor
    · intro hx; injection hx with hx; exact ⟨rfl, hx.symm⟩
    · rintro ⟨-, rfl⟩; rfl

theorem result_eq {j : Nat} {r : Run} {x : Result Sym} :
    result j r = some x ↔ (runAlone (proc j r.role) r.ins).2 = .done x := by
  unfold result
  generalize (runAlone (proc j r.role) r.ins).2 = p
  cases p <;> simp

theorem mem_dataFrames {k : SKey} {m : M} : ∀ {n : Nat} {l : List Bytes},
    m ∈ dataFrames k n l ↔ ∃ i b, l[i]? = some b ∧ m = .frame (k, n + i, .other b)
  | n, [] => by simp [dataFrames]
  | n, b :: l => by
    simp only [dataFrames, List.mem_cons, mem_dataFrames (n := n + 1) (l := l)]
    constructor
    · rintro (h | ⟨i, b', h1, h2⟩)
      · exact ⟨0, b, rfl, h⟩
      · exact ⟨i + 1, b', by simpa using h1, by rw [h2]; congr 3; omega⟩
    · rintro ⟨i, b', h1, h2⟩
      cases i with
      | zero => left; simp at h1; subst h1; exact h2
      | succ i => right; exact ⟨i, b', by simpa using h1, by rw [h2]; congr 3; omega⟩

theorem get_of_take {l l' : List M} {n i : Nat} (h : l.take n = l'.take n) (hi : i < n) : l[i]? = l'[i]? := by
  have := congrArg (·[i]?) h
  simpa [List.getElem?_take, hi] using this

/-- A completed initiator. -/
theorem init_result {j a : Nat} {peer : KeyName} {r : Run} (hr : r.role = .init a peer) {x : Result Sym}
    (h : result j r = some x) :
    ∃ r2 th r4, (iIns j a peer r2 th r4) = r.ins.take 5 ∧ x = iRes j peer r2 r4 := by
  rw [result_eq, hr] at h
  obtain ⟨n, r2, th, r4, _, h2, _, h4⟩ := init_spec j a peer r.ins
  obtain ⟨rfl, hx⟩ := (h4 x).1 h
  exact ⟨r2, th, r4, by simpa [iIns] using h2, hx⟩

/-- A completed responder. -/
theorem resp_result {j b e : Nat} {r : Run} (hr : r.role = .resp b e) {x : Result Sym} (h : result j r = some x) :
    ∃ r1 th r3 pk, (rIns j b e r1 th r3 pk) = r.ins.take 5 ∧ x = rRes j r1 r3 pk := by
  rw [result_eq, hr] at h
  obtain ⟨n, r1, th, r3, pk, _, h2, _, h4⟩ := resp_spec j b e r.ins
  obtain ⟨rfl, hx⟩ := (h4 x).1 h
  exact ⟨r1, th, r3, pk, by simpa [rIns] using h2, hx⟩

/-- What an initiator has sent. -/
theorem mem_init {j a : Nat} {peer : KeyName} {r : Run} {m : M} (hr : r.role = .init a peer) (h : m ∈ outs j r) :
    m = .raw (peer, .own j false) ∨ m = .frame (.kem (.own j false), 0, .pk (.cli j)) ∨
    ∃ r2 th r4, (iIns j a peer r2 th r4).take 3 = r.ins.take 3 ∧
      (m = .frame (.kem r2, 1, .ct (th, .own j true)) ∨ m = .frame (.kem (.own j true), 2, .pk (.long a)) ∨
        m = .frame (.kem (.own j true), 3,
          .mac (SMac.of (.kem r2) [.mac (SMac.of (.kem (.own j false)) [.pk (.cli j), .pk th]), .pk (.long a)])) ∨
        ((iIns j a peer r2 th r4) = r.ins.take 5 ∧ result j r = some (iRes j peer r2 r4) ∧
          m ∈ dataFrames (.kdf true (.kem (.own j false)) (.kem r2) (.kem (.own j true)) (.kem r4)) 4 r.data)) := by
  unfold outs at h
  rw [List.mem_append] at h
  rcases h with h | h
  · obtain ⟨n, r2, th, r4, h1, h2, h3, h4⟩ := init_spec j a peer r.ins
    rw [hr, h3] at h
    by_cases hn : n < 3
    · simp [hn, iOuts] at h
      rcases h with h | h
      · left; exact h
      · right; left; exact h
    · simp only [hn, if_false, iOuts, List.take_succ_cons, List.take_zero, List.mem_cons, List.not_mem_nil,
        or_false] at h
      have ht : (iIns j a peer r2 th r4).take 3 = r.ins.take 3 := by
        have := congrArg (List.take 3) h2
        simpa [List.take_take, Nat.min_eq_left (by omega : 3 ≤ n)] using this
      rcases h with h | h | h | h | h
      · left; exact h
      · right; left; exact h
      · right; right; exact ⟨r2, th, r4, ht, Or.inl h⟩
      · right; right; exact ⟨r2, th, r4, ht, Or.inr (Or.inl h)⟩
      · right; right; exact ⟨r2, th, r4, ht, Or.inr (Or.inr (Or.inl h))⟩
  · cases hx : result j r with
    | none => rw [hx] at h; simp at h
    | some x =>
      rw [hx] at h
      obtain ⟨r2, th, r4, h1, rfl⟩ := init_result hr hx
      right; right
      refine ⟨r2, th, r4, ?_, Or.inr (Or.inr (Or.inr ⟨h1, rfl, h⟩))⟩
      rw [h1, List.take_take]; rfl

/-- What a responder has sent. -/
theorem mem_resp {j b e : Nat} {r : Run} {m : M} (hr : r.role = .resp b e) (h : m ∈ outs j r) :
    ∃ r1 th r3 pk, (rIns j b e r1 th r3 pk).take 2 = r.ins.take 2 ∧
      (m = .frame (.kem r1, 0, .ct (th, .own j false)) ∨ m = .frame (.kem (.own j false), 1, .pk (.srv e)) ∨
        m = .frame (.kem (.own j false), 2, .mac (SMac.of (.kem r1) [.pk th, .pk (.srv e)])) ∨
        ((rIns j b e r1 th r3 pk) = r.ins.take 5 ∧ result j r = some (rRes j r1 r3 pk) ∧
          (m = .frame (.kem r3, 3, .ct (pk, .own j true)) ∨
           m = .frame (.kem (.own j true), 4, .mac (SMac.of (.kem r3) [.mac (SMac.of (.kem (.own j false))
              [.mac (SMac.of (.kem r1) [.pk th, .pk (.srv e)]), .pk pk]), .pk (.long b)])) ∨
           m ∈ dataFrames (.kdf false (.kem r1) (.kem (.own j false)) (.kem r3) (.kem (.own j true))) 5 r.data))) := by
  unfold outs at h
  rw [List.mem_append] at h
  rcases h with h | h
  · obtain ⟨n, r1, th, r3, pk, h1, h2, h3, h4⟩ := resp_spec j b e r.ins
    rw [hr, h3] at h
    by_cases hn : n < 2
    · simp [hn] at h
    have ht : (rIns j b e r1 th r3 pk).take 2 = r.ins.take 2 := by
      have := congrArg (List.take 2) h2
      simpa [List.take_take, Nat.min_eq_left (by omega : 2 ≤ n)] using this
    by_cases hn' : n < 5
    · simp [hn, hn', rOuts] at h
      rcases h with h | h | h
      · exact ⟨r1, th, r3, pk, ht, Or.inl h⟩
      · exact ⟨r1, th, r3, pk, ht, Or.inr (Or.inl h)⟩
      · exact ⟨r1, th, r3, pk, ht, Or.inr (Or.inr (Or.inl h))⟩
    · have h5 : n = 5 := by omega
      subst h5
      have hres : result j r = some (rRes j r1 r3 pk) := by
        rw [result_eq, hr]; exact (h4 _).2 ⟨rfl, rfl⟩
      have h2' : (rIns j b e r1 th r3 pk) = r.ins.take 5 := by simpa [rIns] using h2
      simp only [hn, hn', if_false, rOuts, List.take_succ_cons, List.take_zero, List.mem_cons, List.not_mem_nil,
        or_false] at h
      rcases h with h | h | h | h | h
      · exact ⟨r1, th, r3, pk, ht, Or.inl h⟩
      · exact ⟨r1, th, r3, pk, ht, Or.inr (Or.inl h)⟩
      · exact ⟨r1, th, r3, pk, ht, Or.inr (Or.inr (Or.inl h))⟩
      · exact ⟨r1, th, r3, pk, ht, Or.inr (Or.inr (Or.inr ⟨h2', hres, Or.inl h⟩))⟩
      · exact ⟨r1, th, r3, pk, ht, Or.inr (Or.inr (Or.inr ⟨h2', hres, Or.inr (Or.inl h)⟩))⟩
  · cases hx : result j r with
    | none => rw [hx] at h; simp at h
    | some x =>
      rw [hx] at h
      obtain ⟨r1, th, r3, pk, h1, rfl⟩ := resp_result hr hx
      refine ⟨r1, th, r3, pk, ?_, Or.inr (Or.inr (Or.inr ⟨h1, rfl, Or.inr (Or.inr h)⟩))⟩
      rw [h1, List.take_take]; rfl

/-! ## What the attacker does not know -/

/-- A private key the attacker does not have. -/
def Honest (leak : Nat → Prop) : KeyName → Prop
  | .long i => ¬ leak i
  | .cli _ => True
  | .srv _ => True
  | .adv _ => False

/-- The message contains a ciphertext for `p` with randomness `r`. -/
def HasCt (m : M) (p : KeyName) (r : Rnd) : Prop := m = .raw (p, r) ∨ ∃ k n, m = .frame (k, n, .ct (p, r))

/-- Randomness that was used for honest recipients only. -/
def SafeR (leak : Nat → Prop) (net : M → Prop) : Rnd → Prop
  | .adv _ => False
  | .own j f => ∀ p m, net m → HasCt m p (.own j f) → Honest leak p

/-- Keys the attacker can not have. -/
def Secret (leak : Nat → Prop) (net : M → Prop) : SKey → Prop
  | .kem r => SafeR leak net r
  | .kdf _ k1 k2 k3 k4 => Secret leak net k1 ∨ Secret leak net k2 ∨ Secret leak net k3 ∨ Secret leak net k4

def PayOK (leak : Nat → Prop) (net : M → Prop) : Pay → Prop
  | .ct (p, r) => SafeR leak net r → ∃ m, net m ∧ HasCt m p r
  | _ => True

def TermOK (leak : Nat → Prop) (net : M → Prop) : Term → Prop
  | .sk x => ¬ Honest leak x
  | .rnd r => ¬ SafeR leak net r
  | .key k => ¬ Secret leak net k
  | .pay p => PayOK leak net p
  | .frame (_, _, p) => PayOK leak net p

theorem know_ok {leak : Nat → Prop} {net : M → Prop} {t : Term} (h : Know leak net t) : TermOK leak net t := by
  induction h with
  | @msg m hm =>
    cases m with
    | raw c => intro _; exact ⟨_, hm, Or.inl rfl⟩
    | frame f =>
      obtain ⟨k, n, p⟩ := f
      cases p with
      | ct c => intro _; exact ⟨_, hm, Or.inr ⟨k, n, rfl⟩⟩
      | pk q => trivial
      | mac q => trivial
      | other b => trivial
  | leaked h => intro hh; exact hh h
  | ownSk n => intro hh; exact hh
  | ownRnd n => intro hh; exact hh
  | pk p => trivial
  | other b => trivial
  | encapC _ ih => intro hs; exact absurd hs ih
  | encapK _ ih => exact ih
  | @decap p r _ _ ih1 ih2 =>
    intro hs
    obtain ⟨m, hm, hc⟩ := ih2 hs
    cases r with
    | adv n => exact hs
    | own j f => exact ih1 (hs p m hm hc)
  | encrypt _ _ _ ih2 => exact ih2
  | decrypt _ _ _ ih2 => exact ih2
  | hmac _ _ _ _ => trivial
  | kdf _ _ _ _ i1 i2 i3 i4 =>
    rintro (h | h | h | h)
    · exact i1 h
    · exact i2 h
    · exact i3 h
    · exact i4 h

/-- A frame under a secret key was sent by a run. -/
theorem frame_origin {leak : Nat → Prop} {net : M → Prop} {k : SKey} {n : Nat} {p : Pay}
    (h : Know leak net (.frame (k, n, p))) (hk : Secret leak net k) : net (.frame (k, n, p)) := by
  generalize ht : Term.frame (k, n, p) = t at h
  cases h with
  | @msg m hm =>
    cases m with
    | raw c => simp [ofMsg] at ht
    | frame f => simp only [ofMsg, Term.frame.injEq] at ht; rw [ht]; exact hm
  | encrypt h1 _ =>
    simp only [Term.frame.injEq, Prod.mk.injEq] at ht
    obtain ⟨rfl, rfl, rfl⟩ := ht
    exact absurd hk (know_ok h1)
  | _ => simp at ht

/-- A ciphertext with safe randomness was sent by a run. -/
theorem ct_origin {leak : Nat → Prop} {net : M → Prop} {m : M} {p : KeyName} {r : Rnd} (h : Know leak net (ofMsg m))
    (hc : HasCt m p r) (hr : SafeR leak net r) : ∃ m', net m' ∧ HasCt m' p r := by
  rcases hc with rfl | ⟨k, n, rfl⟩
  · exact know_ok h hr
  · exact know_ok h hr

/-! ## Time passes -/

theorem runAlone_append : ∀ (p : Proc Sym) (ins l : List M),
    runAlone p (ins ++ l) = ((runAlone p ins).1 ++ (runAlone (runAlone p ins).2 l).1, (runAlone (runAlone p ins).2 l).2)
  | .done x, ins, l => by rw [runAlone_done, runAlone_done, runAlone_done]; rfl
  | .fail, ins, l => by cases ins <;> cases l <;> rfl
  | .send m k, ins, l => by
    rw [runAlone_send, runAlone_send, runAlone_append k ins l]; rfl
  | .recv k, [], l => rfl
  | .recv k, i :: ins, l => by
    show runAlone (k i) (ins ++ l) = _
    rw [runAlone_append (k i) ins l]; rfl

/-- A run later. -/
structure Ext (r r' : Run) : Prop where
  role : r'.role = r.role
  ins : r.ins <+: r'.ins
  data : r.data <+: r'.data

theorem Ext.refl (r : Run) : Ext r r := ⟨rfl, List.prefix_refl _, List.prefix_refl _⟩

theorem Ext.trans {a b c : Run} (h : Ext a b) (h' : Ext b c) : Ext a c :=
  ⟨h'.role.trans h.role, h.ins.trans h'.ins, h.data.trans h'.data⟩

theorem Ext.result {j : Nat} {r r' : Run} (h : Ext r r') {x : Result Sym} (hx : result j r = some x) :
    result j r' = some x := by
  rw [result_eq] at hx ⊢
  obtain ⟨l, hl⟩ := h.ins
  rw [h.role, ← hl, runAlone_append, hx, runAlone_done]

theorem dataFrames_append (k : SKey) : ∀ (n : Nat) (l l' : List Bytes),
    ∃ t, dataFrames k n (l ++ l') = dataFrames k n l ++ t
  | n, [], l' => ⟨_, rfl⟩
  | n, b :: l, l' => by
    obtain ⟨t, ht⟩ := dataFrames_append k (n + 1) l l'
    exact ⟨t, by simp [dataFrames, ht]⟩

theorem Ext.outs {j : Nat} {r r' : Run} (h : Ext r r') {m : M} (hm : m ∈ outs j r) : m ∈ KXNet.outs j r' := by
  unfold KXNet.outs at hm ⊢
  rw [List.mem_append] at hm ⊢
  rcases hm with hm | hm
  · left
    obtain ⟨l, hl⟩ := h.ins
    rw [h.role, ← hl, runAlone_append]
    exact List.mem_append_left _ hm
  · right
    cases hx : KXNet.result j r with
    | none => rw [hx] at hm; simp at hm
    | some x =>
      rw [h.result hx]
      rw [hx] at hm
      obtain ⟨l, hl⟩ := h.data
      obtain ⟨t, ht⟩ := dataFrames_append x.writeKey x.wseq r.data l
      simp only [← hl, ht]
      exact List.mem_append_left _ hm

/-- A state later. -/
structure Later (s s' : State) : Prop where
  runs : ∀ (j : Nat) (r : Run), s.runs[j]? = some r → ∃ r', s'.runs[j]? = some r' ∧ Ext r r'
  leaked : ∀ i ∈ s.leaked, i ∈ s'.leaked

theorem Later.refl (s : State) : Later s s := ⟨fun _ r h => ⟨r, h, Ext.refl r⟩, fun _ h => h⟩

theorem Later.trans {a b c : State} (h : Later a b) (h' : Later b c) : Later a c := by
  refine ⟨?_, fun i hi => h'.leaked i (h.leaked i hi)⟩
  intro j r hr
  obtain ⟨r1, h1, e1⟩ := h.runs j r hr
  obtain ⟨r2, h2, e2⟩ := h'.runs j r1 h1
  exact ⟨r2, h2, e1.trans e2⟩

theorem Later.net {s s' : State} (h : Later s s') {m : M} (hm : s.net m) : s'.net m := by
  obtain ⟨j, r, hr, hm⟩ := hm
  obtain ⟨r', hr', e⟩ := h.runs j r hr
  exact ⟨j, r', hr', e.outs hm⟩

theorem know_mono {leak leak' : Nat → Prop} {net net' : M → Prop} (hl : ∀ i, leak i → leak' i)
    (hn : ∀ m, net m → net' m) {t : Term} (h : Know leak net t) : Know leak' net' t := by
  induction h with
  | msg h => exact .msg (hn _ h)
  | leaked h => exact .leaked (hl _ h)
  | ownSk n => exact .ownSk n
  | ownRnd n => exact .ownRnd n
  | pk p => exact .pk p
  | other b => exact .other b
  | encapC _ i => exact .encapC i
  | encapK _ i => exact .encapK i
  | decap _ _ i1 i2 => exact .decap i1 i2
  | encrypt _ _ i1 i2 => exact .encrypt i1 i2
  | decrypt _ _ i1 i2 => exact .decrypt i1 i2
  | hmac _ _ i1 i2 => exact .hmac i1 i2
  | kdf _ _ _ _ i1 i2 i3 i4 => exact .kdf i1 i2 i3 i4

theorem Later.knows {s s' : State} (h : Later s s') {t : Term} (ht : s.Knows t) : s'.Knows t :=
  know_mono h.leaked (fun _ hm => h.net hm) ht

theorem set_later {s : State} {j : Nat} {r r' : Run} (hr : s.runs[j]? = some r) (e : Ext r r') :
    Later s { s with runs := s.runs.set j r' } := by
  refine ⟨?_, fun _ h => h⟩
  intro i q hq
  by_cases h : j = i
  · subst h
    rw [hr] at hq
    cases hq
    exact ⟨r', by simp [(List.getElem?_eq_some_iff.1 hr).1], e⟩
  · exact ⟨q, by simp [h, hq], Ext.refl q⟩

theorem step_later {s s' : State} (h : Step s s') : Later s s' := by
  cases h with
  | start role =>
    refine ⟨?_, fun _ h => h⟩
    intro j r hr
    refine ⟨r, ?_, Ext.refl r⟩
    have := (List.getElem?_eq_some_iff.1 hr).1
    simp [List.getElem?_append, this]
    exact (List.getElem?_eq_some_iff.1 hr).2
  | deliver j r m hr _ => exact set_later hr ⟨rfl, ⟨[m], rfl⟩, List.prefix_refl _⟩
  | write j r b hr _ => exact set_later hr ⟨rfl, List.prefix_refl _, ⟨[b], rfl⟩⟩
  | leak i => exact ⟨fun _ r h => ⟨r, h, Ext.refl r⟩, fun _ h => List.mem_cons_of_mem _ h⟩

theorem steps_later {s s' : State} (h : Steps s s') : Later s s' := by
  induction h with
  | refl => exact Later.refl _
  | tail _ h ih => exact ih.trans (step_later h)

/-- Everything received was known to the attacker. -/
def Heard (s : State) : Prop := ∀ (j : Nat) (r : Run), s.runs[j]? = some r → ∀ m ∈ r.ins, s.Knows (ofMsg m)

theorem heard_step {s s' : State} (h : Heard s) (hs : Step s s') : Heard s' := by
  have hl := step_later hs
  cases hs with
  | start role =>
    intro j r hr m hm
    rw [List.getElem?_append] at hr
    split at hr
    · exact hl.knows (h j r hr m hm)
    · rw [List.getElem?_singleton] at hr
      split at hr
      · cases hr; simp at hm
      · simp at hr
  | deliver j r m hr hk =>
    intro i q hq m' hm'
    by_cases hij : j = i
    · subst hij
      have := (List.getElem?_eq_some_iff.1 hr).1
      simp only [List.getElem?_set_self this, Option.some.injEq] at hq
      subst hq
      simp only [List.mem_append, List.mem_singleton] at hm'
      rcases hm' with hm' | rfl
      · exact hl.knows (h j r hr m' hm')
      · exact hl.knows hk
    · simp only [List.getElem?_set_ne hij] at hq
      exact hl.knows (h i q hq m' hm')
  | write j r b hr _ =>
    intro i q hq m' hm'
    by_cases hij : j = i
    · subst hij
      have := (List.getElem?_eq_some_iff.1 hr).1
      simp only [List.getElem?_set_self this, Option.some.injEq] at hq
      subst hq
      exact hl.knows (h j r hr m' hm')
    · simp only [List.getElem?_set_ne hij] at hq
      exact hl.knows (h i q hq m' hm')
  | leak i =>
    intro j r hr m hm
    exact hl.knows (h j r hr m hm)

theorem heard_steps {s s' : State} (hs : Steps s s') (h : Heard s) : Heard s' := by
  induction hs with
  | refl => exact h
  | tail _ hst ih => exact heard_step ih hst

theorem heard_reach {s : State} (h : Reach s) : Heard s :=
  heard_steps h (by intro j r hr; simp at hr)

/-! ## Who sends what -/

theorem ct_sender {s : State} {m : M} {p : KeyName} {j : Nat} {f : Bool} (hn : s.net m) (hc : HasCt m p (.own j f)) :
    ∃ r, s.runs[j]? = some r ∧
      ((∃ a peer, r.role = .init a peer ∧
          ((f = false ∧ p = peer) ∨ (f = true ∧ ∃ k, r.ins[1]? = some (.frame (k, 1, .pk p))))) ∨
       (∃ b e, r.role = .resp b e ∧
          ((f = false ∧ ∃ k, r.ins[1]? = some (.frame (k, 0, .pk p))) ∨
           (f = true ∧ ∃ k, r.ins[3]? = some (.frame (k, 2, .pk p)))))) := by
  obtain ⟨i, r, hr, hm⟩ := hn
  have hmk : ∀ {q : KeyName} {g : Bool}, HasCt m q (.own i g) → q = p ∧ i = j ∧ g = f := by
    intro q g hq
    rcases hc with rfl | ⟨k, n, rfl⟩ <;> rcases hq with hq | ⟨k', n', hq⟩ <;> cases hq <;> exact ⟨rfl, rfl, rfl⟩
  have hd : ∀ {k : SKey} {n : Nat} {l : List Bytes}, m ∈ dataFrames k n l → False := by
    intro k n l hd
    obtain ⟨_, _, _, rfl⟩ := mem_dataFrames.1 hd
    rcases hc with hc | ⟨_, _, hc⟩ <;> cases hc
  cases hrole : r.role with
  | init a peer =>
    rcases mem_init hrole hm with rfl | rfl | ⟨r2, th, r4, ht, h⟩
    · obtain ⟨rfl, rfl, rfl⟩ := hmk (Or.inl rfl)
      exact ⟨r, hr, Or.inl ⟨a, _, hrole, Or.inl ⟨rfl, rfl⟩⟩⟩
    · rcases hc with hc | ⟨_, _, hc⟩ <;> cases hc
    · rcases h with rfl | rfl | rfl | ⟨_, _, h⟩
      · obtain ⟨rfl, rfl, rfl⟩ := hmk (Or.inr ⟨_, _, rfl⟩)
        exact ⟨r, hr, Or.inl ⟨a, _, hrole, Or.inr ⟨rfl, _, (get_of_take ht (by omega : 1 < 3)).symm⟩⟩⟩
      · rcases hc with hc | ⟨_, _, hc⟩ <;> cases hc
      · rcases hc with hc | ⟨_, _, hc⟩ <;> cases hc
      · exact absurd h (fun h => hd h)
  | resp b e =>
    obtain ⟨r1, th, r3, pk, ht, h⟩ := mem_resp hrole hm
    rcases h with rfl | rfl | rfl | ⟨ht5, _, rfl | rfl | h⟩
    · obtain ⟨rfl, rfl, rfl⟩ := hmk (Or.inr ⟨_, _, rfl⟩)
      exact ⟨r, hr, Or.inr ⟨b, e, hrole, Or.inl ⟨rfl, _, (get_of_take ht (by omega : 1 < 2)).symm⟩⟩⟩
    · rcases hc with hc | ⟨_, _, hc⟩ <;> cases hc
    · rcases hc with hc | ⟨_, _, hc⟩ <;> cases hc
    · obtain ⟨rfl, rfl, rfl⟩ := hmk (Or.inr ⟨_, _, rfl⟩)
      refine ⟨r, hr, Or.inr ⟨b, e, hrole, Or.inr ⟨rfl, .kem r3, ?_⟩⟩⟩
      have := congrArg (·[3]?) ht5
      simpa [rIns, List.getElem?_take] using this.symm
    · rcases hc with hc | ⟨_, _, hc⟩ <;> cases hc
    · exact absurd h (fun h => hd h)

/-- The leaked keys of a state. -/
abbrev State.lk (s : State) : Nat → Prop := (· ∈ s.leaked)

theorem safe_init_first {s : State} {j a : Nat} {peer : KeyName} {r : Run} (hr : s.runs[j]? = some r)
    (hrole : r.role = .init a peer) (hp : Honest s.lk peer) : SafeR s.lk s.net (.own j false) := by
  intro p m hm hc
  obtain ⟨r', hr', h⟩ := ct_sender hm hc
  rw [hr] at hr'; cases hr'
  rcases h with ⟨a', p', h1, h | h⟩ | ⟨b, e, h1, h⟩
  · rw [hrole] at h1; cases h1; rw [h.2]; exact hp
  · exact absurd h.1 (by simp)
  · rw [hrole] at h1; cases h1

theorem safe_init_second {s : State} {j a : Nat} {peer th : KeyName} {r : Run} {k : SKey} (hr : s.runs[j]? = some r)
    (hrole : r.role = .init a peer) (hi : r.ins[1]? = some (.frame (k, 1, .pk th))) (hp : Honest s.lk th) :
    SafeR s.lk s.net (.own j true) := by
  intro p m hm hc
  obtain ⟨r', hr', h⟩ := ct_sender hm hc
  rw [hr] at hr'; cases hr'
  rcases h with ⟨a', p', h1, h | ⟨_, _, h⟩⟩ | ⟨b, e, h1, h⟩
  · exact absurd h.1 (by simp)
  · rw [hi] at h; cases h; exact hp
  · rw [hrole] at h1; cases h1

theorem safe_resp_first {s : State} {j b e : Nat} {th : KeyName} {r : Run} {k : SKey} (hr : s.runs[j]? = some r)
    (hrole : r.role = .resp b e) (hi : r.ins[1]? = some (.frame (k, 0, .pk th))) (hp : Honest s.lk th) :
    SafeR s.lk s.net (.own j false) := by
  intro p m hm hc
  obtain ⟨r', hr', h⟩ := ct_sender hm hc
  rw [hr] at hr'; cases hr'
  rcases h with ⟨a', p', h1, h⟩ | ⟨b, e, h1, ⟨_, _, h⟩ | h⟩
  · rw [hrole] at h1; cases h1
  · rw [hi] at h; cases h; exact hp
  · exact absurd h.1 (by simp)

theorem safe_resp_second {s : State} {j b e : Nat} {th : KeyName} {r : Run} {k : SKey} (hr : s.runs[j]? = some r)
    (hrole : r.role = .resp b e) (hi : r.ins[3]? = some (.frame (k, 2, .pk th))) (hp : Honest s.lk th) :
    SafeR s.lk s.net (.own j true) := by
  intro p m hm hc
  obtain ⟨r', hr', h⟩ := ct_sender hm hc
  rw [hr] at hr'; cases hr'
  rcases h with ⟨a', p', h1, h⟩ | ⟨b, e, h1, h | ⟨_, _, h⟩⟩
  · rw [hrole] at h1; cases h1
  · exact absurd h.1 (by simp)
  · rw [hi] at h; cases h; exact hp

theorem not_data {k : SKey} {n n' : Nat} {p : Pay} {k' : SKey} {l : List Bytes}
    (h : (Msg.frame (k, n, p) : M) ∈ dataFrames k' n' l) : ∃ i b, l[i]? = some b ∧ k = k' ∧ n = n' + i ∧ p = .other b := by
  obtain ⟨i, b, h1, h2⟩ := mem_dataFrames.1 h
  cases h2
  exact ⟨i, b, h1, rfl, rfl, rfl⟩

/-- The second message of a responder. -/
theorem sender_0 {s : State} {r : Rnd} {p : KeyName} {r2 : Rnd} (h : s.net (.frame (.kem r, 0, .ct (p, r2)))) :
    ∃ j q b e, s.runs[j]? = some q ∧ q.role = .resp b e ∧ q.ins[0]? = some (.raw (.long b, r)) ∧
      q.ins[1]? = some (.frame (.kem r, 0, .pk p)) ∧ r2 = .own j false := by
  obtain ⟨j, q, hq, hm⟩ := h
  cases hrole : q.role with
  | init a peer =>
    rcases mem_init hrole hm with h | h | ⟨_, _, _, _, h | h | h | ⟨_, _, h⟩⟩
    · cases h
    · cases h
    · cases h
    · cases h
    · cases h
    · obtain ⟨_, _, _, hk, _⟩ := not_data h; cases hk
  | resp b e =>
    obtain ⟨r1, th, r3, pk, ht, h | h | h | ⟨_, _, h | h | h⟩⟩ := mem_resp hrole hm
    · cases h
      exact ⟨j, q, b, e, hq, hrole, (get_of_take ht (by omega : 0 < 2)).symm, (get_of_take ht (by omega : 1 < 2)).symm, rfl⟩
    · cases h
    · cases h
    · cases h
    · cases h
    · obtain ⟨_, _, _, hk, _⟩ := not_data h; cases hk

/-- The third message of a responder. -/
theorem sender_1 {s : State} {r : Rnd} {p : KeyName} (h : s.net (.frame (.kem r, 1, .pk p))) :
    ∃ j q b e, s.runs[j]? = some q ∧ q.role = .resp b e ∧ r = .own j false ∧ p = .srv e := by
  obtain ⟨j, q, hq, hm⟩ := h
  cases hrole : q.role with
  | init a peer =>
    rcases mem_init hrole hm with h | h | ⟨_, _, _, _, h | h | h | ⟨_, _, h⟩⟩
    · cases h
    · cases h
    · cases h
    · cases h
    · cases h
    · obtain ⟨_, _, _, hk, _⟩ := not_data h; cases hk
  | resp b e =>
    obtain ⟨r1, th, r3, pk, ht, h | h | h | ⟨_, _, h | h | h⟩⟩ := mem_resp hrole hm
    · cases h
    · cases h
      exact ⟨j, q, b, e, hq, hrole, rfl, rfl⟩
    · cases h
    · cases h
    · cases h
    · obtain ⟨_, _, _, hk, _⟩ := not_data h; cases hk

/-- The fourth message of a responder. -/
theorem sender_3c {s : State} {r : Rnd} {p : KeyName} {r4 : Rnd} (h : s.net (.frame (.kem r, 3, .ct (p, r4)))) :
    ∃ j q b e r1 th, s.runs[j]? = some q ∧ q.role = .resp b e ∧ r4 = .own j true ∧
      rIns j b e r1 th r p = q.ins.take 5 ∧ result j q = some (rRes j r1 r p) := by
  obtain ⟨j, q, hq, hm⟩ := h
  cases hrole : q.role with
  | init a peer =>
    rcases mem_init hrole hm with h | h | ⟨_, _, _, _, h | h | h | ⟨_, _, h⟩⟩
    · cases h
    · cases h
    · cases h
    · cases h
    · cases h
    · obtain ⟨_, _, _, hk, _⟩ := not_data h; cases hk
  | resp b e =>
    obtain ⟨r1, th, r3, pk, ht, h | h | h | ⟨h5, hres, h | h | h⟩⟩ := mem_resp hrole hm
    · cases h
    · cases h
    · cases h
    · cases h
      exact ⟨j, q, b, e, r1, th, hq, hrole, rfl, h5, hres⟩
    · cases h
    · obtain ⟨_, _, _, hk, _⟩ := not_data h; cases hk

/-- The last message of an initiator. -/
theorem sender_3m {s : State} {r : Rnd} {m : SMac} (h : s.net (.frame (.kem r, 3, .mac m))) :
    ∃ j q a peer r2 th r4, s.runs[j]? = some q ∧ q.role = .init a peer ∧ r = .own j true ∧
      (iIns j a peer r2 th r4).take 3 = q.ins.take 3 ∧
      m = SMac.of (.kem r2) [.mac (SMac.of (.kem (.own j false)) [.pk (.cli j), .pk th]), .pk (.long a)] := by
  obtain ⟨j, q, hq, hm⟩ := h
  cases hrole : q.role with
  | init a peer =>
    rcases mem_init hrole hm with h | h | ⟨r2, th, r4, ht, h | h | h | ⟨_, _, h⟩⟩
    · cases h
    · cases h
    · cases h
    · cases h
    · cases h
      exact ⟨j, q, a, peer, r2, th, r4, hq, hrole, rfl, ht, rfl⟩
    · obtain ⟨_, _, _, hk, _⟩ := not_data h; cases hk
  | resp b e =>
    obtain ⟨r1, th, r3, pk, ht, h | h | h | ⟨h5, hres, h | h | h⟩⟩ := mem_resp hrole hm
    · cases h
    · cases h
    · cases h
    · cases h
    · cases h
    · obtain ⟨_, _, _, hk, _⟩ := not_data h; cases hk

/-- The last message of a responder. -/
theorem sender_4 {s : State} {r : Rnd} {m : SMac} (h : s.net (.frame (.kem r, 4, .mac m))) :
    ∃ j q b e r1 th r3 pk, s.runs[j]? = some q ∧ q.role = .resp b e ∧ r = .own j true ∧
      rIns j b e r1 th r3 pk = q.ins.take 5 ∧ result j q = some (rRes j r1 r3 pk) ∧
      m = SMac.of (.kem r3) [.mac (SMac.of (.kem (.own j false))
              [.mac (SMac.of (.kem r1) [.pk th, .pk (.srv e)]), .pk pk]), .pk (.long b)] := by
  obtain ⟨j, q, hq, hm⟩ := h
  cases hrole : q.role with
  | init a peer =>
    rcases mem_init hrole hm with h | h | ⟨r2, th, r4, ht, h | h | h | ⟨_, _, h⟩⟩
    · cases h
    · cases h
    · cases h
    · cases h
    · cases h
    · obtain ⟨_, _, _, hk, _⟩ := not_data h; cases hk
  | resp b e =>
    obtain ⟨r1, th, r3, pk, ht, h | h | h | ⟨h5, hres, h | h | h⟩⟩ := mem_resp hrole hm
    · cases h
    · cases h
    · cases h
    · cases h
    · cases h
      exact ⟨j, q, b, e, r1, th, r3, pk, hq, hrole, rfl, h5, hres, rfl⟩
    · obtain ⟨_, _, _, hk, _⟩ := not_data h; cases hk

/-- Messages written after the exchange. -/
theorem sender_data {s : State} {side : Bool} {k1 k2 k3 k4 : SKey} {n : Nat} {p : Pay}
    (h : s.net (.frame (.kdf side k1 k2 k3 k4, n, p))) :
    ∃ j q x i b, s.runs[j]? = some q ∧ result j q = some x ∧ x.writeKey = .kdf side k1 k2 k3 k4 ∧
      n = x.wseq + i ∧ q.data[i]? = some b ∧ p = .other b := by
  obtain ⟨j, q, hq, hm⟩ := h
  cases hrole : q.role with
  | init a peer =>
    rcases mem_init hrole hm with h | h | ⟨r2, th, r4, ht, h | h | h | ⟨_, hres, h⟩⟩
    · cases h
    · cases h
    · cases h
    · cases h
    · cases h
    · obtain ⟨i, b, hb, hk, hn, hp⟩ := not_data h
      exact ⟨j, q, _, i, b, hq, hres, hk.symm, hn, hb, hp⟩
  | resp b e =>
    obtain ⟨r1, th, r3, pk, ht, h | h | h | ⟨h5, hres, h | h | h⟩⟩ := mem_resp hrole hm
    · cases h
    · cases h
    · cases h
    · cases h
    · cases h
    · obtain ⟨i, b, hb, hk, hn, hp⟩ := not_data h
      exact ⟨j, q, _, i, b, hq, hres, hk.symm, hn, hb, hp⟩

/-! ## The two sides -/

theorem mem_of_take {l l' : List M} {n i : Nat} {m : M} (h : l = l'.take n) (hi : l[i]? = some m) : m ∈ l' := by
  rw [h] at hi
  exact List.mem_of_mem_take (List.mem_of_getElem? hi)

theorem ins_get {l l' : List M} {n i : Nat} {m : M} (h : l = l'.take n) (hi : l[i]? = some m) : l'[i]? = some m := by
  rw [h, List.getElem?_take] at hi
  split at hi
  · exact hi
  · cases hi

/-- A completed initiator that wanted to talk to `b` has a completed responder as partner. -/
theorem init_partner {s : State} (hs : Heard s) {j a b : Nat} {r : Run} (hr : s.runs[j]? = some r)
    (hrole : r.role = .init a (.long b)) {x : Result Sym} (hx : result j r = some x) (hb : b ∉ s.leaked) :
    ∃ j' r' e, s.runs[j']? = some r' ∧ r'.role = .resp b e ∧
      x = iRes j (.long b) (.own j' false) (.own j' true) ∧
      result j' r' = some (rRes j' (.own j false) (.own j true) (.long a)) ∧
      r'.ins[1]? = some (.frame (.kem (.own j false), 0, .pk (.cli j))) := by
  obtain ⟨r2, th, r4, hin, rfl⟩ := init_result hrole hx
  have known : ∀ {i : Nat} {m : M}, (iIns j a (.long b) r2 th r4)[i]? = some m → s.Knows (ofMsg m) :=
    fun hi => hs j r hr _ (mem_of_take hin hi)
  have s1 := safe_init_first hr hrole (show Honest s.lk (.long b) from hb)
  -- the first message received comes from a responder
  obtain ⟨j', r', b', e', hr', hrole', hi0, hi1, rfl⟩ := sender_0 (frame_origin (known (i := 0) rfl) s1)
  -- that is, from b
  obtain ⟨m', hm', hc'⟩ := ct_origin (hs j' r' hr' _ (List.mem_of_getElem? hi0)) (Or.inl rfl) s1
  have hbb : b' = b := by
    obtain ⟨q, hq, h⟩ := ct_sender hm' hc'
    rw [hr] at hq; cases hq
    rcases h with ⟨a', p', h1, h | h⟩ | ⟨_, _, h1, h⟩
    · rw [hrole] at h1; cases h1; cases h.2; rfl
    · exact absurd h.1 (by simp)
    · rw [hrole] at h1; cases h1
  subst hbb
  have s2 := safe_resp_first hr' hrole' hi1 (show Honest s.lk (.cli j) from trivial)
  -- the ephemeral key is that of the responder
  obtain ⟨j2, q2, b2, e2, hq2, hrole2, hj2, rfl⟩ := sender_1 (frame_origin (known (i := 1) rfl) s2)
  cases hj2
  rw [hr'] at hq2; cases hq2
  rw [hrole'] at hrole2; cases hrole2
  have s3 := safe_init_second hr hrole (ins_get hin (i := 1) rfl) (show Honest s.lk (.srv e') from trivial)
  -- the fourth message received comes from a completed responder
  obtain ⟨j3, q3, b3, e3, r1, th3, hq3, hrole3, rfl, h5, hres⟩ := sender_3c (frame_origin (known (i := 3) rfl) s3)
  -- which is the same one
  obtain ⟨j4, q4, a4, p4, r24, th4, r44, hq4, hrole4, hj4, ht4, hmac⟩ :=
    sender_3m (frame_origin (hs j3 q3 hq3 _ (mem_of_take h5 (i := 4) rfl)) s3)
  cases hj4
  rw [hr] at hq4; cases hq4
  have h0 := (get_of_take ht4 (by omega : 0 < 3)).symm
  rw [ins_get hin (i := 0) rfl] at h0
  have h1 := (get_of_take ht4 (by omega : 1 < 3)).symm
  rw [ins_get hin (i := 1) rfl] at h1
  cases h0; cases h1
  cases hmac
  rw [hr'] at hq3; cases hq3
  exact ⟨j', r', e', hr', hrole', rfl, hres, hi1⟩

/-- The ephemeral secret between an initiator and a responder stays safe. -/
theorem resp_first_forever {s s' : State} (h : Later s s') {j' j b e : Nat} {k : SKey} {r' : Run}
    (hr' : s.runs[j']? = some r') (hrole : r'.role = .resp b e) (hi : r'.ins[1]? = some (.frame (k, 0, .pk (.cli j)))) :
    SafeR s'.lk s'.net (.own j' false) := by
  obtain ⟨q, hq, e1⟩ := h.runs j' r' hr'
  refine safe_resp_first hq (e1.role.trans hrole) (k := k) (th := .cli j) ?_ trivial
  obtain ⟨l, hl⟩ := e1.ins
  rw [← hl, List.getElem?_append, if_pos (List.getElem?_eq_some_iff.1 hi).1]
  exact hi

/-- The second secret of a responder is safe as long as the key of the client is. -/
theorem resp_second_safe {s : State} {j b e a : Nat} {r : Run} (hr : s.runs[j]? = some r) (hrole : r.role = .resp b e)
    {x : Result Sym} (hx : result j r = some x) (hpk : x.theirPK = .long a) (ha : a ∉ s.leaked) :
    SafeR s.lk s.net (.own j true) := by
  obtain ⟨r1, th, r3, pk, hin, rfl⟩ := resp_result hrole hx
  cases hpk
  exact safe_resp_second hr hrole (ins_get hin (i := 3) rfl) (show Honest s.lk (.long a) from ha)

/-- If anything encrypted for a completed responder exists, then the client is there. -/
theorem resp_partner {s : State} (hs : Heard s) {j b e a : Nat} {r : Run} (hr : s.runs[j]? = some r)
    (hrole : r.role = .resp b e) {x : Result Sym} (hx : result j r = some x) (hpk : x.theirPK = .long a)
    (ha : a ∉ s.leaked) {n : Nat} {p : Pay} (hk : s.Knows (.frame (x.readKey, n, p))) :
    ∃ j' r' i c, s.runs[j']? = some r' ∧ r'.role = .init a (.long b) ∧
      x = rRes j (.own j' false) (.own j' true) (.long a) ∧
      result j' r' = some (iRes j' (.long b) (.own j false) (.own j true)) ∧
      r.ins[1]? = some (.frame (.kem (.own j' false), 0, .pk (.cli j'))) ∧
      n = x.rseq + i ∧ r'.data[i]? = some c ∧ p = .other c := by
  have s4 := resp_second_safe hr hrole hx hpk ha
  obtain ⟨r1, th, r3, pk, hin, rfl⟩ := resp_result hrole hx
  cases hpk
  obtain ⟨j', r', x', i, c, hr', hx', hkey, hn, hc, hp⟩ :=
    sender_data (frame_origin hk (show Secret s.lk s.net (.kdf _ _ _ _ _) from Or.inr (Or.inr (Or.inr s4))))
  cases hrole' : r'.role with
  | resp b' e' =>
    obtain ⟨_, _, _, _, _, rfl⟩ := resp_result hrole' hx'
    cases hkey
  | init a' peer =>
    obtain ⟨r2, th', r4, hin', rfl⟩ := init_result hrole' hx'
    cases hkey
    -- the second secret was for a
    obtain ⟨m, hm, hct⟩ := ct_origin (hs j' r' hr' _ (mem_of_take hin' (i := 3) rfl)) (Or.inr ⟨_, _, rfl⟩) s4
    have haa : a' = a := by
      obtain ⟨q, hq, h⟩ := ct_sender hm hct
      rw [hr] at hq; cases hq
      rcases h with ⟨_, _, h1, h⟩ | ⟨_, _, h1, h | ⟨_, _, h⟩⟩
      · rw [hrole] at h1; cases h1
      · exact absurd h.1 (by simp)
      · rw [ins_get hin (i := 3) rfl] at h; cases h; rfl
    subst haa
    -- the last proof names the server
    obtain ⟨j4, q4, b4, e4, _, _, _, _, hq4, hrole4, hj4, h5, _, hmac⟩ :=
      sender_4 (frame_origin (hs j' r' hr' _ (mem_of_take hin' (i := 4) rfl)) s4)
    cases hj4
    rw [hr] at hq4; cases hq4
    rw [hrole] at hrole4; cases hrole4
    cases hmac
    exact ⟨j', r', i, c, hr', hrole', rfl, hx', ins_get h5 (i := 1) rfl, hn, hc, hp⟩

end Verif.KXNet
