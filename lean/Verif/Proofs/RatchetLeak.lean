import Verif.Model.RatchetLeak
import Verif.Props.Ratchet

/-! What the keys of a ratchet's state are, and what can be computed from them. -/

namespace Verif.Ratchet

open Verif

/-! ## Undoing one computation -/

theorem Deduce.hmac_inv {A : Know} {l : Label} {k : Key} (h : Deduce A (.hmac l k)) :
    A.keys (.hmac l k) ∨ Deduce A k := by
  cases h with
  | known h => exact .inl h
  | hmac h => exact .inr h

theorem Deduce.mix_inv {A : Know} {k : Key} {x y : Nat} (h : Deduce A (.mix k x y)) :
    A.keys (.mix k x y) ∨ (Deduce A k ∧ (A.dh x ∨ A.dh y)) := by
  cases h with
  | known h => exact .inl h
  | mix h h' => exact .inr ⟨h, h'⟩

theorem Deduce.sha_inv {A : Know} {a b : Key} (h : Deduce A (.sha a b)) :
    A.keys (.sha a b) ∨ (Deduce A a ∧ Deduce A b) := by
  cases h with
  | known h => exact .inl h
  | sha h h' => exact .inr ⟨h, h'⟩

theorem Deduce.kem_inv {A : Know} {a b : Nat} (h : Deduce A (.kem a b)) :
    A.keys (.kem a b) ∨ A.rand b ∨ A.dec a := by
  cases h with
  | known h => exact .inl h
  | make h => exact .inr (.inl h)
  | decap h => exact .inr (.inr h)

/-- From a message key back to the material of its chain. -/
theorem deduce_mk {A : Know} {sk : Key} {p : Nat → Nat} {j n : Nat} (hj : 1 ≤ j)
    (h1 : ¬ A.keys (mk sk p j n)) (h2 : ∀ m, m ≤ n → ¬ A.keys (ck sk p j m))
    (h : Deduce A (mk sk p j n)) : Deduce A (mat sk p j) := by
  have hck : ∀ m, m ≤ n → Deduce A (ck sk p j m) → Deduce A (mat sk p j) := by
    intro m
    induction m with
    | zero =>
      intro _ hd
      have hn := h2 0 (by omega)
      have hj0 : j ≠ 0 := by omega
      simp only [ck, if_neg hj0] at hd hn
      rcases hd.hmac_inv with hx | hx
      · exact absurd hx hn
      · exact hx
    | succ m ih =>
      intro hm hd
      have hn := h2 (m + 1) hm
      simp only [ck] at hd hn
      rcases hd.hmac_inv with hx | hx
      · exact absurd hx hn
      · exact ih (by omega) hx
  rcases Deduce.hmac_inv h with hx | hx
  · exact absurd hx h1
  · exact hck n (Nat.le_refl _) hx

/-- From the material of a chain back to that of the one before. -/
theorem deduce_mat {A : Know} {sk : Key} {p : Nat → Nat} {j : Nat} (hj : 1 ≤ j)
    (h1 : ¬ A.keys (mat sk p (j + 1))) (h2 : ¬ A.keys (rootOf sk p j))
    (h : Deduce A (mat sk p (j + 1))) :
    Deduce A (mat sk p j) ∧ (A.dh (p j) ∨ A.dh (p (j + 1))) := by
  rw [mat_succ hj] at h h1
  rcases h.mix_inv with hx | ⟨hx, hy⟩
  · exact absurd hx h1
  · rcases Deduce.hmac_inv hx with hz | hz
    · exact absurd hz h2
    · refine ⟨hz, ?_⟩
      rcases Nat.le_total (p j) (p (j + 1)) with hle | hle
      · rwa [Nat.min_eq_left hle, Nat.max_eq_right hle] at hy
      · rw [Nat.min_eq_right hle, Nat.max_eq_left hle] at hy; exact hy.symm

/-- All the way back. -/
theorem deduce_down {A : Know} {sk : Key} {p : Nat → Nat} {i : Nat} (hi : 1 ≤ i) :
    ∀ d, (∀ j, i < j → j ≤ i + d → ¬ A.keys (mat sk p j)) →
      (∀ j, i ≤ j → j < i + d → ¬ A.keys (rootOf sk p j)) →
      Deduce A (mat sk p (i + d)) → Deduce A (mat sk p i)
  | 0, _, _, h => h
  | d + 1, h1, h2, h => by
    have hd := (deduce_mat (j := i + d) (by omega) (h1 _ (by omega) (by omega))
      (h2 _ (by omega) (by omega)) h).1
    exact deduce_down hi d (fun j a b => h1 j a (by omega)) (fun j a b => h2 j a (by omega)) hd

/-! ## Parts of the state no operation touches -/

/-- A header key, or the zero that stands for none. -/
def HKey (k : Key) : Prop := k = .zero ∨ ∃ l k', k = .hmac l k' ∧
  (l = .headerKey ∨ l = .sendHeaderKey ∨ l = .nextRecvHeaderKey)

theorem hkey_hk (sk : Key) (p : Nat → Nat) : ∀ j, HKey (hk sk p j)
  | 0 => .inl rfl
  | 1 => .inr ⟨_, _, rfl, .inl rfl⟩
  | 2 => .inr ⟨_, _, rfl, .inr (.inl rfl)⟩
  | 3 => .inr ⟨_, _, rfl, .inr (.inr rfl)⟩
  | _ + 4 => .inr ⟨_, _, rfl, .inr (.inl rfl)⟩

/-- The header keys of the skipped messages. -/
def Heads (s : Saved) : Prop := ∀ e ∈ s, HKey e.1

theorem heads_del {s : Saved} (h : Heads s) (k : Key) : Heads (GoMap.del s k) := by
  rintro ⟨x, v⟩ he
  exact h (x, v) (GoMap.mem_del_iff.mp he).2

theorem heads_set {s : Saved} (h : Heads s) {k : Key} (hk : HKey k) (v) :
    Heads (GoMap.set s k v) := by
  intro e he
  rcases List.mem_cons.mp he with rfl | he
  · exact hk
  · exact heads_del h k e he

theorem heads_merge {s : Saved} (h : Heads s) :
    ∀ n : Option (Key × GoMap Nat SavedKey), (∀ x ∈ n, HKey x.1) → Heads (mergeSavedKeys s n)
  | none, _ => h
  | some (k, new), hk => by
    simp only [mergeSavedKeys]
    split <;> exact heads_set h (hk _ rfl) _

theorem heads_try {all : Saved} (h : Heads all) {hn h' m msg s} :
    ∀ l : Saved, Heads l → tryLoop all hn h' m l = .opened msg s → Heads s := by
  intro l
  induction l with
  | nil => intro _ ht; simp [tryLoop] at ht
  | cons x rest ih =>
    obtain ⟨hk, keys⟩ := x
    intro hl ht
    simp only [tryLoop] at ht
    split at ht
    · exact ih (fun e he => hl e (List.mem_cons_of_mem _ he)) ht
    · split at ht
      · simp at ht
      · split at ht
        · simp at ht
        · simp only [Tried.opened.injEq] at ht
          obtain ⟨_, rfl⟩ := ht
          split
          · exact heads_del h _
          · exact heads_set h (hl _ List.mem_cons_self) _

theorem saveKeys_head {hk ck : Key} {a b : Nat} {now : Int} {x y z}
    (h : saveKeys hk ck a b now = .ok (x, y, z)) (hk' : HKey hk) : ∀ e ∈ z, HKey e.1 := by
  unfold saveKeys at h
  split at h
  · simp at h
  · simp only [] at h
    split at h
    · simp at h
    · split at h
      · split at h <;> simp at h
      · simp only [Res.ok.injEq, Prod.mk.injEq] at h
        obtain ⟨_, _, rfl⟩ := h
        intro e he
        split at he
        · simp at he
        · simp only [Option.mem_def, Option.some.injEq] at he
          rw [← he]; exact hk'

/-- The fields only the key exchange writes, and the header keys. -/
structure Fixed (R : Ratchet) (ks : Nat) (mine theirs : Key) : Prop where
  sk : R.kemSk = ks
  mine : R.myHalf = some mine
  theirs : R.theirHalf = some theirs
  kx : R.kxPrivate = none
  rhk : HKey R.recvHeaderKey
  nrhk : HKey R.nextRecvHeaderKey
  heads : Heads R.saved

theorem fixed_new {R : Ratchet} {ks mine theirs} (h : Fixed R ks mine theirs) (now : Int)
    (hn : Nat) (hb : HBox) (m : MBox) : Fixed (decryptNew R now hn hb m).2 ks mine theirs := by
  have hsk : ∀ km, HKey (.hmac .sendHeaderKey km) := fun km => .inr ⟨_, _, rfl, .inr (.inl rfl)⟩
  unfold decryptNew
  split
  · split
    · exact h
    · exact h
    · exact h
    · rename_i hsv
      split
      · exact h
      · exact ⟨h.sk, h.mine, h.theirs, h.kx, h.rhk, h.nrhk,
          heads_merge h.heads _ (saveKeys_head hsv h.rhk)⟩
  · split
    · exact h
    · split
      · exact h
      · split
        · exact h
        · exact h
        · exact h
        · rename_i hold
          split
          · exact h
          · split
            · exact h
            · exact h
            · exact h
            · rename_i hnew
              split
              · exact h
              · exact ⟨h.sk, h.mine, h.theirs, h.kx, h.nrhk, hsk _,
                  heads_merge (heads_merge h.heads _ (saveKeys_head hold h.rhk)) _
                    (saveKeys_head hnew h.nrhk)⟩

theorem fixed_decrypt {R : Ratchet} {ks mine theirs} (h : Fixed R ks mine theirs) (now : Int)
    (ct : Ct) : Fixed (decrypt R now ct).2 ks mine theirs := by
  cases ct with
  | short => exact h
  | mk hn hb m =>
    simp only [decrypt]
    split
    · exact h
    · exact fixed_new h ..
    · rename_i msg s ht
      have hs : Heads s := heads_try h.heads _ h.heads ht
      have h' : Fixed { R with saved := s } ks mine theirs :=
        ⟨h.sk, h.mine, h.theirs, h.kx, h.rhk, h.nrhk, hs⟩
      split
      · exact fixed_new h' ..
      · exact h'

theorem fixed_encrypt {R : Ratchet} {ks mine theirs} (h : Fixed R ks mine theirs)
    (priv hn mn : Nat) (msg : Bytes) : Fixed (encrypt R priv hn mn msg).2 ks mine theirs := by
  unfold encrypt
  split
  · unfold ratchetStep
    simp only []
    cases mixDH R.rootKey priv R.recvPub <;>
    exact ⟨h.sk, h.mine, h.theirs, h.kx, h.rhk, h.nrhk, h.heads⟩
  · exact ⟨h.sk, h.mine, h.theirs, h.kx, h.rhk, h.nrhk, h.heads⟩

theorem heads_reload {s : Saved} (h : Heads s) (now lifetime : Int) :
    Heads (reloadSaved now lifetime s) := by
  unfold reloadSaved
  have key : ∀ (l : Saved) (m : Saved), Heads l → Heads m →
      Heads (l.foldl (fun m e => GoMap.set m e.1 (reloadKeys now lifetime e.2)) m) := by
    intro l
    induction l with
    | nil => intro m _ hm; exact hm
    | cons e l ih =>
      intro m hl hm
      exact ih _ (fun x hx => hl x (List.mem_cons_of_mem _ hx))
        (heads_set hm (hl e List.mem_cons_self) _)
  exact key s [] h (by intro e he; simp at he)

/-- Of the two halves, the one `w` made and the one it was sent. -/
def mineOf (ka kb ra rb : Nat) (w : Bool) : Key := if w then .kem kb ra else .kem ka rb

def FixedConv (ka kb ra rb : Nat) (c : Conv) : Prop := ∀ w,
  Fixed (c.st w) (if w then ka else kb) (mineOf ka kb ra rb w) (mineOf ka kb ra rb (!w))

theorem fixed_reach {ka kb pa pb ra rb c} (h : Reach ka kb pa pb ra rb c) :
    FixedConv ka kb ra rb c := by
  induction h with
  | start =>
    intro w
    cases w <;>
    · constructor <;>
        simp [start, fillKeyExchange, new, completeKeyExchange, mineOf, HKey, Heads]
  | @step c ev _ _ ih =>
    have go : ∀ w R, Fixed R (if w then ka else kb) (mineOf ka kb ra rb w)
        (mineOf ka kb ra rb (!w)) → ∀ v, Fixed (upd c.st w R v) (if v then ka else kb)
          (mineOf ka kb ra rb v) (mineOf ka kb ra rb (!v)) := by
      intro w R hR v
      rcases bool_cases w v with rfl | rfl
      · simpa only [upd_self] using hR
      · simpa only [upd_not] using ih _
    cases ev with
    | send w priv hn mn msg =>
      have h1 := fixed_encrypt (ih w) priv hn mn msg
      simp only [step]
      rcases hx : encrypt (c.st w) priv hn mn msg with ⟨x, R⟩
      rw [hx] at h1
      cases x <;> exact go w R h1
    | recv w now ct =>
      have h1 := fixed_decrypt (ih w) now ct
      simp only [step]
      rcases hx : decrypt (c.st w) now ct with ⟨x, R⟩
      rw [hx] at h1
      cases x <;> exact go w R h1
    | reload w now lifetime =>
      have hu := unmarshal_marshal (c.st w) (new (c.st w).kemSk (c.st w).theirKem 0) now lifetime
        rfl rfl rfl rfl
      simp only [step, hu]
      have h := ih w
      exact go w _ ⟨h.sk, h.mine, h.theirs, h.kx, h.rhk, h.nrhk, heads_reload h.heads _ _⟩

/-! ## The keys of a state -/

/-- What a key in the state of a party can be; `H` are the halves of the shared key. -/
inductive Held (H : Key → Prop) (sk : Key) (p : Nat → Nat) (wire : List Sent) (s r k : Nat)
    (acc : List Ct) : Key → Prop
  | root : Held H sk p wire s r k acc (rootOf sk p (max s r))
  | head {x} : HKey x → Held H sk p wire s r k acc x
  | send : Held H sk p wire s r k acc (ck sk p s (sentOn wire s))
  | recv : Held H sk p wire s r k acc (ck sk p r k)
  | skipped {j n} : 1 ≤ j → j ≤ r → j % 2 = r % 2 →
      (∀ e ∈ wire, e.chain = j → e.num = n → e.ct ∉ acc) → Held H sk p wire s r k acc (mk sk p j n)
  | half {a b} : H (.kem a b) → Held H sk p wire s r k acc (.kem a b)

theorem held_state {H sk p wire w R s r k acc lost}
    (hP : PI sk p wire w R s r k acc lost) (h1 : HKey R.recvHeaderKey)
    (h2 : HKey R.nextRecvHeaderKey) (h3 : Heads R.saved)
    (hm : ∀ x ∈ R.myHalf, H x ∧ ∃ a b, x = .kem a b)
    (ht : ∀ x ∈ R.theirHalf, H x ∧ ∃ a b, x = .kem a b) {x : Key}
    (hx : x ∈ stateKeys R) : Held H sk p wire s r k acc x := by
  unfold stateKeys at hx
  rw [List.mem_append, List.mem_append, List.mem_append] at hx
  rcases hx with ((hx | hx) | hx) | hx
  · simp only [List.mem_cons, List.not_mem_nil, or_false] at hx
    rcases hx with rfl | rfl | rfl | rfl | rfl | rfl | rfl
    · rw [hP.pv.root]; exact .root
    · rw [hP.pv.shk]; exact .head (hkey_hk ..)
    · exact .head h1
    · rw [hP.pv.nshk]; exact .head (hkey_hk ..)
    · exact .head h2
    · rw [hP.pv.sck]; exact .send
    · rw [hP.pv.rck]; exact .recv
  · obtain ⟨hh, a, b, rfl⟩ := hm x (Option.mem_toList.mp hx)
    exact .half hh
  · obtain ⟨hh, a, b, rfl⟩ := ht x (Option.mem_toList.mp hx)
    exact .half hh
  · obtain ⟨⟨h, keys⟩, he, hx⟩ := List.mem_flatMap.mp hx
    rcases List.mem_cons.mp hx with rfl | hx
    · exact .head (h3 _ he)
    · obtain ⟨⟨n, v⟩, hv, rfl⟩ := List.mem_map.mp hx
      have g1 := GoMap.get_of_mem hP.wfs.1 he
      have g2 := GoMap.get_of_mem (hP.wfs.2 _ _ g1) hv
      obtain ⟨j, a1, a2, a3, _, _, a6, a7⟩ := hP.sound h n v (by simp [get2, g1, g2])
      simp only [a6]
      exact .skipped a1 a2 a3 a7

theorem pi_erase {sk p wire w R s r k acc lost} (hP : PI sk p wire w R s r k acc lost) :
    PI sk p wire w (eraseHalves R) s r k acc lost :=
  ⟨⟨hP.pv.adj, hP.pv.root, hP.pv.shk, hP.pv.sck, hP.pv.scnt, hP.pv.prev, hP.pv.nshk, hP.pv.rhk,
    hP.pv.rck, hP.pv.rcnt, hP.pv.nrhk, hP.pv.rpub, hP.pv.flag, hP.pv.priv, hP.pv.kle⟩, hP.par,
    hP.wfs, hP.sound, hP.complete, hP.accOk, hP.last⟩

/-- A held KEM session key is one of the halves. -/
theorem held_kem {H sk p wire s r k acc a b} (h : Held H sk p wire s r k acc (.kem a b)) :
    H (.kem a b) := by
  generalize hx : Key.kem a b = x at h
  cases h with
  | root => simp [rootOf] at hx
  | head h => rw [← hx] at h; simp [HKey] at h
  | send =>
    exfalso; revert hx
    cases sentOn wire s <;> simp only [ck]
    · split <;> simp
    · simp
  | recv =>
    exfalso; revert hx
    cases k <;> simp only [ck]
    · split <;> simp
    · simp
  | skipped => simp [mk] at hx
  | half h => exact h

/-- No state holds a hash of two keys. -/
theorem held_sha {H sk p wire s r k acc a b} : ¬ Held H sk p wire s r k acc (.sha a b) := by
  intro h
  generalize hx : Key.sha a b = x at h
  cases h with
  | root => simp [rootOf] at hx
  | head h => rw [← hx] at h; simp [HKey] at h
  | send =>
    exfalso; revert hx
    cases sentOn wire s <;> simp only [ck]
    · split <;> simp
    · simp
  | recv =>
    exfalso; revert hx
    cases k <;> simp only [ck]
    · split <;> simp
    · simp
  | skipped => simp [mk] at hx
  | half h => simp at hx

theorem HKey.ne_mix {k x y} : ¬ HKey (.mix k x y) := by simp [HKey]
theorem HKey.ne_root {k} : ¬ HKey (.hmac .rootKey k) := by simp [HKey]
theorem HKey.ne_mk {k} : ¬ HKey (.hmac .messageKey k) := by simp [HKey]
theorem HKey.ne_ck {sk p j n} (hj : 1 ≤ j) : ¬ HKey (ck sk p j n) := by
  have : j ≠ 0 := by omega
  cases n <;> simp [HKey, ck, this]

theorem ck_ne_mat {sk p j n i} (hi : 2 ≤ i) : ck sk p j n ≠ mat sk p i := by
  obtain ⟨d, rfl⟩ : ∃ d, i = d + 2 := ⟨i - 2, by omega⟩
  cases n <;> simp only [ck, mat]
  · split <;> simp
  · simp

theorem ck_ne_root {sk p j n i} : ck sk p j n ≠ rootOf sk p i := by
  cases n <;> simp only [ck, rootOf]
  · split <;> simp
  · simp

theorem ck_ne_mk {sk p j n i m} : ck sk p j n ≠ mk sk p i m := by
  cases n <;> simp only [ck, mk]
  · split <;> simp
  · simp

theorem ck_zero_ne {sk p i n m} (hi : 1 ≤ i) : ck sk p 0 n ≠ ck sk p i m ∨ 0 < n := by
  cases n with
  | zero =>
    left
    have : i ≠ 0 := by omega
    cases m <;> simp [ck, this]
  | succ n => right; omega

/-- No state holds the material of a chain. -/
theorem held_mat {H sk p wire s r k acc i} (hi : 2 ≤ i) : ¬ Held H sk p wire s r k acc (mat sk p i) := by
  obtain ⟨d, rfl⟩ : ∃ d, i = d + 2 := ⟨i - 2, by omega⟩
  intro h
  generalize hx : mat sk p (d + 2) = x at h
  cases h with
  | root => simp [mat, rootOf] at hx
  | head h => rw [← hx] at h; simp [mat, HKey] at h
  | send => exact ck_ne_mat (by omega) hx.symm
  | recv => exact ck_ne_mat (by omega) hx.symm
  | skipped => simp [mat, mk] at hx
  | half => simp [mat] at hx

/-- The only root key held is the latest. -/
theorem held_root {H sk p wire s r k acc i} (hi : 1 ≤ i)
    (h : Held H sk p wire s r k acc (rootOf sk p i)) : i = max s r ∨ max s r = 0 := by
  generalize hx : rootOf sk p i = x at h
  cases h with
  | root =>
    simp only [rootOf, Key.hmac.injEq, true_and] at hx
    by_cases h0 : max s r = 0
    · exact .inr h0
    · exact .inl (mat_inj hi (by omega) hx)
  | head h => rw [← hx] at h; exact absurd h HKey.ne_root
  | send => exact absurd hx.symm ck_ne_root
  | recv => exact absurd hx.symm ck_ne_root
  | skipped => simp [rootOf, mk] at hx
  | half => simp [rootOf] at hx

/-- The chain keys held are those past everything sent and received. -/
theorem held_ck {H sk p wire s r k acc j n} (hj : 1 ≤ j) (h0 : sentOn wire 0 = 0)
    (hk : r = 0 → k = 0) (h : Held H sk p wire s r k acc (ck sk p j n)) :
    (j = s ∧ n = sentOn wire s) ∨ (j = r ∧ n = k) := by
  generalize hx : ck sk p j n = x at h
  cases h with
  | root => exact absurd hx ck_ne_root
  | head h => rw [← hx] at h; exact absurd h (HKey.ne_ck hj)
  | send =>
    left
    by_cases hs : s = 0
    · subst hs
      rw [h0] at hx
      rcases ck_zero_ne (sk := sk) (p := p) (i := j) (n := 0) (m := n) hj with h1 | h1
      · exact absurd hx.symm h1
      · omega
    · exact ck_inj hj (by omega) hx
  | recv =>
    right
    by_cases hs : r = 0
    · subst hs
      rw [hk rfl] at hx
      rcases ck_zero_ne (sk := sk) (p := p) (i := j) (n := 0) (m := n) hj with h1 | h1
      · exact absurd hx.symm h1
      · omega
    · exact ck_inj hj (by omega) hx
  | skipped => exact absurd hx ck_ne_mk
  | half => have : j ≠ 0 := by omega
            cases n <;> simp [ck, this] at hx

/-- The message keys held are those of skipped messages. -/
theorem held_mk {H sk p wire s r k acc j n} (hj : 1 ≤ j)
    (h : Held H sk p wire s r k acc (mk sk p j n)) :
    j ≤ r ∧ j % 2 = r % 2 ∧ ∀ e ∈ wire, e.chain = j → e.num = n → e.ct ∉ acc := by
  generalize hx : mk sk p j n = x at h
  cases h with
  | root => simp [rootOf, mk] at hx
  | head h => rw [← hx] at h; exact absurd h HKey.ne_mk
  | send => exact absurd hx.symm ck_ne_mk
  | recv => exact absurd hx.symm ck_ne_mk
  | skipped a1 a2 a3 a4 =>
    obtain ⟨rfl, rfl⟩ := mk_inj hj a1 hx
    exact ⟨a2, a3, a4⟩
  | half => simp [mk] at hx

end Verif.Ratchet
