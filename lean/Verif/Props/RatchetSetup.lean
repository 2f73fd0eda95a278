import Verif.Props.RatchetState

/-! C15: the key exchange pairs the two parties. C16: saving and reloading.

Model: Verif.Model.Ratchet (/repo/ratchet/ratchet.go). -/

namespace Verif.Ratchet

open Verif

/-! ## C15 -/

/-- Two ratchets fit together: what one uses to send, the other uses to receive. `a` has received
the public value of `b` and will ratchet before it sends. -/
structure Paired (a b : Ratchet) : Prop where
  root : a.rootKey = b.rootKey
  header : a.recvHeaderKey = b.sendHeaderKey
  nextOut : a.nextSendHeaderKey = b.nextRecvHeaderKey
  nextIn : a.nextRecvHeaderKey = b.nextSendHeaderKey
  chain : a.recvChainKey = b.sendChainKey
  dh : a.recvPub = .of b.sendPriv
  turnA : a.ratchet = true
  turnB : b.ratchet = false
  countsA : a.sendCount = 0 ∧ a.recvCount = 0 ∧ a.prevSendCount = 0
  countsB : b.sendCount = 0 ∧ b.recvCount = 0 ∧ b.prevSendCount = 0

/-- A first key exchange between `a` (who takes the alice role) and `b`, in which each completes
with the other's message. -/
def exchange (ka kb pa pb ra rb : Nat) : Option (Ratchet × Ratchet) :=
  match fillKeyExchange (new ka kb pa) ra, fillKeyExchange (new kb ka pb) rb with
  | (.ok xA, a), (.ok xB, b) =>
    match completeKeyExchange a xB true, completeKeyExchange b xA false with
    | (.ok _, a), (.ok _, b) => some (a, b)
    | _, _ => none
  | _, _ => none

/-- For all key pairs, private values and randomness: both calls succeed, the ratchets fit together,
the ephemeral private values of the exchange are dropped, and the header keys of the two directions
differ. -/
theorem C15_pairing (ka kb pa pb ra rb : Nat) :
    ∃ a b, exchange ka kb pa pb ra rb = some (a, b) ∧ Paired a b ∧
      a.kxPrivate = none ∧ b.kxPrivate = none ∧ b.sendPriv = pb ∧
      b.sendHeaderKey ≠ b.nextRecvHeaderKey ∧ a.recvHeaderKey ≠ a.nextRecvHeaderKey := by
  refine ⟨(start ka kb pa pb ra rb).st true, (start ka kb pa pb ra rb).st false, ?_, ?_, ?_⟩
  · simp [exchange, fillKeyExchange, new, completeKeyExchange, start]
  · constructor <;> simp [start, fillKeyExchange, new, completeKeyExchange]
  · simp [start, fillKeyExchange, new, completeKeyExchange]

example : (exchange 1 2 3 4 5 6).isSome := rfl

/-- If both take the same role, the keys do not fit: the role must differ. -/
example : (completeKeyExchange (fillKeyExchange (new 1 2 3) 5).2 ⟨.enc 1 6, .sealed (.kem 1 6) (.of 4) true⟩
      true).2.rootKey ≠
    (completeKeyExchange (fillKeyExchange (new 2 1 4) 6).2 ⟨.enc 2 5, .sealed (.kem 2 5) (.of 3) true⟩
      true).2.rootKey := by decide

/-- After the exchange the first message decrypts, in either direction, whatever the message, the
nonces, and the private value chosen by the sender. -/
theorem C15_first_message (ka kb pa pb ra rb : Nat) (a b : Ratchet)
    (hx : exchange ka kb pa pb ra rb = some (a, b)) (priv hn mn : Nat) (now : Int) (msg : Bytes) :
    (∃ ct, (encrypt a priv hn mn msg).1 = .ok ct ∧ (decrypt b now ct).1 = .ok msg) ∧
    (∃ ct, (encrypt b priv hn mn msg).1 = .ok ct ∧ (decrypt a now ct).1 = .ok msg) := by
  have hz : maxMissing = 80 := rfl
  have hu : u32 = 4294967296 := rfl
  simp only [exchange, fillKeyExchange, new, completeKeyExchange, if_true, Bool.false_eq_true,
    if_false, Option.some.injEq, Prod.mk.injEq] at hx
  obtain ⟨rfl, rfl⟩ := hx
  constructor
  · refine ⟨_, by simp only [encrypt, if_true, ratchetStep, mixDH, sealMsg]; rfl, ?_⟩
    simp [decrypt, tryLoop, decryptNew, openH, saveKeys, mixDH, hz, hu, advance, openM,
      Nat.min_comm, Nat.max_comm]
  · refine ⟨_, by simp only [encrypt, Bool.false_eq_true, if_false, sealMsg]; rfl, ?_⟩
    simp [decrypt, tryLoop, decryptNew, openH, saveKeys, hz, hu, advance, openM]

/-! ## C16 -/

/-- All fields but the saved keys are the same. -/
def SameFields (a b : Ratchet) : Prop := { a with saved := [] } = { b with saved := [] }

/-- The message key saved for number `n` under header key `h`, without its time. -/
def keyAt (s : Saved) (h : Key) (n : Nat) : Option Key := (get2 s h n).map SavedKey.key

/-- Saving at time `now` and loading into a fresh ratchet succeeds; every field is restored, and a
skipped-message key is there exactly if it was there before and was not older than the lifetime;
its time is rounded down to a second. -/
theorem C16_roundtrip (R : Ratchet) (now lifetime : Int) (kx : Nat) (hw : WFS R.saved) :
    ∃ R', unmarshal (new R.kemSk R.theirKem kx) (marshal R now lifetime) = .ok R' ∧
      SameFields R R' ∧ WFS R'.saved ∧
      ∀ h n, get2 R'.saved h n =
        match get2 R.saved h n with
        | some v => if lifetime < now - v.ts then none else some ⟨v.key, v.ts / 1000000000 * 1000000000⟩
        | none => none := by
  refine ⟨_, unmarshal_marshal R _ now lifetime rfl rfl rfl rfl, rfl, wfs_reload hw now lifetime, ?_⟩
  intro h n
  rw [get2_reload hw]
  rcases get2 R.saved h n with _ | v
  · rfl
  · by_cases hl : lifetime < now - v.ts
    · simp [keep, hl]
    · have : now - v.ts ≤ lifetime := by omega
      simp [keep, hl, reloadKey, this, second]

/-- Operations on a ratchet between two reloads. -/
inductive Op
  | enc (priv hn mn : Nat) (msg : Bytes)
  | dec (now : Int) (ct : Ct)

/-- What an operation returns. -/
inductive Out
  | enc (r : Res Ct)
  | dec (r : Res Bytes)
  deriving DecidableEq

/-- Carry out an operation. -/
def runOp (R : Ratchet) : Op → Out × Ratchet
  | .enc priv hn mn msg => (.enc (encrypt R priv hn mn msg).1, (encrypt R priv hn mn msg).2)
  | .dec now ct => (.dec (decrypt R now ct).1, (decrypt R now ct).2)

/-- Everything a sequence of operations returns. -/
def outputs (R : Ratchet) : List Op → List Out
  | [] => []
  | o :: os => (runOp R o).1 :: outputs (runOp R o).2 os

/-- Same fields, and the same message keys saved. -/
structure Equiv (a b : Ratchet) : Prop where
  fields : SameFields a b
  keys : ∀ h n, keyAt a.saved h n = keyAt b.saved h n

theorem try_get2 (all : Saved) (hn : Nat) (k : Key) (hdr : Header) (m : MBox) :
    tryLoop all hn (.sealed k hn hdr) m all =
      match get2 all k hdr.num with
      | none => .nothing
      | some v =>
        match openM v.key hdr.nonce m with
        | none => .failed
        | some msg =>
          match GoMap.get all k with
          | none => .failed
          | some keys =>
            .opened msg (if keys.del hdr.num = [] then all.del k
              else all.set k (keys.del hdr.num)) := by
  rw [tryLoop_sealed]
  unfold get2
  rcases hg : GoMap.get all k with _ | keys
  · rfl
  · simp only [Option.bind_some]
    rcases GoMap.get keys hdr.num with _ | v
    · rfl
    · simp only []
      rcases openM v.key hdr.nonce m with _ | _ <;> rfl

/-- Two results of `trySavedKeys` are alike. -/
def TriedAlike : Tried → Tried → Prop
  | .failed, .failed => True
  | .nothing, .nothing => True
  | .opened m s, .opened m' s' => m = m' ∧ ∀ h n, keyAt s h n = keyAt s' h n
  | _, _ => False

theorem tryLoop_alike {s s' : Saved} (hk : ∀ h n, keyAt s h n = keyAt s' h n) (hn : Nat) (h : HBox)
    (m : MBox) : TriedAlike (tryLoop s hn h m s) (tryLoop s' hn h m s') := by
  cases h with
  | junk i => rw [tryLoop_junk, tryLoop_junk]; trivial
  | sealed k n hdr =>
    by_cases hnn : n = hn
    · subst hnn
      rw [try_get2, try_get2]
      have h1 := hk k hdr.num
      unfold keyAt at h1
      rcases hg : get2 s k hdr.num with _ | v <;> rcases hg' : get2 s' k hdr.num with _ | v' <;>
        rw [hg, hg'] at h1 <;> simp at h1
      · trivial
      · simp only [h1]
        rcases openM v'.key hdr.nonce m with _ | msg
        · trivial
        · simp only []
          rcases hs : GoMap.get s k with _ | keys
          · simp [get2, hs] at hg
          · rcases hs' : GoMap.get s' k with _ | keys'
            · simp [get2, hs'] at hg'
            · refine ⟨rfl, ?_⟩
              intro h2 n2
              unfold keyAt
              rw [get2_used s _ hs, get2_used s' _ hs']
              split
              · rfl
              · exact hk h2 n2
    · rw [tryLoop_nonce _ _ hnn, tryLoop_nonce _ _ hnn]; trivial

theorem keyAt_merge {s s' : Saved} (hk : ∀ h n, keyAt s h n = keyAt s' h n)
    (o : Option (Key × GoMap Nat SavedKey)) (ho : ∀ k m, o = some (k, m) → GoMap.WF m) :
    ∀ h n, keyAt (mergeSavedKeys s o) h n = keyAt (mergeSavedKeys s' o) h n := by
  intro h n
  rcases o with _ | ⟨k, m⟩
  · exact hk h n
  · have hw := ho k m rfl
    unfold keyAt
    rw [get2_merge s hw, get2_merge s' hw]
    split
    · rcases GoMap.get m n with _ | v
      · exact hk h n
      · rfl
    · exact hk h n

theorem saveKeys_wf {h c : Key} {num cnt : Nat} {now : Int} {ck mk : Key} {o}
    (hs : saveKeys h c num cnt now = .ok (ck, mk, o)) : ∀ k m, o = some (k, m) → GoMap.WF m := by
  intro k m ho
  have hx := (saveKeys_inv hs).2.2.2
  simp only [Prod.mk.injEq] at hx
  rw [hx.2.2] at ho
  split at ho
  · simp at ho
  · simp only [Option.some.injEq, Prod.mk.injEq] at ho
    rw [← ho.2]; exact advance_wf ..

theorem equiv_saved {a : Ratchet} {s s' : Saved} (hk : ∀ h n, keyAt s h n = keyAt s' h n) :
    Equiv { a with saved := s } { a with saved := s' } := ⟨rfl, hk⟩

theorem decryptNew_alike (a : Ratchet) {s s' : Saved} (hk : ∀ h n, keyAt s h n = keyAt s' h n)
    (now : Int) (hn : Nat) (h : HBox) (m : MBox) :
    (decryptNew { a with saved := s } now hn h m).1 = (decryptNew { a with saved := s' } now hn h m).1
    ∧ Equiv (decryptNew { a with saved := s } now hn h m).2
        (decryptNew { a with saved := s' } now hn h m).2 := by
  unfold decryptNew
  simp only []
  rcases (if a.recvHeaderKey = .zero then none else openH a.recvHeaderKey hn h) with _ | hdr
  · simp only []
    rcases openH a.nextRecvHeaderKey hn h with _ | hdr
    · exact ⟨rfl, equiv_saved hk⟩
    · simp only []
      by_cases hr : a.ratchet = true
      · rw [if_pos hr, if_pos hr]; exact ⟨rfl, equiv_saved hk⟩
      · rw [if_neg hr, if_neg hr]
        rcases hs1 : saveKeys a.recvHeaderKey a.recvChainKey hdr.prev a.recvCount now with
          ⟨c1, k1, o1⟩ | _ | _ | _
        · simp only []
          rcases mixDH a.rootKey a.sendPriv hdr.pub with _ | km
          · exact ⟨rfl, equiv_saved hk⟩
          · simp only []
            rcases hs2 : saveKeys a.nextRecvHeaderKey (.hmac .chainKey km) hdr.num 0 now with
              ⟨c2, k2, o2⟩ | _ | _ | _
            · simp only []
              rcases openM k2 hdr.nonce m with _ | msg
              · exact ⟨rfl, equiv_saved hk⟩
              · exact ⟨rfl, rfl, keyAt_merge (keyAt_merge hk _ (saveKeys_wf hs1)) _
                  (saveKeys_wf hs2)⟩
            · exact ⟨rfl, equiv_saved hk⟩
            · exact ⟨rfl, equiv_saved hk⟩
            · exact ⟨rfl, equiv_saved hk⟩
        · exact ⟨rfl, equiv_saved hk⟩
        · exact ⟨rfl, equiv_saved hk⟩
        · exact ⟨rfl, equiv_saved hk⟩
  · simp only []
    rcases hs1 : saveKeys a.recvHeaderKey a.recvChainKey hdr.num a.recvCount now with
      ⟨c1, k1, o1⟩ | _ | _ | _
    · simp only []
      rcases openM k1 hdr.nonce m with _ | msg
      · exact ⟨rfl, equiv_saved hk⟩
      · exact ⟨rfl, rfl, keyAt_merge hk _ (saveKeys_wf hs1)⟩
    · exact ⟨rfl, equiv_saved hk⟩
    · exact ⟨rfl, equiv_saved hk⟩
    · exact ⟨rfl, equiv_saved hk⟩

theorem equiv_cases {a b : Ratchet} (h : Equiv a b) :
    ∃ (r : Ratchet) (s s' : Saved), a = { r with saved := s } ∧ b = { r with saved := s' } ∧
      ∀ h n, keyAt s h n = keyAt s' h n := by
  refine ⟨{ a with saved := [] }, a.saved, b.saved, rfl, ?_, h.keys⟩
  rw [h.fields]

theorem runOp_alike {a b : Ratchet} (h : Equiv a b) (o : Op) :
    (runOp a o).1 = (runOp b o).1 ∧ Equiv (runOp a o).2 (runOp b o).2 := by
  obtain ⟨r, s, s', rfl, rfl, hk⟩ := equiv_cases h
  cases o with
  | enc priv hn mn msg =>
    simp only [runOp, encrypt, ratchetStep]
    by_cases hr : r.ratchet = true
    · rw [if_pos hr, if_pos hr]
      rcases mixDH r.rootKey priv r.recvPub with _ | km
      · exact ⟨rfl, rfl, hk⟩
      · exact ⟨rfl, rfl, hk⟩
    · rw [if_neg hr, if_neg hr]
      exact ⟨rfl, rfl, hk⟩
  | dec now ct =>
    cases ct with
    | short => exact ⟨rfl, equiv_saved hk⟩
    | mk hn h m =>
      have hd := decryptNew_alike r hk now hn h m
      have ht := tryLoop_alike hk hn h m
      simp only [runOp, decrypt]
      generalize tryLoop s hn h m s = x at ht ⊢
      generalize tryLoop s' hn h m s' = y at ht ⊢
      rcases x with _ | _ | ⟨msg, t⟩ <;> rcases y with _ | _ | ⟨msg', t'⟩ <;>
        simp only [TriedAlike] at ht
      · exact ⟨rfl, equiv_saved hk⟩
      · exact ⟨congrArg Out.dec hd.1, hd.2⟩
      · obtain ⟨rfl, ht⟩ := ht
        have hd := decryptNew_alike r ht now hn h m
        by_cases hm : msg = []
        · simp only [hm, if_true]; exact ⟨congrArg Out.dec hd.1, hd.2⟩
        · simp only [hm, if_false]; exact ⟨trivial, equiv_saved ht⟩

theorem outputs_alike {a b : Ratchet} (h : Equiv a b) (os : List Op) :
    outputs a os = outputs b os := by
  induction os generalizing a b with
  | nil => rfl
  | cons o os ih =>
    have h1 := runOp_alike h o
    simp only [outputs, h1.1, ih h1.2]

/-- Is a saved key younger than the lifetime? -/
def young (now lifetime : Int) (v : SavedKey) : Bool := decide (now - v.ts ≤ lifetime)

/-- A ratchet without the saved keys that are too old. -/
def dropExpired (R : Ratchet) (now lifetime : Int) : Ratchet :=
  { R with saved := R.saved.map fun e => (e.1, e.2.filter fun x => young now lifetime x.2) }

theorem get_map_val {α β γ : Type} [DecidableEq α] (m : GoMap α β) (f : β → γ) (k : α) :
    GoMap.get (m.map fun e => (e.1, f e.2)) k = (GoMap.get m k).map f := by
  induction m with
  | nil => rfl
  | cons a m ih =>
    obtain ⟨x, v⟩ := a
    rw [List.map_cons, GoMap.get_cons, GoMap.get_cons, ih]
    split <;> rfl

/-- The reloaded ratchet cannot be told apart from the original without its expired keys: any
sequence of encryptions and decryptions returns the same results. -/
theorem C16_same_behaviour (R : Ratchet) (now lifetime : Int) (kx : Nat) (hw : WFS R.saved) :
    ∃ R', unmarshal (new R.kemSk R.theirKem kx) (marshal R now lifetime) = .ok R' ∧
      ∀ os, outputs R' os = outputs (dropExpired R now lifetime) os := by
  obtain ⟨R', h1, h2, _, h4⟩ := C16_roundtrip R now lifetime kx hw
  have hf : SameFields R' (dropExpired R now lifetime) := h2.symm
  refine ⟨R', h1, fun os => outputs_alike ⟨hf, ?_⟩ os⟩
  intro h n
  unfold keyAt
  rw [h4]
  have : get2 (dropExpired R now lifetime).saved h n =
      (get2 R.saved h n).filter (young now lifetime) := by
    unfold get2 dropExpired
    simp only []
    rw [get_map_val R.saved (fun m => m.filter fun x => young now lifetime x.2)]
    rcases hg : GoMap.get R.saved h with _ | ks
    · rfl
    · simp only [Option.map_some, Option.bind_some]
      exact get_filter _ (hw.2 h ks hg) n
  rw [this]
  rcases get2 R.saved h n with _ | v
  · rfl
  · by_cases hl : lifetime < now - v.ts
    · have : young now lifetime v = false := by simp [young]; omega
      simp [hl, this, Option.filter]
    · have : young now lifetime v = true := by simp [young]; omega
      simp [hl, this, Option.filter]

/-- If nothing has expired, the reloaded ratchet behaves like the original. -/
theorem C16_nothing_lost (R : Ratchet) (now lifetime : Int) (kx : Nat) (hw : WFS R.saved)
    (hy : ∀ h n v, get2 R.saved h n = some v → now - v.ts ≤ lifetime) :
    ∃ R', unmarshal (new R.kemSk R.theirKem kx) (marshal R now lifetime) = .ok R' ∧
      ∀ os, outputs R' os = outputs R os := by
  obtain ⟨R', h1, h2, _, h4⟩ := C16_roundtrip R now lifetime kx hw
  refine ⟨R', h1, fun os => outputs_alike ⟨h2.symm, ?_⟩ os⟩
  intro h n
  unfold keyAt
  rw [h4]
  rcases hg : get2 R.saved h n with _ | v
  · rfl
  · have := hy h n v hg
    simp only []
    rw [if_neg (by omega)]
    rfl

/-- Every reachable ratchet meets the hypothesis on the maps. -/
theorem C16_reachable {ka kb pa pb ra rb : Nat} {c : Conv} (hr : Reach ka kb pa pb ra rb c)
    (hw : c.wire.length + 1 < u32) (w : Bool) : WFS (c.st w).saved := by
  obtain ⟨p, r, k, hI⟩ := inv_reach hr hw
  exact (hI.pi w).wfs

/-- Every key in a stored record has its length. -/
def WholeRecord (d : Disk) : Prop :=
  d.rootKey.isSome ∧ d.sendHeaderKey.isSome ∧ d.recvHeaderKey.isSome ∧ d.nextSendHeaderKey.isSome ∧
  d.nextRecvHeaderKey.isSome ∧ d.sendChainKey.isSome ∧ d.recvChainKey.isSome ∧ d.sendPriv.isSome ∧ d.recvPub.isSome ∧
  d.priv ≠ some none ∧ d.myHalf ≠ some none ∧ d.theirHalf ≠ some none ∧
  ∀ x ∈ d.saved, x.1.isSome ∧ ∀ k ∈ x.2, k.key.isSome

theorem loadKeys_whole {ds : List DiskKey} {m m' : GoMap Nat SavedKey} (h : loadKeys ds m = some m') :
    ∀ k ∈ ds, k.key.isSome := by
  induction ds generalizing m with
  | nil => intro k hk; cases hk
  | cons d ds ih =>
    simp only [loadKeys] at h
    split at h
    · cases h
    · next hd =>
      intro k hk
      rcases List.mem_cons.1 hk with rfl | hk
      · simp [hd]
      · exact ih h k hk

theorem loadSaved_whole {l : List (Option Key × List DiskKey)} {s s' : Saved} (h : loadSaved l s = (true, s')) :
    ∀ x ∈ l, x.1.isSome ∧ ∀ k ∈ x.2, k.key.isSome := by
  induction l generalizing s with
  | nil => intro k hk; cases hk
  | cons d l ih =>
    obtain ⟨hk, ds⟩ := d
    cases hk with
    | none => simp [loadSaved] at h
    | some hk =>
      simp only [loadSaved] at h
      split at h
      · cases h
      · next hd =>
        intro x hx
        rcases List.mem_cons.1 hx with rfl | hx
        · exact ⟨rfl, loadKeys_whole hd⟩
        · exact ih h x hx

/-- **C16** A record in which any key has the wrong length, at any place, is not loaded. -/
theorem C16_damaged (r R' : Ratchet) (d : Disk) (h : unmarshal r d = .ok R') : WholeRecord d := by
  unfold unmarshal at h
  split at h
  · next e1 e2 e3 e4 e5 e6 e7 e8 e9 =>
    split at h
    · cases h
    · split at h
      · cases h
      · next ho =>
        split at h
        · cases h
        · next hs =>
          simp only [Bool.not_eq_true, Bool.not_eq_false', Bool.and_eq_true] at ho
          have hok : ∀ {α : Type} (x : Option (Option α)), optOk x = true → x ≠ some none := by
            intro α x hx e
            rw [e] at hx; cases hx
          refine ⟨by simp [e1], by simp [e2], by simp [e3], by simp [e4], by simp [e5], by simp [e6], by simp [e7],
            by simp [e8], by simp [e9], hok _ ho.1.1, hok _ ho.1.2, hok _ ho.2, loadSaved_whole hs⟩
  · cases h

/-- Non-trivial: a record with keys that were skipped; one of them is damaged and the record is refused. -/
example : ∃ d : Disk, unmarshal (new 1 2 0) (marshal (ex1.st true) 5 10) ≠ .err ∧
    d = { marshal (ex1.st true) 5 10 with saved := (marshal (ex1.st true) 5 10).saved.map fun x =>
      (x.1, x.2.map fun k => { k with key := none }) } ∧ unmarshal (new 1 2 0) d = .err :=
  ⟨_, by decide, rfl, by decide⟩

/-- Non-trivial: in `ex1` alice has skipped keys, one of which expires. -/
example : ∃ R', unmarshal (new 1 2 0) (marshal (ex1.st true) 5 10) = .ok R' ∧
    R'.saved ≠ [] := ⟨_, rfl, by decide⟩

end Verif.Ratchet
