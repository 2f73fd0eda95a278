import Verif.Proofs.RatchetInv

/-! `Decrypt` preserves the invariant and returns only what was sent. -/

namespace Verif.Ratchet

open Verif

theorem not_mem_append_ct {sk p wire} (hW : WI sk p wire) {acc : List Ct} {e e' : Sent}
    (he : e ∈ wire) (he' : e' ∈ wire) (h : e'.ct ∉ acc)
    (hne : ¬ (e'.chain = e.chain ∧ e'.num = e.num)) : e'.ct ∉ acc ++ [e.ct] := by
  intro hm
  rcases List.mem_append.mp hm with h1 | h1
  · exact h h1
  · simp only [List.mem_singleton] at h1
    have := ct_inj hW he' he h1
    subst this
    exact hne ⟨rfl, rfl⟩

/-- Using up a saved key. -/
theorem pi_used {sk p wire w R s r k acc lost} (hP : PI sk p wire w R s r k acc lost)
    (hW : WI sk p wire) {e : Sent} (he : e ∈ wire) (hw : e.who = !w) (hle : e.chain ≤ r)
    (hlim : e.num < lim (sentOn wire) r k e.chain)
    {keys : GoMap Nat SavedKey} (hk0 : GoMap.get R.saved (hk sk p e.chain) = some keys)
    (acc' : List Ct) (hacc : acc' = acc ++ [e.ct] ∨ (acc' = acc ∧ e.msg = [])) :
    PI sk p wire w { R with saved := (if keys.del e.num = [] then R.saved.del (hk sk p e.chain)
      else R.saved.set (hk sk p e.chain) (keys.del e.num)) } s r k acc' lost := by
  have h1 := (hW.shape e he).1
  refine ⟨⟨hP.pv.adj, hP.pv.root, hP.pv.shk, hP.pv.sck, hP.pv.scnt, hP.pv.prev, hP.pv.nshk,
    hP.pv.rhk, hP.pv.rck, hP.pv.rcnt, hP.pv.nrhk, hP.pv.rpub, hP.pv.flag, hP.pv.priv, hP.pv.kle⟩,
    hP.par, wfs_used hP.wfs _ hk0, ?_, ?_, ?_, ?_⟩
  · intro h n v hv
    simp only [] at hv
    rw [get2_used _ _ hk0] at hv
    split at hv
    · simp at hv
    · rename_i hne
      obtain ⟨j, a1, a2, a3, a4, a5, a6, a7⟩ := hP.sound h n v hv
      refine ⟨j, a1, a2, a3, a4, a5, a6, ?_⟩
      intro e' he' hc hn
      have h0 := a7 e' he' hc hn
      rcases hacc with rfl | ⟨rfl, _⟩
      · refine not_mem_append_ct hW he he' h0 ?_
        rintro ⟨b1, b2⟩
        apply hne
        refine ⟨?_, by omega⟩
        rw [a4, ← hc, b1]
      · exact h0
  · intro e' he' hw' hle' hlim' hmsg hacc' hlost
    have hne : ¬ (e'.chain = e.chain ∧ e'.num = e.num) := by
      rintro ⟨b1, b2⟩
      have := hW.uniq e' he' e he b1 b2
      subst this
      rcases hacc with rfl | ⟨rfl, hm⟩
      · exact hacc' (by simp)
      · exact hmsg hm
    have hacc0 : e'.ct ∉ acc := by
      rcases hacc with rfl | ⟨rfl, _⟩
      · exact fun h => hacc' (List.mem_append_left _ h)
      · exact hacc'
    obtain ⟨v, hv⟩ := hP.complete e' he' hw' hle' hlim' hmsg hacc0 hlost
    refine ⟨v, ?_⟩
    simp only []
    rw [get2_used _ _ hk0, if_neg, hv]
    rintro ⟨b1, b2⟩
    exact hne ⟨hk_inj b1, b2⟩
  · intro e' he' hm
    rcases hacc with rfl | ⟨rfl, _⟩
    · rcases List.mem_append.mp hm with h | h
      · exact hP.accOk e' he' h
      · simp only [List.mem_singleton] at h
        have := ct_inj hW he' he h
        subst this
        exact ⟨hw, hle, hlim⟩
    · exact hP.accOk e' he' hm
  · rcases hP.last with h | ⟨e', he', b1, b2, b3⟩
    · exact .inl h
    · refine .inr ⟨e', he', b1, b2, ?_⟩
      rcases hacc with rfl | ⟨rfl, _⟩
      · exact List.mem_append_left _ b3
      · exact b3

/-- Receiving a message of the current chain. -/
theorem pi_cur {sk p wire w R s r k acc lost} (hP : PI sk p wire w R s r k acc lost)
    (hW : WI sk p wire) {e : Sent} (he : e ∈ wire) (hw : e.who = !w) (hj : e.chain = r)
    (hkn : k ≤ e.num) (hu : e.num + 1 < u32) (now : Int) :
    PI sk p wire w (afterCur R now e.num) s r (e.num + 1) (acc ++ [e.ct]) lost := by
  have hsh := hW.shape e he
  have h1 := hsh.1
  have hnum := hsh.2.2.1
  have hget : ∀ h n, get2 (afterCur R now e.num).saved h n =
      if h = hk sk p r ∧ k ≤ n ∧ n < e.num then some ⟨mk sk p r n, now⟩
      else get2 R.saved h n := by
    intro h n
    simp only [afterCur, hP.pv.rhk, hP.pv.rck, hP.pv.rcnt]
    exact get2_save sk p r k e.num now R.saved _ hkn h n
  refine ⟨⟨hP.pv.adj, hP.pv.root, hP.pv.shk, hP.pv.sck, hP.pv.scnt, hP.pv.prev, hP.pv.nshk,
    hP.pv.rhk, ?_, ?_, hP.pv.nrhk, hP.pv.rpub, hP.pv.flag, hP.pv.priv, ?_⟩,
    hP.par, ?_, ?_, ?_, ?_, .inr ⟨e, he, hj, rfl, by simp⟩⟩
  · simp only [afterCur, hP.pv.rck, hP.pv.rcnt]
    rw [(advance_spec sk p r now _ _).1]
    congr 1; omega
  · simp only [afterCur]
    exact Nat.mod_eq_of_lt (by omega)
  · rw [← hj]; omega
  · exact wfs_save _ _ _ _ hP.wfs _
  · intro h n v hv
    rw [hget] at hv
    split at hv
    · rename_i hc
      simp only [Option.some.injEq] at hv
      subst hv
      refine ⟨r, by omega, Nat.le_refl _, rfl, hc.1, ?_, rfl, ?_⟩
      · unfold lim; rw [if_pos rfl]; omega
      · intro e' he' hc' hn'
        refine not_mem_append_ct hW he he' ?_ (by omega)
        intro hm
        have := (hP.accOk e' he' hm).2.2
        unfold lim at this
        rw [if_pos hc'] at this
        omega
    · obtain ⟨j, a1, a2, a3, a4, a5, a6, a7⟩ := hP.sound h n v hv
      refine ⟨j, a1, a2, a3, a4, ?_, a6, ?_⟩
      · unfold lim at a5 ⊢
        split at a5
        · rename_i h; rw [if_pos h]; omega
        · rename_i h; rw [if_neg h]; exact a5
      · intro e' he' hc' hn'
        refine not_mem_append_ct hW he he' (a7 e' he' hc' hn') ?_
        rintro ⟨b1, b2⟩
        unfold lim at a5
        rw [if_pos (by omega)] at a5
        omega
  · intro e' he' hw' hle' hlim' hmsg hacc' hlost
    have hacc0 : e'.ct ∉ acc := fun h => hacc' (List.mem_append_left _ h)
    have hne : ¬ (e'.chain = e.chain ∧ e'.num = e.num) := by
      rintro ⟨b1, b2⟩
      have := hW.uniq e' he' e he b1 b2
      subst this
      exact hacc' (by simp)
    rw [hget]
    split
    · exact ⟨_, rfl⟩
    · rename_i hc
      apply hP.complete e' he' hw' hle' _ hmsg hacc0 hlost
      unfold lim at hlim' ⊢
      by_cases hjr : e'.chain = r
      · rw [if_pos hjr] at hlim' ⊢
        rw [hjr] at hc
        have : ¬ (e'.num = e.num) := fun h => hne ⟨by omega, h⟩
        have : ¬ (k ≤ e'.num ∧ e'.num < e.num) := fun h => hc ⟨rfl, h⟩
        omega
      · rw [if_neg hjr] at hlim' ⊢; exact hlim'
  · intro e' he' hm
    rcases List.mem_append.mp hm with h | h
    · obtain ⟨a1, a2, a3⟩ := hP.accOk e' he' h
      refine ⟨a1, a2, ?_⟩
      unfold lim at a3 ⊢
      split at a3
      · rename_i h; rw [if_pos h]; omega
      · rename_i h; rw [if_neg h]; exact a3
    · simp only [List.mem_singleton] at h
      have := ct_inj hW he' he h
      subst this
      refine ⟨hw, by omega, ?_⟩
      unfold lim; rw [if_pos hj]; omega

/-- Receiving the first message of the next chain. -/
theorem pi_next {sk p wire w R s r k acc lost} (hP : PI sk p wire w R s r k acc lost)
    (hW : WI sk p wire) {e : Sent} (he : e ∈ wire) (hw : e.who = !w) (hj : e.chain = r + 2)
    (hs : s = r + 1) (hu : e.num + 1 < u32) (now : Int)
    (htop : ∀ e' ∈ wire, e'.who = (!w) → e'.chain ≤ r + 2) :
    PI sk p wire w (afterNext R (mat sk p (r + 2)) now e.num (sentOn wire r) (.of (p (r + 2))))
      s (r + 2) (e.num + 1) (acc ++ [e.ct]) lost := by
  have hsh := hW.shape e he
  have h1 := hsh.1
  have hnum := hsh.2.2.1
  have hkle := hP.pv.kle
  have hck : Key.hmac .chainKey (mat sk p (r + 2)) = ck sk p (r + 2) 0 := by simp [ck]
  have hget : ∀ h n, get2 (afterNext R (mat sk p (r + 2)) now e.num (sentOn wire r)
      (.of (p (r + 2)))).saved h n =
      if h = hk sk p (r + 2) ∧ n < e.num then some ⟨mk sk p (r + 2) n, now⟩
      else if h = hk sk p r ∧ k ≤ n ∧ n < sentOn wire r then some ⟨mk sk p r n, now⟩
      else get2 R.saved h n := by
    intro h n
    simp only [afterNext, hP.pv.rhk, hP.pv.rck, hP.pv.rcnt, hP.pv.nrhk]
    rw [hck, get2_save sk p (r + 2) 0 e.num now _ _ (Nat.zero_le _) h n,
      get2_save sk p r k (sentOn wire r) now R.saved _ hkle h n]
    simp only [Nat.zero_le, true_and]
  have hnot0 : ∀ e' ∈ wire, e'.ct ∈ acc → e'.chain ≤ r := fun e' he' h => (hP.accOk e' he' h).2.1
  refine ⟨⟨.inr (by omega), ?_, hP.pv.shk, hP.pv.sck, hP.pv.scnt, hP.pv.prev, hP.pv.nshk,
    hP.pv.nrhk, ?_, ?_, ?_, fun _ => rfl, ?_, ?_, ?_⟩,
    ?_, ?_, ?_, ?_, ?_, .inr ⟨e, he, hj, rfl, by simp⟩⟩
  · have : max s (r + 2) = r + 2 := by omega
    rw [this]; rfl
  · simp only [afterNext]
    rw [hck, (advance_spec sk p (r + 2) now _ _).1]
    congr 1; omega
  · simp only [afterNext]
    exact Nat.mod_eq_of_lt (by omega)
  · simp only [afterNext]
    rw [hk_next (by omega)]
  · simp only [afterNext, true_iff]; omega
  · intro h; omega
  · rw [← hj]; omega
  · rw [Nat.add_mod_right]; exact hP.par
  · exact wfs_save _ 0 _ _ (wfs_save _ _ _ _ hP.wfs _) _
  · intro h n v hv
    rw [hget] at hv
    split at hv
    · rename_i hc
      simp only [Option.some.injEq] at hv
      subst hv
      refine ⟨r + 2, by omega, Nat.le_refl _, rfl, hc.1, ?_, rfl, ?_⟩
      · unfold lim; rw [if_pos rfl]; omega
      · intro e' he' hc' hn'
        refine not_mem_append_ct hW he he' ?_ (by omega)
        intro hm
        have := hnot0 e' he' hm
        omega
    · split at hv
      · rename_i hc
        simp only [Option.some.injEq] at hv
        subst hv
        have hr1 : 1 ≤ r := by
          rcases Nat.eq_zero_or_pos r with h0 | h0
          · subst h0; rw [sentOn_zero hW] at hc; omega
          · exact h0
        refine ⟨r, hr1, by omega, by omega, hc.1, ?_, rfl, ?_⟩
        · unfold lim; rw [if_neg (by omega)]; exact hc.2.2
        · intro e' he' hc' hn'
          refine not_mem_append_ct hW he he' ?_ (by omega)
          intro hm
          have := (hP.accOk e' he' hm).2.2
          unfold lim at this
          rw [if_pos hc'] at this
          omega
      · obtain ⟨j, a1, a2, a3, a4, a5, a6, a7⟩ := hP.sound h n v hv
        refine ⟨j, a1, by omega, by omega, a4, ?_, a6, ?_⟩
        · unfold lim at a5 ⊢
          rw [if_neg (by omega)]
          split at a5
          · rename_i h; rw [h]; omega
          · exact a5
        · intro e' he' hc' hn'
          exact not_mem_append_ct hW he he' (a7 e' he' hc' hn') (by omega)
  · intro e' he' hw' hle' hlim' hmsg hacc' hlost
    have hacc0 : e'.ct ∉ acc := fun h => hacc' (List.mem_append_left _ h)
    have hne : ¬ (e'.chain = e.chain ∧ e'.num = e.num) := by
      rintro ⟨b1, b2⟩
      have := hW.uniq e' he' e he b1 b2
      subst this
      exact hacc' (by simp)
    have hpar' : e'.chain % 2 = e.chain % 2 := by
      have x1 := (hW.shape e' he').2.1
      have x2 := hsh.2.1
      rw [hw'] at x1
      rw [hw] at x2
      cases w <;> simp at x1 x2 <;> omega
    rw [hget]
    by_cases hjr : e'.chain = r + 2
    · unfold lim at hlim'
      rw [if_pos hjr] at hlim'
      have : ¬ (e'.num = e.num) := fun h => hne ⟨by omega, h⟩
      rw [if_pos ⟨by rw [hjr], by omega⟩]
      exact ⟨_, rfl⟩
    · rw [if_neg (by rintro ⟨h, _⟩; exact hjr (hk_inj h))]
      unfold lim at hlim'
      rw [if_neg hjr] at hlim'
      split
      · exact ⟨_, rfl⟩
      · rename_i hc
        apply hP.complete e' he' hw' (by omega) _ hmsg hacc0 hlost
        unfold lim
        by_cases hjr' : e'.chain = r
        · rw [if_pos hjr']
          rw [hjr'] at hc hlim'
          by_contra hcon
          exact hc ⟨rfl, by omega, hlim'⟩
        · rw [if_neg hjr']; exact hlim'
  · intro e' he' hm
    rcases List.mem_append.mp hm with h | h
    · obtain ⟨a1, a2, a3⟩ := hP.accOk e' he' h
      refine ⟨a1, by omega, ?_⟩
      unfold lim at a3 ⊢
      rw [if_neg (by omega)]
      split at a3
      · rename_i h; rw [h]; omega
      · exact a3
    · simp only [List.mem_singleton] at h
      have := ct_inj hW he' he h
      subst this
      refine ⟨hw, by omega, ?_⟩
      unfold lim; rw [if_pos hj]; omega

/-- What is known about the chains of messages addressed to a party. -/
def Top (wire : List Sent) (w : Bool) (s r : Nat) : Prop :=
  ∀ e ∈ wire, e.who = (!w) → e.chain ≤ r ∨ (e.chain = r + 2 ∧ s = r + 1)

/-- `Decrypt` on anything the attacker can assemble: either it returns the plaintext of an
undelivered message of the peer with exactly this ciphertext, or it fails; the invariant
survives either way. -/
theorem recv_party {sk p wire w R s r k acc lost} (hP : PI sk p wire w R s r k acc lost)
    (hW : WI sk p wire) (hT : Top wire w s r) (hlen : wire.length + 1 < u32) (now : Int)
    {ct : Ct} (hl : CanAssemble sk wire ct) :
    (∃ e ∈ wire, e.ct = ct ∧ e.who = (!w) ∧ ct ∉ acc ∧ ∃ R' r' k',
      decrypt R now ct = (.ok e.msg, R') ∧ PI sk p wire w R' s r' k' (acc ++ [ct]) lost ∧
      (r' = r ∨ (r' = r + 2 ∧ s = r + 1 ∧ e.chain = r + 2))) ∨
    (∃ res R', decrypt R now ct = (res, R') ∧ (∀ m, res ≠ .ok m) ∧
      PI sk p wire w R' s r k acc lost ∧
      (R' = R ∨ ∃ e ∈ wire, e.ct = ct ∧ e.who = (!w) ∧ ct ∉ acc ∧ e.msg = [] ∧
        e.num < lim (sentOn wire) r k e.chain)) := by
  cases ct with
  | short => exact .inr ⟨.err, R, rfl, by simp, hP, .inl rfl⟩
  | mk hn hb m =>
    obtain ⟨hh, hbd⟩ := hl
    have hfail : ∀ {x}, decrypt R now (.mk hn hb m) = (x, R) → (∀ m, x ≠ .ok m) →
        (∃ res R', decrypt R now (.mk hn hb m) = (res, R') ∧ (∀ m, res ≠ .ok m) ∧
          PI sk p wire w R' s r k acc lost ∧
          (R' = R ∨ ∃ e ∈ wire, e.ct = (.mk hn hb m) ∧ e.who = (!w) ∧ (.mk hn hb m) ∉ acc ∧
            e.msg = [] ∧ e.num < lim (sentOn wire) r k e.chain)) :=
      fun h hx => ⟨_, R, h, hx, hP, .inl rfl⟩
    rcases header_cases hW hh hn with hf | ⟨e, he, mn, hct, hbe⟩
    · exact .inr (hfail (decrypt_foreign hP now fun j h1 _ => hf j h1) (by simp))
    · have hsh := hW.shape e he
      have hu : e.num + 1 < u32 := by
        have := hsh.2.2.1
        have := sentOn_le wire e.chain
        omega
      by_cases hw : e.who = !w
      · have hnum := hsh.2.2.1
        have hpar : e.chain % 2 = r % 2 := by
          have x1 := hsh.2.1
          have x2 := hP.par
          rw [hw] at x1
          cases w <;> simp at x1 x2 <;> omega
        -- what an opened body implies
        have hopen : ∀ {msg}, openM (mk sk p e.chain e.num) mn m = some msg →
            msg = e.msg ∧ e.ct = .mk hn hb m := by
          intro msg ho
          obtain ⟨a1, hn', h', a2, a3⟩ := body_from_wire hW he hbd ho
          refine ⟨a1, ?_⟩
          rw [hct] at a2
          simp only [Ct.mk.injEq] at a2
          rw [hct, a2.2.2]
        rcases hT e he hw with hle | ⟨hj, hs⟩
        · -- a chain we know
          rcases hg : get2 R.saved (hk sk p e.chain) e.num with _ | v
          · -- no saved key
            have htry : tryLoop R.saved hn hb m R.saved = .nothing := by
              rw [hbe, try_entry]; simp only [hg]
            by_cases hlate : e.num < lim (sentOn wire) r k e.chain
            · refine .inr (hfail ?_ (by simp) (x := .err))
              simp only [decrypt, htry]
              rw [hbe]
              exact decryptNew_late hP now R.saved hsh.1 hle hlate
            · have hj : e.chain = r := by
                by_contra hne
                unfold lim at hlate
                rw [if_neg hne] at hlate
                exact hlate hnum
              have hkn : k ≤ e.num := by
                unfold lim at hlate
                rw [if_pos hj] at hlate
                omega
              have hd : decrypt R now (.mk hn hb m) = decryptNew R now hn hb m := by
                simp only [decrypt, htry]
              have hd2 := decryptNew_cur hP (e := e) (hn := hn) (mn := mn)
                (pc := sentOn wire (e.chain - 2)) (pub := .of (p e.chain)) (m := m) now hsh.1 hj hkn hu
              rw [← hbe] at hd2
              by_cases hwin : e.num - k ≤ maxMissing
              · rw [if_pos hwin] at hd2
                rcases ho : openM (mk sk p e.chain e.num) mn m with _ | msg
                · rw [ho] at hd2
                  exact .inr (hfail (by rw [hd, hd2]) (by simp))
                · rw [ho] at hd2
                  obtain ⟨a1, a2⟩ := hopen ho
                  subst a1
                  left
                  refine ⟨e, he, a2, hw, ?_, _, r, e.num + 1, by rw [hd, hd2], ?_, .inl rfl⟩
                  · intro hm
                    rw [← a2] at hm
                    exact hlate (hP.accOk e he hm).2.2
                  · rw [← a2]
                    exact pi_cur hP hW he hw hj hkn hu now
              · rw [if_neg hwin] at hd2
                exact .inr (hfail (by rw [hd, hd2]) (by simp))
          · -- a saved key
            obtain ⟨j, a1, a2, a3, a4, a5, a6, a7⟩ := hP.sound _ _ _ hg
            have hjj := hk_inj a4
            subst hjj
            rcases ho : openM (mk sk p e.chain e.num) mn m with _ | msg
            · refine .inr (hfail (x := .err) ?_ (by simp))
              have htry : tryLoop R.saved hn hb m R.saved = .failed := by
                rw [hbe, try_entry]; simp only [hg, a6, ho]
              simp only [decrypt, htry]
            · obtain ⟨b1, b2⟩ := hopen ho
              have hnacc : (.mk hn hb m) ∉ acc := by
                rw [← b2]; exact a7 e he rfl rfl
              rcases hgk : GoMap.get R.saved (hk sk p e.chain) with _ | keys
              · rw [get2, hgk] at hg; simp at hg
              · have htry : tryLoop R.saved hn hb m R.saved = .opened msg
                    (if keys.del e.num = [] then R.saved.del (hk sk p e.chain)
                      else R.saved.set (hk sk p e.chain) (keys.del e.num)) := by
                  rw [hbe, try_entry]; simp only [hg, a6, ho, hgk]
                by_cases hmt : msg = []
                · right
                  refine ⟨.err, { R with saved := (if keys.del e.num = []
                      then R.saved.del (hk sk p e.chain)
                      else R.saved.set (hk sk p e.chain) (keys.del e.num)) }, ?_, by simp, ?_, ?_⟩
                  · simp only [decrypt, htry]
                    rw [if_pos hmt, hbe]
                    exact decryptNew_late hP now _ hsh.1 hle a5
                  · exact pi_used hP hW he hw hle a5 hgk acc (.inr ⟨rfl, by rw [← b1]; exact hmt⟩)
                  · exact .inr ⟨e, he, b2, hw, hnacc, by rw [← b1]; exact hmt, a5⟩
                · left
                  subst b1
                  refine ⟨e, he, b2, hw, hnacc, { R with saved := (if keys.del e.num = []
                      then R.saved.del (hk sk p e.chain)
                      else R.saved.set (hk sk p e.chain) (keys.del e.num)) }, r, k, ?_, ?_, .inl rfl⟩
                  · simp only [decrypt, htry]
                    rw [if_neg hmt]
                  · exact pi_used hP hW he hw hle a5 hgk _ (.inl (by rw [b2]))
        · -- the next chain
          have htry : tryLoop R.saved hn hb m R.saved = .nothing := by
            rw [hbe, try_entry]
            rcases hg : get2 R.saved (hk sk p e.chain) e.num with _ | v
            · rfl
            · obtain ⟨j, a1, a2, a3, a4, _⟩ := hP.sound _ _ _ hg
              have := hk_inj a4
              omega
          have hd : decrypt R now (.mk hn hb m) = decryptNew R now hn hb m := by
            simp only [decrypt, htry]
          have hu' : sentOn wire r + 1 < u32 := by
            have := sentOn_le wire r; omega
          have hd2 := decryptNew_next hP (e := e) (hn := hn) (mn := mn) (m := m) now hj hs hu hu'
          rw [← hbe] at hd2
          by_cases hwin : sentOn wire r - k ≤ maxMissing ∧ e.num ≤ maxMissing
          · rw [if_pos hwin] at hd2
            rcases ho : openM (mk sk p e.chain e.num) mn m with _ | msg
            · rw [ho] at hd2
              exact .inr (hfail (by rw [hd, hd2]) (by simp))
            · rw [ho] at hd2
              obtain ⟨b1, b2⟩ := hopen ho
              subst b1
              left
              refine ⟨e, he, b2, hw, ?_, _, r + 2, e.num + 1, by rw [hd, hd2], ?_,
                .inr ⟨rfl, hs, hj⟩⟩
              · intro hm
                rw [← b2] at hm
                have := (hP.accOk e he hm).2.1
                omega
              · rw [← b2]
                refine pi_next hP hW he hw hj hs hu now ?_
                intro e' he' hw'
                rcases hT e' he' hw' with h | h <;> omega
          · rw [if_neg hwin] at hd2
            exact .inr (hfail (by rw [hd, hd2]) (by simp))
      · -- our own message reflected
        refine .inr (hfail (decrypt_foreign hP now ?_) (by simp))
        intro j hj hjr
        rw [hbe]
        apply openH_ne
        intro hh
        have := hk_inj hh
        subst this
        have x1 := hsh.2.1
        have x2 := hP.par
        have : e.who = w := by
          cases hh : e.who <;> cases w <;> simp_all
        rw [this] at x1
        cases w <;> simp at x1 x2 <;> omega

end Verif.Ratchet
