import Verif.Proofs.RatchetRecv

/-! `Encrypt`, saving and reloading preserve the invariant; every reachable conversation has it. -/

namespace Verif.Ratchet

open Verif

/-! ## Marshal and Unmarshal -/

theorem get_foldl_setf {β γ δ : Type} [DecidableEq β] (f : γ → δ) {new : GoMap β γ}
    (hw : GoMap.WF new) (old : GoMap β δ) (n : β) :
    GoMap.get (new.foldl (fun m e => GoMap.set m e.1 (f e.2)) old) n =
      match GoMap.get new n with
      | some v => some (f v)
      | none => GoMap.get old n := by
  induction new generalizing old with
  | nil => rfl
  | cons a new ih =>
    obtain ⟨k, v⟩ := a
    have hnd : k ∉ GoMap.keys new ∧ (GoMap.keys new).Nodup := List.nodup_cons.mp hw
    rw [List.foldl_cons, ih hnd.2, GoMap.get_cons, GoMap.get_set]
    by_cases hk : k = n
    · subst hk
      have : GoMap.get new k = none := (GoMap.not_mem_keys_iff new k).mp hnd.1
      simp [this]
    · simp [hk]

theorem wf_foldl_setf {β γ δ : Type} [DecidableEq β] (f : γ → δ) (new : GoMap β γ)
    {old : GoMap β δ} (ho : GoMap.WF old) :
    GoMap.WF (new.foldl (fun m e => GoMap.set m e.1 (f e.2)) old) := by
  induction new generalizing old with
  | nil => exact ho
  | cons a new ih => exact ih (GoMap.wf_set ho _ _)

theorem get_filter {β γ : Type} [DecidableEq β] (q : γ → Bool) {m : GoMap β γ} (hw : GoMap.WF m)
    (n : β) : GoMap.get (m.filter fun x => q x.2) n = (GoMap.get m n).filter q := by
  induction m with
  | nil => rfl
  | cons a m ih =>
    obtain ⟨k, v⟩ := a
    have hnd : k ∉ GoMap.keys m ∧ (GoMap.keys m).Nodup := List.nodup_cons.mp hw
    rw [List.filter_cons, GoMap.get_cons]
    by_cases hk : k = n
    · subst hk
      have hn : GoMap.get m k = none := (GoMap.not_mem_keys_iff m k).mp hnd.1
      by_cases hq : q v
      · simp [hq, GoMap.get_cons, Option.filter]
      · simp [hq, ih hnd.2, hn, Option.filter]
    · by_cases hq : q v
      · simp [hq, GoMap.get_cons, hk, ih hnd.2]
      · simp [hq, hk, ih hnd.2]

theorem wf_filter {β γ : Type} (q : β × γ → Bool) {m : GoMap β γ} (hw : GoMap.WF m) :
    GoMap.WF (m.filter q) :=
  (List.Sublist.map Prod.fst (List.filter_sublist (p := q) (l := m))).nodup hw

/-- A saved key as it comes back from disk. -/
def reloadKey (k : SavedKey) : SavedKey := ⟨k.key, k.ts / second * second⟩

/-- A message key map as it comes back from disk. -/
def reloadKeys (now lifetime : Int) (ks : GoMap Nat SavedKey) : GoMap Nat SavedKey :=
  (ks.filter fun x => keep now lifetime x.2).foldl (fun m e => GoMap.set m e.1 (reloadKey e.2)) []

/-- The saved keys as they come back from disk. -/
def reloadSaved (now lifetime : Int) (s : Saved) : Saved :=
  s.foldl (fun m e => GoMap.set m e.1 (reloadKeys now lifetime e.2)) []

theorem loadKeys_map (l : GoMap Nat SavedKey) (m : GoMap Nat SavedKey) :
    loadKeys (l.map fun x => (⟨x.1, some x.2.key, x.2.ts / second⟩ : DiskKey)) m =
      some (l.foldl (fun m e => GoMap.set m e.1 (reloadKey e.2)) m) := by
  induction l generalizing m with
  | nil => rfl
  | cons a l ih => simp only [List.map_cons, loadKeys, List.foldl_cons]; exact ih _

theorem loadSaved_map (now lifetime : Int) (l : Saved) (s : Saved) :
    loadSaved (l.map fun e => (some e.1, (e.2.filter fun x => keep now lifetime x.2).map fun x =>
      (⟨x.1, some x.2.key, x.2.ts / second⟩ : DiskKey))) s =
      (true, l.foldl (fun m e => GoMap.set m e.1 (reloadKeys now lifetime e.2)) s) := by
  induction l generalizing s with
  | nil => rfl
  | cons a l ih =>
    obtain ⟨h, ks⟩ := a
    simp only [List.map_cons, loadSaved, List.foldl_cons, loadKeys_map]
    exact ih _

theorem unmarshal_marshal (R R0 : Ratchet) (now lifetime : Int)
    (h0 : R0.kxPrivate.isSome) (h1 : R0.saved = []) (h2 : R0.kemSk = R.kemSk)
    (h3 : R0.theirKem = R.theirKem) :
    unmarshal R0 (marshal R now lifetime) =
      .ok { R with saved := reloadSaved now lifetime R.saved } := by
  unfold unmarshal marshal
  simp only []
  have hc : ((Option.map some R.kxPrivate).join.isSome && R0.kxPrivate.isNone) = false := by
    obtain ⟨x, hx⟩ := Option.isSome_iff_exists.mp h0
    simp [hx]
  have hok : ∀ {α : Type} (o : Option α), optOk (o.map some) = true := by
    intro α o; cases o <;> rfl
  rw [hc]
  simp only [Bool.false_eq_true, if_false, hok, Bool.and_self, Bool.not_true]
  rw [h1, loadSaved_map]
  have hj : ∀ {α : Type} (o : Option α), (o.map some).join = o := by
    intro α o; cases o <;> rfl
  simp only [hj, h2, h3]
  rfl

theorem get2_reload {s : Saved} (hw : WFS s) (now lifetime : Int) (h : Key) (n : Nat) :
    get2 (reloadSaved now lifetime s) h n =
      ((get2 s h n).filter (keep now lifetime)).map reloadKey := by
  unfold get2 reloadSaved
  rw [get_foldl_setf _ hw.1]
  rcases hg : GoMap.get s h with _ | ks
  · rfl
  · simp only [Option.bind_some]
    unfold reloadKeys
    rw [get_foldl_setf _ (wf_filter _ (hw.2 h ks hg)), get_filter _ (hw.2 h ks hg)]
    rcases (GoMap.get ks n).filter (keep now lifetime) with _ | v <;> rfl

theorem wfs_reload {s : Saved} (hw : WFS s) (now lifetime : Int) :
    WFS (reloadSaved now lifetime s) := by
  refine ⟨wf_foldl_setf _ _ GoMap.wf_nil, ?_⟩
  intro h m hm
  unfold reloadSaved at hm
  rw [get_foldl_setf _ hw.1] at hm
  rcases hg : GoMap.get s h with _ | ks
  · rw [hg] at hm; simp at hm
  · rw [hg] at hm
    simp only [Option.some.injEq] at hm
    subst hm
    exact wf_foldl_setf _ _ GoMap.wf_nil

theorem mem_expired {R : Ratchet} {now lifetime : Int} {h : Key} {n : Nat} {v : SavedKey}
    (hv : get2 R.saved h n = some v) (hk : keep now lifetime v = false) :
    v.key ∈ expired R now lifetime := by
  unfold get2 at hv
  rcases hg : GoMap.get R.saved h with _ | ks
  · rw [hg] at hv; simp at hv
  · rw [hg] at hv
    simp only [Option.bind_some] at hv
    unfold expired
    rw [List.mem_flatMap]
    refine ⟨(h, ks), GoMap.mem_of_get hg, ?_⟩
    rw [List.mem_map]
    exact ⟨(n, v), List.mem_filter.mpr ⟨GoMap.mem_of_get hv, by simp [hk]⟩, rfl⟩

theorem pi_reload {sk p wire w R s r k acc lost} (hP : PI sk p wire w R s r k acc lost)
    (now lifetime : Int) :
    PI sk p wire w { R with saved := reloadSaved now lifetime R.saved } s r k acc
      (lost ++ expired R now lifetime) := by
  refine ⟨⟨hP.pv.adj, hP.pv.root, hP.pv.shk, hP.pv.sck, hP.pv.scnt, hP.pv.prev, hP.pv.nshk,
    hP.pv.rhk, hP.pv.rck, hP.pv.rcnt, hP.pv.nrhk, hP.pv.rpub, hP.pv.flag, hP.pv.priv, hP.pv.kle⟩,
    hP.par, wfs_reload hP.wfs _ _, ?_, ?_, hP.accOk, hP.last⟩
  · intro h n v hv
    simp only [] at hv
    rw [get2_reload hP.wfs] at hv
    rcases hg : get2 R.saved h n with _ | v'
    · rw [hg] at hv; simp at hv
    · rw [hg] at hv
      obtain ⟨j, a1, a2, a3, a4, a5, a6, a7⟩ := hP.sound h n v' hg
      refine ⟨j, a1, a2, a3, a4, a5, ?_, a7⟩
      simp only [Option.filter] at hv
      split at hv
      · simp only [Option.map_some, Option.some.injEq] at hv
        rw [← hv]; exact a6
      · simp at hv
  · intro e he hw hle hlim hmsg hacc hlost
    have hl : mk sk p e.chain e.num ∉ lost := fun h => hlost (List.mem_append_left _ h)
    obtain ⟨v, hv⟩ := hP.complete e he hw hle hlim hmsg hacc hl
    simp only []
    rw [get2_reload hP.wfs, hv]
    rcases hk : keep now lifetime v with _ | _
    · exfalso
      apply hlost
      apply List.mem_append_right
      obtain ⟨j, a1, _, _, a4, _, a6, _⟩ := hP.sound _ _ _ hv
      have := hk_inj a4
      subst this
      rw [← a6]
      exact mem_expired hv hk
    · exact ⟨reloadKey v, by simp [Option.filter, hk]⟩

/-! ## The whole conversation -/

/-- The invariant. -/
structure Inv (sk : Key) (c : Conv) (p : Nat → Nat) (r k : Bool → Nat) : Prop where
  wi : WI sk p c.wire
  pi : ∀ w, PI sk p c.wire w (c.st w) (c.chain w) (r w) (k w) (c.acc w) (c.lost w)
  peer : ∀ w, r w = c.chain (!w) ∨ r w + 2 = c.chain (!w)
  top : ∀ e ∈ c.wire, e.chain ≤ c.chain e.who
  accW : ∀ w, ∀ ct ∈ c.acc w, ∃ e ∈ c.wire, e.ct = ct

theorem Inv.toTop {sk c p r k} (h : Inv sk c p r k) (w : Bool) :
    Top c.wire w (c.chain w) (r w) := by
  intro e he hw
  have h1 := h.top e he
  rw [hw] at h1
  have a1 := (h.pi w).pv.adj
  have a2 := (h.pi (!w)).pv.adj
  have b1 := h.peer w
  have b2 := h.peer (!w)
  rw [Bool.not_not] at b2
  have x1 := (h.wi.shape e he).2.1
  have x2 := (h.pi w).par
  rw [hw] at x1
  cases w <;> simp at x1 x2 a2 b1 b2 h1 <;> omega

theorem upd_self {α : Type} (f : Bool → α) (w : Bool) (x : α) : upd f w x w = x := by simp [upd]
theorem upd_not {α : Type} (f : Bool → α) (w : Bool) (x : α) : upd f w x (!w) = f (!w) := by
  cases w <;> simp [upd]

theorem bool_cases (w v : Bool) : v = w ∨ v = !w := by cases v <;> cases w <;> simp

theorem inv_recv {sk c p r k} (h : Inv sk c p r k) (hlen : c.wire.length + 1 < u32) (w : Bool)
    (now : Int) {ct : Ct} (hl : CanAssemble sk c.wire ct) :
    ∃ r' k', Inv sk (step c (.recv w now ct)) p r' k' := by
  rcases recv_party (h.pi w) h.wi (h.toTop w) hlen now hl with
    ⟨e, he, hct, hw, hacc, R', r', k', hd, hP, hr⟩ | ⟨res, R', hd, hres, hP, _⟩
  · refine ⟨upd r w r', upd k w k', ?_⟩
    simp only [step, hd]
    refine ⟨h.wi, ?_, ?_, h.top, ?_⟩
    · intro v
      rcases bool_cases w v with rfl | rfl
      · simp only [upd_self]; exact hP
      · simp only [upd_not]; exact h.pi _
    · intro v
      rcases bool_cases w v with rfl | rfl
      · simp only [upd_self]
        rcases hr with rfl | ⟨rfl, hs, hj⟩
        · exact h.peer _
        · have h1 := h.top e he
          rw [hw] at h1
          have := h.peer v
          left; omega
      · simp only [upd_not]; exact h.peer _
    · intro v ct' hm
      rcases bool_cases w v with rfl | rfl
      · simp only [upd_self] at hm
        rcases List.mem_append.mp hm with h1 | h1
        · exact h.accW _ _ h1
        · simp only [List.mem_singleton] at h1
          exact ⟨e, he, by rw [h1, hct]⟩
      · simp only [upd_not] at hm; exact h.accW _ _ hm
  · refine ⟨r, k, ?_⟩
    have : step c (.recv w now ct) = { c with st := upd c.st w R' } := by
      simp only [step, hd]
    rw [this]
    refine ⟨h.wi, ?_, h.peer, h.top, h.accW⟩
    intro v
    rcases bool_cases w v with rfl | rfl
    · simp only [upd_self]; exact hP
    · simp only [upd_not]; exact h.pi _

theorem inv_reload {sk c p r k} (h : Inv sk c p r k) (w : Bool) (now lifetime : Int) :
    Inv sk (step c (.reload w now lifetime)) p r k := by
  have := unmarshal_marshal (c.st w) (new (c.st w).kemSk (c.st w).theirKem 0) now lifetime
    rfl rfl rfl rfl
  simp only [step, this]
  refine ⟨h.wi, ?_, h.peer, h.top, h.accW⟩
  intro v
  rcases bool_cases w v with rfl | rfl
  · simp only [upd_self]; exact pi_reload (h.pi _) _ _
  · simp only [upd_not]; exact h.pi _

theorem sentOn_append (wire : List Sent) (e : Sent) (j : Nat) :
    sentOn (wire ++ [e]) j = sentOn wire j + if e.chain = j then 1 else 0 := by
  unfold sentOn
  rw [List.filter_append, List.length_append]
  by_cases h : e.chain = j <;> simp [h]

/-- Sending on the current chain. -/
theorem inv_send_cur {sk c p r k} (h : Inv sk c p r k) (hlen : c.wire.length + 1 < u32) (w : Bool)
    (hn mn : Nat) (msg : Bytes) (hs : c.chain w = r w + 1) :
    Inv sk { c with
      st := upd c.st w (sealMsg (c.st w) hn mn msg).2
      wire := c.wire ++ [⟨w, c.chain w, sentOn c.wire (c.chain w), msg,
        (sealMsg (c.st w) hn mn msg).1⟩] } p r k := by
  have hPw := h.pi w
  have hv := hPw.pv
  have hpeerW := h.peer (!w)
  rw [Bool.not_not] at hpeerW
  have hadj' := (h.pi (!w)).pv.adj
  have hpeer := h.peer w
  have parw : (c.chain w) % 2 = if w then 0 else 1 := by
    have := hPw.par; rw [hs]; cases w <;> simp at this ⊢ <;> omega
  have parw' : (c.chain (!w)) % 2 ≠ (c.chain w) % 2 := by
    have x := (h.pi (!w)).par
    cases w <;> simp at x parw hadj' ⊢ <;> omega
  have hparr : r w % 2 ≠ (c.chain w) % 2 := by omega
  have hparr' : r (!w) % 2 = (c.chain w) % 2 := by omega
  have hle : sentOn c.wire (c.chain w) ≤ c.wire.length := sentOn_le _ _
  -- the new entry
  generalize hne : (⟨w, c.chain w, sentOn c.wire (c.chain w), msg,
        (sealMsg (c.st w) hn mn msg).1⟩ : Sent) = ne
  have ne_who : ne.who = w := by rw [← hne]
  have ne_chain : ne.chain = c.chain w := by rw [← hne]
  have ne_num : ne.num = sentOn c.wire (c.chain w) := by rw [← hne]
  have ne_msg : ne.msg = msg := by rw [← hne]
  have ne_ct : ne.ct = .mk hn (.sealed (hk sk p ne.chain) hn
      ⟨ne.num, sentOn c.wire (ne.chain - 2), .of (p ne.chain), mn⟩)
      (.sealed (mk sk p ne.chain ne.num) mn ne.msg) := by
    rw [ne_chain, ne_num, ne_msg, ← hne]
    simp only [sealMsg, hv.shk, hv.scnt, hv.prev, hv.priv hs, hv.sck]
    rfl
  have hsent : ∀ j, sentOn (c.wire ++ [ne]) j =
      sentOn c.wire j + if c.chain w = j then 1 else 0 := by
    intro j; rw [sentOn_append, ne_chain]
  have hsent_ne : ∀ {j}, c.chain w ≠ j → sentOn (c.wire ++ [ne]) j = sentOn c.wire j := by
    intro j hj; rw [hsent, if_neg hj, Nat.add_zero]
  have hmono : ∀ j, sentOn c.wire j ≤ sentOn (c.wire ++ [ne]) j := by
    intro j; rw [hsent]; omega
  have whoPar : ∀ e ∈ c.wire, e.chain % 2 = (c.chain w) % 2 → e.who = w := by
    intro e he hp
    have x1 := (h.wi.shape e he).2.1
    cases hh : e.who <;> cases w <;> simp [hh] at x1 parw ⊢ <;> omega
  -- the wire
  have key : ∀ e ∈ c.wire, ¬ (e.chain = ne.chain ∧ e.num = ne.num) := by
    rintro e he ⟨b1, b2⟩
    have := (h.wi.shape e he).2.2.1
    rw [b1, b2, ne_num, ne_chain] at this
    omega
  have hWI : WI sk p (c.wire ++ [ne]) := by
    refine ⟨?_, ?_, ?_, ?_⟩
    · intro e he
      rcases List.mem_append.mp he with he | he
      · obtain ⟨a1, a2, a3, hn', mn', a4⟩ := h.wi.shape e he
        refine ⟨a1, a2, Nat.lt_of_lt_of_le a3 (hmono _), hn', mn', ?_⟩
        rw [hsent_ne, a4]
        intro heq
        have htop := h.top e he
        by_cases hc : e.chain = 1
        · omega
        · have : e.who = w := whoPar e he (by omega)
          rw [this] at htop
          omega
      · simp only [List.mem_singleton] at he
        subst he
        refine ⟨by omega, ?_, ?_, hn, mn, ?_⟩
        · rw [ne_who, ne_chain]; cases w <;> simp at parw ⊢ <;> omega
        · rw [ne_num, ne_chain, hsent, if_pos rfl]; omega
        · rw [hsent_ne (by omega)]; exact ne_ct
    · intro e he e' he' hc hnum
      rcases List.mem_append.mp he with he1 | he1 <;>
        rcases List.mem_append.mp he' with he2 | he2
      · exact h.wi.uniq e he1 e' he2 hc hnum
      · simp only [List.mem_singleton] at he2; rw [he2] at hc hnum
        exact absurd ⟨hc, hnum⟩ (key e he1)
      · simp only [List.mem_singleton] at he1; rw [he1] at hc hnum
        exact absurd ⟨hc.symm, hnum.symm⟩ (key e' he2)
      · simp only [List.mem_singleton] at he1 he2; rw [he1, he2]
    · rw [List.pairwise_append]
      refine ⟨h.wi.nodup, List.pairwise_singleton .., ?_⟩
      intro e he e' he'
      simp only [List.mem_singleton] at he'
      subst he'
      exact key e he
    · intro j n hn
      rw [hsent] at hn
      by_cases hlt : n < sentOn c.wire j
      · obtain ⟨e, he, b⟩ := h.wi.full j n hlt
        exact ⟨e, List.mem_append_left _ he, b⟩
      · have hj : c.chain w = j := by
          by_contra hne
          rw [if_neg hne] at hn
          omega
        rw [if_pos hj] at hn
        exact ⟨ne, List.mem_append_right _ (by simp), by omega, by rw [ne_num, hj]; omega⟩
  have hnacc : ∀ v, ne.ct ∉ c.acc v := by
    intro v hm
    obtain ⟨e, he, hct⟩ := h.accW v _ hm
    have := ct_inj hWI (List.mem_append_left _ he) (List.mem_append_right _ (by simp)) hct
    have h3 := (h.wi.shape e he).2.2.1
    rw [this, ne_num, ne_chain] at h3
    omega
  have hlast : ∀ v, (k v = 0 ∧ r v ≤ 1) ∨
      ∃ e ∈ c.wire ++ [ne], e.chain = r v ∧ e.num + 1 = k v ∧ e.ct ∈ c.acc v := by
    intro v
    rcases (h.pi v).last with h1 | ⟨e, he, b⟩
    · exact .inl h1
    · exact .inr ⟨e, List.mem_append_left _ he, b⟩
  refine ⟨hWI, ?_, h.peer, ?_, ?_⟩
  · intro v
    rcases bool_cases w v with rfl | rfl
    · -- the sender
      simp only [upd_self]
      refine ⟨⟨hv.adj, hv.root, hv.shk, ?_, ?_, ?_, hv.nshk, hv.rhk, hv.rck, hv.rcnt, hv.nrhk,
        hv.rpub, hv.flag, hv.priv, Nat.le_trans hv.kle (hmono _)⟩, hPw.par, hPw.wfs, ?_, ?_, ?_,
        hlast _⟩
      · rw [hsent, if_pos rfl]; simp only [sealMsg, hv.sck]; rfl
      · rw [hsent, if_pos rfl]; simp only [sealMsg, hv.scnt]
        exact Nat.mod_eq_of_lt (by omega)
      · rw [hsent_ne (by omega)]; exact hv.prev
      · intro hh n x hx
        obtain ⟨j, a1, a2, a3, a4, a5, a6, a7⟩ := hPw.sound hh n x hx
        refine ⟨j, a1, a2, a3, a4, ?_, a6, ?_⟩
        · unfold lim at a5 ⊢; rw [hsent_ne (by omega)]; exact a5
        · intro e he hc hnum
          rcases List.mem_append.mp he with he | he
          · exact a7 e he hc hnum
          · simp only [List.mem_singleton] at he; subst he; omega
      · intro e he hw hle' hlim' hmsg hacc hlost
        rcases List.mem_append.mp he with he | he
        · apply hPw.complete e he hw hle' _ hmsg hacc hlost
          unfold lim at hlim' ⊢
          split at hlim'
          · rename_i hx; rw [if_pos hx]; exact hlim'
          · rename_i hx; rw [if_neg hx]
            rw [hsent_ne] at hlim'
            · exact hlim'
            · omega
        · simp only [List.mem_singleton] at he; subst he
          rw [ne_who] at hw; cases v <;> simp at hw
      · intro e he hm
        rcases List.mem_append.mp he with he | he
        · obtain ⟨a1, a2, a3⟩ := hPw.accOk e he hm
          refine ⟨a1, a2, ?_⟩
          unfold lim at a3 ⊢
          split at a3
          · rename_i hx; rw [if_pos hx]; exact a3
          · rename_i hx; rw [if_neg hx]; exact Nat.lt_of_lt_of_le a3 (hmono _)
        · simp only [List.mem_singleton] at he; subst he; exact absurd hm (hnacc v)
    · -- the receiver
      simp only [upd_not]
      have hP := h.pi (!w)
      have hv' := hP.pv
      refine ⟨⟨hv'.adj, hv'.root, hv'.shk, ?_, ?_, ?_, hv'.nshk, hv'.rhk, hv'.rck, hv'.rcnt,
        hv'.nrhk, hv'.rpub, hv'.flag, hv'.priv, Nat.le_trans hv'.kle (hmono _)⟩, hP.par, hP.wfs,
        ?_, ?_, ?_, hlast _⟩
      · rw [hsent_ne (by omega)]; exact hv'.sck
      · rw [hsent_ne (by omega)]; exact hv'.scnt
      · rw [hsent_ne (by omega)]; exact hv'.prev
      · intro hh n x hx
        obtain ⟨j, a1, a2, a3, a4, a5, a6, a7⟩ := hP.sound hh n x hx
        refine ⟨j, a1, a2, a3, a4, ?_, a6, ?_⟩
        · unfold lim at a5 ⊢
          split at a5
          · rename_i hx; rw [if_pos hx]; exact a5
          · rename_i hx; rw [if_neg hx]; exact Nat.lt_of_lt_of_le a5 (hmono _)
        · intro e he hc hnum
          rcases List.mem_append.mp he with he | he
          · exact a7 e he hc hnum
          · simp only [List.mem_singleton] at he; subst he; exact hnacc _
      · intro e he hw hle' hlim' hmsg hacc hlost
        rcases List.mem_append.mp he with he | he
        · apply hP.complete e he hw hle' _ hmsg hacc hlost
          unfold lim at hlim' ⊢
          split at hlim'
          · rename_i hx; rw [if_pos hx]; exact hlim'
          · rename_i hx; rw [if_neg hx]
            rw [hsent_ne] at hlim'
            · exact hlim'
            · omega
        · simp only [List.mem_singleton] at he; subst he
          exfalso
          rw [ne_chain] at hle' hlim'
          rw [ne_num] at hlim'
          have hr : c.chain w = r (!w) := by omega
          have := hv'.kle
          unfold lim at hlim'
          rw [if_pos hr] at hlim'
          rw [← hr] at this
          omega
      · intro e he hm
        rcases List.mem_append.mp he with he | he
        · obtain ⟨a1, a2, a3⟩ := hP.accOk e he hm
          refine ⟨a1, a2, ?_⟩
          unfold lim at a3 ⊢
          split at a3
          · rename_i hx; rw [if_pos hx]; exact a3
          · rename_i hx; rw [if_neg hx]; exact Nat.lt_of_lt_of_le a3 (hmono _)
        · simp only [List.mem_singleton] at he; subst he; exact absurd hm (hnacc _)
  · intro e he
    rcases List.mem_append.mp he with he | he
    · exact h.top e he
    · simp only [List.mem_singleton] at he; subst he; rw [ne_who, ne_chain]; exact Nat.le_refl _
  · intro v ct hm
    obtain ⟨e, he, hct⟩ := h.accW v ct hm
    exact ⟨e, List.mem_append_left _ he, hct⟩

/-- The invariant only depends on the DH values of chains that exist. -/
theorem pi_congr {sk p q wire w R s r k acc lost} (hP : PI sk p wire w R s r k acc lost)
    {T : Nat} (hpq : ∀ i, i ≤ T → p i = q i) (hs : s ≤ T) (hr : r ≤ T) :
    PI sk q wire w R s r k acc lost := by
  have hhk : ∀ {j}, j ≤ T + 2 → hk sk p j = hk sk q j :=
    fun hj => hk_congr (fun i hi => hpq i (by omega))
  have hmk : ∀ {j n}, j ≤ T → mk sk p j n = mk sk q j n :=
    fun hj => mk_congr (fun i hi => hpq i (by omega))
  have hck : ∀ {j n}, j ≤ T → ck sk p j n = ck sk q j n :=
    fun hj => ck_congr (fun i hi => hpq i (by omega)) _
  have hv := hP.pv
  refine ⟨⟨hv.adj, ?_, ?_, ?_, hv.scnt, hv.prev, ?_, ?_, ?_, hv.rcnt, ?_, ?_, hv.flag, ?_, hv.kle⟩,
    hP.par, hP.wfs, ?_, ?_, hP.accOk, hP.last⟩
  · rw [hv.root]; exact rootOf_congr (fun i hi => hpq i (by omega))
  · rw [hv.shk]; exact hhk (by omega)
  · rw [hv.sck]; exact hck hs
  · rw [hv.nshk]; exact hhk (by omega)
  · rw [hv.rhk]; exact hhk (by omega)
  · rw [hv.rck]; exact hck hr
  · rw [hv.nrhk]; exact hhk (by omega)
  · intro h; rw [hv.rpub h, hpq r hr]
  · intro h; rw [hv.priv h, hpq s hs]
  · intro h n v hx
    obtain ⟨j, a1, a2, a3, a4, a5, a6, a7⟩ := hP.sound h n v hx
    exact ⟨j, a1, a2, a3, by rw [a4]; exact hhk (by omega), a5, by rw [a6]; exact hmk (by omega),
      a7⟩
  · intro e he hw hle hlim hmsg hacc hlost
    rw [← hmk (by omega)] at hlost
    rw [← hhk (by omega)]
    exact hP.complete e he hw hle hlim hmsg hacc hlost

theorem wi_congr {sk p q wire} (h : WI sk p wire) {T : Nat} (hpq : ∀ i, i ≤ T → p i = q i)
    (ht : ∀ e ∈ wire, e.chain ≤ T) : WI sk q wire := by
  refine ⟨?_, h.uniq, h.nodup, h.full⟩
  intro e he
  have hT := ht e he
  obtain ⟨a1, a2, a3, hn, mn, a4⟩ := h.shape e he
  refine ⟨a1, a2, a3, hn, mn, ?_⟩
  rw [a4, hk_congr (p := p) (q := q) (fun i hi => hpq i (by omega)),
    mk_congr (p := p) (q := q) (fun i hi => hpq i (by omega)), hpq _ hT]

/-- The DH ratchet step of a sender. -/
theorem inv_ratchet {sk c p r k} (h : Inv sk c p r k) (w : Bool) (priv : Nat)
    (hs : c.chain w + 1 = r w) :
    (ratchetStep (c.st w) priv).1 = true ∧ r w = c.chain (!w) ∧
    Inv sk { c with
      st := upd c.st w (ratchetStep (c.st w) priv).2
      chain := upd c.chain w (c.chain (!w) + 1) }
      (fun i => if i = r w + 1 then priv else p i) r k := by
  have hP := h.pi w
  have hv := hP.pv
  have hpeer := h.peer w
  have hpeer' := h.peer (!w)
  rw [Bool.not_not] at hpeer'
  have hadj' := (h.pi (!w)).pv.adj
  have hr : r w = c.chain (!w) := by omega
  have hr1 : 1 ≤ r w := by omega
  generalize hq : (fun i => if i = r w + 1 then priv else p i) = q
  have hq1 : q (r w + 1) = priv := by rw [← hq]; simp
  have hpq : ∀ i, i ≤ r w → p i = q i := by
    intro i hi; rw [← hq]; simp only []; rw [if_neg (by omega)]
  have htop : ∀ e ∈ c.wire, e.chain ≤ r w := by
    intro e he
    have := h.top e he
    rcases bool_cases w e.who with hh | hh <;> rw [hh] at this <;> omega
  have hsent0 : sentOn c.wire (r w + 1) = 0 := by
    unfold sentOn
    rw [List.length_eq_zero_iff, List.filter_eq_nil_iff]
    intro e he
    have := htop e he
    simp; omega
  have hmix : mixDH (c.st w).rootKey priv (c.st w).recvPub = some (mat sk q (r w + 1)) := by
    rw [hv.root, hv.rpub hr1]
    have : max (c.chain w) (r w) = r w := by omega
    rw [this, mat_succ hr1, hq1, ← hpq (r w) (Nat.le_refl _)]
    simp only [mixDH]
    rw [rootOf_congr (p := p) (q := q) hpq, Nat.min_comm, Nat.max_comm]
  have hstep : ratchetStep (c.st w) priv = (true, { c.st w with
      sendPriv := priv
      sendHeaderKey := (c.st w).nextSendHeaderKey
      rootKey := .hmac .rootKey (mat sk q (r w + 1))
      nextSendHeaderKey := .hmac .sendHeaderKey (mat sk q (r w + 1))
      sendChainKey := .hmac .chainKey (mat sk q (r w + 1))
      prevSendCount := (c.st w).sendCount
      sendCount := 0
      ratchet := false }) := by
    unfold ratchetStep
    simp only [hmix]
  refine ⟨by rw [hstep], hr, ?_⟩
  rw [hstep]
  refine ⟨wi_congr h.wi hpq htop, ?_, ?_, ?_, h.accW⟩
  · intro v
    rcases bool_cases w v with rfl | rfl
    · simp only [upd_self, ← hr]
      have hP' := pi_congr hP hpq (by omega) (Nat.le_refl _)
      have hv' := hP'.pv
      refine ⟨⟨.inl rfl, ?_, ?_, ?_, ?_, ?_, ?_, hv'.rhk, hv'.rck, hv'.rcnt, hv'.nrhk, hv'.rpub,
        ?_, ?_, hv'.kle⟩, hP'.par, hP'.wfs, hP'.sound, hP'.complete, hP'.accOk,
        hP'.last⟩
      · have : max (r v + 1) (r v) = r v + 1 := by omega
        rw [this]; rfl
      · simp only [hv'.nshk]; congr 1; omega
      · rw [hsent0]; simp [ck]
      · rw [hsent0]
      · simp only [hv.scnt]; congr 1; omega
      · rw [hk_next (by omega)]
      · simp; omega
      · intro _; exact hq1.symm
    · simp only [upd_not]
      exact pi_congr (h.pi (!w)) hpq (by omega) (by omega)
  · intro v
    rcases bool_cases w v with rfl | rfl
    · simp only [upd_not]; exact h.peer _
    · simp only [Bool.not_not, upd_self]; right; omega
  · intro e he
    have h1 := h.top e he
    rcases bool_cases w e.who with hh | hh
    · simp only [hh, upd_self]; rw [hh] at h1; omega
    · simp only [hh, upd_not]; rw [hh] at h1; exact h1

theorem inv_send {sk c p r k} (h : Inv sk c p r k) (hlen : c.wire.length + 1 < u32) (w : Bool)
    (priv hn mn : Nat) (msg : Bytes) :
    (∃ ct R, encrypt (c.st w) priv hn mn msg = (.ok ct, R)) ∧
    ∃ p', (∀ i, i ≤ c.chain true ∨ i ≤ c.chain false → p' i = p i) ∧
      Inv sk (step c (.send w priv hn mn msg)) p' r k := by
  have hv := (h.pi w).pv
  by_cases hfl : (c.st w).ratchet = true
  · have hs := hv.flag.mp hfl
    obtain ⟨h1, hr, h2⟩ := inv_ratchet h w priv hs
    have h3 := inv_send_cur h2 hlen w hn mn msg (by simp only [upd_self]; omega)
    have he : encrypt (c.st w) priv hn mn msg =
        (.ok (sealMsg (ratchetStep (c.st w) priv).2 hn mn msg).1,
          (sealMsg (ratchetStep (c.st w) priv).2 hn mn msg).2) := by
      unfold encrypt
      rw [if_pos hfl]
      rcases hx : ratchetStep (c.st w) priv with ⟨b, R⟩
      rw [hx] at h1
      simp only [] at h1
      subst h1
      rfl
    refine ⟨⟨_, _, he⟩, ?_⟩
    refine ⟨fun i => if i = r w + 1 then priv else p i, ?_, ?_⟩
    · intro i hi
      have : i ≠ r w + 1 := by cases w <;> simp only [Bool.not_true, Bool.not_false] at hr <;> omega
      simp only [if_neg this]
    simp only [step, he, hfl, if_true]
    simp only [upd_self] at h3
    have huu : ∀ {α : Type} (f : Bool → α) (x y : α), upd (upd f w x) w y = upd f w y := by
      intro α f x y; funext v; simp only [upd]; split <;> rfl
    rw [huu] at h3
    exact h3
  · have hfl' : (c.st w).ratchet = false := by simpa using hfl
    have hs : c.chain w = r w + 1 := by
      rcases hv.adj with h1 | h1
      · exact h1
      · exact absurd (hv.flag.mpr h1) hfl
    have he : encrypt (c.st w) priv hn mn msg =
        (.ok (sealMsg (c.st w) hn mn msg).1, (sealMsg (c.st w) hn mn msg).2) := by
      unfold encrypt
      rw [if_neg hfl]
    refine ⟨⟨_, _, he⟩, p, fun _ _ => rfl, ?_⟩
    have h3 := inv_send_cur h hlen w hn mn msg hs
    simp only [step, he, hfl', Bool.false_eq_true, if_false]
    have huc : upd c.chain w (c.chain w) = c.chain := by
      funext v; simp only [upd]; split
      · rename_i hh; rw [hh]
      · rfl
    rw [huc]
    exact h3

theorem inv_start (ka kb pa pb ra rb : Nat) :
    Inv (sharedKey ka kb ra rb) (start ka kb pa pb ra rb) (fun _ => pb)
      (fun w => if w then 1 else 0) (fun _ => 0) := by
  refine ⟨⟨by simp [start], by simp [start], by simp [start], by simp [start, sentOn]⟩, ?_, ?_, by simp [start],
    by simp [start]⟩
  · intro w
    cases w <;>
    · refine ⟨⟨by simp [start], ?_, ?_, ?_, ?_, ?_, ?_, ?_, ?_, ?_, ?_, ?_, ?_, ?_, by simp⟩, by simp, ?_,
        ?_, by simp [start], by simp [start], .inl ⟨rfl, by simp⟩⟩ <;>
      simp [start, fillKeyExchange, new, completeKeyExchange, sharedKey, rootOf, mat, hk, ck,
        sentOn, wfs_nil, get2_nil]
  · intro w; cases w <;> simp [start]

theorem step_wire_len (c : Conv) (ev : Ev) : c.wire.length ≤ (step c ev).wire.length := by
  cases ev with
  | send w priv hn mn msg =>
    simp only [step]
    rcases encrypt (c.st w) priv hn mn msg with ⟨x, R⟩
    cases x <;> simp
  | recv w now ct =>
    simp only [step]
    rcases decrypt (c.st w) now ct with ⟨x, R⟩
    cases x <;> simp
  | reload w now lifetime =>
    simp only [step]
    split <;> simp

theorem inv_reach {ka kb pa pb ra rb c} (h : Reach ka kb pa pb ra rb c) :
    c.wire.length + 1 < u32 → ∃ p r k, Inv (sharedKey ka kb ra rb) c p r k := by
  induction h with
  | start => intro _; exact ⟨_, _, _, inv_start ka kb pa pb ra rb⟩
  | @step c ev _ hl ih =>
    intro hlen
    have h1 := step_wire_len c ev
    obtain ⟨p, r, k, hI⟩ := ih (by omega)
    cases ev with
    | send w priv hn mn msg =>
      obtain ⟨_, p', _, h'⟩ := inv_send hI (by omega) w priv hn mn msg
      exact ⟨p', r, k, h'⟩
    | recv w now ct =>
      obtain ⟨r', k', h'⟩ := inv_recv hI (by omega) w now hl
      exact ⟨p, r', k', h'⟩
    | reload w now lifetime => exact ⟨p, r, k, inv_reload hI w now lifetime⟩

end Verif.Ratchet
