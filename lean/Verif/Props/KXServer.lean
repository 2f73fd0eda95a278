import Verif.Model.KXServer
import Verif.Props.KXNet
import Verif.Props.Sessions

/-!
# C67: strangers cannot act for a user
-/

namespace Verif.KXServer

open Verif.KX Verif.KXNet

variable {ident : KeyName → Sessions.Id} {b : Nat}

/-- The user of account `id` is at the other end of connection `c`: they have completed a key exchange with this server
that has the same keys. -/
def Present (ident : KeyName → Sessions.Id) (b : Nat) (t : Sys) (c : Nat) (id : Sessions.Id) : Prop :=
  ∃ r x j r' a x', t.net.runs[c]? = some r ∧ result c r = some x ∧ t.net.runs[j]? = some r' ∧
    r'.role = .init a (.long b) ∧ ident (.long a) = id ∧ result j r' = some x' ∧ Match x x'

/-! ## Invariants -/

/-- Whatever happens in the system, the key exchanges are those of `KXNet`. -/
theorem net_reach {t : Sys} (h : Reach ident b t) : KXNet.Reach t.net := by
  induction h with
  | init => exact .refl _
  | step _ hs ih =>
    cases hs with
    | net h => exact .tail ih h
    | connect => exact ih
    | request => exact ih
    | srv => exact ih

theorem step_net {t t' : Sys} {e : Ev} (h : Step ident b t e t') : Steps t.net t'.net := by
  cases h with
  | net h => exact .tail (.refl _) h
  | connect => exact .refl _
  | request => exact .refl _
  | srv => exact .refl _

/-- The identity of a connection. -/
def idOf (s : Sessions.State) (c : Nat) : Option Sessions.Id := (s.conns.get c).map (·.id)

theorem idOf_put {s : Sessions.State} {o : Nat} {q q' : Sessions.Conn} {u : Sessions.State} (ho : s.conns.get o = some q)
    (hu : u.conns = (s.put o q').conns) (hid : q'.id = q.id) (c : Nat) : idOf u c = idOf s c := by
  unfold idOf
  rw [hu, Sessions.get_put]
  split
  · next e => subst e; rw [ho]; simp [hid]
  · rfl

theorem idOf_close (s : Sessions.State) (o c : Nat) : idOf (s.close o) c = idOf s c := by
  unfold idOf
  rw [Sessions.close_get]
  split
  · cases s.conns.get c <;> rfl
  · rfl

theorem idOf_connect {s s' : Sessions.State} {o : Nat} {id : Sessions.Id} (h : Sessions.step s (.connect o id) = some s') :
    s.conns.get o = none ∧ (∀ c, idOf s' c = if o = c then some id else idOf s c) ∧ s'.table = s.table := by
  simp only [Sessions.step] at h
  split at h
  · cases h
  · next hn =>
    cases h
    refine ⟨by simpa using fun h => hn (Or.inl h), ?_, rfl⟩
    intro c
    unfold idOf
    rw [Sessions.get_put]
    split <;> rfl

/-- A step of the server keeps the identities of the connections. -/
theorem idOf_step {s s' : Sessions.State} {e : Sessions.Ev} (h : Sessions.step s e = some s')
    (hc : ∀ o id, e ≠ .connect o id) (c : Nat) : idOf s' c = idOf s c := by
  cases e with
  | connect o id => exact absurd rfl (hc o id)
  | goOnline o =>
    obtain ⟨q, hq, _, rfl⟩ := Sessions.at_some h
    split
    · exact idOf_put hq (by rfl) (by rfl) c
    · exact idOf_put (q' := { q with pc := .onlined }) hq rfl rfl c
  | knock o =>
    obtain ⟨q, hq, _, rfl⟩ := Sessions.at_some h
    split
    · next p hp =>
      have hid := idOf_close s p o
      show idOf ((s.close p).put o { q with pc := .ended }) c = _
      unfold idOf at hid ⊢
      rw [Sessions.get_put]
      split
      · next e => subst e; rw [hq]; rfl
      · exact idOf_close s p c
    · exact idOf_put hq (by rfl) (by rfl) c
  | register o =>
    obtain ⟨q, hq, _, rfl⟩ := Sessions.at_some h
    exact idOf_put (q' := { q with pc := .registered }) hq rfl rfl c
  | push o ok =>
    obtain ⟨q, hq, _, rfl⟩ := Sessions.at_some h
    split
    · exact idOf_put hq (by rfl) (by rfl) c
    · exact idOf_put hq (by rfl) (by rfl) c
  | request o =>
    obtain ⟨q, hq, _, rfl⟩ := Sessions.at_some h
    split
    · exact idOf_put hq (by rfl) (by rfl) c
    · exact idOf_put hq (by rfl) (by rfl) c
  | unblock o =>
    simp only [Sessions.step] at h
    split at h
    · cases h
    · next q hq =>
      split at h
      · cases h; exact idOf_put hq (by rfl) (by rfl) c
      · cases h
  | drain o =>
    simp only [Sessions.step] at h
    split at h
    · cases h
    · next q hq =>
      split at h
      · cases h; exact idOf_put hq (by rfl) (by rfl) c
      · cases h
  | writerDies o =>
    simp only [Sessions.step] at h
    split at h
    · cases h
    · next q hq =>
      split at h
      · cases h; exact idOf_put hq (by rfl) (by rfl) c
      · cases h
  | leave o =>
    obtain ⟨q, hq, _, rfl⟩ := Sessions.at_some h
    exact idOf_put hq (by rfl) (by rfl) c
  | offline o =>
    obtain ⟨q, hq, _, rfl⟩ := Sessions.at_some h
    exact idOf_put (q' := { q with pc := .offed }) hq rfl rfl c
  | unregister o =>
    obtain ⟨q, hq, _, rfl⟩ := Sessions.at_some h
    exact idOf_put (q' := { q with pc := .ended }) hq rfl rfl c
  | hangup o =>
    simp only [Sessions.step] at h
    split at h
    · cases h
    · cases h; exact idOf_close s o c
  | disable id => simp only [Sessions.step] at h; cases h; rfl
  | kick id =>
    simp only [Sessions.step] at h
    split at h
    · cases h; exact idOf_close ..
    · cases h; rfl
  | enable id => simp only [Sessions.step] at h; cases h; rfl

/-- The table of sessions: an entry is of a connection of that account. -/
def TabId (s : Sessions.State) : Prop := ∀ id o, s.table.get id = some o → idOf s o = some id

theorem tabId_step {s s' : Sessions.State} {e : Sessions.Ev} (h : Sessions.step s e = some s') (ht : TabId s) : TabId s' := by
  intro id o hg
  by_cases hc : ∃ o id, e = .connect o id
  · obtain ⟨o', id', rfl⟩ := hc
    obtain ⟨h1, h2, h3⟩ := idOf_connect h
    rw [h3] at hg
    have := ht id o hg
    rw [h2 o]
    split
    · next e => subst e; simp [idOf, h1] at this
    · exact this
  · rw [idOf_step h (fun o id he => hc ⟨o, id, he⟩)]
    have del : ∀ {i : Sessions.Id}, (s.table.del i).get id = some o → idOf s o = some id := by
      intro i hd
      rw [GoMap.get_del] at hd
      split at hd
      · cases hd
      · exact ht id o hd
    cases e with
    | connect o id => exact absurd ⟨o, id, rfl⟩ hc
    | goOnline o' =>
      obtain ⟨q, hq, _, rfl⟩ := Sessions.at_some h
      split at hg <;> exact ht id o hg
    | knock o' =>
      obtain ⟨q, hq, _, rfl⟩ := Sessions.at_some h
      split at hg
      · exact del hg
      · exact ht id o hg
    | register o' =>
      obtain ⟨q, hq, _, rfl⟩ := Sessions.at_some h
      change (s.table.set q.id o').get id = some o at hg
      rw [GoMap.get_set] at hg
      split at hg
      · next e => cases hg; subst e; simp [idOf, hq]
      · exact ht id o hg
    | push o' ok =>
      obtain ⟨q, hq, _, rfl⟩ := Sessions.at_some h
      split at hg <;> exact ht id o hg
    | request o' =>
      obtain ⟨q, hq, _, rfl⟩ := Sessions.at_some h
      split at hg <;> exact ht id o hg
    | unblock o' =>
      simp only [Sessions.step] at h
      split at h
      · cases h
      · split at h
        · cases h; exact ht id o hg
        · cases h
    | drain o' =>
      simp only [Sessions.step] at h
      split at h
      · cases h
      · split at h
        · cases h; exact ht id o hg
        · cases h
    | writerDies o' =>
      simp only [Sessions.step] at h
      split at h
      · cases h
      · split at h
        · cases h; exact ht id o hg
        · cases h
    | leave o' =>
      obtain ⟨q, hq, _, rfl⟩ := Sessions.at_some h
      exact ht id o hg
    | offline o' =>
      obtain ⟨q, hq, _, rfl⟩ := Sessions.at_some h
      exact ht id o hg
    | unregister o' =>
      obtain ⟨q, hq, _, rfl⟩ := Sessions.at_some h
      exact del hg
    | hangup o' =>
      simp only [Sessions.step] at h
      split at h
      · cases h
      · cases h; rw [Sessions.close_table] at hg; exact ht id o hg
    | disable i => simp only [Sessions.step] at h; cases h; exact ht id o hg
    | kick i =>
      simp only [Sessions.step] at h
      split at h
      · cases h; rw [Sessions.close_table] at hg; exact ht id o hg
      · cases h; exact ht id o hg
    | enable i => simp only [Sessions.step] at h; cases h; exact ht id o hg

/-- What has been read in session `c`, in order. -/
def Sys.read (t : Sys) (c : Nat) : List Pay := (t.log.filter (·.1 = c)).map (·.2)

structure Inv (ident : KeyName → Sessions.Id) (b : Nat) (t : Sys) : Prop where
  /-- every connection has completed the key exchange -/
  conn : ∀ (c : Nat) (id : Sessions.Id), idOf t.srv c = some id →
    ∃ r e x, t.net.runs[c]? = some r ∧ r.role = .resp b e ∧ result c r = some x ∧ id = ident x.theirPK
  tab : TabId t.srv
  /-- what has been read could be read -/
  log : ∀ (c i : Nat) (p : Pay), (t.read c)[i]? = some p → ∃ r x, t.net.runs[c]? = some r ∧ result c r = some x ∧ CanRead t.net x i p

theorem inv_reach {t : Sys} (h : Reach ident b t) : Inv ident b t := by
  induction h with
  | init => exact ⟨(by intro c id h; cases h), (by intro id o h; cases h), (by intro c i p h; simp [Sys.read] at h)⟩
  | @step t e t' _ hs ih =>
    have hl := steps_later (step_net hs)
    have keepConn : ∀ {c : Nat} {id : Sessions.Id}, idOf t.srv c = some id →
        ∃ (r : KXNet.Run) (e : Nat) (x : Result Sym), t'.net.runs[c]? = some r ∧ r.role = .resp b e ∧ result c r = some x ∧ id = ident x.theirPK := by
      intro c id h
      obtain ⟨r, e, x, h1, h2, h3, h4⟩ := ih.conn c id h
      obtain ⟨r', h1', e'⟩ := hl.runs c r h1
      exact ⟨r', e, x, h1', e'.role.trans h2, e'.result h3, h4⟩
    have keepLog : ∀ {c i : Nat} {p : Pay}, (t.read c)[i]? = some p →
        ∃ r x, t'.net.runs[c]? = some r ∧ result c r = some x ∧ CanRead t'.net x i p := by
      intro c i p h
      obtain ⟨r, x, h1, h2, f, h3, h4⟩ := ih.log c i p h
      obtain ⟨r', h1', e'⟩ := hl.runs c r h1
      exact ⟨r', x, h1', e'.result h2, f, hl.knows h3, h4⟩
    cases hs with
    | net h => exact ⟨fun c id h => keepConn h, ih.tab, fun c i p h => keepLog h⟩
    | @connect c r e x v h1 h2 h3 h4 =>
      refine ⟨?_, tabId_step h4 ih.tab, fun c i p h => keepLog h⟩
      intro c' id hid
      obtain ⟨_, h5, _⟩ := idOf_connect h4
      rw [h5 c'] at hid
      split at hid
      · next e' => subst e'; cases hid; exact ⟨r, e, x, h1, h2, h3, rfl⟩
      · exact keepConn hid
    | @request c r x v f p h1 h2 h3 h4 h5 =>
      refine ⟨?_, tabId_step h5 ih.tab, ?_⟩
      · intro c' id hid
        rw [idOf_step h5 (by simp)] at hid
        exact keepConn hid
      · intro c' i q hq
        by_cases hcc : c = c'
        · subst hcc
          have hr : Sys.read { t with srv := v, log := t.log ++ [(c, p)] } c = t.read c ++ [p] := by
            simp [Sys.read]
          rw [hr, List.getElem?_append] at hq
          split at hq
          · exact keepLog hq
          · next hlen =>
            rw [List.getElem?_singleton] at hq
            split at hq
            · next h0 =>
              cases hq
              have : i = t.handled c := by
                have h1 : (t.read c).length = t.handled c := by simp [Sys.read, Sys.handled]
                omega
              exact ⟨r, x, h1, h2, f, h3, this ▸ h4⟩
            · cases hq
        · have hr : Sys.read { t with srv := v, log := t.log ++ [(c, p)] } c' = t.read c' := by
            simp [Sys.read, hcc]
          rw [hr] at hq
          exact keepLog hq
    | @srv e v h1 h2 =>
      refine ⟨?_, tabId_step h2 ih.tab, fun c i p h => keepLog h⟩
      intro c' id hid
      rw [idOf_step h2 (by rintro o id rfl; exact h1)] at hid
      exact keepConn hid

/-! ## C67 -/

/-- **C67**, partially: in the session of an account whose private key the attacker does not have, the server handles
only messages that the user has written to it after one key exchange, in the order they were written and without gaps. -/
theorem C67_messages_partial (hid : Function.Injective ident) (t : Sys) (h : Reach ident b t) (c a : Nat)
    (k : Sessions.Conn) (hk : t.srv.conns.get c = some k) (ha : k.id = ident (.long a)) (hl : a ∉ t.net.leaked)
    (hne : t.read c ≠ []) :
    Present ident b t c k.id ∧
    ∃ (j : Nat) (r : KXNet.Run), t.net.runs[j]? = some r ∧ r.role = .init a (.long b) ∧
      t.read c <+: r.data.map .other := by
  have inv := inv_reach h
  obtain ⟨r, e, x, h1, h2, h3, h4⟩ := inv.conn c k.id (by simp [idOf, hk])
  rw [ha] at h4
  have hpk := (hid h4).symm
  obtain ⟨p0, hp0⟩ : ∃ p, (t.read c)[0]? = some p := by
    cases hr : t.read c with
    | nil => exact absurd hr hne
    | cons p l => exact ⟨p, rfl⟩
  obtain ⟨r0, x0, g1, g2, g3⟩ := inv.log c 0 p0 hp0
  rw [h1] at g1; cases g1
  rw [h3] at g2; cases g2
  obtain ⟨j, r', x', f1, f2, f3, f4, f5⟩ := C66_server_partial t.net (net_reach h) c a b e r h1 h2 x h3 hpk hl 0 p0 g3
  refine ⟨⟨r, x, j, r', a, x', h1, h3, f1, f2, ha.symm, f3, f4⟩, j, r', f1, f2, ?_⟩
  have each : ∀ (i : Nat) (p : Pay), (t.read c)[i]? = some p → (r'.data.map Payload.other : List Pay)[i]? = some p := by
    intro i p hp
    obtain ⟨r0, x0, g1, g2, g3⟩ := inv.log c i p hp
    rw [h1] at g1; cases g1
    rw [h3] at g2; cases g2
    obtain ⟨q, d, w1, w2, w3⟩ := f5 t.net (.refl _) i p g3
    rw [f1] at w1; cases w1
    simp [w2, w3]
  rw [List.prefix_iff_getElem?]
  intro i hi
  rw [each i _ (List.getElem?_eq_getElem hi)]

/-- **C67**, partially: whenever the server handles a request in such a session, the request is the next message that
the user has written. -/
theorem C67_requests_partial (hid : Function.Injective ident) (t t' : Sys) (h : Reach ident b t) (c a : Nat)
    (hs : Step ident b t (.srv (.request c)) t') (k : Sessions.Conn) (hk : t'.srv.conns.get c = some k)
    (ha : k.id = ident (.long a)) (hl : a ∉ t'.net.leaked) :
    ∃ (j : Nat) (r : KXNet.Run) (d : Bytes), t'.net.runs[j]? = some r ∧ r.role = .init a (.long b) ∧
      r.data[t.handled c]? = some d ∧ t'.read c = t.read c ++ [.other d] := by
  have h' : Reach ident b t' := .step h hs
  have hrd : ∃ p, t'.read c = t.read c ++ [p] := by
    cases hs with
    | @request _ r x v f p => exact ⟨p, by simp [Sys.read]⟩
    | srv hf _ => exact absurd hf id
  obtain ⟨p, hp⟩ := hrd
  obtain ⟨_, j, r, h1, h2, h3⟩ := C67_messages_partial hid t' h' c a k hk ha hl (by simp [hp])
  have hlen : (t.read c).length = t.handled c := by simp [Sys.read, Sys.handled]
  have hi : (t'.read c)[t.handled c]? = some p := by rw [hp, ← hlen]; simp
  obtain ⟨l, hl'⟩ := h3
  have hi' : ((r.data.map Payload.other : List Pay))[t.handled c]? = some p := by
    rw [← hl', List.getElem?_append_left (by rw [hp, ← hlen]; simp), hi]
  rw [List.getElem?_map] at hi'
  obtain ⟨d, hd, hdp⟩ := Option.map_eq_some_iff.mp hi'
  exact ⟨j, r, d, h1, h2, hd, by rw [hp, ← hdp]⟩

/-- **C67**, partially: a new connection ends only a session of the account it claims to be of. -/
theorem C67_same_account_partial (t t' : Sys) (h : Reach ident b t) (c o : Nat) (k q q' : Sessions.Conn)
    (hs : Step ident b t (.srv (.knock c)) t') (hk : t.srv.conns.get c = some k)
    (hq : t.srv.conns.get o = some q) (ho : q.closed = false) (hq' : t'.srv.conns.get o = some q')
    (hc : q'.closed = true) : q.id = k.id := by
  cases hs with
  | @srv e v _ h2 =>
    obtain ⟨k0, hk0, hpc, hv⟩ := Sessions.at_some h2
    rw [hk] at hk0; cases hk0
    subst hv
    split at hq'
    · next p hp =>
      have hid := (inv_reach h).tab k.id p hp
      change ((t.srv.close p).put c { k with pc := .ended }).conns.get o = some q' at hq'
      rw [Sessions.get_put] at hq'
      split at hq'
      · next e => subst e; rw [hk] at hq; cases hq; rfl
      · rw [Sessions.close_get] at hq'
        split at hq'
        · next e => subst e; simpa [idOf, hq] using hid
        · rw [hq] at hq'; cases hq'; rw [ho] at hc; cases hc
    · rw [Sessions.get_put] at hq'
      split at hq'
      · next e => subst e; rw [hk] at hq; cases hq; rfl
      · rw [hq] at hq'; cases hq'; rw [ho] at hc; cases hc

/-- The full statement: a new connection ends a session only if the user of that account is at its other end. -/
def OwnerEnds (ident : KeyName → Sessions.Id) (b : Nat) : Prop :=
  ∀ (t t' : Sys) (c o : Nat) (q q' : Sessions.Conn), Reach ident b t → Step ident b t (.srv (.knock c)) t' → t.srv.conns.get o = some q →
    q.closed = false → t'.srv.conns.get o = some q' → q'.closed = true → (∀ a, ident (.long a) = q.id → a ∉ t.net.leaked) →
    Present ident b t c q.id

/-! ## The violation -/

theorem reach_net {t : Sys} (h : Reach ident b t) {n : KXNet.State} (hn : Steps t.net n) :
    Reach ident b { t with net := n } := by
  induction hn with
  | refl => exact h
  | tail _ hs ih => exact .step (t := { t with net := _ }) ih (.net hs)

theorem reach_srv {t : Sys} (h : Reach ident b t) {es : List Sessions.Ev} (hf : ∀ e ∈ es, Free e) {v : Sessions.State}
    (hv : Sessions.exec t.srv es = some v) : Reach ident b { t with srv := v } := by
  induction es generalizing t with
  | nil => cases hv; exact h
  | cons e es ih =>
    simp only [Sessions.exec] at hv
    cases hs : Sessions.step t.srv e with
    | none => simp [hs] at hv
    | some w =>
      simp only [hs] at hv
      have := ih (t := { t with srv := w }) (.step h (.srv (hf e (by simp)) hs)) (fun e he => hf e (by simp [he])) hv
      exact this

/-- A user's connection after the login. -/
def conn1 (id : Sessions.Id) : Sessions.Conn := ⟨id, .running, false, true, 0⟩

/-- The session of a user. -/
def loggedIn (id : Sessions.Id) : Sessions.State := ⟨[(1, conn1 id)], [(id, 1)], [(id, 1)], []⟩

theorem login_exec (id : Sessions.Id) :
    Sessions.exec ⟨[(1, ⟨id, .checked, false, false, 0⟩)], [], [], []⟩ (Sessions.login 1) = some (loggedIn id) := by
  simp [Sessions.exec, Sessions.login, Sessions.step, Sessions.State.at, Sessions.State.put, GoMap.get, GoMap.set,
    GoMap.del, loggedIn, conn1]

/-- Client 2 has logged in at server 1. -/
def before (ident : KeyName → Sessions.Id) : Sys := ⟨met, loggedIn (ident (.long 2)), []⟩

theorem before_reach : Reach ident 1 (before ident) := by
  have h1 : Reach ident 1 ⟨met, Sessions.init, []⟩ := reach_net (.init) met_reach
  have h2 : Reach ident 1 ⟨met, ⟨[(1, ⟨ident (.long 2), .checked, false, false, 0⟩)], [], [], []⟩, []⟩ :=
    .step h1 (.connect (c := 1) (r := metS) (e := 0) rfl rfl met_resS (by
      simp [Sessions.step, Sessions.init, Sessions.State.put, GoMap.set, GoMap.del, rRes]))
  exact reach_srv h2 (es := Sessions.login 1) (by simp [Sessions.login, Free]) (login_exec _)

/-- Somebody has completed a key exchange in the name of client 2. -/
def during (ident : KeyName → Sessions.Id) : Sys :=
  ⟨fooled [metC, metS] 5, ⟨[(2, ⟨ident (.long 2), .conflict, false, false, 0⟩), (1, conn1 (ident (.long 2)))],
    [(ident (.long 2), 1)], [(ident (.long 2), 1)], []⟩, []⟩

theorem during_reach : Reach ident 1 (during ident) := by
  have h1 : Reach ident 1 ⟨fooled [metC, metS] 5, loggedIn (ident (.long 2)), []⟩ :=
    reach_net before_reach (n := fooled [metC, metS] 5) (fooled_reach [metC, metS] (.refl _))
  have h2 : Reach ident 1 ⟨fooled [metC, metS] 5,
      ⟨[(2, ⟨ident (.long 2), .checked, false, false, 0⟩), (1, conn1 (ident (.long 2)))],
        [(ident (.long 2), 1)], [(ident (.long 2), 1)], []⟩, []⟩ :=
    .step h1 (.connect (c := 2) (r := ⟨.resp 1 0, fake 2, []⟩) (e := 0) rfl rfl (fooled_result 2) (by
      simp [Sessions.step, loggedIn, Sessions.State.put, GoMap.get, GoMap.set, GoMap.del, rRes]))
  refine .step h2 (.srv (e := .goOnline 2) trivial ?_)
  simp [Sessions.step, Sessions.State.at, Sessions.State.put, GoMap.get, GoMap.set, GoMap.del]

/-- The session of client 2 has been ended. -/
def after (ident : KeyName → Sessions.Id) : Sys :=
  ⟨fooled [metC, metS] 5,
    ⟨[(2, ⟨ident (.long 2), .ended, false, false, 0⟩), (1, { conn1 (ident (.long 2)) with closed := true })],
    [(ident (.long 2), 1)], [], []⟩, []⟩

theorem after_step : Step ident 1 (during ident) (.srv (.knock 2)) (after ident) := by
  refine .srv trivial ?_
  simp [during, Sessions.step, Sessions.State.at, Sessions.State.put, Sessions.State.close, GoMap.get, GoMap.set,
    GoMap.del]

/-- **C67** is violated: whoever knows the public key of a user can end their session, at any time. -/
theorem C67_violated : ¬ OwnerEnds ident 1 := by
  intro h
  obtain ⟨r, x, j, r', a, x', h1, h2, h3, h4, h5, h6, h7⟩ :=
    h (during ident) (after ident) 2 1 (conn1 (ident (.long 2))) { conn1 (ident (.long 2)) with closed := true }
      during_reach after_step (by simp [during, GoMap.get]) rfl (by simp [after, GoMap.get]) rfl
      (by simp [during, fooled])
  change [metC, metS, ⟨.resp 1 0, fake 2, []⟩][2]? = some r at h1
  cases h1
  rw [fooled_result 2] at h2; cases h2
  change [metC, metS, ⟨.resp 1 0, fake 2, []⟩][j]? = some r' at h3
  match j with
  | 0 =>
    cases h3
    rw [met_resC] at h6; cases h6
    cases h7.read
  | 1 => cases h3; cases h4
  | 2 => cases h3; cases h4
  | j + 3 => simp at h3

/-- C67, the messages: client 2 has written one message, and the server has read it. -/
def heard (ident : KeyName → Sessions.Id) : Sys :=
  ⟨spoken, ⟨[(1, { conn1 (ident (.long 2)) with queue := 1 })], [(ident (.long 2), 1)], [(ident (.long 2), 1)], []⟩,
    [(1, .other [104, 105])]⟩

theorem spoken_reach : Reach ident 1 ⟨spoken, loggedIn (ident (.long 2)), []⟩ :=
  reach_net before_reach (n := spoken)
    (.tail (.refl _) (.write met 0 metC [104, 105] rfl (by rw [met_resC]; rfl)))

theorem heard_step : Step ident 1 ⟨spoken, loggedIn (ident (.long 2)), []⟩ (.srv (.request 1)) (heard ident) := by
  obtain ⟨f, hf1, hf2⟩ := spoken_read
  refine .request (c := 1) (r := metS) (f := f) (p := .other [104, 105]) rfl met_resS hf1 hf2 ?_
  simp [Sessions.step, Sessions.State.at, Sessions.State.put, GoMap.get, GoMap.set, GoMap.del, loggedIn, conn1]

theorem heard_reach' : Reach ident 1 (heard ident) := .step spoken_reach heard_step

/-- The request handled there is the message written. -/
example (hid : Function.Injective ident) : ∃ (j : Nat) (r : KXNet.Run) (d : Bytes),
    (heard ident).net.runs[j]? = some r ∧ r.role = .init 2 (.long 1) ∧ r.data[0]? = some d ∧
      (heard ident).read 1 = [.other d] :=
  C67_requests_partial hid _ _ spoken_reach 1 2 heard_step { conn1 (ident (.long 2)) with queue := 1 }
    (by simp [heard, GoMap.get]) rfl (by simp [heard, spoken])

example (hid : Function.Injective ident) : Present ident 1 (heard ident) 1 (ident (.long 2)) :=
  (C67_messages_partial hid (heard ident) heard_reach' 1 2 { conn1 (ident (.long 2)) with queue := 1 }
    (by simp [heard, GoMap.get]) rfl (by simp [heard, spoken]) (by simp [heard, Sys.read])).1

example : (conn1 (ident (.long 2))).id = ident (.long 2) :=
  C67_same_account_partial (during ident) (after ident) during_reach 2 1
    ⟨ident (.long 2), .conflict, false, false, 0⟩ (conn1 (ident (.long 2)))
    { conn1 (ident (.long 2)) with closed := true } after_step (by simp [during, GoMap.get])
    (by simp [during, GoMap.get]) rfl (by simp [after, GoMap.get]) rfl

end Verif.KXServer
