import Verif.Model.Invites
import Verif.Props.IniDB
import Verif.Props.Hex
import Verif.Props.Xdr
import Verif.Props.Rendezvous
import Verif.Proofs.Base64

/-! # C103: the files of invitations hold the invitations -/

namespace Verif.Invites

open Verif

/-! ## What is claimed -/

/-- The invitations received (or issued) and not used yet, by group and identity. -/
abbrev Open := GoMap (Str × Bytes) Invite

/-- What should happen: of several invitations of an identity to a group the first one counts; joining a group
uses up the invitation if it is the only one for the group; a join with the right token uses it up. -/
def Act.spec (m : Open) : Act → Bool × Open
  | .add id g => if (m.get (g.name, id)).isSome then (false, m) else (true, m.set (g.name, id) g)
  | .take group token =>
    match m.filter fun x => x.1.1 = group with
    | [x] => if x.2.token = token then (true, m.del x.1) else (false, m)
    | _ => (false, m)
  | .use id group token =>
    match m.get (group, id) with
    | some g => if g.token = token then (true, m.del (group, id)) else (false, m)
    | none => (false, m)

/-- The same for a sequence of actions, with their results. -/
inductive Spec : Open → List (Act × Bool) → Open → Prop
  | nil (m) : Spec m [] m
  | cons {m a as m'} : Spec (Act.spec m a).2 as m' → Spec m ((a, (Act.spec m a).1) :: as) m'

/-- What is known of the system: names of temporary files are new, and all tables and records are walked. -/
def Sys (base : Str) (d : IniDB.Dir) (a : Act) (e : Env) : Prop :=
  (e.tmp0 ≠ base ∧ ¬ (base ++ ['.']) <+: e.tmp0) ∧ (e.tmp ≠ base ∧ ¬ (base ++ ['.']) <+: e.tmp) ∧
    ∀ i d1, changed base d a e.tmp0 = (some i, d1) → IniDB.IsOrder i.tables e.order

/-- Identities have 32 bytes, and invitations are values that can be sent. -/
def Real : Act → Prop
  | .add id g => id.length = 32 ∧ Xdr.Fits 0 Xdr.groupInvite g.val
  | .take _ _ => True
  | .use id _ _ => id.length = 32

/-- The name of the group is not empty, has no line break, no `=`, and no blanks at its ends. -/
def Plain : Act → Prop
  | .add _ g => IniDB.GoodName g.name ∧ g.name ≠ []
  | _ => True

/-- The claim: starting without file, the results are those of the map, and a join is found exactly for
invitations in the map. -/
def C103_full : Prop :=
  ∀ (base : Str) (as : List (Act × Bool)) (d : IniDB.Dir), Run base (fun d a e => Sys base d a e ∧ Real a) [] as d →
    ∃ m, Spec [] as m ∧
      ∀ group token id, Finds base d group token id ↔ ∃ g, m.get (group, id) = some g ∧ g.token = token

/-! ## Strings -/

theorem str_eq (b : Bytes) : str b = Rendezvous.str b := rfl

theorem bytes_str {b : Bytes} (h : ∀ c ∈ b, c.toNat < 128) : bytes? (str b) = some b := by
  have h1 : (str b).all (fun c => decide (c.toNat < 128)) = true := by
    rw [List.all_eq_true]
    intro x hx
    simp only [str, List.mem_map] at hx
    obtain ⟨c, hc, rfl⟩ := hx
    rw [Rendezvous.ofNat_toNat (h c hc)]
    exact decide_eq_true (h c hc)
  have h2 : (str b).map (fun c => UInt8.ofNat c.toNat) = b := by
    clear h1
    induction b with
    | nil => rfl
    | cons c b ih =>
      simp only [str, List.map_cons] at ih ⊢
      rw [ih fun c hc => h c (by simp [hc]), Rendezvous.ofNat_toNat (h c (by simp))]
      simp
  rw [bytes?, if_pos h1, h2]

theorem digit_safe (n : Nat) (h : n < 16) : 43 ≤ (Hex.digit n).toNat ∧ (Hex.digit n).toNat ≤ 122 ∧ (Hex.digit n).toNat ≠ 61
    ∧ (Hex.digit n).toNat ≠ 59 ∧ (Hex.digit n).toNat ≠ 35 := by
  have : ∀ i : Fin 16, 43 ≤ (Hex.digit i).toNat ∧ (Hex.digit i).toNat ≤ 122 ∧ (Hex.digit i).toNat ≠ 61
    ∧ (Hex.digit i).toNat ≠ 59 ∧ (Hex.digit i).toNat ≠ 35 := by decide
  exact this ⟨n, h⟩

theorem hex_safe (b : Bytes) : ∀ c ∈ Hex.encode b, 43 ≤ c.toNat ∧ c.toNat ≤ 122 ∧ c.toNat ≠ 61 ∧ c.toNat ≠ 59 ∧ c.toNat ≠ 35 := by
  induction b with
  | nil => simp [Hex.encode]
  | cons x b ih =>
    intro c hc
    have := x.toNat_lt
    simp only [Hex.encode, List.mem_cons] at hc
    rcases hc with rfl | rfl | hc
    · exact digit_safe _ (by omega)
    · exact digit_safe _ (by omega)
    · exact ih c hc

theorem hex_bounds (b : Bytes) : ∀ c ∈ Hex.encode b, 43 ≤ c.toNat ∧ c.toNat ≤ 122 :=
  fun c h => ⟨(hex_safe b c h).1, (hex_safe b c h).2.1⟩

theorem hex_length (b : Bytes) : (Hex.encode b).length = 2 * b.length := by
  induction b with
  | nil => rfl
  | cons x b ih => simp only [Hex.encode, List.length_cons, ih]; omega

theorem hex_injective {a b : Bytes} (h : Hex.encode a = Hex.encode b) : a = b := by
  have := congrArg Hex.decode h
  rw [Hex.decode_encode, Hex.decode_encode] at this
  exact Option.some.inj this

theorem key_injective {a b : Bytes} (h : key a = key b) : a = b :=
  hex_injective (Rendezvous.str_injective (fun c hc => by have := hex_safe a c hc; omega)
    (fun c hc => by have := hex_safe b c hc; omega) h)

theorem key_good {id : Bytes} (h : id.length = 32) : IniDB.GoodKey (key id) := by
  have hb := hex_bounds id
  have ne : ∀ x ∈ key id, x.toNat ≠ 61 ∧ x.toNat ≠ 59 ∧ x.toNat ≠ 35 ∧ x.toNat ≠ 10 := by
    intro x hx
    obtain ⟨h1, _, c, h2, h3⟩ := Rendezvous.mem_str hb hx
    have := hex_safe id c h2
    omega
  refine ⟨?_, Rendezvous.trim_str hb, ?_, ?_, ?_, ?_⟩
  · intro e
    have := congrArg List.length e
    simp only [key, str, List.length_map, hex_length, List.length_nil] at this
    omega
  · intro e; exact (ne _ e).2.2.2 (by decide)
  · intro e; exact (ne _ e).1 (by decide)
  · intro e; exact (ne _ (List.mem_of_head? e)).2.1 (by decide)
  · intro e; exact (ne _ (List.mem_of_head? e)).2.2.1 (by decide)

theorem idOf_key {id : Bytes} (h : id.length = 32) : idOf (key id) = some id := by
  rw [idOf, key, bytes_str fun c hc => by have := hex_safe id c hc; omega]
  simp only [Hex.decode_encode, Option.map_some]
  rw [← h, List.take_left']
  rfl

theorem record_good (g : Invite) : IniDB.GoodVal (record g) := by
  have hb := Base64.encode_safe (Xdr.enc Xdr.groupInvite g.val)
  refine ⟨Rendezvous.trim_str hb, ?_⟩
  intro e
  have := (Rendezvous.mem_str hb e).1
  revert this; decide

theorem unmarshal_record {g : Invite} (h : Xdr.Fits 0 Xdr.groupInvite g.val) : unmarshalInvite (record g) = some g.val := by
  have hb := Base64.encode_safe (Xdr.enc Xdr.groupInvite g.val)
  rw [unmarshalInvite, record, bytes_str fun c hc => by have := hb c hc; omega]
  have := Xdr.C23_roundtrip 0 Xdr.groupInvite g.val h []
  rw [List.append_nil] at this
  simp only [Base64.decode_encode, this]

theorem tokenOf_val (g : Invite) : tokenOf g.val = g.token := rfl

/-! ## The tables stand for the map -/

/-- The record of `t` and `k`. -/
def getT (T : IniDB.Tables) (t k : Str) : Option Str :=
  match T.get t with
  | some s => s.get k
  | none => none

theorem get_eq (i : IniDB.DB) (t k : Str) : IniDB.get i t k = getT i.tables t k := rfl

structure Rep (T : IniDB.Tables) (m : Open) : Prop where
  wf : GoMap.WF T
  wfs : ∀ t s, T.get t = some s → GoMap.WF s
  names : ∀ t s, T.get t = some s → IniDB.GoodName t
  dflt : T.get [] = some []
  recs : ∀ t k v, getT T t k = some v ↔ ∃ id g, m.get (t, id) = some g ∧ k = key id ∧ v = record g
  mwf : GoMap.WF m
  dom : ∀ t id g, m.get (t, id) = some g → id.length = 32 ∧ t ≠ [] ∧ Xdr.Fits 0 Xdr.groupInvite g.val

theorem Rep.get {T : IniDB.Tables} {m : Open} (h : Rep T m) (t : Str) (id : Bytes) :
    getT T t (key id) = (m.get (t, id)).map record := by
  cases hm : m.get (t, id) with
  | some g => exact (h.recs t _ _).2 ⟨id, g, hm, rfl, rfl⟩
  | none =>
    cases hg : getT T t (key id) with
    | none => rfl
    | some v =>
      obtain ⟨id', g, h1, h2, -⟩ := (h.recs t _ _).1 hg
      rw [← key_injective h2, hm] at h1
      cases h1

theorem Rep.good {T : IniDB.Tables} {m : Open} (h : Rep T m) : IniDB.GoodContent T := by
  intro t s hs
  refine ⟨h.names t s hs, fun k v hv => ?_⟩
  have : getT T t k = some v := by rw [getT, hs]; exact hv
  obtain ⟨id, g, h1, rfl, rfl⟩ := (h.recs t k v).1 this
  exact ⟨key_good (h.dom _ _ _ h1).1, record_good g⟩

theorem Rep.empty : Rep [([], [])] [] := by
  refine ⟨by decide, ?_, ?_, by decide, ?_, GoMap.wf_nil, ?_⟩
  · intro t s h
    rw [GoMap.get_cons] at h
    split at h
    · cases h; exact GoMap.wf_nil
    · simp at h
  · intro t s h
    rw [GoMap.get_cons] at h
    split at h
    · next e => subst e; exact ⟨rfl, by simp, by simp⟩
    · simp at h
  · intro t k v
    simp only [getT, GoMap.get_cons]
    by_cases e : ([] : Str) = t
    · simp [e]
    · simp [e]
  · intro t id g h; simp at h

/-- Tables with the same records stand for the same map. -/
theorem Rep.same {T T' : IniDB.Tables} {m : Open} (h : Rep T m) (hw : GoMap.WF T')
    (hws : ∀ t s, T'.get t = some s → GoMap.WF s) (hs : IniDB.Same T' T) : Rep T' m := by
  have hg : ∀ t k, getT T' t k = getT T t k := by
    intro t k
    have := hs t
    unfold getT
    revert this
    cases T'.get t <;> cases T.get t <;> intro this
    · rfl
    · exact this.elim
    · exact this.elim
    · exact this k
  refine ⟨hw, hws, ?_, ?_, fun t k v => by rw [hg]; exact h.recs t k v, h.mwf, h.dom⟩
  · intro t s hts
    have := hs t
    rw [hts] at this
    cases e : T.get t with
    | none => rw [e] at this; exact this.elim
    | some s' => exact h.names t s' e
  · have := hs []
    rw [h.dflt] at this
    cases e : T'.get [] with
    | none => rw [e] at this; exact this.elim
    | some s =>
      rw [e] at this
      cases s with
      | nil => rfl
      | cons a s =>
        have := this a.1
        rw [show a = (a.1, a.2) from rfl, GoMap.get_cons, if_pos rfl] at this
        simp at this

/-- The records of a group, as a list, are those of the map. -/
theorem Rep.perm {T : IniDB.Tables} {m : Open} (h : Rep T m) (group : Str) :
    ((T.get group).getD []).Perm ((m.filter fun x => x.1.1 = group).map fun x => (key x.1.2, record x.2)) := by
  have hw : GoMap.WF ((T.get group).getD []) := by
    cases e : T.get group with
    | none => exact GoMap.wf_nil
    | some s => exact h.wfs _ _ e
  have hm : m.Nodup := List.Nodup.of_map _ h.mwf
  refine (List.perm_ext_iff_of_nodup (List.Nodup.of_map _ hw) ?_).2 ?_
  · refine List.Nodup.map_on ?_ (hm.filter _)
    rintro ⟨⟨t, id⟩, g⟩ hx ⟨⟨t', id'⟩, g'⟩ hy e
    simp only [List.mem_filter, decide_eq_true_eq] at hx hy
    simp only [Prod.mk.injEq] at e
    obtain ⟨hx, rfl⟩ := hx
    obtain ⟨hy, rfl⟩ := hy
    have hid := key_injective e.1
    subst hid
    have h1 := (GoMap.mem_iff_get h.mwf).1 hx
    have h2 := (GoMap.mem_iff_get h.mwf).1 hy
    rw [h1] at h2
    cases h2
    rfl
  · rintro ⟨k, v⟩
    have : (k, v) ∈ (T.get group).getD [] ↔ getT T group k = some v := by
      rw [GoMap.mem_iff_get hw, getT]
      cases T.get group <;> simp
    rw [this, h.recs]
    simp only [List.mem_map, List.mem_filter, decide_eq_true_eq, Prod.mk.injEq, Prod.exists]
    constructor
    · rintro ⟨id, g, h1, rfl, rfl⟩
      exact ⟨group, id, g, ⟨GoMap.mem_of_get h1, rfl⟩, rfl, rfl⟩
    · rintro ⟨t, id, g, ⟨h1, rfl⟩, rfl, rfl⟩
      exact ⟨id, g, (GoMap.mem_iff_get h.mwf).1 h1, rfl, rfl⟩

/-! ## Each action -/

theorem getT_set (T : IniDB.Tables) (t : Str) (s : IniDB.Section) (t' k : Str) :
    getT (T.set t s) t' k = if t = t' then s.get k else getT T t' k := by
  unfold getT
  rw [GoMap.get_set]
  by_cases e : t = t'
  · rw [if_pos e, if_pos e]
  · rw [if_neg e, if_neg e]

theorem add_rep {i : IniDB.DB} {m : Open} (h : Rep i.tables m) (id : Bytes) (g : Invite) (hr : Real (.add id g))
    (hp : Plain (.add id g)) :
    match add id g i with
    | none => Act.spec m (.add id g) = (false, m)
    | some i' => ∃ m', Act.spec m (.add id g) = (true, m') ∧ Rep i'.tables m' ∧ i'.dirty = true ∧ i'.base = i.base ∧
        i'.created = i.created := by
  have hget := h.get g.name id
  unfold add
  rw [get_eq, hget]
  cases hm : m.get (g.name, id) with
  | some g0 => simp [Act.spec, hm]
  | none =>
    obtain ⟨s, hs, hws⟩ : ∃ s, (IniDB.newTable i g.name).tables.get g.name = some s ∧ s = (i.tables.get g.name).getD [] := by
      refine ⟨_, ?_, rfl⟩
      simp only [IniDB.newTable]
      rw [IniDB.get_touch, if_pos rfl]
    have hset : IniDB.set (IniDB.newTable i g.name) g.name (key id) (record g) =
        (true, { IniDB.newTable i g.name with
          tables := (IniDB.newTable i g.name).tables.set g.name (s.set (key id) (record g)), dirty := true }) := by
      simp only [IniDB.set, hs]
    simp only [Option.map_none, Option.isSome_none, Bool.false_eq_true, if_false, hset, if_true]
    refine ⟨m.set (g.name, id) g, by simp [Act.spec, hm], ?_, by simp [IniDB.newTable]⟩
    have hwf : GoMap.WF s := by
      rw [hws]
      cases e : i.tables.get g.name with
      | none => exact GoMap.wf_nil
      | some s' => exact h.wfs _ _ e
    have hother : ∀ t, t ≠ g.name → (IniDB.newTable i g.name).tables.get t = i.tables.get t := by
      intro t ht
      simp only [IniDB.newTable]
      rw [IniDB.get_touch, if_neg (Ne.symm ht)]
    have hsget : ∀ k, s.get k = getT i.tables g.name k := by
      intro k
      rw [hws, getT]
      cases i.tables.get g.name <;> rfl
    refine ⟨GoMap.wf_set (IniDB.touch_wf h.wf _) _ _, ?_, ?_, ?_, ?_, GoMap.wf_set h.mwf _ _, ?_⟩
    · intro t s' ht
      simp only [GoMap.get_set] at ht
      split at ht
      · cases ht; exact GoMap.wf_set hwf _ _
      · next e => rw [hother t (Ne.symm e)] at ht; exact h.wfs _ _ ht
    · intro t s' ht
      simp only [GoMap.get_set] at ht
      split at ht
      · next e => subst e; exact hp.1
      · next e => rw [hother t (Ne.symm e)] at ht; exact h.names _ _ ht
    · show GoMap.get (GoMap.set _ _ _) [] = some []
      rw [GoMap.get_set, if_neg hp.2, hother [] (Ne.symm hp.2), h.dflt]
    · intro t k v
      show getT (GoMap.set _ _ _) t k = some v ↔ _
      rw [getT_set]
      by_cases et : g.name = t
      · subst et
        rw [if_pos rfl, GoMap.get_set]
        by_cases ek : key id = k
        · subst ek
          rw [if_pos rfl]
          constructor
          · intro e
            exact ⟨id, g, GoMap.get_set_self _ _ _, rfl, (Option.some.inj e).symm⟩
          · rintro ⟨id', g', h1, h2, rfl⟩
            rw [← key_injective h2, GoMap.get_set_self] at h1
            rw [Option.some.inj h1]
        · rw [if_neg ek, hsget, h.recs]
          constructor
          · rintro ⟨id', g', h1, rfl, rfl⟩
            refine ⟨id', g', ?_, rfl, rfl⟩
            rw [GoMap.get_set_ne _ _ fun e => ek (by rw [(Prod.mk.inj e).2])]
            exact h1
          · rintro ⟨id', g', h1, rfl, rfl⟩
            refine ⟨id', g', ?_, rfl, rfl⟩
            rwa [GoMap.get_set_ne _ _ fun e => ek (by rw [(Prod.mk.inj e).2])] at h1
      · rw [if_neg et]
        have : getT (IniDB.newTable i g.name).tables t k = getT i.tables t k := by
          unfold getT
          rw [hother t (Ne.symm et)]
        rw [this, h.recs]
        have e1 : ∀ id', (m.set (g.name, id) g).get (t, id') = m.get (t, id') := fun id' =>
          GoMap.get_set_ne _ _ fun e => et (Prod.mk.inj e).1
        simp only [e1]
    · intro t id' g' hg
      rw [GoMap.get_set] at hg
      split at hg
      · next e =>
        cases e
        cases hg
        exact ⟨hr.1, hp.2, hr.2⟩
      · exact h.dom _ _ _ hg

theorem use_rep {i : IniDB.DB} {m : Open} (h : Rep i.tables m) (id : Bytes) (group : Str) (token : Nat) :
    match use id group token i with
    | none => Act.spec m (.use id group token) = (false, m)
    | some i' => ∃ m', Act.spec m (.use id group token) = (true, m') ∧ Rep i'.tables m' ∧ i'.dirty = true ∧ i'.base = i.base ∧
        i'.created = i.created := by
  have hget := h.get group id
  unfold use
  rw [get_eq, hget]
  cases hm : m.get (group, id) with
  | none => simp [Act.spec, hm]
  | some g =>
    have hd := h.dom _ _ _ hm
    simp only [Option.map_some, unmarshal_record hd.2.2]
    by_cases et : tokenOf g.val = token
    · obtain ⟨s, hs⟩ : ∃ s, i.tables.get group = some s := by
        cases e : i.tables.get group with
        | some s => exact ⟨s, rfl⟩
        | none => rw [hm, getT, e] at hget; cases hget
      rw [if_neg (not_not.2 et)]
      have hdel : IniDB.del i group (key id) =
          (true, { i with tables := i.tables.set group (s.del (key id)), dirty := true }) := by
        simp only [IniDB.del, hs]
      simp only [hdel, if_true]
      refine ⟨m.del (group, id), by rw [tokenOf_val] at et; simp [Act.spec, hm, et], ?_, by simp⟩
      refine ⟨GoMap.wf_set h.wf _ _, ?_, ?_, ?_, ?_, GoMap.wf_del h.mwf _, ?_⟩
      · intro t s' ht
        simp only [GoMap.get_set] at ht
        split at ht
        · cases ht; exact GoMap.wf_del (h.wfs _ _ hs) _
        · exact h.wfs _ _ ht
      · intro t s' ht
        simp only [GoMap.get_set] at ht
        split at ht
        · next e => subst e; exact h.names _ _ hs
        · exact h.names _ _ ht
      · show GoMap.get (GoMap.set _ _ _) [] = some []
        rw [GoMap.get_set, if_neg hd.2.1, h.dflt]
      · intro t k v
        show getT (GoMap.set _ _ _) t k = some v ↔ _
        rw [getT_set]
        by_cases e : group = t
        · subst e
          have hsg : s.get k = getT i.tables group k := by rw [getT, hs]
          rw [if_pos rfl, GoMap.get_del]
          by_cases ek : key id = k
          · subst ek
            simp only [if_true]
            constructor
            · intro e; cases e
            · rintro ⟨id', g', h1, h2, -⟩
              rw [← key_injective h2, GoMap.get_del_self] at h1
              cases h1
          · rw [if_neg ek, hsg, h.recs]
            constructor
            · rintro ⟨id', g', h1, rfl, rfl⟩
              refine ⟨id', g', ?_, rfl, rfl⟩
              rw [GoMap.get_del_ne _ fun e => ek (by rw [(Prod.mk.inj e).2])]
              exact h1
            · rintro ⟨id', g', h1, rfl, rfl⟩
              refine ⟨id', g', ?_, rfl, rfl⟩
              rwa [GoMap.get_del_ne _ fun e => ek (by rw [(Prod.mk.inj e).2])] at h1
        · rw [if_neg e, h.recs]
          have e1 : ∀ id', (m.del (group, id)).get (t, id') = m.get (t, id') := fun id' =>
            GoMap.get_del_ne _ fun h => e (Prod.mk.inj h).1
          simp only [e1]
      · intro t id' g' hg
        rw [GoMap.get_del] at hg
        split at hg
        · cases hg
        · exact h.dom _ _ _ hg
    · rw [if_pos et]
      rw [tokenOf_val] at et
      simp [Act.spec, hm, et]

theorem take_rep {i : IniDB.DB} {m : Open} (h : Rep i.tables m) (group : Str) (token : Nat) :
    match take group token i with
    | none => Act.spec m (.take group token) = (false, m)
    | some i' => ∃ m', Act.spec m (.take group token) = (true, m') ∧ Rep i'.tables m' ∧ i'.dirty = true ∧ i'.base = i.base ∧
        i'.created = i.created := by
  have hp := h.perm group
  have hrec : IniDB.records i group = (i.tables.get group).getD [] := rfl
  unfold take
  rw [hrec]
  generalize hl : (i.tables.get group).getD [] = l at hp
  rcases l with _ | ⟨⟨k, r⟩, _ | ⟨b, l⟩⟩
  · have := hp.length_eq
    rw [List.length_map] at this
    have : (m.filter fun x => x.1.1 = group) = [] := List.length_eq_zero_iff.1 this.symm
    simp [Act.spec, this]
  · have hlen := hp.length_eq
    rw [List.length_map] at hlen
    obtain ⟨⟨⟨t, id⟩, g⟩, hf⟩ := List.length_eq_one_iff.1 hlen.symm
    rw [hf] at hp
    have := List.perm_singleton.1 hp
    simp only [List.cons.injEq, Prod.mk.injEq, and_true] at this
    obtain ⟨rfl, rfl⟩ := this
    have hmem : ((t, id), g) ∈ m.filter fun x => x.1.1 = group := by rw [hf]; simp
    have hmem' := List.mem_filter.1 hmem
    have ht : t = group := by simpa using hmem'.2
    subst ht
    have hm := (GoMap.mem_iff_get h.mwf).1 hmem'.1
    have hd := h.dom _ _ _ hm
    simp only [unmarshal_record hd.2.2]
    by_cases et : token = tokenOf g.val
    · rw [if_neg (not_not.2 et)]
      obtain ⟨s, hs⟩ : ∃ s, i.tables.get t = some s := by
        cases e : i.tables.get t with
        | some s => exact ⟨s, rfl⟩
        | none => rw [e] at hl; cases hl
      have hdel : IniDB.delTable i t = (true, { i with tables := i.tables.del t, dirty := true }) := by
        simp only [IniDB.delTable, hs]
      simp only [hdel, if_true]
      refine ⟨m.del (t, id), by rw [tokenOf_val] at et; simp [Act.spec, hf, et], ?_, by simp⟩
      refine ⟨GoMap.wf_del h.wf _, ?_, ?_, ?_, ?_, GoMap.wf_del h.mwf _, ?_⟩
      · intro t' s' ht
        simp only [GoMap.get_del] at ht
        split at ht
        · cases ht
        · exact h.wfs _ _ ht
      · intro t' s' ht
        simp only [GoMap.get_del] at ht
        split at ht
        · cases ht
        · exact h.names _ _ ht
      · show GoMap.get (GoMap.del _ _) [] = some []
        rw [GoMap.get_del, if_neg hd.2.1, h.dflt]
      · intro t' k v
        have e0 : getT (i.tables.del t) t' k = if t = t' then none else getT i.tables t' k := by
          unfold getT
          rw [GoMap.get_del]
          split <;> simp_all
        show getT (GoMap.del _ _) t' k = some v ↔ _
        rw [e0]
        by_cases e : t = t'
        · subst e
          rw [if_pos rfl]
          constructor
          · intro e; cases e
          · rintro ⟨id', g', h1, -, -⟩
            rw [GoMap.get_del] at h1
            split at h1
            · cases h1
            · next ne =>
              have : ((t, id'), g') ∈ m.filter fun x => x.1.1 = t := List.mem_filter.2 ⟨GoMap.mem_of_get h1, by simp⟩
              rw [hf] at this
              simp only [List.mem_singleton, Prod.mk.injEq, true_and] at this
              exact absurd (by rw [this.1]) ne
        · rw [if_neg e, h.recs]
          have e1 : ∀ id', (m.del (t, id)).get (t', id') = m.get (t', id') := fun id' =>
            GoMap.get_del_ne _ fun h => e (Prod.mk.inj h).1
          simp only [e1]
      · intro t' id' g' hg
        rw [GoMap.get_del] at hg
        split at hg
        · cases hg
        · exact h.dom _ _ _ hg
    · rw [if_pos et]
      rw [tokenOf_val] at et
      simp [Act.spec, hf, Ne.symm et]
  · have hlen := hp.length_eq
    rw [List.length_map] at hlen
    rcases hf : (m.filter fun x => x.1.1 = group) with _ | ⟨x, _ | ⟨y, l'⟩⟩
    · rw [hf] at hlen; simp at hlen
    · rw [hf] at hlen; simp at hlen
    · simp [Act.spec, hf]

theorem change_rep {i : IniDB.DB} {m : Open} (h : Rep i.tables m) (a : Act) (hr : Real a) (hp : Plain a) :
    match a.change i with
    | none => Act.spec m a = (false, m)
    | some i' => ∃ m', Act.spec m a = (true, m') ∧ Rep i'.tables m' ∧ i'.dirty = true ∧ i'.base = i.base ∧
        i'.created = i.created := by
  cases a with
  | add id g => exact add_rep h id g hr hp
  | take group token => exact take_rep h group token
  | use id group token => exact use_rep h id group token

/-! ## The file -/

/-- Maps of maps without double keys. -/
def Tidy (T : IniDB.Tables) : Prop := GoMap.WF T ∧ ∀ t s, T.get t = some s → GoMap.WF s

theorem Tidy.touch {T : IniDB.Tables} (h : Tidy T) (t : Str) : Tidy (IniDB.touch T t) := by
  refine ⟨IniDB.touch_wf h.1 t, fun u s hs => ?_⟩
  rw [IniDB.get_touch] at hs
  split at hs
  · next e =>
    subst e
    cases ht : T.get t with
    | none => rw [ht] at hs; cases hs; exact GoMap.wf_nil
    | some s' => rw [ht] at hs; cases hs; exact h.2 _ _ ht
  · exact h.2 _ _ hs

theorem Tidy.put {T : IniDB.Tables} (h : Tidy T) (t k v : Str) : Tidy (IniDB.put T t k v) := by
  constructor
  · unfold IniDB.put
    split <;> exact GoMap.wf_set h.1 _ _
  · intro u s hs
    rw [IniDB.get_put] at hs
    split at hs
    · cases hs
      refine GoMap.wf_set ?_ _ _
      cases ht : T.get t with
      | none => exact GoMap.wf_nil
      | some s' => exact h.2 _ _ ht
    · exact h.2 _ _ hs

theorem Tidy.putAll {T : IniDB.Tables} (h : Tidy T) (t : Str) (rs : List (Str × Str)) : Tidy (IniDB.putAll T t rs) := by
  induction rs generalizing T with
  | nil => exact h
  | cons r rs ih => exact ih (h.put t r.1 r.2)

theorem Tidy.readAll {T : IniDB.Tables} (h : Tidy T) (order : List (Str × List (Str × Str))) (cur : Str) :
    Tidy (IniDB.readAll order cur T) := by
  induction order generalizing T cur with
  | nil => exact h
  | cons t o ih =>
    refine ih ?_ _
    unfold IniDB.readTable
    split
    · exact (h.touch _).putAll _ _
    · exact h.putAll _ _

theorem Tidy.nil : Tidy [] := ⟨GoMap.wf_nil, fun t s h => by simp at h⟩

/-- The file stands for the map. -/
def Stands (base : Str) (d : IniDB.Dir) (m : Open) : Prop :=
  (d.get base = none ∧ m = []) ∨
    ∃ T, (d.get base).isSome = true ∧ Rep T m ∧
      ∀ c tmp, IniDB.new base c depth d tmp =
        .opened { base := base, depth := depth, dirty := false, created := false, tables := T }

/-- Saving tables that stand for a map gives a file that does. -/
theorem saved_stands {base : Str} {i : IniDB.DB} {d : IniDB.Dir} {m : Open} {tmp stamp : Str}
    {order : List (Str × List (Str × Str))} (hr : Rep i.tables m) (hd : i.dirty = true) (hbase : i.base = base)
    (ht : tmp ≠ base ∧ ¬ (base ++ ['.']) <+: tmp) (hb : i.created = true ∨ (d.get base).isSome)
    (ho : IniDB.IsOrder i.tables order) :
    (IniDB.save i d tmp stamp order).1 = true ∧ Stands base (IniDB.save i d tmp stamp order).2.2 m := by
  subst hbase
  have ht' : IniDB.TmpOK i tmp := ⟨ht.1, ht.2⟩
  refine ⟨(IniDB.save_spec hd ht' hb).1, .inr ⟨IniDB.touch (IniDB.readAll order [] []) [], ?_, ?_, ?_⟩⟩
  · rw [IniDB.save_base hd ht' hb]; rfl
  · have ht := (Tidy.nil.readAll order []).touch []
    exact hr.same ht.1 ht.2 (IniDB.readAll_same hr.wf hr.wfs ho (by rw [hr.dflt]; rfl) (.inl hr.dflt))
  · intro c tmp'
    exact IniDB.new_saved hd ht' hb (IniDB.order_good hr.good hr.wfs ho) c depth tmp'

/-- Opening the file. -/
theorem opened_stands {base : Str} {d : IniDB.Dir} {m : Open} (h : Stands base d m) (create : Bool) (tmp0 : Str)
    (ht : tmp0 ≠ base ∧ ¬ (base ++ ['.']) <+: tmp0) :
    Stands base (opened base create d tmp0).2 m ∧
    match (opened base create d tmp0).1 with
    | none => create = false ∧ m = [] ∧ (opened base create d tmp0).2 = d
    | some i => Rep i.tables m ∧ i.base = base ∧
        (i.created = true ∨ ((opened base create d tmp0).2.get base).isSome = true) := by
  rcases h with ⟨h1, rfl⟩ | ⟨T, h1, h2, h3⟩
  · cases create with
    | false => simp [opened, IniDB.new, h1, Stands]
    | true =>
      let i : IniDB.DB := { base := base, depth := depth, dirty := true, created := true, tables := [([], [])] }
      have hsv := saved_stands (i := i) (d := d) (m := []) (tmp := tmp0) (stamp := []) (order := [([], [])]) Rep.empty rfl rfl ht
        (.inl rfl) ⟨List.Perm.refl _, fun t ht => ⟨[], by simp at ht; subst ht; rfl, by simp at ht; subst ht; exact List.Perm.refl _⟩⟩
      have hsp := (IniDB.save_spec (i := i) (d := d) (tmp := tmp0) (stamp := []) (order := [([], [])]) rfl ⟨ht.1, ht.2⟩ (.inl rfl)).2.1
      have : IniDB.new base true depth d tmp0 =
          .created (IniDB.save i d tmp0 [] [([], [])]).2.1 (IniDB.save i d tmp0 [] [([], [])]).2.2 := by
        simp only [IniDB.new, h1, if_true]
        rw [if_pos hsv.1]
      simp only [opened, this]
      refine ⟨hsv.2, ?_⟩
      rw [hsp]
      exact ⟨Rep.empty, rfl, .inl rfl⟩
  · simp only [opened, h3]
    exact ⟨.inr ⟨T, h1, h2, h3⟩, h2, by simp [h1]⟩

/-- One of the functions does what is claimed. -/
theorem step_stands {base : Str} {d : IniDB.Dir} {m : Open} (h : Stands base d m) (a : Act) (e : Env)
    (hs : Sys base d a e) (hr : Real a) (hp : Plain a) :
    (step base d a e).1 = (Act.spec m a).1 ∧ Stands base (step base d a e).2 (Act.spec m a).2 := by
  obtain ⟨h1, h2⟩ := opened_stands h a.create e.tmp0 hs.1
  have h3 := hs.2.2
  unfold step changed at *
  rcases ho : opened base a.create d e.tmp0 with ⟨_ | i, d1⟩
  · rw [ho] at h1 h2
    simp only at h1 h2 ⊢
    obtain ⟨h4, rfl, rfl⟩ := h2
    cases a with
    | add id g => cases h4
    | take g t => simpa [Act.spec] using h1
    | use id g t => simpa [Act.spec] using h1
  · rw [ho] at h1 h2
    simp only [ho] at h1 h2 h3 ⊢
    have h4 := change_rep h2.1 a hr hp
    cases hc : a.change i with
    | none =>
      rw [hc] at h4
      simp only at h4 ⊢
      rw [h4]
      exact ⟨rfl, h1⟩
    | some i' =>
      rw [hc] at h4
      simp only at h4 ⊢
      obtain ⟨m', h5, h6, h7, h8, h9⟩ := h4
      rw [h5]
      exact saved_stands h6 h7 (h8.trans h2.2.1) hs.2.1 (by rw [h9]; exact h2.2.2) (h3 i' d1 (by rw [hc]))

theorem finds_stands {base : Str} {d : IniDB.Dir} {m : Open} (h : Stands base d m) (group : Str) (token : Nat) (id : Bytes) :
    Finds base d group token id ↔ ∃ g, m.get (group, id) = some g ∧ g.token = token := by
  rcases h with ⟨h1, rfl⟩ | ⟨T, h1, h2, h3⟩
  · simp [Finds, opened, IniDB.new, h1]
  · simp only [Finds, opened, h3, Option.some.injEq, exists_eq_left']
    have hrec : ∀ k r, (k, r) ∈ (T.get group).getD [] ↔ getT T group k = some r := by
      intro k r
      have hw : GoMap.WF ((T.get group).getD []) := by
        cases e : T.get group with
        | none => exact GoMap.wf_nil
        | some s => exact h2.wfs _ _ e
      rw [GoMap.mem_iff_get hw, getT]
      cases T.get group <;> simp
    constructor
    · rintro ⟨k, r, v, h4, h5, h6, h7⟩
      obtain ⟨id', g, h8, rfl, rfl⟩ := (h2.recs _ _ _).1 ((hrec k r).1 h4)
      have hd := h2.dom _ _ _ h8
      rw [unmarshal_record hd.2.2] at h5
      cases h5
      rw [idOf_key hd.1] at h7
      cases h7
      exact ⟨g, h8, h6⟩
    · rintro ⟨g, h4, h5⟩
      have hd := h2.dom _ _ _ h4
      exact ⟨key id, record g, g.val, (hrec _ _).2 ((h2.recs _ _ _).2 ⟨id, g, h4, rfl, rfl⟩), unmarshal_record hd.2.2, h5,
        idOf_key hd.1⟩

theorem run_stands {base : Str} {d d' : IniDB.Dir} {m : Open} {as : List (Act × Bool)} (h : Stands base d m)
    (hr : Run base (fun d a e => Sys base d a e ∧ Real a ∧ Plain a) d as d') : ∃ m', Spec m as m' ∧ Stands base d' m' := by
  induction hr generalizing m with
  | nil d => exact ⟨m, .nil m, h⟩
  | cons hg _ ih =>
    obtain ⟨h1, h2⟩ := step_stands h _ _ hg.1 hg.2.1 hg.2.2
    obtain ⟨m', h3, h4⟩ := ih h2
    rw [h1]
    exact ⟨m', .cons h3, h4⟩

/-- **C103** (partial). Each function succeeds exactly when it should, and a join is found exactly for the
invitations that were received and not used yet, over any sequence of actions, whatever the order in which the maps
are walked. Missing for the full claim: names of groups that are empty, have a line break, `=`, or blanks at an
end. -/
theorem C103_exact_partial (base : Str) (as : List (Act × Bool)) (d : IniDB.Dir)
    (hr : Run base (fun d a e => Sys base d a e ∧ Real a ∧ Plain a) [] as d) :
    ∃ m, Spec [] as m ∧
      ∀ group token id, Finds base d group token id ↔ ∃ g, m.get (group, id) = some g ∧ g.token = token := by
  obtain ⟨m, h1, h2⟩ := run_stands (.inl ⟨rfl, rfl⟩) hr
  exact ⟨m, h1, finds_stands h2⟩

/-! ## Violations -/

/-- The name of a group in which a line with a record of `bob` is hidden. -/
def forgedName (inv : Invite) (bob : Bytes) : Str :=
  inv.name ++ ']' :: '\n' :: (key bob ++ [' ', '=', ' '] ++ record inv ++ '\n' :: '[' :: inv.name)

/-- An invitation to the group with this name. -/
def forged (inv : Invite) (bob : Bytes) : Invite := { inv with name := forgedName inv bob }

/-- The orders of a table and the empty default table. -/
theorem order_two {N : Str} {r : Str × Str} (hN : N ≠ []) {order : List (Str × List (Str × Str))}
    (h : IniDB.IsOrder [(N, [r]), ([], [])] order) : order = [(N, [r]), ([], [])] ∨ order = [([], []), (N, [r])] := by
  obtain ⟨h1, h2⟩ := h
  have hl := h1.length_eq
  simp only [GoMap.keys, List.map_cons, List.map_nil, List.length_map, List.length_cons, List.length_nil] at hl
  have hN' : GoMap.get [(N, [r]), (([] : Str), ([] : List (Str × Str)))] N = some [r] := by rw [GoMap.get_cons, if_pos rfl]
  have h0 : GoMap.get [(N, [r]), (([] : Str), ([] : List (Str × Str)))] [] = some [] := by
    rw [GoMap.get_cons, if_neg hN, GoMap.get_cons, if_pos rfl]
  have hNt : ∀ l, (N, l) ∈ order → l = [r] := by
    intro l hl
    obtain ⟨s, h3, h4⟩ := h2 _ hl
    rw [hN'] at h3
    cases h3
    exact List.perm_singleton.1 h4
  have h0t : ∀ l, ([], l) ∈ order → l = [] := by
    intro l hl
    obtain ⟨s, h3, h4⟩ := h2 _ hl
    rw [h0] at h3
    cases h3
    exact List.perm_nil.1 h4
  rcases order with _ | ⟨⟨a, la⟩, _ | ⟨⟨b, lb⟩, _ | _⟩⟩
  · simp at hl
  · simp at hl
  · simp only [GoMap.keys, List.map_cons, List.map_nil] at h1
    have ha : a ∈ [N, []] := h1.mem_iff.1 (by simp)
    have hb : b ∈ [N, []] := h1.mem_iff.1 (by simp)
    have hnd : ([a, b] : List Str).Nodup := h1.nodup_iff.2 (by simp [hN])
    simp only [List.nodup_cons, List.mem_singleton] at hnd
    simp only [List.mem_cons, List.not_mem_nil, or_false] at ha hb
    rcases ha with rfl | rfl <;> rcases hb with rfl | rfl
    · exact absurd rfl hnd.1
    · left; rw [hNt la (by simp), h0t lb (by simp)]
    · right; rw [hNt lb (by simp), h0t la (by simp)]
    · exact absurd rfl hnd.1
  · simp at hl

/-- What is saved when the first invitation comes. -/
theorem first_changed {base : Str} {id : Bytes} {g : Invite} (hg : g.name ≠ []) {tmp0 : Str}
    (ht : tmp0 ≠ base ∧ ¬ (base ++ ['.']) <+: tmp0) :
    ∃ d1, changed base [] (.add id g) tmp0 =
      (some { base := base, depth := depth, dirty := true, created := true,
              tables := [(g.name, [(key id, record g)]), ([], [])] }, d1) := by
  let i : IniDB.DB := { base := base, depth := depth, dirty := true, created := true, tables := [([], [])] }
  have hsp := IniDB.save_spec (i := i) (d := []) (tmp := tmp0) (stamp := []) (order := [([], [])]) rfl ⟨ht.1, ht.2⟩ (.inl rfl)
  refine ⟨(IniDB.save i [] tmp0 [] [([], [])]).2.2, ?_⟩
  have : IniDB.new base true depth [] tmp0 =
      .created (IniDB.save i [] tmp0 [] [([], [])]).2.1 (IniDB.save i [] tmp0 [] [([], [])]).2.2 := by
    simp only [IniDB.new, GoMap.get_nil, if_true]
    rw [if_pos hsp.1]
  have h1 : opened base (Act.add id g).create [] tmp0 =
      (some { i with dirty := false }, (IniDB.save i [] tmp0 [] [([], [])]).2.2) := by
    simp only [opened, Act.create, this, hsp.2.1]
  have hn : GoMap.get [(([] : Str), ([] : IniDB.Section))] g.name = none := by
    rw [GoMap.get_cons, if_neg (Ne.symm hg)]; rfl
  simp only [changed, h1, Act.change, add, IniDB.get, IniDB.newTable, IniDB.touch, IniDB.set, i, hn, GoMap.set,
    GoMap.get_cons, if_true, GoMap.del, Ne.symm hg, if_false, Option.isSome_none, Bool.false_eq_true]

/-- **C103** is violated: a contact can put an invitation of somebody else into the file, to any group and with any
token, by sending an invitation to a group with a line break in its name. -/
theorem C103_forged_violated (base : Str) (eve bob : Bytes) (hb : bob.length = 32) (he : eve.length = 32) (hne : eve ≠ bob)
    (inv : Invite) (hn : IniDB.GoodName inv.name) (hn0 : inv.name ≠ []) (hf : Xdr.Fits 0 Xdr.groupInvite inv.val)
    (e : Env) (hs : Sys base [] (.add eve (forged inv bob)) e) :
    (step base [] (.add eve (forged inv bob)) e).1 = true ∧
      Finds base (step base [] (.add eve (forged inv bob)) e).2 inv.name inv.token bob := by
  have hN : (forged inv bob).name ≠ [] := by simp [forged, forgedName]
  obtain ⟨d1, hc⟩ := first_changed (base := base) (id := eve) hN hs.1
  have ho := hs.2.2 _ _ hc
  have hord := order_two hN ho
  simp only [step, hc]
  obtain ⟨i, hi⟩ : ∃ i : IniDB.DB, i =
      { base := base, depth := depth, dirty := true, created := true,
        tables := [((forged inv bob).name, [(key eve, record (forged inv bob))]), ([], [])] } := ⟨_, rfl⟩
  rw [← hi]
  have hib : i.base = base := by rw [hi]
  have hdirty : i.dirty = true := by rw [hi]
  have hcr : i.created = true := by rw [hi]
  have ht' : IniDB.TmpOK i e.tmp := ⟨by rw [hib]; exact hs.2.1.1, by rw [hib]; exact hs.2.1.2⟩
  refine ⟨(IniDB.save_spec hdirty ht' (.inl hcr)).1, ?_⟩
  have hbase := IniDB.save_base (d := d1) (stamp := e.stamp) (order := e.order) hdirty ht' (.inl hcr)
  rw [hib] at hbase
  have hkb := key_good hb
  have hke := key_good he
  have hpl : ∀ (c : Str) (rest : List Str) (f : IniDB.Tables),
      IniDB.parseLines (('[' :: inv.name ++ [']']) :: (key bob ++ [' ', '=', ' '] ++ record inv) :: ('[' :: inv.name ++ [']']) ::
        (key eve ++ [' ', '=', ' '] ++ record (forged inv bob)) :: rest) c f =
      IniDB.parseLines rest inv.name (IniDB.put (IniDB.touch (IniDB.put (IniDB.touch f inv.name) inv.name (key bob) (record inv))
        inv.name) inv.name (key eve) (record (forged inv bob))) := by
    intro c rest f
    simp only [IniDB.parseLines, IniDB.classify_header hn, IniDB.classify_assign hkb (record_good _),
      IniDB.classify_assign hke (record_good _)]
  have hblank : ∀ (n : Nat) (c : Str) (f : IniDB.Tables), IniDB.parseLines (List.replicate n []) c f = some f := by
    intro n
    induction n with
    | zero => intro c f; rfl
    | succ n ih => intro c f; simp only [List.replicate_succ, IniDB.parseLines, IniDB.classify_nil, ih]
  have nl : ∀ {k v : Str}, IniDB.GoodKey k → IniDB.GoodVal v → '\n' ∉ k ++ [' ', '=', ' '] ++ v := by
    intro k v h1 h2 hm
    simp only [List.mem_append, List.mem_cons, List.not_mem_nil, or_false] at hm
    rcases hm with (hm | hm | hm | hm) | hm
    · exact h1.2.2.1 hm
    · exact absurd hm (by decide)
    · exact absurd hm (by decide)
    · exact absurd hm (by decide)
    · exact h2.2 hm
  have nh : '\n' ∉ '[' :: inv.name ++ [']'] := by
    intro hm
    simp only [List.mem_append, List.mem_cons, List.not_mem_nil, or_false] at hm
    rcases hm with (hm | hm) | hm
    · exact absurd hm (by decide)
    · exact hn.2.1 hm
    · exact absurd hm (by decide)
  have htab : ∀ rest, IniDB.lines (IniDB.tableText ((forged inv bob).name, [(key eve, record (forged inv bob))]) ++ rest) =
      ('[' :: inv.name ++ [']']) :: (key bob ++ [' ', '=', ' '] ++ record inv) :: ('[' :: inv.name ++ [']']) ::
        (key eve ++ [' ', '=', ' '] ++ record (forged inv bob)) :: [] :: IniDB.lines rest := by
    intro rest
    have : IniDB.tableText ((forged inv bob).name, [(key eve, record (forged inv bob))]) ++ rest =
        ('[' :: inv.name ++ [']']) ++ '\n' :: ((key bob ++ [' ', '=', ' '] ++ record inv) ++ '\n' ::
          (('[' :: inv.name ++ [']']) ++ '\n' :: ((key eve ++ [' ', '=', ' '] ++ record (forged inv bob)) ++ '\n' ::
            ([] ++ '\n' :: rest)))) := by
      simp [IniDB.tableText, forged, forgedName]
    rw [this, IniDB.lines_append nh, IniDB.lines_append (nl hkb (record_good _)), IniDB.lines_append nh,
      IniDB.lines_append (nl hke (record_good _)), IniDB.lines_append (by simp)]
  have hparse : IniDB.parse (IniDB.text e.order) =
      some (IniDB.put (IniDB.touch (IniDB.put (IniDB.touch [] inv.name) inv.name (key bob) (record inv))
        inv.name) inv.name (key eve) (record (forged inv bob))) := by
    have hauto : '\n' ∉ IniDB.auto := by decide
    rcases hord with h | h
    · rw [h, IniDB.parse, IniDB.text]
      simp only [List.flatMap_cons, List.flatMap_nil, List.append_assoc, List.singleton_append, List.append_nil]
      rw [IniDB.lines_append hauto, htab, IniDB.parseLines, IniDB.classify_auto]
      exact (hpl _ _ _).trans (hblank 3 _ _)
    · rw [h, IniDB.parse, IniDB.text]
      simp only [List.flatMap_cons, List.flatMap_nil, List.append_assoc, List.singleton_append, List.append_nil]
      have h0 : IniDB.tableText (([] : Str), ([] : List (Str × Str))) = [] ++ ['\n'] := rfl
      rw [IniDB.lines_append hauto, h0, List.append_assoc, List.singleton_append, IniDB.lines_append (by simp)]
      have h1 := htab []
      rw [List.append_nil] at h1
      rw [h1, IniDB.parseLines, IniDB.classify_auto]
      simp only
      rw [IniDB.parseLines, IniDB.classify_nil]
      exact (hpl _ _ _).trans (hblank 2 _ _)
  refine ⟨_, by simp only [opened, IniDB.new, hbase, hparse]; rfl, key bob, record inv, inv.val, ?_, unmarshal_record hf, rfl,
    idOf_key hb⟩
  simp only [IniDB.records]
  rw [IniDB.get_touch, if_neg (Ne.symm hn0), IniDB.get_put, if_pos rfl, Option.getD_some, GoMap.mem_set_iff]
  refine .inr ⟨fun h => hne (key_injective h).symm, ?_⟩
  rw [IniDB.get_touch, if_pos rfl, IniDB.get_put, if_pos rfl, Option.getD_some, Option.getD_some, GoMap.mem_set_iff]
  exact .inl ⟨rfl, rfl⟩

/-- A header that is not closed is an error. -/
theorem classify_open {x : Str} (h1 : ']' ∉ x) (h2 : '=' ∉ x) : IniDB.classify ('[' :: x) = .bad := by
  have hs : IniDB.isSpace '[' = false := by decide
  have ht : ∃ y, IniDB.trim ('[' :: x) = '[' :: y ∧ ∀ c ∈ y, c ∈ x := by
    rw [IniDB.trim, List.dropWhile_cons, if_neg (by simp [hs]), List.reverse_cons, List.dropWhile_append]
    split
    · exact ⟨[], by simp [hs], by simp⟩
    · refine ⟨(x.reverse.dropWhile IniDB.isSpace).reverse, by simp, fun c hc => ?_⟩
      exact List.mem_reverse.1 ((List.dropWhile_sublist _).subset (List.mem_reverse.1 hc))
  obtain ⟨y, h3, h4⟩ := ht
  have hd : ('[' :: y).dropWhile (fun x => decide (x ≠ '=')) = [] := by
    apply IniDB.dropWhile_all
    intro c hc
    rcases List.mem_cons.1 hc with rfl | hc
    · decide
    · have : c ≠ '=' := fun e => h2 (e ▸ h4 c hc)
      simpa using this
  have hl : y.getLast? ≠ some ']' := fun e => h1 (h4 _ (List.mem_of_getLast? e))
  rw [IniDB.classify]
  simp only [h3]
  rw [if_neg (by decide), hd]
  simp [hl]

/-- No function changes a file that cannot be read, and nothing is found in it. -/
theorem stuck {base : Str} {d : IniDB.Dir} {t : Str} (hg : d.get base = some t) (hp : IniDB.parse t = none) :
    (∀ a e, step base d a e = (false, d)) ∧ ∀ group token id, ¬ Finds base d group token id := by
  have ho : ∀ c tmp, opened base c d tmp = (none, d) := by
    intro c tmp
    simp only [opened, IniDB.new, hg, hp]
  constructor
  · intro a e
    simp only [step, changed, ho]
  · rintro group token id ⟨i, h, _⟩
    rw [ho] at h
    cases h

/-- **C103** is violated: after one invitation to a group with a line break in its name, nothing that is done changes
the file, and no invitation is found any more. -/
theorem C103_broken_violated (base : Str) (eve : Bytes) (g : Invite) (x y : Str) (hx : '\n' ∉ x ∧ ']' ∉ x ∧ '=' ∉ x)
    (hg : g.name = x ++ '\n' :: y) (e : Env) (hs : Sys base [] (.add eve g) e) :
    (step base [] (.add eve g) e).1 = true ∧
      ∀ (G : IniDB.Dir → Act → Env → Prop) (as : List (Act × Bool)) (d : IniDB.Dir),
        Run base G (step base [] (.add eve g) e).2 as d →
          d = (step base [] (.add eve g) e).2 ∧ (∀ a ∈ as, a.2 = false) ∧ ∀ group token id, ¬ Finds base d group token id := by
  have hN : g.name ≠ [] := by simp [hg]
  obtain ⟨d1, hc⟩ := first_changed (base := base) (id := eve) hN hs.1
  have hord := order_two hN (hs.2.2 _ _ hc)
  simp only [step, hc]
  obtain ⟨i, hi⟩ : ∃ i : IniDB.DB, i =
      { base := base, depth := depth, dirty := true, created := true,
        tables := [(g.name, [(key eve, record g)]), ([], [])] } := ⟨_, rfl⟩
  rw [← hi]
  have hib : i.base = base := by rw [hi]
  have hdirty : i.dirty = true := by rw [hi]
  have hcr : i.created = true := by rw [hi]
  have ht' : IniDB.TmpOK i e.tmp := ⟨by rw [hib]; exact hs.2.1.1, by rw [hib]; exact hs.2.1.2⟩
  refine ⟨(IniDB.save_spec hdirty ht' (.inl hcr)).1, ?_⟩
  have hbase := IniDB.save_base (d := d1) (stamp := e.stamp) (order := e.order) hdirty ht' (.inl hcr)
  rw [hib] at hbase
  have hauto : '\n' ∉ IniDB.auto := by decide
  have htab : ∀ rest, IniDB.tableText (g.name, [(key eve, record g)]) ++ rest = ('[' :: x) ++ '\n' ::
      (y ++ (IniDB.tableText (g.name, [(key eve, record g)])).drop (g.name.length + 1) ++ rest) := by
    intro rest
    have : IniDB.tableText (g.name, [(key eve, record g)]) =
        ('[' :: g.name) ++ (IniDB.tableText (g.name, [(key eve, record g)])).drop (g.name.length + 1) := by
      simp [IniDB.tableText, hN]
    conv_lhs => rw [this, hg]
    simp [hg]
  have hnl : '\n' ∉ '[' :: x := by simpa using hx.1
  have hbad : ∀ (l : List Str) c f, IniDB.parseLines (('[' :: x) :: l) c f = none := by
    intro l c f
    rw [IniDB.parseLines, classify_open hx.2.1 hx.2.2]
  have hparse : IniDB.parse (IniDB.text e.order) = none := by
    rcases hord with h | h
    · rw [h, IniDB.parse, IniDB.text]
      simp only [List.flatMap_cons, List.flatMap_nil, List.append_assoc, List.singleton_append, List.append_nil]
      rw [IniDB.lines_append hauto, htab, IniDB.lines_append hnl, IniDB.parseLines, IniDB.classify_auto]
      exact hbad _ _ _
    · rw [h, IniDB.parse, IniDB.text]
      simp only [List.flatMap_cons, List.flatMap_nil, List.append_assoc, List.singleton_append, List.append_nil]
      have h0 : IniDB.tableText (([] : Str), ([] : List (Str × Str))) = [] ++ ['\n'] := rfl
      rw [IniDB.lines_append hauto, h0, List.append_assoc, List.singleton_append, IniDB.lines_append (by simp)]
      have h1 := htab []
      rw [List.append_nil] at h1
      rw [h1, IniDB.lines_append hnl, IniDB.parseLines, IniDB.classify_auto]
      simp only
      rw [IniDB.parseLines, IniDB.classify_nil]
      exact hbad _ _ _
  have hst := stuck hbase hparse
  intro G as d hr
  generalize hd : (IniDB.save i d1 e.tmp e.stamp e.order).2.2 = d2 at hr hst
  clear hd hbase
  induction hr with
  | nil d => exact ⟨rfl, by simp, hst.2⟩
  | cons _ _ ih =>
    rw [hst.1] at ih ⊢
    obtain ⟨h1, h2, h3⟩ := ih hst
    exact ⟨h1, by simpa using h2, h3⟩

/-- Nothing hinders the first invitation. -/
theorem first_sys {id : Bytes} {g : Invite} (hg : g.name ≠ []) :
    ∃ e, Sys ['j'] [] (.add id g) e ∧ (step ['j'] [] (.add id g) e).1 = true := by
  have ht : (['t'] : Str) ≠ ['j'] ∧ ¬ (['j'] ++ ['.'] : Str) <+: ['t'] := by decide
  obtain ⟨d1, hc⟩ := first_changed (base := ['j']) (id := id) hg ht
  refine ⟨{ tmp0 := ['t'], tmp := ['t'], stamp := [], order := [(g.name, [(key id, record g)]), ([], [])] },
    ⟨ht, ht, ?_⟩, ?_⟩
  · intro i d1' h
    simp only [hc, Prod.mk.injEq, Option.some.injEq] at h
    rw [← h.1]
    refine ⟨.refl _, ?_⟩
    intro t hm
    simp only [List.mem_cons, List.not_mem_nil, or_false] at hm
    rcases hm with rfl | rfl
    · exact ⟨_, by rw [GoMap.get_cons, if_pos rfl], .refl _⟩
    · exact ⟨_, by rw [GoMap.get_cons, if_neg hg, GoMap.get_cons, if_pos rfl], .refl _⟩
  · simp only [step, hc]
    exact (IniDB.save_spec rfl ⟨ht.1, ht.2⟩ (.inl rfl)).1

/-- An invitation to a group. -/
def sample (name : Str) (token : Nat) : Invite := { name := name, members := [], token := token, descr := [], expires := 0 }

theorem sample_real {name : Str} {token : Nat} (h : (name.flatMap fun c => String.utf8EncodeChar c).length < 1000)
    (ht : token < 1000000) : Real (.add (List.replicate 32 7) (sample name token)) := by
  refine ⟨by simp, ⟨?_, by simp⟩, ⟨by simp [sample, Invite.val], by simp, by simp [sample, Invite.val]⟩,
    show token < 2 ^ 64 by omega, ⟨by simp [sample, Invite.val], by simp⟩,
    by simp [sample, Invite.val], by simp [sample, Invite.val]⟩
  show (name.flatMap fun c => String.utf8EncodeChar c).length + 3 < 2 ^ 31
  omega

theorem spec_one {m m' : Open} {as : List (Act × Bool)} (h : Spec m as m') {a : Act} {b : Bool} (e : as = [(a, b)]) :
    m' = (Act.spec m a).2 := by
  cases h with
  | nil => cases e
  | cons h =>
    simp only [List.cons.injEq, Prod.mk.injEq] at e
    obtain ⟨⟨rfl, _⟩, rfl⟩ := e
    cases h
    rfl

/-- The first invitation of a contact is kept and found, the second one is refused. -/
example : ∃ d, Run ['j'] (fun d a e => Sys ['j'] d a e ∧ Real a ∧ Plain a) []
    [(.add (List.replicate 32 7) (sample ['g'] 5), true), (.add (List.replicate 32 7) (sample ['g'] 6), false)] d ∧
    Finds ['j'] d ['g'] 5 (List.replicate 32 7) ∧ ¬ Finds ['j'] d ['g'] 6 (List.replicate 32 7) := by
  obtain ⟨e, h1, h2⟩ := first_sys (id := List.replicate 32 7) (g := sample ['g'] 5) (by decide)
  have hr : ∀ n < 7, Real (.add (List.replicate 32 7) (sample ['g'] n)) ∧ Plain (.add (List.replicate 32 7) (sample ['g'] n)) :=
    fun n hn => ⟨sample_real (by decide) (by omega), by simp only [Plain, IniDB.GoodName, sample]; decide⟩
  have h3 := step_stands (m := []) (.inl ⟨rfl, rfl⟩) _ e h1 (hr 5 (by decide)).1 (hr 5 (by decide)).2
  have hsys : Sys ['j'] (step ['j'] [] (.add (List.replicate 32 7) (sample ['g'] 5)) e).2
      (.add (List.replicate 32 7) (sample ['g'] 6)) e := by
    refine ⟨h1.1, h1.2.1, fun i' d1 h => ?_⟩
    have h5 := (opened_stands h3.2 true e.tmp0 h1.1).2
    unfold changed at h
    rcases ho : opened ['j'] true (step ['j'] [] (.add (List.replicate 32 7) (sample ['g'] 5)) e).2 e.tmp0 with ⟨_ | i, d2⟩
    · simp only [Act.create, ho, Prod.mk.injEq] at h
      exact absurd h.1 (by simp)
    · simp only [Act.create, ho, Prod.mk.injEq] at h h5
      have h6 := change_rep h5.1 _ (hr 6 (by decide)).1 (hr 6 (by decide)).2
      rw [h.1] at h6
      obtain ⟨m', h7, _⟩ := h6
      have h8 : (Act.spec (Act.spec [] (.add (List.replicate 32 7) (sample ['g'] 5))).2
        (.add (List.replicate 32 7) (sample ['g'] 6))).1 = false := by decide
      rw [h7] at h8
      cases h8
  have h4 := step_stands h3.2 _ e hsys (hr 6 (by decide)).1 (hr 6 (by decide)).2
  have h5 := Run.cons (G := fun d a e => Sys ['j'] d a e ∧ Real a ∧ Plain a) ⟨h1, hr 5 (by decide)⟩
    (Run.cons ⟨hsys, hr 6 (by decide)⟩ (Run.nil _))
  rw [h3.1, h4.1] at h5
  refine ⟨_, h5, ?_⟩
  rw [finds_stands h4.2, finds_stands h4.2]
  refine ⟨⟨sample ['g'] 5, by decide, rfl⟩, ?_⟩
  rintro ⟨g, h6, h7⟩
  have h8 : GoMap.get (Act.spec (Act.spec [] (.add (List.replicate 32 7) (sample ['g'] 5))).2
    (.add (List.replicate 32 7) (sample ['g'] 6))).2 (['g'], List.replicate 32 7) = some (sample ['g'] 5) := by decide
  rw [h8] at h6
  cases h6
  cases h7

/-- One message of a contact, and an invitation of somebody else is found. -/
example : ∃ e, Sys ['j'] [] (.add (List.replicate 32 7) (forged (sample ['g'] 5) (List.replicate 32 9))) e ∧
    Finds ['j'] (step ['j'] [] (.add (List.replicate 32 7) (forged (sample ['g'] 5) (List.replicate 32 9))) e).2 ['g'] 5
      (List.replicate 32 9) := by
  obtain ⟨e, h1, _⟩ := first_sys (id := List.replicate 32 7) (g := forged (sample ['g'] 5) (List.replicate 32 9))
    (by simp [forged, forgedName])
  exact ⟨e, h1, (C103_forged_violated ['j'] _ _ (by simp) (by simp) (by decide) (sample ['g'] 5)
    (by simp only [IniDB.GoodName, sample]; decide) (by simp [sample]) (sample_real (by decide) (by decide)).2 e h1).2⟩

/-- **C103** as stated in full is false. -/
theorem C103_full_violated : ¬ C103_full := by
  intro h
  obtain ⟨e, h1, h2⟩ := first_sys (id := List.replicate 32 7) (g := sample ['a', '\n', 'b'] 5) (by decide)
  have hr : Real (.add (List.replicate 32 7) (sample ['a', '\n', 'b'] 5)) := sample_real (by decide) (by decide)
  obtain ⟨m, h3, h4⟩ := h ['j'] _ _ (.cons ⟨h1, hr⟩ (.nil _))
  have h5 := (C103_broken_violated ['j'] _ _ ['a'] ['b'] (by decide) rfl e h1).2 (fun _ _ _ => True) _ _ (.nil _)
  apply h5.2.2 ['a', '\n', 'b'] 5 (List.replicate 32 7)
  rw [h4]
  rw [spec_one h3 rfl]
  exact ⟨_, rfl, rfl⟩

end Verif.Invites
