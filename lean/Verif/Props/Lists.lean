import Verif.Model.Lists
import Verif.Props.Invites
import Verif.Props.Admin

/-! # C151: what `/list` shows is what there is -/

namespace Verif.Lists

open Verif Verif.AddressBook

/-! ## Reading lines -/

/-- The identity at the end of a line. -/
def endId (l : Bytes) : Option Bytes := Hex.string2ID (l.drop (l.length - 64))

theorem endId_line {x id : Bytes} (h : id.length = 32) : endId (x ++ Hex.fingerprint id) = some id := by
  unfold endId
  have hl : (Hex.fingerprint id).length = 64 := by
    unfold Hex.fingerprint
    rw [Invites.hex_length, h]
  rw [List.length_append, hl, Nat.add_sub_cancel, List.drop_left]
  exact Hex.C20_roundtrip id h

/-- A line of the address book, read from the left up to the first blank, and from the right: nick, name, identity. -/
def readContact (l : Bytes) : Bytes × Bytes × Option Bytes :=
  let nick := l.takeWhile (· != 32)
  (nick, (l.take (l.length - 65)).drop (nick.length + 1), endId l)

/-- The number at the beginning of the line of a window. -/
def winNumber (l : Bytes) : Nat := (Admin.digits 0 (l.drop 1)).1

/-! ## Contacts -/

/-- The identities have 32 bytes. -/
def Ids (b : List (Bytes × PubId)) : Prop := ∀ x ∈ b, x.2.identity.length = 32

/-- **C151**, contacts. Every contact is listed, once, and nobody else: the identities can be read from the lines. -/
theorem C151_contacts (name : Nat → Bytes) {b order : List (Bytes × PubId)} (hp : order.Perm b) (hi : Ids b) :
    ((listAddressBook name order).map endId).Perm (b.map fun x => some x.2.identity) := by
  refine .trans (.of_eq ?_) (hp.map _)
  unfold listAddressBook AddressBook.all
  rw [List.map_map, List.map_map]
  refine List.map_congr_left fun x hx => ?_
  exact endId_line (hi x (hp.mem_iff.1 hx))

/-- **C151**, partial: nick and name can be read as well if the nick has no blank. -/
theorem C151_names_partial (name : Nat → Bytes) (v : PubId) (hi : v.identity.length = 32) (hn : 32 ∉ v.nick) :
    readContact (contactLine name v) = (v.nick, name v.other, some v.identity) := by
  have hl : (Hex.fingerprint v.identity).length = 64 := by
    unfold Hex.fingerprint
    rw [Invites.hex_length, hi]
  have h1 : (contactLine name v).takeWhile (· != 32) = v.nick := by
    unfold contactLine
    simp only [List.append_assoc, List.singleton_append]
    rw [List.takeWhile_append_of_pos]
    · simp
    · intro c hc
      have : c ≠ 32 := fun e => hn (e ▸ hc)
      simpa using this
  have h2 : (contactLine name v).length - 65 = (v.nick ++ [32] ++ name v.other).length := by
    unfold contactLine
    simp only [List.length_append, List.length_singleton, hl]
    omega
  unfold readContact
  simp only [h1, h2]
  refine Prod.ext rfl (Prod.ext ?_ ?_)
  · show ((contactLine name v).take _).drop _ = _
    unfold contactLine
    rw [List.append_assoc (v.nick ++ [32] ++ name v.other), List.take_left]
    have : v.nick.length + 1 = (v.nick ++ [32]).length := by simp
    rw [this, List.drop_left]
  · show endId (contactLine name v) = _
    unfold contactLine
    exact endId_line hi

/-- **C151 is violated** for others: a name can be moved into the nick, and the line is the same. -/
theorem C151_names_violated (x y z : Bytes) (id : Bytes) :
    ∃ (name : Nat → Bytes) (v w : PubId), v.nick ≠ w.nick ∧ name v.other ≠ name w.other ∧ v.identity = id ∧ w.identity = id ∧
      v.nick = x ++ [32] ++ y ∧ name v.other = z ∧ w.nick = x ∧ contactLine name v = contactLine name w := by
  refine ⟨fun n => if n = 0 then z else y ++ [32] ++ z, ⟨x ++ [32] ++ y, id, 0⟩, ⟨x, id, 1⟩, ?_, ?_, rfl, rfl, rfl, rfl, rfl, ?_⟩
  · intro h
    have := congrArg List.length h
    simp at this
  · intro h
    have := congrArg List.length h
    simp at this
    omega
  · simp [contactLine]

/-! ## Windows -/

theorem digits_num (n : Nat) (r : Bytes) (h : ∀ c ∈ r.head?, ¬ (48 ≤ c ∧ c ≤ 57)) : Admin.digits 0 (num n ++ r) = (n, r) := by
  have := (Admin.digits_dec n 0 r h).1
  rw [Nat.zero_mul, Nat.zero_add] at this
  exact this

theorem winNumber_line (k : Nat) (w : Win) : winNumber (winLine k w) = k := by
  unfold winNumber winLine
  have : ([91] ++ num k ++ [93, 32] ++ w.nick ++ [32] ++ w.name ++ [32] ++ Hex.fingerprint w.identity).drop 1 =
      num k ++ ([93, 32] ++ w.nick ++ [32] ++ w.name ++ [32] ++ Hex.fingerprint w.identity) := by simp
  rw [this, digits_num]
  intro c hc
  simp at hc
  subst hc
  decide

theorem mem_listFrom (n : Nat) (ws : List (Option Win)) (l : Bytes) :
    l ∈ listFrom n ws ↔ ∃ k w, ws[k]? = some (some w) ∧ n + k ≠ 0 ∧ l = winLine (n + k) w := by
  induction ws generalizing n with
  | nil => simp [listFrom]
  | cons o ws ih =>
    have key : (∃ k w, ws[k]? = some (some w) ∧ n + 1 + k ≠ 0 ∧ l = winLine (n + 1 + k) w) ↔
        ∃ k w, (o :: ws)[k + 1]? = some (some w) ∧ n + (k + 1) ≠ 0 ∧ l = winLine (n + (k + 1)) w := by
      have e : ∀ k, n + 1 + k = n + (k + 1) := by intro k; omega
      simp only [e, List.getElem?_cons_succ]
    have split : (∃ k w, (o :: ws)[k]? = some (some w) ∧ n + k ≠ 0 ∧ l = winLine (n + k) w) ↔
        (∃ w, o = some w ∧ n ≠ 0 ∧ l = winLine n w) ∨
          ∃ k w, (o :: ws)[k + 1]? = some (some w) ∧ n + (k + 1) ≠ 0 ∧ l = winLine (n + (k + 1)) w := by
      constructor
      · rintro ⟨k, w, h⟩
        cases k with
        | zero => exact .inl ⟨w, by simpa using h.1, h.2⟩
        | succ k => exact .inr ⟨k, w, h⟩
      · rintro (⟨w, h1, h2⟩ | ⟨k, w, h⟩)
        · exact ⟨0, w, by simp [h1], h2⟩
        · exact ⟨k + 1, w, h⟩
    rw [split, ← key, ← ih (n + 1)]
    cases o with
    | none => simp [listFrom]
    | some w =>
      simp only [listFrom, List.mem_append, Option.some.injEq]
      by_cases hn : n = 0
      · simp [hn]
      · simp [hn]

/-- **C151**, windows: every window but the console is listed under its number, with whom it is, and nothing else is. -/
theorem C151_windows (ws : List (Option Win)) (hi : ∀ w, some w ∈ ws → w.identity.length = 32) (k : Nat) (id : Bytes) :
    (∃ l ∈ listConversations ws, winNumber l = k ∧ endId l = some id) ↔
      k ≠ 0 ∧ ∃ w, ws[k]? = some (some w) ∧ w.identity = id := by
  constructor
  · rintro ⟨l, hl, h1, h2⟩
    obtain ⟨k', w, h3, h4, rfl⟩ := (mem_listFrom 0 ws l).1 hl
    rw [Nat.zero_add] at h1 h2 h4
    rw [winNumber_line] at h1
    subst h1
    unfold winLine at h2
    rw [endId_line (hi w (List.mem_of_getElem? h3))] at h2
    exact ⟨h4, w, h3, Option.some.inj h2⟩
  · rintro ⟨h1, w, h2, rfl⟩
    refine ⟨winLine k w, (mem_listFrom 0 ws _).2 ⟨k, w, h2, by omega, by rw [Nat.zero_add]⟩, winNumber_line k w, ?_⟩
    unfold winLine
    exact endId_line (hi w (List.mem_of_getElem? h2))

/-- Whom the line of a window names. -/
def winContact (l : Bytes) : Bytes × Bytes × Option Bytes := readContact ((Admin.digits 0 (l.drop 1)).2.drop 2)

/-- **C151**, windows, partial: nick and name are there too, and can be read if the nick has no blank. -/
theorem C151_window_names_partial (ws : List (Option Win)) (k : Nat) (hk : k ≠ 0) (w : Win) (hw : ws[k]? = some (some w))
    (hi : w.identity.length = 32) (hn : 32 ∉ w.nick) :
    ∃ l ∈ listConversations ws, winNumber l = k ∧ winContact l = (w.nick, w.name, some w.identity) := by
  refine ⟨winLine k w, (mem_listFrom 0 ws _).2 ⟨k, w, hw, by omega, by rw [Nat.zero_add]⟩, winNumber_line k w, ?_⟩
  have : (winLine k w).drop 1 = num k ++ ([93, 32] ++ contactLine (fun _ => w.name) ⟨w.nick, w.identity, 0⟩) := by
    simp [winLine, contactLine]
  unfold winContact
  rw [this, digits_num]
  · exact C151_names_partial (fun _ => w.name) ⟨w.nick, w.identity, 0⟩ hi hn
  · intro c hc
    simp at hc
    subst hc
    decide

/-! ## Members -/

/-- The line says that this is the administrator. -/
def saysAdmin (l : Bytes) : Prop := adminText <:+ l

/-- The identity in the line of a member: the fingerprint, or after `UNKNOWN` the identity behind the colour. -/
def memberId (c : Bytes) (l : Bytes) : Option Bytes :=
  if unknownText <+: l.drop 4 then Hex.string2ID (((l.drop 4).drop (8 + c.length)).take 64)
  else Hex.string2ID ((l.drop 4).take 64)

theorem find_identity {me : PubId} {order : List (Bytes × PubId)} {id : Bytes} {p : PubId} (h : find me order id = some p) :
    p.identity = id := by
  unfold find at h
  split at h
  · next e => cases h; exact e.symm
  · have : ∀ o : List (Bytes × PubId), findIdentity id o = some p → p.identity = id := by
      intro o
      induction o with
      | nil => intro h; cases h
      | cons x o ih =>
        intro h
        unfold findIdentity at h
        split at h
        · next e => cases h; exact e
        · exact ih h
    exact this _ h

/-- **C151**, members: one line each, in order; who it is can be read from the line, whether they are known or not. -/
theorem C151_members (me : PubId) (order : List (Bytes × PubId)) (c z : Bytes) (members : List Bytes)
    (hm : ∀ id ∈ members, id.length = 32) :
    (listMembers me order c z members).map (memberId c) = members.map some := by
  unfold listMembers
  refine List.ext_getElem (by simp) fun i h1 h2 => ?_
  simp only [List.getElem_map, List.getElem_mapIdx]
  have hid : (members[i]'(by simpa using h2)).length = 32 := hm _ (List.getElem_mem _)
  generalize members[i]'(by simpa using h2) = id at hid
  have hfp : ∀ {x : Bytes}, x.length = 32 → (Hex.fingerprint x).length = 64 := by
    intro x hx
    unfold Hex.fingerprint
    rw [Invites.hex_length, hx]
  unfold memberLine memberId
  cases hf : find me order id with
  | some p =>
    have hp := find_identity hf
    simp only [List.append_assoc]
    have hdrop : ∀ t : Bytes, ([32, 32, 32, 32] ++ t).drop 4 = t := fun t => rfl
    rw [hdrop, if_neg, List.take_append_of_le_length (by rw [hp, hfp hid]), List.take_of_length_le
      (by rw [hp, hfp hid]), hp]
    · exact Hex.C20_roundtrip id hid
    · intro hpre
      have hlen : (Hex.fingerprint p.identity).length = 64 := by rw [hp]; exact hfp hid
      have h85 : (85 : UInt8) ∈ Hex.fingerprint p.identity := by
        obtain ⟨t, ht⟩ := hpre
        cases hx : Hex.fingerprint p.identity with
        | nil => rw [hx] at hlen; cases hlen
        | cons a s =>
          rw [hx] at ht
          have := (List.cons.inj ht).1
          subst this
          exact List.mem_cons_self ..
      have : ∀ b : Bytes, (85 : UInt8) ∉ Hex.encode b := by
        intro b
        induction b with
        | nil => intro h; cases h
        | cons a s ih =>
          intro h
          have hdig : ∀ n : Fin 16, Hex.digit n ≠ 85 := by decide
          unfold Hex.encode at h
          rcases List.mem_cons.1 h with h | h
          · exact hdig ⟨a.toNat / 16, by have := a.toNat_lt; omega⟩ h.symm
          · rcases List.mem_cons.1 h with h | h
            · exact hdig ⟨a.toNat % 16, by omega⟩ h.symm
            · exact ih h
      exact this _ h85
  | none =>
    simp only [List.append_assoc]
    have hdrop : ∀ t : Bytes, ([32, 32, 32, 32] ++ t).drop 4 = t := fun t => rfl
    rw [hdrop, if_pos (List.prefix_append _ _)]
    have h8 : 8 + c.length = (unknownText ++ ([32] ++ c)).length := by simp [unknownText]; omega
    have he : ∀ t : Bytes, unknownText ++ ([32] ++ (c ++ (Hex.encode id ++ t))) = (unknownText ++ ([32] ++ c)) ++ (Hex.encode id ++ t) := by
      intro t; simp
    rw [he, h8, List.drop_left]
    have hl : (Hex.encode id).length = 64 := hfp hid
    rw [← hl, List.take_left]
    exact Hex.C20_roundtrip id hid

/-- **C151**, members: the last characters of a line tell whether it is the administrator, whose line is the first. -/
theorem C151_admin_partial (me : PubId) (order : List (Bytes × PubId)) (c z : Bytes) (k : Nat) (id : Bytes) :
    saysAdmin (memberLine me order c z k id) ↔ k = 0 := by
  unfold saysAdmin memberLine
  constructor
  · intro h
    by_cases hk : k = 0
    · exact hk
    · exfalso
      simp only [if_neg hk, List.append_nil] at h
      obtain ⟨t, ht⟩ := h
      have := congrArg List.getLast? ht
      rw [List.getLast?_append, List.getLast?_append (l' := [32])] at this
      simp [adminText] at this
  · rintro rfl
    exact List.suffix_append _ _

/-- The nick in the line of a member who is known, between the colours. -/
def memberNick (c z l : Bytes) : Bytes :=
  (l.drop (69 + c.length)).take (l.length - 69 - c.length - z.length - 1 - if adminText.isSuffixOf l then 8 else 0)

/-- **C151**, members: everybody known, the user included, is listed with their nick. -/
theorem C151_member_nicks (me : PubId) (order : List (Bytes × PubId)) (c z : Bytes) (members : List Bytes) (k : Nat) (id : Bytes)
    (hk : members[k]? = some id) (hid : id.length = 32) (p : PubId)
    (hp : id = me.identity ∧ p = me ∨ id ≠ me.identity ∧ findIdentity id order = some p) :
    ∃ l, (listMembers me order c z members)[k]? = some l ∧ memberNick c z l = p.nick := by
  have hf : find me order id = some p := by
    unfold find
    rcases hp with ⟨h1, rfl⟩ | ⟨h1, h2⟩
    · rw [if_pos h1]
    · rw [if_neg h1, h2]
  refine ⟨memberLine me order c z k id, by simp [listMembers, hk], ?_⟩
  have hl : (Hex.fingerprint p.identity).length = 64 := by
    unfold Hex.fingerprint
    rw [Invites.hex_length, find_identity hf, hid]
  have hadm : (adminText.isSuffixOf (memberLine me order c z k id) = true) ↔ k = 0 := by
    rw [List.isSuffixOf_iff_suffix]
    exact C151_admin_partial me order c z k id
  have e : memberLine me order c z k id = ([32, 32, 32, 32] ++ Hex.fingerprint p.identity ++ [32] ++ c) ++
      (p.nick ++ (z ++ [32] ++ if k = 0 then adminText else [])) := by
    unfold memberLine
    rw [hf]
    simp only [List.append_assoc]
  have h69 : 69 + c.length = ([32, 32, 32, 32] ++ Hex.fingerprint p.identity ++ [32] ++ c).length := by
    simp only [List.length_append, List.length_cons, List.length_nil, hl]
  have hlen : (memberLine me order c z k id).length - 69 - c.length - z.length - 1 -
      (if adminText.isSuffixOf (memberLine me order c z k id) then 8 else 0) = p.nick.length := by
    have h1 : (memberLine me order c z k id).length = 69 + c.length + p.nick.length + z.length + 1 + if k = 0 then 8 else 0 := by
      rw [e, List.length_append, ← h69]
      by_cases h : k = 0 <;> simp [h, adminText] <;> omega
    by_cases h : k = 0
    · rw [if_pos (hadm.2 h), h1, if_pos h]; omega
    · rw [if_neg (fun x => h (hadm.1 x)), h1, if_neg h]; omega
  unfold memberNick
  rw [hlen, e, h69, List.drop_left, List.take_left]

/-- What is seen of a line: the colours are not, nor are blanks at its end. -/
def seen (me : PubId) (order : List (Bytes × PubId)) (k : Nat) (id : Bytes) : Bytes :=
  ((memberLine me order [] [] k id).reverse.dropWhile (· == 32)).reverse

/-- **C151 is violated** for what is seen: a member who takes the right nick looks like an administrator. -/
theorem C151_admin_violated (me v : PubId) (nick : Bytes) (hv : v.identity ≠ me.identity)
    (hn : v.nick = nick ++ [32] ++ adminText) (k : Nat) (hk : k ≠ 0) :
    seen me [(v.nick, v)] k v.identity = seen me [(nick, { v with nick := nick })] 0 v.identity ∧
      saysAdmin (seen me [(v.nick, v)] k v.identity) := by
  have h1 : find me [(v.nick, v)] v.identity = some v := by simp [find, hv, findIdentity]
  have h2 : find me [(nick, { v with nick := nick })] v.identity = some { v with nick := nick } := by
    simp [find, hv, findIdentity]
  have e1 : seen me [(v.nick, v)] k v.identity =
      [32, 32, 32, 32] ++ Hex.fingerprint v.identity ++ [32] ++ nick ++ [32] ++ adminText := by
    unfold seen memberLine
    rw [h1]
    simp [hk, hn, adminText]
  have e2 : seen me [(nick, { v with nick := nick })] 0 v.identity =
      [32, 32, 32, 32] ++ Hex.fingerprint v.identity ++ [32] ++ nick ++ [32] ++ adminText := by
    unfold seen memberLine
    rw [h2]
    simp [adminText]
  rw [e1, e2]
  exact ⟨rfl, List.suffix_append _ _⟩

/-! ## Invitations -/

/-- Every identity is in the address book once. -/
def Distinct (order : List (Bytes × PubId)) : Prop := (order.map fun x => x.2.identity).Nodup

theorem findIdentity_iff {order : List (Bytes × PubId)} (h : Distinct order) (id : Bytes) (p : PubId) :
    findIdentity id order = some p ↔ (∃ n, (n, p) ∈ order) ∧ p.identity = id := by
  induction order with
  | nil => simp [findIdentity]
  | cons x o ih =>
    obtain ⟨n, v⟩ := x
    unfold Distinct at h
    rw [List.map_cons, List.nodup_cons] at h
    unfold findIdentity
    by_cases hv : v.identity = id
    · rw [if_pos hv]
      constructor
      · intro hp
        cases hp
        exact ⟨⟨n, List.mem_cons_self ..⟩, hv⟩
      · rintro ⟨⟨n', hm⟩, hp⟩
        rcases List.mem_cons.1 hm with e | hm
        · cases e; rfl
        · exfalso
          refine h.1 (List.mem_map.2 ⟨_, hm, ?_⟩)
          show p.identity = v.identity
          rw [hp, hv]
    · rw [if_neg hv, ih h.2]
      constructor
      · rintro ⟨⟨n', hm⟩, hp⟩
        exact ⟨⟨n', List.mem_cons_of_mem _ hm⟩, hp⟩
      · rintro ⟨⟨n', hm⟩, hp⟩
        rcases List.mem_cons.1 hm with e | hm
        · cases e; exact absurd hp hv
        · exact ⟨⟨n', hm⟩, hp⟩

theorem list_stands {base : Invites.Str} {d : IniDB.Dir} {m : Invites.Open} (h : Invites.Stands base d m)
    {order : List (Bytes × PubId)} (ho : Distinct order) (x : Row) :
    x ∈ listFile base order d ↔ ∃ g p n, m.get (x.group, p.identity) = some g ∧ (n, p) ∈ order ∧ x.nick = p.nick ∧
      x.token = g.token ∧ x.expires = g.expires := by
  unfold listFile
  rcases h with ⟨h1, rfl⟩ | ⟨T, h1, h2, h3⟩
  · simp [Invites.opened, IniDB.new, h1]
  · have e : (Invites.opened base false d []).1 =
        some { base := base, depth := Invites.depth, dirty := false, created := false, tables := T } := by
      simp only [Invites.opened, h3]
    rw [e]
    simp only [listInvitesJoins, IniDB.tableNames, IniDB.records, List.mem_flatMap, List.mem_filterMap]
    have hrec : ∀ group k r, (k, r) ∈ (T.get group).getD [] ↔ Invites.getT T group k = some r := by
      intro group k r
      have hw : GoMap.WF ((T.get group).getD []) := by
        cases e : T.get group with
        | none => exact GoMap.wf_nil
        | some s => exact h2.wfs _ _ e
      rw [GoMap.mem_iff_get hw, Invites.getT]
      cases T.get group <;> simp
    constructor
    · rintro ⟨group, -, ⟨k, r⟩, hm, hx⟩
      obtain ⟨id, g, h4, rfl, rfl⟩ := (h2.recs _ _ _).1 ((hrec group k r).1 hm)
      have hd := h2.dom _ _ _ h4
      unfold row at hx
      simp only [Invites.unmarshal_record hd.2.2, Invites.idOf_key hd.1] at hx
      cases hf : findIdentity id order with
      | none => rw [hf] at hx; cases hx
      | some p =>
        rw [hf] at hx
        cases hx
        obtain ⟨⟨n, hn⟩, rfl⟩ := (findIdentity_iff ho id p).1 hf
        exact ⟨g, p, n, h4, hn, rfl, rfl, rfl⟩
    · rintro ⟨g, p, n, h4, hn, e1, e2, e3⟩
      have hd := h2.dom _ _ _ h4
      have hg := (h2.recs x.group _ _).2 ⟨p.identity, g, h4, rfl, rfl⟩
      refine ⟨x.group, ?_, (Invites.key p.identity, Invites.record g), (hrec _ _ _).2 hg, ?_⟩
      · rw [GoMap.mem_keys_iff]
        unfold Invites.getT at hg
        cases e : T.get x.group with
        | none => rw [e] at hg; cases hg
        | some s => rfl
      · unfold row
        simp only [Invites.unmarshal_record hd.2.2, Invites.idOf_key hd.1, (findIdentity_iff ho _ p).2 ⟨⟨n, hn⟩, rfl⟩]
        cases x
        simp only at e1 e2 e3
        subst e1 e2 e3
        rfl

/-- **C151**, invitations, partial. After any sequence of invitations that are made or received and used, exactly those are
listed that were not used yet and are of, or for, somebody in the address book, each with its group, token and time. Missing:
see `C151_stranger_violated`, and names of groups that C103 leaves out. -/
theorem C151_invitations_partial (base : Invites.Str) (as : List (Invites.Act × Bool)) (d : IniDB.Dir)
    (hr : Invites.Run base (fun d a e => Invites.Sys base d a e ∧ Invites.Real a ∧ Invites.Plain a) [] as d)
    {order : List (Bytes × PubId)} (ho : Distinct order) :
    ∃ m, Invites.Spec [] as m ∧ ∀ x, x ∈ listFile base order d ↔
      ∃ g p n, m.get (x.group, p.identity) = some g ∧ (n, p) ∈ order ∧ x.nick = p.nick ∧ x.token = g.token ∧
        x.expires = g.expires := by
  obtain ⟨m, h1, h2⟩ := Invites.run_stands (.inl ⟨rfl, rfl⟩) hr
  exact ⟨m, h1, list_stands h2 ho⟩

/-- **C151**: what is listed can be used: `/gc join` with the group and the token of a line finds the one who is named. -/
theorem C151_usable_partial (base : Invites.Str) (as : List (Invites.Act × Bool)) (d : IniDB.Dir)
    (hr : Invites.Run base (fun d a e => Invites.Sys base d a e ∧ Invites.Real a ∧ Invites.Plain a) [] as d)
    {order : List (Bytes × PubId)} (ho : Distinct order) {x : Row} (hx : x ∈ listFile base order d) :
    ∃ p n, (n, p) ∈ order ∧ x.nick = p.nick ∧ Invites.Finds base d x.group x.token p.identity := by
  obtain ⟨m, h1, h2⟩ := Invites.run_stands (.inl ⟨rfl, rfl⟩) hr
  obtain ⟨g, p, n, h3, h4, h5, h6, h7⟩ := (list_stands h2 ho x).1 hx
  exact ⟨p, n, h4, h5, (Invites.finds_stands h2 _ _ _).2 ⟨g, h3, h6.symm⟩⟩

/-- **C151 is violated** for somebody who is not in the address book (any more): their invitation is not listed, but can be
used. -/
theorem C151_stranger_violated (base : Invites.Str) (d : IniDB.Dir) {m : Invites.Open} (hm : Invites.Stands base d m) {group : Invites.Str} {id : Bytes} {g : Invites.Invite}
    (hg : m.get (group, id) = some g) : Invites.Finds base d group g.token id ∧ listFile base [] d = [] := by
  refine ⟨(Invites.finds_stands hm _ _ _).2 ⟨g, hg, rfl⟩, ?_⟩
  have : ∀ x, x ∉ listFile base [] d := by
    intro x hx
    obtain ⟨_, p, n, _, h, _⟩ := (list_stands hm (order := []) List.nodup_nil x).1 hx
    cases h
  exact List.eq_nil_iff_forall_not_mem.2 this

/-! ## Examples -/

/-- Two contacts, Bob and Eve, who calls themselves `eve  (admin)`, and a user. -/
def bob : PubId := ⟨[98, 111, 98], List.replicate 32 7, 0⟩
def eve : PubId := ⟨[101, 118, 101] ++ [32] ++ adminText, List.replicate 32 9, 1⟩
def alice : PubId := ⟨[97], List.replicate 32 1, 2⟩

example : (listAddressBook (fun _ => [78]) [(eve.nick, eve), (bob.nick, bob)]).map endId =
    [some (List.replicate 32 9), some (List.replicate 32 7)] := by decide +kernel

example : readContact (contactLine (fun _ => [78, 32, 77]) bob) = ([98, 111, 98], [78, 32, 77], some (List.replicate 32 7)) :=
  C151_names_partial _ bob (by decide) (by decide)

/-- Window 1 was closed, 0 is the console; window 12 is found under its number. -/
example : (listConversations ([some ⟨[], [], List.replicate 32 0⟩, none] ++ List.replicate 10 none ++
    [some ⟨[98], [78], List.replicate 32 7⟩])).map (fun l => (winNumber l, endId l)) =
    [(12, some (List.replicate 32 7))] := by decide +kernel

example : (listMembers alice [(bob.nick, bob)] [27, 91] [27] [List.replicate 32 7, List.replicate 32 1, List.replicate 32 9]).map
    (memberId [27, 91]) = [some (List.replicate 32 7), some (List.replicate 32 1), some (List.replicate 32 9)] :=
  C151_members alice _ _ _ _ (by decide)

example : saysAdmin (seen alice [(eve.nick, eve)] 2 eve.identity) :=
  (C151_admin_violated alice eve [101, 118, 101] (by decide) rfl 2 (by decide)).2

/-- An invitation of Bob is listed with their nick; when Bob is no contact any more it is not, but it can be used. -/
example : ∃ d, Invites.Run ['j'] (fun d a e => Invites.Sys ['j'] d a e ∧ Invites.Real a ∧ Invites.Plain a) []
    [(.add bob.identity (Invites.sample ['g'] 5), true)] d ∧
    (∃ x ∈ listFile ['j'] [(bob.nick, bob)] d, x.group = ['g'] ∧ x.nick = bob.nick ∧ x.token = 5) ∧
    listFile ['j'] [] d = [] ∧ Invites.Finds ['j'] d ['g'] 5 bob.identity := by
  obtain ⟨e, h1, h2⟩ := Invites.first_sys (id := bob.identity) (g := Invites.sample ['g'] 5) (by decide)
  have hr : Invites.Real (.add bob.identity (Invites.sample ['g'] 5)) ∧
      Invites.Plain (.add bob.identity (Invites.sample ['g'] 5)) :=
    ⟨Invites.sample_real (by decide) (by decide), by simp only [Invites.Plain, Invites.sample, IniDB.GoodName]; decide⟩
  have h3 := Invites.step_stands (.inl ⟨rfl, rfl⟩) _ e h1 hr.1 hr.2
  have h4 := Invites.Run.cons (base := ['j']) (G := fun d a e => Invites.Sys ['j'] d a e ∧ Invites.Real a ∧ Invites.Plain a) ⟨h1, hr⟩
    (Invites.Run.nil _)
  rw [h2] at h4
  have hg : GoMap.get (Invites.Act.spec [] (.add bob.identity (Invites.sample ['g'] 5))).2 (['g'], bob.identity) =
      some (Invites.sample ['g'] 5) := by decide
  have h5 := C151_stranger_violated ['j'] _ h3.2 hg
  refine ⟨_, h4, ⟨⟨['g'], bob.nick, 5, (Invites.sample ['g'] 5).expires⟩, ?_, rfl, rfl, rfl⟩, h5.2, h5.1⟩
  exact (list_stands h3.2 (order := [(bob.nick, bob)]) (by simp [Distinct]) _).2 ⟨_, bob, bob.nick, hg, by simp, rfl, rfl, rfl⟩

end Verif.Lists
