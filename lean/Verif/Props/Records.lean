import Verif.Model.Records
import Verif.Proofs.Base64
import Verif.Props.Xdr
import Verif.Props.IniDB

/-! # Export and import of identities, and the client's own file (C82, C83) -/

namespace Verif.Records

open Verif

/-! ## Export and import of a file -/

theorem decode_exported (t : Xdr.Ty) (v : Xdr.Val t) : Base64.decode (exported t v) = some (Xdr.enc t v) := by
  have h := Base64.decode_encode (Xdr.enc t v)
  unfold Base64.decode at h ⊢
  rw [exported, List.filter_append]
  simpa using h

/-- **C82**: the record of a server that was exported is imported as the record of a server, unchanged. -/
theorem C82_server (r : Xdr.Val serverRecord) (h : Xdr.Fits 0 serverRecord r) :
    readBlob (exported serverRecord r) = some (.server r) := by
  have := Xdr.C23_roundtrip 0 serverRecord r h []
  rw [List.append_nil] at this
  simp only [readBlob, decode_exported, this]

/-- **C82**: the record of a client that was exported is imported as the record of a client, unchanged. It is
never mistaken for the record of a server. -/
theorem C82_client (r : Xdr.Val clientRecord) (h : Xdr.Fits 0 clientRecord r) :
    readBlob (exported clientRecord r) = some (.client r) := by
  have h1 := Xdr.C23_roundtrip 0 clientRecord r h []
  rw [List.append_nil] at h1
  have h2 : Xdr.dec 0 serverRecord (Xdr.enc clientRecord r) = .eof := by
    change (Xdr.dec 0 clientRecord (Xdr.enc clientRecord r)).bind _ = _
    rw [h1]
    rfl
  simp only [readBlob, decode_exported, h1, h2]

/-- **C82**: a file is imported only if the base64 of it is decoded to the end, line breaks apart: what was decoded
has an encoding of the same length. -/
theorem C82_whole (file : Bytes) (r : Blob) (h : readBlob file = some r) :
    ∃ b, Base64.decode file = some b ∧
      (Base64.encode b).length = (file.filter fun c => c != 10 && c != 13).length := by
  rcases hb : Base64.decode file with _ | b
  · simp [readBlob, hb] at h
  · exact ⟨b, rfl, Base64.decode_length _ _ hb⟩

/-! ## Importing a client into a server -/

/-- What an import should do: a client of whom the server knows nothing, with a nick nobody uses, gets an
account. -/
def ImportWorks (force : Bool) : Prop :=
  ∀ (s : Accounts.State) (listing : List Accounts.Acct) (pid : Accounts.Pub),
    s.enabled.get pid.identity = none → Accounts.find listing pid.nick = none →
    (importClient s listing pid force).1 = true ∧
      ((importClient s listing pid force).2.enabled.get pid.identity).isSome

/-- **C82 is violated**: a client that has no account can not be imported, whether by force or not, in any state
of the server. -/
theorem C82_import_violated (s : Accounts.State) (listing : List Accounts.Acct) (pid : Accounts.Pub) (force : Bool)
    (h : s.enabled.get pid.identity = none) : importClient s listing pid force = (false, s) := by
  simp only [importClient, h]

/-- So the claim is false with and without force. -/
theorem C82_import_works_violated (force : Bool) : ¬ ImportWorks force := by
  intro h
  have := (h Accounts.init [] ⟨[], [], [], [], [], [], []⟩ rfl rfl).1
  rw [C82_import_violated _ _ _ _ rfl] at this
  cases this

/-- **C82 is violated**: without force no import of a client succeeds, ever. -/
theorem C82_import_never_violated (s : Accounts.State) (listing : List Accounts.Acct) (pid : Accounts.Pub) :
    importClient s listing pid false = (false, s) := by
  simp only [importClient]
  cases h : s.enabled.get pid.identity with
  | none => rfl
  | some a =>
    simp only [Accounts.createCheck, h, Option.isSome_some]
    split <;> simp_all

/-- **C82** (partial): what does work is replacing, by force, the identity of an existing account whose nick is not
in the directory. Messages that wait for it and its listing stay, and other accounts are not touched. -/
theorem C82_replace_partial (s : Accounts.State) (listing : List Accounts.Acct) (pid : Accounts.Pub) (a : Accounts.Acct)
    (h : s.enabled.get pid.identity = some a) (hn : Accounts.find listing pid.nick = none) :
    ∃ s' a', importClient s listing pid true = (true, s') ∧
      s'.enabled.get pid.identity = some a' ∧ a'.user.bind (·.identity) = some pid ∧
      a'.user.map (·.listed) = some ((a.user.map (·.listed)).getD false) ∧ a'.cache = some (a.cache.getD []) ∧
      (∀ id, id ≠ pid.identity → s'.enabled.get id = s.enabled.get id) ∧ s'.disabled = s.disabled := by
  refine ⟨{ s with enabled := s.enabled.set pid.identity (Accounts.created (some a) pid) },
    Accounts.created (some a) pid, ?_, GoMap.get_set_self _ _ _, rfl, ?_, rfl, ?_, rfl⟩
  · simp [importClient, h, Accounts.createCheck, hn]
  · cases hu : a.user <;> simp [Accounts.created, hu]
  · intro id hid
    exact GoMap.get_set_ne _ _ (Ne.symm hid)

/-! ## The file of the client -/

/-- The file is missing, or it has only the default table and content that survives the text format. This is so for
a file made by the functions below. -/
def Sound (base : IniDB.Str) (d : IniDB.Dir) : Prop :=
  d.get base = none ∨
    ∃ i, (∀ c depth tmp, IniDB.new base c depth d tmp =
        .opened { base := base, depth := depth, dirty := false, created := false, tables := [([], i)] }) ∧
      GoMap.WF i ∧ ∀ k v, i.get k = some v → IniDB.GoodKey k ∧ IniDB.GoodVal v

/-- What the file says: the record with the given key. -/
def Says (base : IniDB.Str) (d : IniDB.Dir) (k : IniDB.Str) : Option IniDB.Str :=
  match IniDB.new base false 10 d [] with
  | .opened i => IniDB.get i [] k
  | _ => none

/-- Temporary names, as `ioutil.TempFile` chooses them: neither the file nor a backup. -/
def TmpName (base tmp : IniDB.Str) : Prop := tmp ≠ base ∧ ¬ (base ++ ['.']) <+: tmp

/-- The order in which Go walks a map is some order. -/
def Orders (ord : IniDB.Tables → List (IniDB.Str × List (IniDB.Str × IniDB.Str))) : Prop :=
  ∀ m, GoMap.WF m → (∀ t s, m.get t = some s → GoMap.WF s) → IniDB.IsOrder m (ord m)

/-- A database with nothing but the default table. -/
def plain (base : IniDB.Str) (depth : Int) (dirty created : Bool) (s : IniDB.Section) : IniDB.DB :=
  { base := base, depth := depth, dirty := dirty, created := created, tables := [([], s)] }

/-- Content that survives the text format. -/
def Good (s : IniDB.Section) : Prop :=
  GoMap.WF s ∧ ∀ k v, s.get k = some v → IniDB.GoodKey k ∧ IniDB.GoodVal v

theorem putAll_plain (s : IniDB.Section) (rs : List (IniDB.Str × IniDB.Str)) :
    IniDB.putAll [([], s)] [] rs = [([], IniDB.fill s rs)] := by
  induction rs generalizing s with
  | nil => rfl
  | cons r rs ih =>
    show IniDB.putAll (IniDB.put [([], s)] [] r.1 r.2) [] rs = _
    have : IniDB.put [([], s)] [] r.1 r.2 = [([], s.set r.1 r.2)] := by
      simp [IniDB.put, GoMap.get, GoMap.set, GoMap.del]
    rw [this, ih]
    rfl

theorem readAll_plain (rs : List (IniDB.Str × IniDB.Str)) :
    IniDB.touch (IniDB.readAll [([], rs)] [] []) [] = [([], IniDB.fill [] rs)] := by
  have h : IniDB.readAll [([], rs)] [] [] = IniDB.putAll [] [] rs := rfl
  rw [h]
  cases rs with
  | nil => rfl
  | cons r rs =>
    show IniDB.touch (IniDB.putAll (IniDB.put [] [] r.1 r.2) [] rs) [] = _
    have : IniDB.put ([] : IniDB.Tables) [] r.1 r.2 = [([], [(r.1, r.2)])] := rfl
    rw [this, putAll_plain]
    rfl

theorem fill_wf (s : IniDB.Section) (h : GoMap.WF s) (rs : List (IniDB.Str × IniDB.Str)) :
    GoMap.WF (IniDB.fill s rs) := by
  induction rs generalizing s with
  | nil => exact h
  | cons r rs ih => exact ih _ (GoMap.wf_set h _ _)

theorem setAll_plain (base : IniDB.Str) (depth : Int) (dirty created : Bool) (s : IniDB.Section)
    (f : List (IniDB.Str × IniDB.Str)) :
    setAll (plain base depth dirty created s) f =
      (true, plain base depth (dirty || !f.isEmpty) created (IniDB.fill s f)) := by
  induction f generalizing s dirty with
  | nil => simp [setAll, IniDB.fill]
  | cons r f ih =>
    obtain ⟨k, v⟩ := r
    have : IniDB.set (plain base depth dirty created s) [] k v = (true, plain base depth true created (s.set k v)) := by
      simp [IniDB.set, plain, GoMap.get, GoMap.set, GoMap.del]
    simp only [setAll, this, ih, Bool.true_or]
    simp [IniDB.fill]

/-- Saving a plain database and opening it again. -/
theorem save_plain {base : IniDB.Str} {depth : Int} {created : Bool} {s : IniDB.Section} (hg : Good s)
    {d : IniDB.Dir} {tmp stamp : IniDB.Str} (ht : TmpName base tmp)
    {ord : IniDB.Tables → List (IniDB.Str × List (IniDB.Str × IniDB.Str))} (ho : Orders ord)
    (hb : created = true ∨ (d.get base).isSome) :
    let r := IniDB.save (plain base depth true created s) d tmp stamp (ord [([], s)])
    r.1 = true ∧ r.2.1 = plain base depth false created s ∧ ∃ s', Good s' ∧ (∀ k, s'.get k = s.get k) ∧
      ∀ c depth' tmp', IniDB.new base c depth' r.2.2 tmp' = .opened (plain base depth' false false s') := by
  intro r
  have hio := ho [([], s)] (by simp [GoMap.WF, GoMap.keys]) (by
    intro t s1 h
    simp only [GoMap.get] at h
    split at h
    · cases h; exact hg.1
    · cases h)
  obtain ⟨rs, hrs, hp⟩ : ∃ rs, ord [([], s)] = [([], rs)] ∧ rs.Perm s := by
    have h1 := hio.1
    simp only [GoMap.keys, List.map_cons, List.map_nil] at h1
    obtain ⟨t, ht'⟩ := List.length_eq_one_iff.1 (by simpa using h1.length_eq)
    rw [ht'] at h1
    have h2 : t.1 = [] := by simpa using h1
    obtain ⟨s1, h3, h4⟩ := hio.2 t (by rw [ht']; simp)
    obtain ⟨t1, t2⟩ := t
    simp only at h2
    subst h2
    simp only [GoMap.get, if_true] at h3
    cases h3
    exact ⟨t2, ht', h4⟩
  have ht' : IniDB.TmpOK (plain base depth true created s) tmp := ⟨ht.1, ht.2⟩
  have hb' : (plain base depth true created s).created = true ∨
      (d.get (plain base depth true created s).base).isSome := hb
  have hgt : ∀ t ∈ ord [([], s)], IniDB.GoodTable t := by
    rw [hrs]
    intro t ht
    simp only [List.mem_singleton] at ht
    subst ht
    refine ⟨⟨rfl, by simp, by simp⟩, fun x hx => ?_⟩
    exact hg.2 x.1 x.2 ((GoMap.mem_iff_get hg.1).1 (hp.mem_iff.1 hx))
  have hspec := IniDB.save_spec (order := ord [([], s)]) (stamp := stamp) rfl ht' hb'
  refine ⟨hspec.1, hspec.2.1, IniDB.fill [] rs, ⟨fill_wf _ GoMap.wf_nil _, ?_⟩, ?_, ?_⟩
  · intro k v h
    rw [IniDB.fill_same hg.1 hp] at h
    exact hg.2 k v h
  · exact IniDB.fill_same hg.1 hp
  · intro c depth' tmp'
    have := IniDB.new_saved (order := ord [([], s)]) (stamp := stamp) rfl ht' hb' hgt c depth' tmp'
    rw [hrs, readAll_plain] at this
    rw [← hrs] at this
    exact this

theorem fill_good {s : IniDB.Section} (h : Good s) {f : List (IniDB.Str × IniDB.Str)}
    (hf : ∀ x ∈ f, IniDB.GoodKey x.1 ∧ IniDB.GoodVal x.2) : Good (IniDB.fill s f) := by
  induction f generalizing s with
  | nil => exact h
  | cons r f ih =>
    refine ih ⟨GoMap.wf_set h.1 _ _, fun k v hk => ?_⟩ (fun x hx => hf x (by simp [hx]))
    rw [GoMap.get_set] at hk
    split at hk
    next he => cases hk; subst he; exact hf r (by simp)
    next he => exact h.2 k v hk

/-- Writing records into a sound file: it works, the file is sound, it has the records that were written and keeps the
others. -/
theorem write_spec {base : IniDB.Str} {d : IniDB.Dir} (hd : Sound base d) {tmp tmp' stamp : IniDB.Str}
    (ht : TmpName base tmp) (ht' : TmpName base tmp')
    {ord : IniDB.Tables → List (IniDB.Str × List (IniDB.Str × IniDB.Str))} (ho : Orders ord)
    {f : List (IniDB.Str × IniDB.Str)} (hne : f ≠ []) (hn : (f.map Prod.fst).Nodup)
    (hf : ∀ x ∈ f, IniDB.GoodKey x.1 ∧ IniDB.GoodVal x.2) :
    ∃ d', writeRecord base d tmp tmp' stamp ord f = (true, d') ∧ Sound base d' ∧
      (d'.get base).isSome ∧
      ∀ k, Says base d' k = match GoMap.get f k with | some v => some v | none => Says base d k := by
  -- the part after opening
  have go : ∀ (s : IniDB.Section) (created : Bool) (d1 : IniDB.Dir), Good s →
      (created = true ∨ (d1.get base).isSome) → (∀ k, s.get k = Says base d k) →
      let r := setAll (plain base 10 false created s) f
      ∃ d', (if r.1 then
          ((IniDB.save r.2 d1 tmp' stamp (ord r.2.tables)).1, (IniDB.save r.2 d1 tmp' stamp (ord r.2.tables)).2.2)
        else (false, d1)) = (true, d') ∧ Sound base d' ∧
      (d'.get base).isSome ∧
      ∀ k, Says base d' k = match GoMap.get f k with | some v => some v | none => Says base d k := by
    intro s created d1 hs hb hsays r
    have hr : r = (true, plain base 10 true created (IniDB.fill s f)) := by
      simp only [r, setAll_plain]
      cases f with
      | nil => exact absurd rfl hne
      | cons => simp
    rw [hr]
    simp only [if_true]
    obtain ⟨h1, -, s', h3, h4, h5⟩ := save_plain (depth := 10) (fill_good hs hf) (stamp := stamp) ht' ho hb
    refine ⟨_, Prod.ext h1 rfl, .inr ⟨s', h5, h3⟩, ?_, ?_⟩
    · by_contra hno
      have hnone : (IniDB.save (plain base 10 true created (IniDB.fill s f)) d1 tmp' stamp
          (ord [([], IniDB.fill s f)])).2.2.get base = none := by
        rcases h : (IniDB.save (plain base 10 true created (IniDB.fill s f)) d1 tmp' stamp
          (ord [([], IniDB.fill s f)])).2.2.get base with _ | x
        · rfl
        · exact absurd (by
            show ((IniDB.save (plain base 10 true created (IniDB.fill s f)) d1 tmp' stamp
              (ord [([], IniDB.fill s f)])).2.2.get base).isSome = true
            rw [h]; rfl) hno
      have := h5 false 0 []
      simp [IniDB.new, hnone] at this
    · intro k
      show Says base (IniDB.save (plain base 10 true created (IniDB.fill s f)) d1 tmp' stamp
          (ord [([], IniDB.fill s f)])).2.2 k = _
      rw [Says, h5]
      show s'.get k = _
      rw [h4, IniDB.fill_get _ _ hn, hsays]
      cases GoMap.get f k <;> rfl
  rcases hd with hd | ⟨s, hd, hs⟩
  · have hsays : ∀ k, GoMap.get ([] : IniDB.Section) k = Says base d k := by
      intro k
      simp [Says, IniDB.new, hd]
    have hgood : Good [] := ⟨GoMap.wf_nil, by simp⟩
    have h10 : IniDB.TmpOK (plain base 10 true true []) tmp := ⟨ht.1, ht.2⟩
    have hs := IniDB.save_spec (i := plain base 10 true true []) (d := d) (stamp := []) (order := [([], [])]) rfl h10
      (.inl rfl)
    have hnew : IniDB.new base true 10 d tmp = .created (plain base 10 false true [])
        (IniDB.save (plain base 10 true true []) d tmp [] [([], [])]).2.2 := by
      have e : plain base 10 true true [] =
        { base := base, depth := 10, dirty := true, created := true, tables := [([], [])] } := rfl
      simp only [IniDB.new, hd, if_true, ← e, hs.1]
      rw [hs.2.1]
      rfl
    obtain ⟨d', h1, h2⟩ := go [] true _ hgood (.inl rfl) hsays
    exact ⟨d', by simp only [writeRecord, hnew]; exact h1, h2⟩
  · have hsome : (d.get base).isSome := by
      by_contra hno
      have hnone : d.get base = none := by simpa using hno
      have := hd false 0 []
      simp [IniDB.new, hnone] at this
    obtain ⟨d', h1, h2⟩ := go s false d hs (.inr hsome) (by intro k; rw [Says, hd]; rfl)
    have hnew : IniDB.new base true 10 d tmp = .opened (plain base 10 false false s) := hd _ _ _
    exact ⟨d', by simp only [writeRecord, hnew]; exact h1, h2⟩

/-! ## Values that survive the file -/

theorem char_toNat (c : UInt8) : (Char.ofNat c.toNat).toNat = c.toNat := by
  have hc := c.toNat_lt
  have hv : c.toNat.isValidChar := Or.inl (by omega)
  simp only [Char.ofNat, dif_pos hv]
  rfl

theorem toStr_ofStr {b : Bytes} : ofStr (toStr b) = b := by
  induction b with
  | nil => rfl
  | cons c b ih =>
    have := char_toNat c
    simp only [toStr, ofStr, List.map_cons, List.map_map] at ih ⊢
    rw [this]
    simp only [UInt8.ofNat_toNat]
    exact congrArg _ ih

theorem not_space {c : UInt8} (h1 : 43 ≤ c.toNat) (h2 : c.toNat ≤ 122) :
    IniDB.isSpace (Char.ofNat c.toNat) = false ∧ Char.ofNat c.toNat ≠ '\n' := by
  have := char_toNat c
  constructor
  · simp only [IniDB.isSpace, this]
    simp only [Bool.or_eq_false_iff, beq_eq_false_iff_ne, Bool.and_eq_false_iff, decide_eq_false_iff_not]
    omega
  · intro h
    have h3 := congrArg Char.toNat h
    rw [this] at h3
    have : ('\n').toNat = 10 := rfl
    omega

theorem trim_of_none {v : IniDB.Str} (h : ∀ c ∈ v, IniDB.isSpace c = false) : IniDB.trim v = v := by
  have drop : ∀ w : IniDB.Str, (∀ c ∈ w, IniDB.isSpace c = false) → w.dropWhile IniDB.isSpace = w := by
    intro w hw
    cases w with
    | nil => rfl
    | cons c w => rw [List.dropWhile_cons, hw c (by simp)]; rfl
  rw [IniDB.trim, drop v h, drop _ (fun c hc => h c (by simpa using hc)), List.reverse_reverse]

/-- What base64 produces survives. -/
theorem goodVal_base64 (b : Bytes) : IniDB.GoodVal (toStr (Base64.encode b)) := by
  have h := Base64.encode_safe b
  refine ⟨trim_of_none fun c hc => ?_, fun hc => ?_⟩
  · simp only [toStr, List.mem_map] at hc
    obtain ⟨a, ha, rfl⟩ := hc
    exact (not_space (h a ha).1 (h a ha).2).1
  · simp only [toStr, List.mem_map] at hc
    obtain ⟨a, ha, he⟩ := hc
    exact (not_space (h a ha).1 (h a ha).2).2 he

/-- The client starts: the file is opened and read, /repo/zkclient/zkclient.go:2110-2145. -/
def readServer (base : IniDB.Str) (d : IniDB.Dir) : Option (IniDB.Str × Xdr.Val Xdr.publicIdentity × Bytes) :=
  match IniDB.new base false 10 d [] with
  | .opened i => parseMyServer i
  | _ => none

/-- The same for the identity. -/
def readIdentity (base : IniDB.Str) (d : IniDB.Dir) : Option (Xdr.Val fullIdentity) :=
  match IniDB.new base false 10 d [] with
  | .opened i => parseMyIdentity i
  | _ => none

theorem readServer_of {base : IniDB.Str} {d : IniDB.Dir} {addr : IniDB.Str} {sid : Xdr.Val Xdr.publicIdentity}
    {cert : Bytes} (hs : Xdr.Fits 0 Xdr.publicIdentity sid)
    (h1 : Says base d "server".toList = some addr)
    (h2 : Says base d "serveridentity".toList = some (toStr (Base64.encode (Xdr.enc Xdr.publicIdentity sid))))
    (h3 : Says base d "servercert".toList = some (toStr (Base64.encode cert))) :
    readServer base d = some (addr, sid, cert) := by
  have hx := Xdr.C23_roundtrip 0 Xdr.publicIdentity sid hs []
  rw [List.append_nil] at hx
  unfold Says at h1 h2 h3
  unfold readServer
  split at h1
  next i hi =>
    rw [hi] at h2 h3
    simp only at h2 h3 ⊢
    simp only [parseMyServer, h1, h2, h3, toStr_ofStr, Base64.decode_encode, hx, Option.map_some]
  · cases h1

theorem readIdentity_of {base : IniDB.Str} {d : IniDB.Dir} {me : Xdr.Val fullIdentity}
    (hs : Xdr.Fits 0 fullIdentity me)
    (h : Says base d "myidentity".toList = some (toStr (Base64.encode (Xdr.enc fullIdentity me)))) :
    readIdentity base d = some me := by
  have hx := Xdr.C23_roundtrip 0 fullIdentity me hs []
  rw [List.append_nil] at hx
  unfold Says at h
  unfold readIdentity
  split at h
  next i hi =>
    simp only [parseMyIdentity, h, toStr_ofStr, Base64.decode_encode, hx]
  · cases h

/-- What is read as identity depends on one record only. -/
theorem readIdentity_congr {base : IniDB.Str} {d d' : IniDB.Dir}
    (h : Says base d' "myidentity".toList = Says base d "myidentity".toList) :
    readIdentity base d' = readIdentity base d := by
  have key : ∀ d, readIdentity base d = match Says base d "myidentity".toList with
      | none => none
      | some b64 =>
        match Base64.decode (ofStr b64) with
        | none => none
        | some buf =>
          match Xdr.dec 0 fullIdentity buf with
          | .ok me _ => some me
          | _ => none := by
    intro d
    unfold readIdentity Says
    split <;> rfl
  rw [key, key, h]

theorem key_server : IniDB.GoodKey "server".toList := by unfold IniDB.GoodKey; decide
theorem key_serveridentity : IniDB.GoodKey "serveridentity".toList := by unfold IniDB.GoodKey; decide
theorem key_servercert : IniDB.GoodKey "servercert".toList := by unfold IniDB.GoodKey; decide
theorem key_myidentity : IniDB.GoodKey "myidentity".toList := by unfold IniDB.GoodKey; decide
theorem key_directory : IniDB.GoodKey "directory".toList := by unfold IniDB.GoodKey; decide
theorem val_bool (b : Bool) : IniDB.GoodVal (if b then "true".toList else "false".toList) := by
  cases b <;> (unfold IniDB.GoodVal; decide)

theorem clientFields_nodup (addr : IniDB.Str) (sid : Xdr.Val Xdr.publicIdentity) (cert : Bytes)
    (me : Xdr.Val fullIdentity) : ((clientFields addr sid cert me).map Prod.fst).Nodup := by
  show ["server".toList, "serveridentity".toList, "servercert".toList, "myidentity".toList].Nodup
  decide

theorem importFields_nodup (r : Xdr.Val serverRecord) : ((importFields r).map Prod.fst).Nodup := by
  show ["server".toList, "serveridentity".toList, "servercert".toList, "directory".toList].Nodup
  decide

theorem goodKeys (addr : IniDB.Str) (ha : IniDB.GoodVal addr) (sid : Xdr.Val Xdr.publicIdentity) (cert : Bytes) :
    ∀ x ∈ serverFields addr sid cert, IniDB.GoodKey x.1 ∧ IniDB.GoodVal x.2 := by
  intro x hx
  simp only [serverFields, List.mem_cons, List.not_mem_nil, or_false] at hx
  rcases hx with rfl | rfl | rfl
  · exact ⟨key_server, ha⟩
  · exact ⟨key_serveridentity, goodVal_base64 _⟩
  · exact ⟨key_servercert, goodVal_base64 _⟩

/-- **C83**: what the client saves about its server and itself is what it finds when it is started again: address,
identity of the server, certificate, own identity with its private keys. The file stays sound, so this holds again the
next time. The address must survive the text format: no line breaks, no white space around it. -/
theorem C83_saved (base : IniDB.Str) (d : IniDB.Dir) (hd : Sound base d) (tmp tmp' stamp : IniDB.Str)
    (ht : TmpName base tmp) (ht' : TmpName base tmp')
    (ord : IniDB.Tables → List (IniDB.Str × List (IniDB.Str × IniDB.Str))) (ho : Orders ord)
    (addr : IniDB.Str) (ha : IniDB.GoodVal addr) (sid : Xdr.Val Xdr.publicIdentity)
    (hs : Xdr.Fits 0 Xdr.publicIdentity sid) (cert : Bytes) (me : Xdr.Val fullIdentity)
    (hm : Xdr.Fits 0 fullIdentity me) :
    ∃ d', writeRecord base d tmp tmp' stamp ord (clientFields addr sid cert me) = (true, d') ∧ Sound base d' ∧
      readServer base d' = some (addr, sid, cert) ∧ readIdentity base d' = some me := by
  obtain ⟨d', h1, h2, -, h3⟩ := write_spec hd (stamp := stamp) ht ht' ho (f := clientFields addr sid cert me)
    (by simp [clientFields, serverFields]) (clientFields_nodup _ _ _ _) (by
      intro x hx
      simp only [clientFields, List.mem_append, List.mem_singleton] at hx
      rcases hx with hx | rfl
      · exact goodKeys addr ha sid cert x hx
      · exact ⟨key_myidentity, goodVal_base64 _⟩)
  refine ⟨d', h1, h2, readServer_of hs ?_ ?_ ?_, readIdentity_of hm ?_⟩ <;> rw [h3] <;> rfl

/-- **C82**: a server record that is exported, read and imported is what the client finds when it is started: address,
identity and certificate. It finds no identity of its own, so it will make one. The file must be missing before, the
user must agree. -/
theorem C82_imported (base : IniDB.Str) (d : IniDB.Dir) (hd : d.get base = none) (tmp tmp' stamp : IniDB.Str)
    (ht : TmpName base tmp) (ht' : TmpName base tmp')
    (ord : IniDB.Tables → List (IniDB.Str × List (IniDB.Str × IniDB.Str))) (ho : Orders ord)
    (sid : Xdr.Val Xdr.publicIdentity) (cert addr : Bytes) (dir : Bool)
    (hf : Xdr.Fits 0 serverRecord (sid, cert, addr, dir)) (ha : IniDB.GoodVal (toStr addr)) :
    ∃ r d', readBlob (exported serverRecord (sid, cert, addr, dir)) = some (.server r) ∧
      importServer base d tmp tmp' stamp ord false true r = (true, d') ∧ Sound base d' ∧
      readServer base d' = some (toStr addr, sid, cert) ∧ readIdentity base d' = none := by
  obtain ⟨d', h1, h2, -, h3⟩ := write_spec (.inl hd) (stamp := stamp) ht ht' ho (f := importFields (sid, cert, addr, dir))
    (by simp [importFields, serverFields]) (importFields_nodup _) (by
      intro x hx
      simp only [importFields, List.mem_append, List.mem_singleton] at hx
      rcases hx with hx | rfl
      · exact goodKeys _ ha sid cert x hx
      · exact ⟨key_directory, val_bool dir⟩)
  refine ⟨_, d', C82_server _ hf, ?_, h2, readServer_of hf.1 ?_ ?_ ?_, ?_⟩
  · simp only [importServer, hd, Option.isSome_none, Bool.false_eq_true, false_and, if_false, not_true, and_false]
    exact h1
  · rw [h3]; rfl
  · rw [h3]; rfl
  · rw [h3]; rfl
  · have h4 : Says base d' "myidentity".toList = Says base d "myidentity".toList := by rw [h3]; rfl
    rw [readIdentity_congr h4]
    simp [readIdentity, IniDB.new, hd]

/-- **C82**: nothing is imported over an existing file, or against the will of the user, unless forced. -/
theorem C82_asks (base : IniDB.Str) (d : IniDB.Dir) (tmp tmp' stamp : IniDB.Str)
    (ord : IniDB.Tables → List (IniDB.Str × List (IniDB.Str × IniDB.Str))) (yes : Bool) (r : Xdr.Val serverRecord)
    (h : (d.get base).isSome ∨ yes = false) :
    importServer base d tmp tmp' stamp ord false yes r = (false, d) := by
  unfold importServer
  split
  · rfl
  next h1 =>
    rw [if_pos]
    rcases h with h | h
    · exact absurd ⟨h, by simp⟩ h1
    · simp [h]

/-- What a client should find after a forced import: a server at which it has no account yet. -/
def ForcedImportIsFresh : Prop :=
  ∀ (base : IniDB.Str) (d : IniDB.Dir) (tmp tmp' stamp : IniDB.Str)
    (ord : IniDB.Tables → List (IniDB.Str × List (IniDB.Str × IniDB.Str))) (r : Xdr.Val serverRecord) (d' : IniDB.Dir),
    Sound base d → TmpName base tmp → TmpName base tmp' → Orders ord → Xdr.Fits 0 serverRecord r →
    importServer base d tmp tmp' stamp ord true true r = (true, d') → readIdentity base d' = none

/-- **C82** (partial): a forced import replaces the server and leaves the identity of the client in the file. -/
theorem C82_forced_partial (base : IniDB.Str) (d : IniDB.Dir) (hd : Sound base d) (tmp tmp' stamp : IniDB.Str)
    (ht : TmpName base tmp) (ht' : TmpName base tmp')
    (ord : IniDB.Tables → List (IniDB.Str × List (IniDB.Str × IniDB.Str))) (ho : Orders ord) (yes : Bool)
    (sid : Xdr.Val Xdr.publicIdentity) (cert addr : Bytes) (dir : Bool)
    (hf : Xdr.Fits 0 serverRecord (sid, cert, addr, dir)) (ha : IniDB.GoodVal (toStr addr)) :
    ∃ d', importServer base d tmp tmp' stamp ord true yes (sid, cert, addr, dir) = (true, d') ∧ Sound base d' ∧
      readServer base d' = some (toStr addr, sid, cert) ∧ readIdentity base d' = readIdentity base d := by
  obtain ⟨d', h1, h2, -, h3⟩ := write_spec hd (stamp := stamp) ht ht' ho (f := importFields (sid, cert, addr, dir))
    (by simp [importFields, serverFields]) (importFields_nodup _) (by
      intro x hx
      simp only [importFields, List.mem_append, List.mem_singleton] at hx
      rcases hx with hx | rfl
      · exact goodKeys _ ha sid cert x hx
      · exact ⟨key_directory, val_bool dir⟩)
  refine ⟨d', ?_, h2, readServer_of hf.1 ?_ ?_ ?_, readIdentity_congr ?_⟩
  · simp only [importServer, not_true, and_false, if_false, false_and]
    exact h1
  all_goals rw [h3]; rfl

/-! ## Instances -/

/-- `n` zero bytes. -/
def zeros (n : Nat) : { b : Bytes // b.length = n } := ⟨List.replicate n 0, List.length_replicate⟩

/-- An identity with the given nick. -/
def someone (nick : Bytes) : Xdr.Val Xdr.publicIdentity :=
  (nick, nick, zeros 32, zeros 1218, zeros 32, zeros 32, zeros 64)

theorem someone_fits {nick : Bytes} (h : nick.length + 3 < 2 ^ 31) : Xdr.Fits 0 Xdr.publicIdentity (someone nick) := by
  simp [Xdr.publicIdentity, Xdr.struct, Xdr.Fits, someone, h]

/-- The same with private keys. -/
def someoneFull (nick : Bytes) : Xdr.Val fullIdentity := (someone nick, zeros 64, zeros 1600)

theorem someoneFull_fits {nick : Bytes} (h : nick.length + 3 < 2 ^ 31) : Xdr.Fits 0 fullIdentity (someoneFull nick) :=
  ⟨someone_fits h, by simp [Xdr.struct, Xdr.Fits]⟩

/-- Walking a map in the order of the list. -/
theorem orders_id : Orders id := by
  intro m hw _
  refine ⟨List.Perm.refl _, fun t ht => ⟨t.2, ?_, List.Perm.refl _⟩⟩
  exact GoMap.get_of_mem hw ht

theorem tmpName : TmpName "db".toList "db7".toList := by unfold TmpName; decide

theorem goodAddr : IniDB.GoodVal (toStr [104, 58, 49]) := by unfold IniDB.GoodVal; decide

/-- C83 has instances: saving in an empty directory. -/
example : ∃ d', writeRecord "db".toList [] "db7".toList "db7".toList [] id
      (clientFields (toStr [104, 58, 49]) (someone [1]) [7, 7] (someoneFull [2])) = (true, d') ∧
      readIdentity "db".toList d' = some (someoneFull [2]) := by
  obtain ⟨d', h, -, -, h1⟩ := C83_saved "db".toList [] (.inl rfl) "db7".toList "db7".toList [] tmpName tmpName id orders_id
    (toStr [104, 58, 49]) goodAddr (someone [1]) (someone_fits (by decide)) [7, 7] (someoneFull [2]) (someoneFull_fits (by decide))
  exact ⟨d', h, h1⟩

/-- C82 has instances: import in an empty directory. -/
example : ∃ r d', readBlob (exported serverRecord (someone [1], [7, 7], [104, 58, 49], true)) = some (.server r) ∧
      importServer "db".toList [] "db7".toList "db7".toList [] id false true r = (true, d') ∧
      readServer "db".toList d' = some (toStr [104, 58, 49], someone [1], [7, 7]) := by
  obtain ⟨r, d', h1, h2, -, h3, -⟩ := C82_imported "db".toList [] rfl "db7".toList "db7".toList [] tmpName tmpName id orders_id
    (someone [1]) [7, 7] [104, 58, 49] true ⟨someone_fits (by decide), by simp [Xdr.struct, Xdr.Fits]⟩ goodAddr
  exact ⟨r, d', h1, h2, h3⟩

/-- A record of a client, as such. -/
example : readBlob (exported clientRecord (someone [1])) = some (.client (someone [1])) :=
  C82_client _ (someone_fits (by decide))

/-- **C82 is violated**: after a forced import the client still has the identity it had at the old server. -/
theorem C82_forced_violated : ¬ ForcedImportIsFresh := by
  intro h
  obtain ⟨d, -, h1, -, h2⟩ := C83_saved "db".toList [] (.inl rfl) "db7".toList "db7".toList [] tmpName tmpName id orders_id
    (toStr [104, 58, 49]) goodAddr (someone [1]) (someone_fits (by decide)) [7, 7] (someoneFull [2]) (someoneFull_fits (by decide))
  have hf : Xdr.Fits 0 serverRecord (someone [3], ([8] : Bytes), ([104, 58, 49] : Bytes), true) :=
    ⟨someone_fits (by decide), by simp [Xdr.struct, Xdr.Fits]⟩
  obtain ⟨d', h3, -, -, h4⟩ := C82_forced_partial "db".toList d h1 "db7".toList "db7".toList [] tmpName tmpName id orders_id
    true (someone [3]) [8] [104, 58, 49] true hf goodAddr
  have := h "db".toList d "db7".toList "db7".toList [] id _ d' h1 tmpName tmpName orders_id hf h3
  rw [h4, h2] at this
  cases this

/-- An account to be replaced. -/
example : (importClient { Accounts.init with enabled := [([1], ⟨none, none⟩)] } [⟨none, none⟩]
    ⟨[], [], [], [], [1], [], []⟩ true).1 = true := by decide

end Verif.Records
