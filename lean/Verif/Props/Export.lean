import Verif.Model.Export
import Verif.Props.Records
import Verif.Props.Settings

/-! # What the tools tell of a server and a client is what these use: C127 -/

namespace Verif.Export

open Verif Records

/-- The configuration file sets `listen` to `v`. -/
def Listens (w : World) (cfg : Str) (v : Str) : Prop :=
  ∃ t, w.text cfg = some t ∧ Settings.Says (IniDB.lines t) "" "listen" v

/-- The tool looks into the directory that the server uses. -/
def SameRoot (w : World) (root : Str) (u : Uses) : Prop := ∀ n, w.join u.root n = w.join root n

theorem fill_listen {home : Str} {f : Settings.Tables} {s : Settings.Server}
    (h : Settings.Server.new.fill home f = .ok s) :
    { Settings.Server.new with listen := [] }.fill home f =
      .ok { s with listen := Settings.tilde home (Settings.orOld f [] "" "listen") } := by
  unfold Settings.Server.fill at h ⊢
  simp only [bind, Except.bind, pure, Except.pure] at h ⊢
  repeat' (split at h)
  all_goals cases h
  simp_all

theorem listen_said {home t : Str} {s : Settings.Server} (h : Settings.server home (some t) = .ok s) :
    (∃ v, Settings.Says (IniDB.lines t) "" "listen" v ∧ s.listen = Settings.tilde home v ∧
      Settings.tilde home (Settings.orOld (Settings.parseUpTo (IniDB.lines t) [] []).1 [] "" "listen") = s.listen) ∨
    (∀ v, ¬ Settings.Says (IniDB.lines t) "" "listen" v) ∧
      Settings.orOld (Settings.parseUpTo (IniDB.lines t) [] []).1 [] "" "listen" = [] := by
  rw [Settings.server_parse] at h
  split at h
  · rename_i hc
    have hu := Settings.upTo_clean ((Settings.parseUpTo_clean ..).1 hc)
    have hl : s.listen = Settings.tilde home
        (Settings.orOld (Settings.parseUpTo (IniDB.lines t) [] []).1 Settings.Server.new.listen "" "listen") := by
      unfold Settings.Server.fill at h
      simp only [bind, Except.bind, pure, Except.pure] at h
      repeat' (split at h)
      all_goals first | (cases h; done) | skip
      cases h
      rfl
    rcases Settings.get_cases (IniDB.lines t) "" "listen" with ⟨v, hv, hg⟩ | ⟨hn, hg⟩
    · rw [hu] at hv
      refine .inl ⟨v, hv, ?_, ?_⟩
      · rw [hl, Settings.orOld, hg]; rfl
      · rw [hl]; simp only [Settings.orOld, hg, Option.getD_some]
    · rw [hu] at hn
      exact .inr ⟨hn, by simp only [Settings.orOld, hg]; rfl⟩
  · cases h

theorem fetchAddr_of {w : World} {root t : Str} {s : Settings.Server}
    (ht : w.text (w.join root "zkserver.conf".toList) = some t) (h : Settings.server w.home (some t) = .ok s) :
    (∃ v, Settings.Says (IniDB.lines t) "" "listen" v ∧ fetchAddr w root = s.listen) ∨
    (∀ v, ¬ Settings.Says (IniDB.lines t) "" "listen" v) ∧ fetchAddr w root = [] := by
  have hf : fetchAddr w root =
      Settings.tilde w.home (Settings.orOld (Settings.parseUpTo (IniDB.lines t) [] []).1 [] "" "listen") := by
    rw [Settings.server_parse] at h
    split at h
    · rename_i hc
      have hp : IniDB.parse t = some (Settings.parseUpTo (IniDB.lines t) [] []).1 := by
        unfold IniDB.parse
        rw [Settings.parseLines_eq, if_pos hc]
      have hl : loadNoListen w (w.join root "zkserver.conf".toList) = .ok { s with
          listen := Settings.tilde w.home (Settings.orOld (Settings.parseUpTo (IniDB.lines t) [] []).1 [] "" "listen") } := by
        unfold loadNoListen
        simp only [ht, hp]
        exact fill_listen h
      unfold fetchAddr
      rw [hl]
    · cases h
  rcases listen_said h with ⟨v, h1, -, h3⟩ | ⟨h1, h2⟩
  · exact .inl ⟨v, h1, by rw [hf, h3]⟩
  · refine .inr ⟨h1, ?_⟩
    rw [hf, h2]
    rfl

/-- C127.  A server runs with the configuration file in its root directory, and the tool is given this directory: then the
exported identity, certificate and directory are those of the server.  The address is the one that was given to the tool; if
none was given it is the one that the configuration names; if it names none, the tool says so. -/
theorem C127_export_partial {w : World} {flag addr : Str} {u : Uses}
    (hu : serves w (w.join (rootOf w flag ".zkserver".toList) "zkserver.conf".toList) = some u)
    (hr : SameRoot w (rootOf w flag ".zkserver".toList) u) :
    (addr ≠ [] → exportServer w flag addr = .ok ⟨u.identity, u.cert, addr, u.directory⟩) ∧
    ((∃ v, Listens w (w.join (rootOf w flag ".zkserver".toList) "zkserver.conf".toList) v) → u.listen ≠ [] →
      exportServer w flag [] = .ok ⟨u.identity, u.cert, u.listen, u.directory⟩) ∧
    ((∀ v, ¬ Listens w (w.join (rootOf w flag ".zkserver".toList) "zkserver.conf".toList) v) →
      exportServer w flag [] = .error .addr) := by
  unfold exportServer fetchServer
  generalize rootOf w flag ".zkserver".toList = root at *
  unfold serves at hu
  split at hu
  · cases hu
  next s hs =>
  split at hu
  · cases hu
  next fi hfi =>
  split at hu
  · cases hu
  next c hc =>
  cases hu
  simp only [SameRoot] at hr
  rw [hr] at hfi
  rw [hr, hr] at hc
  have hd : fetchDirectory w root = some s.directory := by unfold fetchDirectory; rw [hs]
  simp only [hfi, hc, hd]
  cases ht : w.text (w.join root "zkserver.conf".toList) with
  | none => rw [ht] at hs; cases hs
  | some t =>
    rw [ht] at hs
    refine ⟨fun ha => by simp [ha], ?_, ?_⟩
    · rintro ⟨v, t', ht', hv⟩ hl
      rw [ht] at ht'
      cases ht'
      rcases fetchAddr_of ht hs with ⟨_, _, h⟩ | ⟨h, _⟩
      · simp [h, hl]
      · exact absurd hv (h v)
    · intro hn
      rcases fetchAddr_of ht hs with ⟨v, h, _⟩ | ⟨_, h⟩
      · exact absurd ⟨t, ht, h⟩ (hn v)
      · simp [h]

/-- C127.  Nothing is exported without an address. -/
theorem C127_address {w : World} {flag addr : Str} {r : Rec} (h : exportServer w flag addr = .ok r) :
    r.addr ≠ [] ∧ (addr ≠ [] → r.addr = addr) := by
  unfold exportServer fetchServer at h
  split at h
  · cases h
  split at h
  · cases h
  simp only at h
  generalize ha : (if addr = [] then fetchAddr w (rootOf w flag ".zkserver".toList) else addr) = a at h
  split at h
  · cases h
  next hn =>
  split at h
  · cases h
  cases h
  exact ⟨hn, fun h => by rw [← ha, if_neg h]⟩

/-- A text of characters that are single bytes. -/
def Ascii (s : Str) : Prop := ∀ c ∈ s, c.toNat < 128

theorem toStr_ascii {s : Str} (h : Ascii s) : toStr (ofStr s) = s := by
  induction s with
  | nil => rfl
  | cons c s ih =>
    have hc := h c List.mem_cons_self
    have : Char.ofNat (UInt8.ofNat c.toNat).toNat = c := by
      have h1 : (UInt8.ofNat c.toNat).toNat = c.toNat := by
        rw [UInt8.toNat_ofNat']
        exact Nat.mod_eq_of_lt (Nat.lt_of_lt_of_le hc (by decide))
      rw [h1]
      exact Char.ofNat_toNat c
    show Char.ofNat _ :: toStr (ofStr s) = _
    rw [this, ih fun d hd => h d (List.mem_cons_of_mem _ hd)]

/-- C127.  From the server to the client: the line that is exported, imported by a new client, gives this client the
address, the identity and the certificate of the server. -/
theorem C127_arrives_partial {w : World} {flag : Str} {u : Uses} {v : Str}
    (hu : serves w (w.join (rootOf w flag ".zkserver".toList) "zkserver.conf".toList) = some u)
    (hr : SameRoot w (rootOf w flag ".zkserver".toList) u)
    (hl : Listens w (w.join (rootOf w flag ".zkserver".toList) "zkserver.conf".toList) v) (hne : u.listen ≠ [])
    (hf : Xdr.Fits 0 serverRecord (u.identity, u.cert, ofStr u.listen, u.directory))
    (hasc : Ascii u.listen) (hgood : IniDB.GoodVal u.listen)
    (base : IniDB.Str) (d : IniDB.Dir) (hd : d.get base = none) (tmp tmp' stamp : IniDB.Str)
    (ht : TmpName base tmp) (ht' : TmpName base tmp')
    (ord : IniDB.Tables → List (IniDB.Str × List (IniDB.Str × IniDB.Str))) (ho : Orders ord) :
    ∃ r b d', exportServer w flag [] = .ok r ∧ readBlob r.line = some (.server b) ∧
      importServer base d tmp tmp' stamp ord false true b = (true, d') ∧
      readServer base d' = some (u.listen, u.identity, u.cert) := by
  obtain ⟨b, d', h1, h2, -, h3, -⟩ := C82_imported base d hd tmp tmp' stamp ht ht' ord ho u.identity u.cert
    (ofStr u.listen) u.directory hf (by rw [toStr_ascii hasc]; exact hgood)
  rw [toStr_ascii hasc] at h3
  exact ⟨_, b, d', (C127_export_partial (addr := []) hu hr).2.1 ⟨v, hl⟩ hne, h1, h2, h3⟩

/-- C127.  The outer fingerprint that is printed is that of the certificate the server uses, which clients show their users; if
the file holds a single certificate. -/
theorem C127_fingerprint_partial {w : World} {root cfg : Str} {u : Uses} (sha : Bytes → Bytes)
    (hu : serves w cfg = some u) (hr : SameRoot w root u) :
    outer sha w root = some (sha u.cert) ∨
    outer sha w root = none ∧ ∃ c, w.pair (w.join root "zkserver.crt".toList) (w.join root "zkserver.key".toList) = some c ∧
      c.2 ≠ [] := by
  unfold serves at hu
  repeat' (split at hu)
  all_goals first | (cases hu; done) | skip
  next c hc =>
    cases hu
    rw [hr, hr] at hc
    simp only [outer, hc]
    split
    · exact .inl rfl
    · next hn => exact .inr ⟨rfl, c, rfl, hn⟩

/-- C127.  What is exported of a client is the public part of the identity that it uses, if the tool is given its root
directory; if it has none yet, nothing is exported. -/
theorem C127_client_partial {w : World} {flag root : Str} (h : w.dir (rootOf w flag ".zkclient".toList) = w.dir root) :
    exportClient w flag = (clientUses w root).map fun fi => exported clientRecord (pub fi) := by
  unfold exportClient fetchClient clientUses parseMyIdentity
  rw [h]
  rfl

/-- C127.  And this is imported as it is. -/
theorem C127_client_line {w : World} {flag : Str} {line : Bytes} (h : exportClient w flag = some line)
    (hf : ∀ fi, fetchClient w (rootOf w flag ".zkclient".toList) = some fi → Xdr.Fits 0 clientRecord (pub fi)) :
    ∃ fi, fetchClient w (rootOf w flag ".zkclient".toList) = some fi ∧
      readBlob line = some (.client (pub fi)) := by
  unfold exportClient at h
  obtain ⟨fi, h1, rfl⟩ := Option.map_eq_some_iff.mp h
  exact ⟨fi, h1, C82_client _ (hf fi h1)⟩

/-- C127.  The line of `b64cert`, in the file of a client, is the certificate of the server. -/
theorem C127_b64cert (c : Bytes × List Bytes) :
    IniDB.classify (b64cert c) = .assign "servercert".toList (toStr (Base64.encode c.1)) ∧
    Base64.decode (ofStr (toStr (Base64.encode c.1))) = some c.1 := by
  refine ⟨?_, by rw [toStr_ofStr, Base64.decode_encode]⟩
  have := IniDB.classify_assign key_servercert (goodVal_base64 c.1)
  exact this

/-! ## Where the claim fails, and examples -/

/-- A machine with the home directory /h.  The server in `new` has the second identity, the one in /h/.zkserver the first. -/
def machine (conf new : String) (chain : List Bytes) : World where
  home := "/h".toList
  join a n := a ++ '/' :: n
  text p := if p = "/h/.zkserver/zkserver.conf".toList then some conf.toList else none
  ident p :=
    if p = new.toList ++ "/zkserver.id".toList then some (someoneFull [2])
    else if p = "/h/.zkserver/zkserver.id".toList then some (someoneFull [1])
    else none
  pair p _ :=
    if p = new.toList ++ "/zkserver.crt".toList then some ([22], chain)
    else if p = "/h/.zkserver/zkserver.crt".toList then some ([11], chain)
    else none
  dir _ := []

/-- The configuration file that the server reads if no other is named. -/
def dfltConf : Str := "/h/.zkserver/zkserver.conf".toList

theorem pub_someone (n : Bytes) : pub (someoneFull n) = someone n := rfl

theorem someone_ne : someone [1] ≠ someone [2] := by
  intro h
  have := congrArg (fun v : Xdr.Val Xdr.publicIdentity => (show Xdr.Val (.opaque) × _ from v).2.1) h
  revert this
  decide

/-- The configuration names another root directory, as it may: the tool looks into the directory of the configuration file, and
exports the identity and the certificate of an older server that it finds there; told of the right directory it fails, whatever
address it is given. -/
theorem C127_root_violated : ∃ (w : World) (u : Uses) (r : Rec),
    serves w (w.join (w.join w.home ".zkserver".toList) "zkserver.conf".toList) = some u ∧
    exportServer w [] [] = .ok r ∧ r.identity ≠ u.identity ∧ r.cert ≠ u.cert ∧
    ∀ addr, addr ≠ [] → exportServer w u.root addr = .error .conf := by
  refine ⟨machine "root = /srv\nlisten = h:1" "/srv" [], ⟨"/srv".toList, someone [2], [22], "h:1".toList, false⟩,
    ⟨someone [1], [11], "h:1".toList, false⟩, by rfl, by rfl, someone_ne, by decide, ?_⟩
  intro addr ha
  unfold exportServer fetchServer
  show (if (if addr = [] then _ else addr) = [] then _ else _) = _
  rw [if_neg ha, if_neg ha]
  rfl

/-- The address is the one at which the server listens, which need not be one that names a machine: without a host, or the
address of all interfaces. -/
theorem C127_nowhere_violated : ∃ (w w' : World) (u u' : Uses) (r r' : Rec),
    (serves w (w.join (w.join w.home ".zkserver".toList) "zkserver.conf".toList) = some u ∧
      SameRoot w (w.join w.home ".zkserver".toList) u ∧ exportServer w [] [] = .ok r ∧ r.addr = ":12345".toList) ∧
    (serves w' (w'.join (w'.join w'.home ".zkserver".toList) "zkserver.conf".toList) = some u' ∧
      SameRoot w' (w'.join w'.home ".zkserver".toList) u' ∧ exportServer w' [] [] = .ok r' ∧
      r'.addr = "0.0.0.0:12345".toList) := by
  refine ⟨machine "listen = :12345" "/srv" [], machine "listen = 0.0.0.0:12345" "/srv" [],
    ⟨"/h/.zkserver".toList, someone [1], [11], ":12345".toList, false⟩,
    ⟨"/h/.zkserver".toList, someone [1], [11], "0.0.0.0:12345".toList, false⟩,
    ⟨someone [1], [11], ":12345".toList, false⟩, ⟨someone [1], [11], "0.0.0.0:12345".toList, false⟩,
    ⟨by rfl, fun _ => rfl, by rfl, rfl⟩, ⟨by rfl, fun _ => rfl, by rfl, rfl⟩⟩

/-- A certificate that was signed by somebody else, with theirs in the same file, is used and exported, but no fingerprint of it
is printed. -/
theorem C127_chain_violated (sha : Bytes → Bytes) : ∃ (w : World) (u : Uses) (r : Rec),
    serves w (w.join (w.join w.home ".zkserver".toList) "zkserver.conf".toList) = some u ∧
    SameRoot w (w.join w.home ".zkserver".toList) u ∧ exportServer w [] [] = .ok r ∧ r.cert = u.cert ∧
    outer sha w (w.join w.home ".zkserver".toList) = none :=
  ⟨machine "listen = h:1" "/srv" [[33]], ⟨"/h/.zkserver".toList, someone [1], [11], "h:1".toList, false⟩,
    ⟨someone [1], [11], "h:1".toList, false⟩, by rfl, fun _ => rfl, by rfl, rfl, by rfl⟩

/-- The first part of the claim has an instance. -/
example : exportServer (machine "listen = h:1\ndirectory = yes" "/srv" []) "/h/.zkserver".toList [] =
    .ok ⟨someone [1], [11], "h:1".toList, true⟩ := by rfl

/-- Without an address. -/
example : exportServer (machine "directory = yes" "/srv" []) [] [] = .error .addr ∧
    exportServer (machine "directory = yes" "/srv" []) [] "x:2".toList = .ok ⟨someone [1], [11], "x:2".toList, true⟩ :=
  ⟨by rfl, by rfl⟩

/-- A client that has an account. -/
example : ∃ d, exportClient { machine "" "/srv" [] with dir := fun _ => d } [] =
    some (exported clientRecord (someone [2])) := by
  obtain ⟨d', -, -, -, h1⟩ := C83_saved myserver [] (.inl rfl) "t".toList "t".toList [] (by unfold TmpName; decide)
    (by unfold TmpName; decide) id orders_id (toStr [104, 58, 49]) goodAddr (someone [1]) (someone_fits (by decide)) [7, 7]
    (someoneFull [2]) (someoneFull_fits (by decide))
  refine ⟨d', ?_⟩
  rw [C127_client_partial (root := []) rfl]
  show (readIdentity myserver d').map _ = _
  rw [h1]
  rfl

/-- The line of the certificate 11. -/
example : b64cert ([11], []) = "servercert = Cw==".toList := by decide +kernel

end Verif.Export
