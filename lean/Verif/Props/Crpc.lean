import Verif.Model.Crpc
import Verif.Props.Xdr

/-! # C25 and C26: compression and message kinds -/

namespace Verif.Crpc

open Verif Verif.Xdr

/-- A lossless compressor; nothing else about zlib is used. -/
def Zlib.Lossless (z : Zlib) : Prop := ∀ b, z.inflate (z.deflate b) = some b

/-- The handler that is meant for each kind of payload; `other` is no kind. -/
def Payload.handler : Payload → Option Call
  | .privateMessage v => some (.handlePm v)
  | .groupInvite v => some (.handleGroupInvite v)
  | .groupJoin v => some (.handleGroupJoin v)
  | .groupList v => some (.handleGroupList v)
  | .groupUpdate v => some (.handleGroupUpdate v)
  | .groupMessage v => some (.handleGroupMessage v)
  | .groupPart v => some (.handleGroupPart v)
  | .groupKill v => some (.handleGroupKill v)
  | .groupKick v => some (.handleGroupKick v)
  | .chunkNew v => some (.handleChunkNew v)
  | .chunk v => some (.handleChunk v)
  | .janitorMessage v => some (.handleJanitorMessage v)
  | .other => none

/-- The value fits the wire format (numbers in range, lengths below 2^31). -/
def Payload.Sized : Payload → Prop
  | .privateMessage v => Fits 0 Xdr.privateMessage v
  | .groupInvite v => Fits 0 Xdr.groupInvite v
  | .groupJoin v => Fits 0 Xdr.groupJoin v
  | .groupList v => Fits 0 Xdr.groupList v
  | .groupUpdate v => Fits 0 Xdr.groupUpdate v
  | .groupMessage v => Fits 0 Xdr.groupMessage v
  | .groupPart v => Fits 0 Xdr.groupPart v
  | .groupKill v => Fits 0 Xdr.groupPart v
  | .groupKick v => Fits 0 Xdr.groupKick v
  | .chunkNew v => Fits 0 Xdr.chunkNew v
  | .chunk v => Fits 0 Xdr.chunk v
  | .janitorMessage v => Fits 0 Xdr.janitorMessage v
  | .other => True

/-- **C25**: whatever compression is chosen, the receiver's reader yields exactly the bytes that were
compressed, and the transmitted payload is not larger than they are. -/
theorem C25_transparent (z : Zlib) (hz : z.Lossless) (p : Payload) (raw : Bytes) (hr : marshal p = some raw) :
    ∃ body comp, compress z p = some (body, comp) ∧ reader z comp body = some (some raw) ∧
      body.length ≤ raw.length := by
  simp only [compress, hr]
  split
  · exact ⟨raw, compNone, rfl, by simp [reader], Nat.le_refl _⟩
  · refine ⟨z.deflate raw, compZlib, rfl, ?_, by omega⟩
    rw [reader, if_neg (by decide), if_pos rfl, hz]

theorem fits_header {now : Int} (hn : -2 ^ 63 ≤ now ∧ now < 2 ^ 63) {cmd comp : Bytes}
    (h1 : cmd.length ≤ 20) (h2 : comp.length ≤ 20) : Fits 0 Xdr.crpc (now, cmd, comp) := by
  simp only [Xdr.crpc, struct, Fits]
  exact ⟨hn, ⟨by omega, by simp⟩, ⟨by omega, by simp⟩⟩

theorem dec_header {now : Int} (hn : -2 ^ 63 ≤ now ∧ now < 2 ^ 63) {cmd comp : Bytes}
    (h1 : cmd.length ≤ 20) (h2 : comp.length ≤ 20) (body : Bytes) :
    dec 0 Xdr.crpc (enc Xdr.crpc (now, cmd, comp) ++ body) = .ok (now, cmd, comp) body :=
  C23_roundtrip 0 Xdr.crpc (now, cmd, comp) (fits_header hn h1 h2) body

theorem compress_comp_length (z : Zlib) (p : Payload) (body comp : Bytes)
    (h : compress z p = some (body, comp)) : comp.length ≤ 20 := by
  unfold compress at h
  split at h
  · simp at h
  · simp only at h
    split at h <;> · simp only [Option.some.injEq, Prod.mk.injEq] at h; rw [← h.2]; decide

theorem command_length (p : Payload) (cmd : Bytes) (h : command p = some cmd) : cmd.length ≤ 20 := by
  cases p <;> simp only [command, Option.some.injEq, reduceCtorEq] at h <;> rw [← h] <;> decide

theorem decodeCall_enc {t : Ty} {v : Val t} (h : Fits 0 t v) (f : Val t → Call) :
    decodeCall (some (enc t v)) t f = .ok (f v) := by
  have := C23_roundtrip 0 t v h []
  rw [List.append_nil] at this
  simp only [decodeCall, this]

theorem dispatch_own (p : Payload) (hs : p.Sized) (raw cmd : Bytes) (c : Call) (hr : marshal p = some raw)
    (hc : command p = some cmd) (hh : p.handler = some c) : dispatch cmd (some raw) = .ok c := by
  cases p <;> simp only [marshal, command, Payload.handler, Option.some.injEq, reduceCtorEq] at hr hc hh <;>
    subst hr hc hh <;> simp only [Payload.Sized] at hs <;> unfold dispatch <;>
    (repeat' first | rw [if_pos rfl] | rw [if_neg (by decide)]) <;> exact decodeCall_enc hs _

/-- **C26**: every kind of payload a client can send is decoded by the receiver as the same value and
passed to the handler meant for that kind, and the header carries the sender's time. -/
theorem C26_agree (z : Zlib) (hz : z.Lossless) (now : Int) (hn : -2 ^ 63 ≤ now ∧ now < 2 ^ 63)
    (p : Payload) (hp : p ≠ .other) (hs : p.Sized) :
    ∃ msg c, crpc z now p = some msg ∧ p.handler = some c ∧ receive z msg = .ok c ∧
      ∃ cmd comp rest, dec 0 Xdr.crpc msg = .ok (now, cmd, comp) rest := by
  obtain ⟨raw, hr⟩ : ∃ raw, marshal p = some raw := by cases p <;> simp [marshal] at hp ⊢
  obtain ⟨cmd, hc⟩ : ∃ cmd, command p = some cmd := by cases p <;> simp [command] at hp ⊢
  obtain ⟨c, hh⟩ : ∃ c, p.handler = some c := by cases p <;> simp [Payload.handler] at hp ⊢
  obtain ⟨body, comp, hb, hrd, _⟩ := C25_transparent z hz p raw hr
  have hd := dec_header hn (command_length p cmd hc) (compress_comp_length z p body comp hb) body
  refine ⟨enc Xdr.crpc (now, cmd, comp) ++ body, c, by simp only [crpc, hb, hc], hh, ?_,
    cmd, comp, body, hd⟩
  simp only [receive, hd, hrd]
  exact dispatch_own p hs raw cmd c hr hc hh

/-- **C26**: the strings of different kinds differ, so that a message can not be taken for one of
another kind. -/
theorem C26_commands_differ (p q : Payload) (cmd : Bytes) (hp : command p = some cmd)
    (hq : command q = some cmd) (c d : Call) (hc : p.handler = some c) (hd : q.handler = some d) :
    c.ctorIdx = d.ctorIdx := by
  cases p <;> simp only [command, Payload.handler, Option.some.injEq, reduceCtorEq] at hp hc <;>
    subst hp hc <;>
    cases q <;> simp only [command, Payload.handler, Option.some.injEq, reduceCtorEq] at hq hd <;>
    subst hd <;> first | rfl | exact absurd hq (by decide)

/-- The twelve command strings that clients send. -/
def commands : List Bytes :=
  [cmdPrivateMessage, cmdGroupInvite, cmdGroupJoin, cmdGroupPart, cmdGroupKill, cmdGroupKick,
   cmdGroupUpdate, cmdGroupList, cmdGroupMessage, cmdChunkNew, cmdChunk, cmdJanitorMessage]

/-- **C26**: a message with any other command string is refused with an error; no handler is called and
nothing else happens. -/
theorem C26_others_refused (z : Zlib) (msg rest : Bytes) (ts : Int) (cmd comp : Bytes)
    (hd : dec 0 Xdr.crpc msg = .ok (ts, cmd, comp) rest) (hc : cmd ∉ commands) :
    receive z msg = .err .invalidCommand ∨ receive z msg = .err .invalidCompression := by
  simp only [commands, List.mem_cons, List.not_mem_nil, or_false, not_or] at hc
  simp only [receive, hd]
  split
  · exact Or.inr rfl
  · left
    unfold dispatch
    simp [hc]

/-- **C25**: a message that names any compression other than none and zlib is refused with an error. -/
theorem C25_unknown_refused (z : Zlib) (msg rest : Bytes) (ts : Int) (cmd comp : Bytes)
    (hd : dec 0 Xdr.crpc msg = .ok (ts, cmd, comp) rest)
    (h1 : comp ≠ compNone) (h2 : comp ≠ compZlib) :
    receive z msg = .err .invalidCompression := by
  simp [receive, hd, reader, h1, h2]

/-- **C26**, conversely: a handler runs only for the command string that senders use for its kind. -/
theorem C26_handler_needs_command (z : Zlib) (msg : Bytes) (c : Call) (h : receive z msg = .ok c) :
    ∃ ts cmd comp rest p, dec 0 Xdr.crpc msg = .ok (ts, cmd, comp) rest ∧ p.handler = some c ∧
      command p = some cmd := by
  unfold receive at h
  split at h
  case h_2 => cases h
  case h_1 ts cmd comp rest hd =>
    split at h
    · cases h
    case h_2 rd hrd =>
      have key : ∀ {t : Ty} {f : Val t → Call}, decodeCall rd t f = .ok c → ∃ v, c = f v := by
        intro t f hk
        unfold decodeCall at hk
        split at hk
        · cases hk
        · split at hk
          case h_1 v _ _ => exact ⟨v, by injection hk with hk; exact hk.symm⟩
          · cases hk
      unfold dispatch at h
      refine ⟨ts, cmd, comp, rest, ?_⟩
      by_cases h1 : cmd = cmdPrivateMessage
      · rw [if_pos h1] at h; obtain ⟨v, rfl⟩ := key h; exact ⟨.privateMessage v, hd, rfl, by rw [h1]; rfl⟩
      rw [if_neg h1] at h
      by_cases h2 : cmd = cmdGroupInvite
      · rw [if_pos h2] at h; obtain ⟨v, rfl⟩ := key h; exact ⟨.groupInvite v, hd, rfl, by rw [h2]; rfl⟩
      rw [if_neg h2] at h
      by_cases h3 : cmd = cmdGroupJoin
      · rw [if_pos h3] at h; obtain ⟨v, rfl⟩ := key h; exact ⟨.groupJoin v, hd, rfl, by rw [h3]; rfl⟩
      rw [if_neg h3] at h
      by_cases h4 : cmd = cmdGroupKill
      · rw [if_pos h4] at h; obtain ⟨v, rfl⟩ := key h; exact ⟨.groupKill v, hd, rfl, by rw [h4]; rfl⟩
      rw [if_neg h4] at h
      by_cases h5 : cmd = cmdGroupKick
      · rw [if_pos h5] at h; obtain ⟨v, rfl⟩ := key h; exact ⟨.groupKick v, hd, rfl, by rw [h5]; rfl⟩
      rw [if_neg h5] at h
      by_cases h6 : cmd = cmdGroupPart
      · rw [if_pos h6] at h; obtain ⟨v, rfl⟩ := key h; exact ⟨.groupPart v, hd, rfl, by rw [h6]; rfl⟩
      rw [if_neg h6] at h
      by_cases h7 : cmd = cmdGroupList
      · rw [if_pos h7] at h; obtain ⟨v, rfl⟩ := key h; exact ⟨.groupList v, hd, rfl, by rw [h7]; rfl⟩
      rw [if_neg h7] at h
      by_cases h8 : cmd = cmdGroupUpdate
      · rw [if_pos h8] at h; obtain ⟨v, rfl⟩ := key h; exact ⟨.groupUpdate v, hd, rfl, by rw [h8]; rfl⟩
      rw [if_neg h8] at h
      by_cases h9 : cmd = cmdGroupMessage
      · rw [if_pos h9] at h; obtain ⟨v, rfl⟩ := key h; exact ⟨.groupMessage v, hd, rfl, by rw [h9]; rfl⟩
      rw [if_neg h9] at h
      by_cases h10 : cmd = cmdChunkNew
      · rw [if_pos h10] at h; obtain ⟨v, rfl⟩ := key h; exact ⟨.chunkNew v, hd, rfl, by rw [h10]; rfl⟩
      rw [if_neg h10] at h
      by_cases h11 : cmd = cmdChunk
      · rw [if_pos h11] at h; obtain ⟨v, rfl⟩ := key h; exact ⟨.chunk v, hd, rfl, by rw [h11]; rfl⟩
      rw [if_neg h11] at h
      by_cases h12 : cmd = cmdJanitorMessage
      · rw [if_pos h12] at h; obtain ⟨v, rfl⟩ := key h; exact ⟨.janitorMessage v, hd, rfl, by rw [h12]; rfl⟩
      rw [if_neg h12] at h
      cases h

/-- **C26**: a Go value of any other type is not sent. -/
theorem C26_other_not_sent (z : Zlib) (now : Int) : crpc z now .other = none := rfl

/-! Non-trivial instances. The toy compressor shortens runs of zeros to a marker and is lossless. -/

/-- A compressor that halves strings of zeros and marks everything else. -/
def toy : Zlib where
  deflate b := if b = List.replicate b.length 0 ∧ b.length < 256 then [1, UInt8.ofNat b.length] else 0 :: b
  inflate
    | [1, n] => some (List.replicate n.toNat 0)
    | 0 :: b => some b
    | _ => none

theorem toy_lossless : toy.Lossless := by
  intro b
  by_cases h : b = List.replicate b.length 0 ∧ b.length < 256
  · have e : toy.deflate b = [1, UInt8.ofNat b.length] := if_pos h
    rw [e]
    show some (List.replicate (UInt8.ofNat b.length).toNat 0) = some b
    have : (UInt8.ofNat b.length).toNat = b.length := by
      simp [UInt8.toNat_ofNat']; omega
    rw [this, ← h.1]
  · have e : toy.deflate b = 0 :: b := if_neg h
    rw [e]
    rfl

/-- A text message is not compressed by it, an empty one is. -/
example : compress toy (.privateMessage ([104, 105], (1 : Nat))) =
      some ([0, 0, 0, 2, 104, 105, 0, 0, 0, 0, 0, 1], compNone) ∧
    compress toy (.privateMessage ([], (0 : Nat))) = some ([1, 8], compZlib) := by decide

example : ∃ msg c, crpc toy 1500000000 (.groupKill ([103], [98, 121, 101])) = some msg ∧
    (Payload.groupKill ([103], [98, 121, 101])).handler = some c ∧ receive toy msg = .ok c :=
  let ⟨m, c, h1, h2, h3, _⟩ := C26_agree toy toy_lossless 1500000000 (by decide) (.groupKill ([103], [98, 121, 101]))
    (by simp) (by simp [Payload.Sized, Xdr.groupPart, struct, Fits])
  ⟨m, c, h1, h2, h3⟩

end Verif.Crpc
