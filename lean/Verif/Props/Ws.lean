import Verif.Proofs.Ws

/-! C26-C34: WebSocket. -/

namespace Webparse
open Spec

/-! ## C26 -/

/-- C26: the writer accepts exactly four-bit opcodes and short control frames. -/
theorem C26_writer_accepts (h : WsHeader) :
    (∃ out, wsWriteHeader h = .ok out) ↔ h.opcode < 16 ∧ (8 ≤ h.opcode → h.len < 126) := by
  constructor
  · rintro ⟨out, ho⟩
    unfold wsWriteHeader at ho
    split at ho
    · simp at ho
    · rename_i h1
      split at ho
      · simp at ho
      · rename_i h2
        refine ⟨?_, fun h8 => Nat.lt_of_not_le fun h3 => h2 ⟨h8, h3⟩⟩
        rw [UInt8.lt_iff_toNat_lt]
        rw [gt_iff_lt, UInt8.lt_iff_toNat_lt] at h1
        simp at h1 ⊢
        omega
  · rintro ⟨h1, h2⟩
    exact ⟨_, writeHeader_eq h h1 h2⟩

/-- C26: what it writes is the header of RFC 6455 5.2. -/
theorem C26_write_wire (h : WsHeader) (hf : h.flags &&& 0x0F = 0) (h1 : h.opcode < 16)
    (h2 : 8 ≤ h.opcode → h.len < 126) :
    wsWriteHeader h = .ok (wsWireHeader h.flags.toNat h.opcode.toNat h.mask h.len) :=
  writeHeader_wire h hf h1 h2

/-- C26: written headers are read back, whatever follows.  (`WsFrameFlags` only has bits of 0xF0.) -/
theorem C26_roundtrip (h : WsHeader) (out rest : Bytes) (hf : h.flags &&& 0x0F = 0) (hl : h.len < 2 ^ 64)
    (hc : 8 ≤ h.opcode → h.flags &&& 0x80 = 0x80) (hw : wsWriteHeader h = .ok out) :
    wsReadHeader (out ++ rest) = .ok (h, rest) := by
  obtain ⟨h1, h2⟩ := (C26_writer_accepts h).mp ⟨out, hw⟩
  rw [writeHeader_wire h hf h1 h2] at hw
  rw [← Res.ok.inj hw]
  exact read_write_header h ⟨hf, h1, hl, fun a => ⟨h2 a, hc a⟩⟩ rest

example : wsWriteHeader ⟨0x80, 2, some ⟨1, 2, 3, 4⟩, 70000⟩ =
    .ok [0x82, 0xFF, 0, 0, 0, 0, 0, 1, 0x11, 0x70, 1, 2, 3, 4] := by decide

/-! ## C27 -/

/-- C27: a header is read successfully iff the input starts with an RFC 6455 header that is legal
and uses the shortest length; the header and the rest of the input are those. -/
theorem C27_read_iff (buf rest : Bytes) (h : WsHeader) :
    wsReadHeader buf = .ok (h, rest) ↔
      WsHeaderOk h ∧ buf = wsWireHeader h.flags.toNat h.opcode.toNat h.mask h.len ++ rest := by
  constructor
  · exact readHeader_exact
  · rintro ⟨ok, rfl⟩
    exact read_write_header h ok rest

/-- C27: writing the header again gives the bytes consumed. -/
theorem C27_rewrite (buf rest : Bytes) (h : WsHeader) (hr : wsReadHeader buf = .ok (h, rest)) :
    ∃ out, wsWriteHeader h = .ok out ∧ buf = out ++ rest := by
  obtain ⟨ok, hb⟩ := readHeader_exact hr
  exact ⟨_, writeHeader_wire h ok.flags ok.opcode (fun a => (ok.control a).1), hb⟩

/-- C27: no input makes the reader panic. -/
theorem C27_no_panic (buf : Bytes) : wsReadHeader buf ≠ .panic := readHeader_total buf

/-- Neither a 16-bit length of 125 nor a fragmented ping is accepted; a length of 126 is. -/
example : wsReadHeader [0x82, 126, 0, 125] = .err .wsDataFrame ∧ wsReadHeader [0x09, 0] = .err .wsProtocol ∧
    wsReadHeader [0x82, 126, 0, 126, 9] = .ok (⟨0x80, 2, none, 126⟩, [9]) := by decide

/-! ## C28 -/

/-- C28: `mask_data` XORs octet `i` with octet `i mod 4` of the key. -/
theorem C28_mask_rfc (k : MaskKey) (data : Bytes) : maskData k data = masked k data := maskData_eq k data

/-- C28: masking twice restores the data. -/
theorem C28_involution (k : MaskKey) (data : Bytes) : maskData k (maskData k data) = data := by
  rw [maskData_eq, maskData_eq, masked_eq, masked_eq, maskFrom_involution]

/-- C28: masking keeps the length. -/
theorem C28_length (k : MaskKey) (data : Bytes) : (maskData k data).length = data.length := by
  rw [maskData_eq, masked_eq, maskFrom_length]

/-- C28: data put through the masking writer in any pieces comes out as the data masked at once. -/
theorem C28_piecewise (k : MaskKey) (pieces : List Bytes) :
    maskerPutAll k 0 pieces = .ok (maskData k pieces.flatten) := by
  rw [maskerPutAll_eq k pieces 0 (by decide), maskData_eq, masked_eq]

example : maskerPutAll ⟨1, 2, 3, 4⟩ 0 [[10], [], [11, 12], [13, 14, 15]] = .ok [11, 9, 15, 9, 15, 13] := by
  decide

/-! ## C29 -/

/-- C29: a data frame that may be sent is read back, masked or not, whatever follows. -/
theorem C29_roundtrip (f : WsFrame) (ok : WsFrameOk f) (key : Option MaskKey) (rest : Bytes) :
    ∃ out n, f.toFrameable.writeTo key = .ok (out, n) ∧ wsRead (out ++ rest) = .ok (f, rest) := by
  obtain ⟨out, h1, _, h3⟩ := read_written f.toFrameable f.opcode key rest rfl (by simp [WsFrame.toFrameable])
    ok.len ok.control
  refine ⟨out, 0, h1, ?_⟩
  simpa [WsFrame.toFrameable] using h3

/-- C29: a strict prefix of a frame is an error. -/
theorem C29_truncated (buf rest p : Bytes) (f : WsFrame) (h : wsRead buf = .ok (f, rest))
    (hp : p <+: buf) (hl : p.length + rest.length < buf.length) : ∃ e, wsRead p = .err e := by
  cases hr : wsRead p with
  | err e => exact ⟨e, rfl⟩
  | panic =>
    unfold wsRead at hr
    cases hh : wsReadHeader p with
    | panic => exact absurd hh (readHeader_total p)
    | err e => rw [hh] at hr; simp at hr
    | ok r =>
      obtain ⟨hd, r1⟩ := r
      rw [hh] at hr
      simp only [Res.bind_ok] at hr
      split at hr
      · simp at hr
      · unfold wsReadBody at hr
        obtain ⟨ok, _⟩ := readHeader_exact hh
        obtain ⟨o, ho, _⟩ := opcode_new_some _ ok.opcode
        rw [ho] at hr
        simp at hr
  | ok r =>
    exfalso
    obtain ⟨g, r1⟩ := r
    have inv : ∀ b f r, wsRead b = .ok (f, r) → ∃ h r1, wsReadHeader b = .ok (h, r1) ∧
        h.len ≤ r1.length ∧ r = r1.drop h.len := by
      intro b f r hb
      unfold wsRead at hb
      rw [Res.bind_eq_ok] at hb
      obtain ⟨⟨hd, r1⟩, h1, hb⟩ := hb
      simp only at hb
      split at hb
      · simp at hb
      · rw [Res.bind_eq_ok] at hb
        obtain ⟨f', _, hb⟩ := hb
        simp only [Res.ok.injEq, Prod.mk.injEq] at hb
        exact ⟨hd, r1, h1, by omega, hb.2.symm⟩
    obtain ⟨h1, r1', a1, a2, a3⟩ := inv _ _ _ h
    obtain ⟨h2, r2', b1, b2, b3⟩ := inv _ _ _ hr
    obtain ⟨ok1, e1⟩ := readHeader_exact a1
    obtain ⟨ok2, e2⟩ := readHeader_exact b1
    obtain ⟨t, ht⟩ := hp
    have hb2 : wsReadHeader buf = .ok (h2, r2' ++ t) := by
      rw [← ht, e2, List.append_assoc]
      exact read_write_header h2 ok2 _
    rw [a1] at hb2
    simp only [Res.ok.injEq, Prod.mk.injEq] at hb2
    obtain ⟨rfl, rfl⟩ := hb2
    rw [a3, ← ht] at hl
    simp only [List.length_append, List.length_drop] at hl a2
    omega

/-- C29: reading consumes exactly one frame: what is read can be written again as the bytes consumed,
with the key found in the header. -/
theorem C29_read_exact (buf rest : Bytes) (f : WsFrame) (h : wsRead buf = .ok (f, rest)) :
    WsFrameOk f ∧ ∃ key out n, f.toFrameable.writeTo key = .ok (out, n) ∧ buf = out ++ rest := by
  unfold wsRead at h
  rw [Res.bind_eq_ok] at h
  obtain ⟨⟨hd, r1⟩, h1, h⟩ := h
  simp only at h
  split at h
  · simp at h
  rename_i hlen
  rw [Res.bind_eq_ok] at h
  obtain ⟨f', hb, h⟩ := h
  simp only [Res.ok.injEq, Prod.mk.injEq] at h
  obtain ⟨rfl, rfl⟩ := h
  obtain ⟨ok, e⟩ := readHeader_exact h1
  unfold wsReadBody at hb
  obtain ⟨o, ho, ho2⟩ := opcode_new_some _ ok.opcode
  rw [ho] at hb
  simp only [Res.ok.injEq] at hb
  subst hb
  have hl : (unmask hd.mask (r1.take hd.len)).length = hd.len := by
    have : (r1.take hd.len).length = hd.len := by simp; omega
    cases hd.mask with
    | none => exact this
    | some k => simp only [unmask, C28_length, this]
  have hflags : (if hd.flags &&& wsFin = wsFin then wsFin else 0) |||
      (if hd.flags &&& wsRsv1 = wsRsv1 then wsRsv1 else 0) |||
      (if hd.flags &&& wsRsv2 = wsRsv2 then wsRsv2 else 0) |||
      (if hd.flags &&& wsRsv3 = wsRsv3 then wsRsv3 else 0) = hd.flags :=
    (by decide +kernel : ∀ f : UInt8, f &&& 0x0F = 0 → (if f &&& wsFin = wsFin then wsFin else 0) |||
      (if f &&& wsRsv1 = wsRsv1 then wsRsv1 else 0) ||| (if f &&& wsRsv2 = wsRsv2 then wsRsv2 else 0) |||
      (if f &&& wsRsv3 = wsRsv3 then wsRsv3 else 0) = f) _ ok.flags
  refine ⟨⟨?_, ?_⟩, hd.mask, _, 0, writeTo_eq _ _ ?_ ?_, ?_⟩
  · simp only [hl]; exact ok.len
  · intro hc
    simp only [hl]
    have := ok.control (by rw [← ho2]; exact hc)
    exact ⟨this.1, decide_eq_true this.2⟩
  · simp only [WsFrame.toFrameable]; exact (opcode_new o).2
  · simp only [WsFrame.toFrameable, hl]
    intro hc
    rw [ho2] at hc
    exact (ok.control hc).1
  · rw [e]
    simp only [WsFrame.toFrameable, hl, Frameable.flags, decide_eq_true_eq, hflags, ho2,
      List.flatten_cons, List.flatten_nil, List.append_nil]
    rw [List.append_assoc]
    congr 1
    have hm : maskedOpt hd.mask (unmask hd.mask (r1.take hd.len)) = r1.take hd.len := by
      cases hd.mask with
      | none => rfl
      | some k => simp only [unmask, maskedOpt, ← C28_mask_rfc, C28_involution]
    rw [hm, List.take_append_drop]

example : WsFrameOk ⟨true, (false, true, false), .ping, [1, 2, 3]⟩ :=
  ⟨by decide, fun _ => by decide⟩

/-! ## C30 -/

/-- C30, full claim. -/
def C30_statement : Prop :=
  ∀ (f : WsFrame) (key : Option MaskKey) (out : Bytes) (n : Nat), f.toFrameable.writeTo key = .ok (out, n) →
    out.length = f.toFrameable.frameSize key.isSome ∧ n = out.length

/-- C30 is false: `write_to` always returns 0. -/
theorem C30_violated : ¬ C30_statement := by
  intro h
  have := h ⟨true, (false, false, false), .text, [65]⟩ none [0x81, 1, 65] 0 (by decide)
  simp at this

theorem C30_returns_zero (f : Frameable) (key : Option MaskKey) (out : Bytes) (n : Nat)
    (h : f.writeTo key = .ok (out, n)) : n = 0 := by
  unfold Frameable.writeTo at h
  rw [Res.bind_eq_ok] at h
  obtain ⟨head, _, h⟩ := h
  cases key with
  | none => simp at h; exact h.2.symm
  | some k =>
    simp only at h
    rw [Res.bind_eq_ok] at h
    obtain ⟨b, _, h⟩ := h
    simp at h
    exact h.2.symm

theorem wire_length (f o : Nat) (key : Option MaskKey) (len : Nat) :
    (wsWireHeader f o key len).length =
      1 + (if len ≤ 125 then 1 else if len ≤ 65535 then 3 else 9) + (if key.isSome then 4 else 0) := by
  unfold wsWireHeader
  simp only [List.length_append]
  congr 1
  · congr 1
    by_cases a : len ≤ 125
    · rw [if_pos (by omega), if_pos a]; rfl
    · rw [if_neg (by omega), if_neg a]
      by_cases b : len ≤ 65535
      · rw [if_pos (by omega), if_pos b]; rfl
      · rw [if_neg (by omega), if_neg b]; rfl
  · cases key <;> rfl

/-- C30, partial: whenever `write_to` succeeds it appends `frame_size` bytes, for anything whose size
is that of what it writes.  Missing: the number returned (C30_returns_zero). -/
theorem C30_bytes_written_partial (f : Frameable) (key : Option MaskKey) (out : Bytes) (n : Nat)
    (hs : f.pieces.flatten.length = f.size) (h : f.writeTo key = .ok (out, n)) :
    out.length = f.frameSize key.isSome := by
  have hw : ∃ head, wsWriteHeader ⟨f.flags, f.opcode, key, f.size⟩ = .ok head := by
    unfold Frameable.writeTo at h
    rw [Res.bind_eq_ok] at h
    obtain ⟨head, hh, _⟩ := h
    exact ⟨head, hh⟩
  obtain ⟨h1, h2⟩ := (C26_writer_accepts _).mp hw
  rw [writeTo_eq f key h1 h2] at h
  simp only [Res.ok.injEq, Prod.mk.injEq] at h
  obtain ⟨rfl, _⟩ := h
  rw [List.length_append, wire_length]
  have : (maskedOpt key f.pieces.flatten).length = f.size := by
    rw [← hs]
    cases key with
    | none => rfl
    | some k => simp only [maskedOpt, ← C28_mask_rfc, C28_length]
  rw [this]
  rfl

/-- C30: data frames, messages and owned messages write as many bytes as their size says. -/
theorem C30_sizes (f : WsFrame) (m : Message) (o : OwnedMessage) :
    f.toFrameable.pieces.flatten.length = f.toFrameable.size ∧
    m.toFrameable.pieces.flatten.length = m.toFrameable.size ∧
    o.toFrameable.pieces.flatten.length = o.toFrameable.size := by
  refine ⟨by simp [WsFrame.toFrameable], ?_, ?_⟩
  · unfold Message.toFrameable
    cases m.status <;> simp; omega
  · cases o with
    | close c => cases c <;> simp [OwnedMessage.toFrameable]; omega
    | _ => simp [OwnedMessage.toFrameable]

/-! ## C31 -/

/-- C31: with a limit exactly the frames of at most `limit` payload bytes are returned, and the
results are those of reading without a limit. -/
theorem C31_limit (limit : Nat) (buf rest : Bytes) (f : WsFrame) :
    wsReadLimit limit buf = .ok (f, rest) ↔ wsRead buf = .ok (f, rest) ∧ f.data.length ≤ limit := by
  unfold wsReadLimit wsRead
  cases hh : wsReadHeader buf with
  | panic => simp
  | err e => simp
  | ok r =>
    obtain ⟨hd, r1⟩ := r
    simp only [Res.bind_ok]
    by_cases hlen : r1.length < hd.len
    · rw [if_pos hlen]
      split <;> simp
    · rw [if_neg hlen]
      have hl : ∀ g, wsReadBody hd (r1.take hd.len) = .ok g → g.data.length = hd.len := by
        intro g hg
        unfold wsReadBody at hg
        split at hg
        · simp at hg
        · simp only [Res.ok.injEq] at hg
          subst hg
          have : (r1.take hd.len).length = hd.len := by simp; omega
          cases hd.mask with
          | none => exact this
          | some k => simp only [unmask, C28_length, this]
      constructor
      · intro h
        split at h
        · simp at h
        · rename_i hle
          refine ⟨h, ?_⟩
          rw [Res.bind_eq_ok] at h
          obtain ⟨g, hg, h⟩ := h
          simp only [Res.ok.injEq, Prod.mk.injEq] at h
          obtain ⟨rfl, _⟩ := h
          rw [hl g hg]; omega
      · rintro ⟨h, hle⟩
        have h' := h
        rw [Res.bind_eq_ok] at h
        obtain ⟨g, hg, h⟩ := h
        simp only [Res.ok.injEq, Prod.mk.injEq] at h
        obtain ⟨rfl, _⟩ := h
        rw [hl g hg] at hle
        rw [if_neg (by omega)]
        exact h'

/-- C31: a header that announces more than the limit is refused even if the payload is not there. -/
theorem C31_refused_early (limit : Nat) (h : WsHeader) (ok : WsHeaderOk h) (hl : limit < h.len) (rest : Bytes) :
    wsReadLimit limit (wsWireHeader h.flags.toNat h.opcode.toNat h.mask h.len ++ rest) = .err .io := by
  unfold wsReadLimit
  rw [read_write_header h ok]
  simp only [Res.bind_ok]
  rw [if_pos hl]

example : wsReadLimit 2 [0x82, 2, 7, 8, 9] = .ok (⟨true, (false, false, false), .binary, [7, 8]⟩, [9]) ∧
    wsReadLimit 1 [0x82, 2, 7, 8, 9] = .err .io := by decide

/-! ## C32 -/

theorem collect_continuations (ps : List (Bool × Bytes)) :
    collectFrames false ((fragments .continuation ps).map WsFrame.toFrameable) =
      .ok (ps.map (·.2)).flatten := by
  induction ps with
  | nil => rfl
  | cons p ps ih =>
    obtain ⟨fin, p⟩ := p
    simp only [fragments, List.map_cons, collectFrames, ih]
    simp [WsFrame.toFrameable]

theorem messageOf_payload (m : OwnedMessage) (ht : MsgTyped m) :
    messageOf (some (msgOpcode m)) (msgPayload m) = .ok m.toMessage := by
  cases m with
  | text s => simp [messageOf, msgOpcode, msgPayload, OwnedMessage.toMessage, show utf8Valid s = true from ht]
  | binary b => rfl
  | ping b => rfl
  | pong b => rfl
  | close c =>
    cases c with
    | none => rfl
    | some c =>
      obtain ⟨h1, h2⟩ := ht
      have hb : msgPayload (.close (some c)) = beBytes 2 c.status ++ c.reason := by
        simp only [msgPayload, beBytes, ofNat_mod]
        simp
      simp only [msgOpcode, messageOf, hb]
      rw [if_pos (by simp [beBytes]), tryGetBe_append 2 _ _ (by simp), beNat_beBytes_of_lt (by simpa using h2),
        List.drop_left' (by simp)]
      simp [h1, OwnedMessage.toMessage]

theorem ofMessage_toMessage (m : OwnedMessage) (ht : MsgTyped m) :
    OwnedMessage.ofMessage m.toMessage = m := by
  cases m with
  | text s => simp [OwnedMessage.ofMessage, OwnedMessage.toMessage, utf8Lossy_valid (show utf8Valid s = true from ht)]
  | close c =>
    cases c with
    | none => rfl
    | some c => simp [OwnedMessage.ofMessage, OwnedMessage.toMessage, utf8Lossy_valid ht.1]
  | _ => rfl

/-- C32: a message cut into any number of pieces, anywhere, is reassembled. -/
theorem C32_reassemble (m : OwnedMessage) (ht : MsgTyped m) (pieces : List (Bool × Bytes)) (hne : pieces ≠ [])
    (hp : (pieces.map (·.2)).flatten = msgPayload m) :
    OwnedMessage.fromFrames ((fragments (msgOpcode m) pieces).map WsFrame.toFrameable) = .ok m := by
  match pieces, hne with
  | (fin, p) :: ps, _ =>
    simp only [OwnedMessage.fromFrames, fragments, List.map_cons, Message.fromFrames, collectFrames,
      collect_continuations]
    simp only [List.map_cons, List.flatten_cons] at hp
    have : (WsFrame.toFrameable ⟨fin, (false, false, false), msgOpcode m, p⟩).opcode = (msgOpcode m).toByte := rfl
    simp only [WsFrame.toFrameable, Bool.true_eq_false, false_and, if_false, ne_eq, not_true_eq_false,
      Res.bind_ok, hp, (opcode_new (msgOpcode m)).1, messageOf_payload m ht, ofMessage_toMessage m ht]

/-- What `collect` accepts. -/
theorem collect_false_iff (fs : List WsFrame) (data : Bytes) :
    collectFrames false (fs.map WsFrame.toFrameable) = .ok data ↔
      (∀ f ∈ fs, f.opcode = .continuation ∧ f.reserved = (false, false, false)) ∧
      data = (fs.map (·.data)).flatten := by
  induction fs generalizing data with
  | nil => simp [collectFrames, eq_comm]
  | cons f fs ih =>
    simp only [List.map_cons, collectFrames, List.forall_mem_cons, List.flatten_cons]
    have ho : f.toFrameable.opcode = Opcode.continuation.toByte ↔ f.opcode = .continuation := by
      simp only [WsFrame.toFrameable]
      constructor
      · intro h
        have h1 := (opcode_new f.opcode).1
        rw [h] at h1
        have h2 := (opcode_new .continuation).1
        rw [h2] at h1
        exact (Option.some.inj h1).symm
      · intro h; rw [h]
    have hr : f.toFrameable.reserved = f.reserved := rfl
    split
    · rename_i h
      simp only [true_and] at h
      simp [mt ho.mpr h]
    · rename_i h
      simp only [true_and, ne_eq, Decidable.not_not] at h
      rw [hr]
      split
      · rename_i h2
        simp [h2]
      · rename_i h2
        simp only [ne_eq, Decidable.not_not] at h2
        rw [Res.bind_eq_ok]
        constructor
        · rintro ⟨d, hd, he⟩
          simp only [Res.ok.injEq] at he
          obtain ⟨i1, i2⟩ := (ih d).mp hd
          exact ⟨⟨⟨ho.mp h, h2⟩, i1⟩, by rw [← he, i2]; rfl⟩
        · rintro ⟨⟨_, i1⟩, i2⟩
          exact ⟨_, (ih _).mpr ⟨i1, rfl⟩, by rw [i2]; rfl⟩

/-- C32, exact: a sequence of data frames is accepted iff it is not empty, no frame has reserved bits,
all but the first are continuation frames, and opcode and payload of the whole are those of a message;
the result is that message. -/
theorem C32_accepts_iff (fs : List WsFrame) (m : OwnedMessage) :
    OwnedMessage.fromFrames (fs.map WsFrame.toFrameable) = .ok m ↔
      MsgTyped m ∧ ∃ f rest, fs = f :: rest ∧ f.reserved = (false, false, false) ∧
        (∀ g ∈ rest, g.opcode = .continuation ∧ g.reserved = (false, false, false)) ∧
        f.opcode = msgOpcode m ∧ (fs.map (·.data)).flatten = msgPayload m := by
  constructor
  · intro h
    match fs, h with
    | [], h => simp [OwnedMessage.fromFrames, Message.fromFrames] at h
    | f :: rest, h =>
      simp only [OwnedMessage.fromFrames, List.map_cons, Message.fromFrames] at h
      rw [Res.bind_eq_ok] at h
      obtain ⟨msg, h, hm⟩ := h
      rw [Res.bind_eq_ok] at h
      obtain ⟨data, hc, h⟩ := h
      simp only [Res.ok.injEq] at hm
      simp only [collectFrames, Bool.true_eq_false, false_and, if_false] at hc
      split at hc
      · simp at hc
      rename_i hres
      simp only [ne_eq, Decidable.not_not] at hres
      rw [Res.bind_eq_ok] at hc
      obtain ⟨d, hd, hc⟩ := hc
      simp only [Res.ok.injEq] at hc
      obtain ⟨i1, i2⟩ := (collect_false_iff rest d).mp hd
      have hdata : ((f :: rest).map (·.data)).flatten = data := by
        rw [← hc, i2]; rfl
      have hop : Opcode.new f.toFrameable.opcode = some f.opcode := (opcode_new f.opcode).1
      rw [hop] at h
      suffices key : MsgTyped m ∧ f.opcode = msgOpcode m ∧ data = msgPayload m by
        exact ⟨key.1, f, rest, rfl, hres, i1, key.2.1, by rw [hdata]; exact key.2.2⟩
      clear hdata hc hd
      generalize f.opcode = o at h
      unfold messageOf at h
      split at h
      · rename_i ho
        split at h
        · rename_i hu
          simp only [Res.ok.injEq] at h
          subst h; subst hm
          simp only [Option.some.injEq] at ho
          simp only [OwnedMessage.ofMessage, utf8Lossy_valid hu]
          exact ⟨hu, ho, rfl⟩
        · simp at h
      · rename_i ho
        simp only [Res.ok.injEq] at h
        subst h; subst hm
        simp only [Option.some.injEq] at ho
        exact ⟨trivial, ho, rfl⟩
      · rename_i ho
        simp only [Option.some.injEq] at ho
        split at h
        · rename_i hne
          rw [Res.bind_eq_ok] at h
          obtain ⟨⟨st, r⟩, hg, h⟩ := h
          simp only at h
          split at h
          · rename_i hu
            simp only [Res.ok.injEq] at h
            subst h; subst hm
            unfold tryGetBe at hg
            split at hg
            · simp at hg
            · rename_i hl
              simp only [Res.ok.injEq, Prod.mk.injEq] at hg
              obtain ⟨rfl, _⟩ := hg
              match data, hl with
              | a :: b :: tl, _ =>
                simp only [List.drop_succ_cons, List.drop_zero] at hu
                simp only [OwnedMessage.ofMessage, List.drop_succ_cons, List.drop_zero, utf8Lossy_valid hu,
                  List.take_succ_cons, List.take_zero]
                have hb := beNat_lt [a, b]
                refine ⟨⟨hu, by simpa using hb⟩, ho, ?_⟩
                have h2 := beBytes_beNat [a, b]
                simp only [List.length_cons, List.length_nil, beBytes] at h2
                simp only [msgPayload, ofNat_mod]
                have e1 := (List.cons.inj h2).1
                have e2 := (List.cons.inj (List.cons.inj h2).2).1
                simp only [Nat.zero_add, Nat.pow_one, Nat.pow_zero, Nat.div_one] at e1 e2
                rw [e1, e2]
              | [], hl => simp at hl
              | [_], hl => simp at hl
          · simp at h
        · rename_i hne
          simp only [ne_eq, Decidable.not_not] at hne
          simp only [Res.ok.injEq] at h
          subst h; subst hm
          exact ⟨trivial, ho, hne⟩
      · rename_i ho
        simp only [Res.ok.injEq] at h
        subst h; subst hm
        simp only [Option.some.injEq] at ho
        exact ⟨trivial, ho, rfl⟩
      · rename_i ho
        simp only [Res.ok.injEq] at h
        subst h; subst hm
        simp only [Option.some.injEq] at ho
        exact ⟨trivial, ho, rfl⟩
      · simp at h
  · rintro ⟨ht, f, rest, rfl, hres, hrest, ho, hd⟩
    simp only [OwnedMessage.fromFrames, List.map_cons, Message.fromFrames, collectFrames]
    have hc := (collect_false_iff rest _).mpr ⟨hrest, rfl⟩
    rw [hc]
    have hr : f.toFrameable.reserved = f.reserved := rfl
    have hop : Opcode.new f.toFrameable.opcode = some f.opcode := (opcode_new f.opcode).1
    have htk : f.toFrameable.taken = f.data := rfl
    simp only [List.map_cons, List.flatten_cons] at hd
    simp only [Bool.true_eq_false, false_and, if_false, hr, hres, ne_eq, not_true_eq_false, Res.bind_ok,
      hop, htk, hd, ho, messageOf_payload m ht, ofMessage_toMessage m ht]

example : MsgTyped (.close (some ⟨1001, asciiBytes "bye"⟩)) := by
  unfold MsgTyped; decide +kernel
example : OwnedMessage.fromFrames ((fragments .close [(false, [3]), (true, [233]), (true, [98, 121, 101])]).map
    WsFrame.toFrameable) = .ok (.close (some ⟨1001, asciiBytes "bye"⟩)) := by decide +kernel

/-! ## C33 -/

/-- C33: a message that may be sent is read back as a frame and then a message, whatever follows. -/
theorem C33_roundtrip (m : OwnedMessage) (ht : MsgTyped m) (hs : MsgSendable m) (key : Option MaskKey)
    (rest : Bytes) :
    ∃ out n f, m.toFrameable.writeTo key = .ok (out, n) ∧ wsRead (out ++ rest) = .ok (f, rest) ∧
      OwnedMessage.fromFrames [f.toFrameable] = .ok m := by
  have hpay : m.toFrameable.pieces.flatten = msgPayload m := by
    cases m with
    | close c =>
      cases c with
      | none => rfl
      | some c =>
        simp only [OwnedMessage.toFrameable, msgPayload, beBytes, ofNat_mod]
        simp
    | _ => simp [OwnedMessage.toFrameable, msgPayload]
  have hsz : m.toFrameable.pieces.flatten.length = m.toFrameable.size :=
    (C30_sizes ⟨true, (false, false, false), .text, []⟩ ⟨.text, none, []⟩ m).2.2
  have hop : m.toFrameable.opcode = (msgOpcode m).toByte ∧ m.toFrameable.isLast = true ∧
      m.toFrameable.reserved = (false, false, false) := by
    cases m with
    | close c => cases c <;> exact ⟨rfl, rfl, rfl⟩
    | _ => exact ⟨rfl, rfl, rfl⟩
  have hlen : m.toFrameable.size = (msgPayload m).length := by rw [← hsz, hpay]
  obtain ⟨out, h1, _, h3⟩ := read_written m.toFrameable (msgOpcode m) key rest hop.1 hsz
    (by rw [hlen]; exact hs.1) (fun hc => ⟨by rw [hlen]; exact hs.2 hc, hop.2.1⟩)
  rw [hpay, hop.2.1, hop.2.2] at h3
  refine ⟨out, 0, _, h1, h3, ?_⟩
  have := C32_reassemble m ht [(true, msgPayload m)] (by simp) (by simp)
  simpa [fragments] using this

/-- C33: so any number of messages written one after the other are read back. -/
theorem C33_stream (ms : List (OwnedMessage × Option MaskKey))
    (h : ∀ m ∈ ms, MsgTyped m.1 ∧ MsgSendable m.1) (rest : Bytes) :
    ∃ out, writeMessages ms = .ok out ∧ readMessages ms.length (out ++ rest) = .ok (ms.map (·.1), rest) := by
  induction ms with
  | nil => exact ⟨[], rfl, rfl⟩
  | cons m ms ih =>
    obtain ⟨out, h1, h2⟩ := ih (fun x hx => h x (by simp [hx]))
    obtain ⟨m, k⟩ := m
    obtain ⟨ht, hs⟩ := h (m, k) (by simp)
    obtain ⟨o, n, f, a1, a2, a3⟩ := C33_roundtrip m ht hs k (out ++ rest)
    refine ⟨o ++ out, ?_, ?_⟩
    · simp [writeMessages, a1, h1]
    · rw [List.append_assoc]
      simp only [List.length_cons, readMessages, a2, Res.bind_ok, a3, h2, List.map_cons]

/-- C33: a control message of more than 125 octets is refused by the writer. -/
theorem C33_long_control_refused (m : OwnedMessage) (hc : IsControl (msgOpcode m))
    (hl : 126 ≤ (msgPayload m).length) (key : Option MaskKey) : m.toFrameable.writeTo key = .err .wsDataFrame := by
  have key' : m.toFrameable.opcode = (msgOpcode m).toByte ∧ m.toFrameable.size = (msgPayload m).length := by
    cases m with
    | close c =>
      cases c with
      | none => exact ⟨rfl, rfl⟩
      | some c => exact ⟨rfl, by simp [OwnedMessage.toFrameable, msgPayload]⟩
    | _ => exact ⟨rfl, rfl⟩
  unfold Frameable.writeTo wsWriteHeader
  simp only [key'.1, key'.2]
  have h16 := (opcode_new (msgOpcode m)).2
  rw [if_neg (by
    rw [gt_iff_lt, UInt8.lt_iff_toNat_lt]; rw [UInt8.lt_iff_toNat_lt] at h16; simp at h16 ⊢; omega),
    if_pos ⟨hc, hl⟩]
  rfl

/-- C33: owned messages and messages convert into each other without loss. -/
theorem C33_owned_roundtrip (m : OwnedMessage) (ht : MsgTyped m) : OwnedMessage.ofMessage m.toMessage = m :=
  ofMessage_toMessage m ht

example : MsgSendable (.binary (List.replicate 100000 5)) := by
  unfold MsgSendable msgPayload
  rw [List.length_replicate]
  exact ⟨by decide, fun h => absurd h (by unfold IsControl; decide)⟩

/-! ## C34 -/

/-- C34: a number converted to a close code and back is the same (for every number, so for all 16-bit
ones). -/
theorem C34_code_roundtrip (n : Nat) : (CloseCode.ofNat n).toNat = n := by
  by_cases hm : n ∈ [0, 1000, 1001, 1002, 1003, 1005, 1006, 1007, 1008, 1009, 1010, 1011, 1012, 1013, 1015]
  · simp only [List.mem_cons, List.not_mem_nil, or_false] at hm
    rcases hm with rfl | rfl | rfl | rfl | rfl | rfl | rfl | rfl | rfl | rfl | rfl | rfl | rfl | rfl | rfl <;> rfl
  · simp only [List.mem_cons, List.not_mem_nil, or_false, not_or] at hm
    simp [CloseCode.ofNat, hm, CloseCode.toNat]

/-- C34: a close code converted to a number and back is the same, unless it is `Other` of the number
of a named code. -/
theorem C34_name_roundtrip (c : CloseCode) :
    CloseCode.ofNat c.toNat = c ↔
      ∀ n, c = .other n → n ∉ [0, 1000, 1001, 1002, 1003, 1005, 1006, 1007, 1008, 1009, 1010, 1011, 1012, 1013, 1015] := by
  cases c with
  | other n =>
    simp only [CloseCode.toNat, CloseCode.other.injEq, forall_eq']
    constructor
    · intro h hm
      simp only [List.mem_cons, List.not_mem_nil, or_false] at hm
      rcases hm with rfl | rfl | rfl | rfl | rfl | rfl | rfl | rfl | rfl | rfl | rfl | rfl | rfl | rfl | rfl <;>
        simp [CloseCode.ofNat] at h
    · intro h
      simp only [List.mem_cons, List.not_mem_nil, or_false, not_or] at h
      simp [CloseCode.ofNat, h]
  | _ => simp [CloseCode.toNat, CloseCode.ofNat]

/-- C34: the named codes are those of the registry, both ways. -/
theorem C34_registry (c : CloseCode) (hc : ∀ n, c ≠ .other n) (n : Nat) :
    ((c, n) ∈ closeRegistry ↔ c.toNat = n) ∧ ((c, n) ∈ closeRegistry ↔ CloseCode.ofNat n = c) := by
  have h1 : (c, n) ∈ closeRegistry ↔ c.toNat = n := by
    cases c with
    | other k => exact absurd rfl (hc k)
    | _ => simp [closeRegistry, CloseCode.toNat, eq_comm]
  refine ⟨h1, h1.trans ⟨?_, ?_⟩⟩
  · rintro rfl
    exact (C34_name_roundtrip c).mpr fun k hk => absurd hk (hc k)
  · rintro rfl
    exact C34_code_roundtrip n

end Webparse
