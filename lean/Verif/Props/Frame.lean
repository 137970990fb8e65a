import Verif.Proofs.Frame

/-! C13-C20, C24, C25: HTTP/2 frames without header blocks. -/

namespace Webparse
open Spec

/-! ## C13 -/

/-- C13: the header written is the RFC's nine bytes, and reading it back gives it and leaves what
follows.  A flag set is a byte whose bits are among the named ones (0x01, 0x04, 0x08, 0x20). -/
theorem C13_roundtrip (h : FrameHeader) (rest : Bytes) (hl : h.length < 2 ^ 24)
    (hk : h.kind ≠ .unregistered) (hf : h.flag &&& 0xD2 = 0) (hi : h.id < 2 ^ 31) :
    FrameHeader.parse (h.encode ++ rest) = .ok (h, rest) :=
  header_parse_encode h rest hl hk hf hi

theorem C13_encode_wire (h : FrameHeader) :
    h.encode = [byteAt h.length 2, byteAt h.length 1, byteAt h.length 0, h.kind.encode, h.flag,
      byteAt h.id 3, byteAt h.id 2, byteAt h.id 1, byteAt h.id 0] := by
  simp [FrameHeader.encode, beBytes3, beBytes4, u32Bytes]

example : FrameHeader.parse ((FrameHeader.encode ⟨70000, .headers, 0x2D, 2 ^ 31 - 1⟩) ++ [1, 2])
    = .ok (⟨70000, .headers, 0x2D, 2 ^ 31 - 1⟩, [1, 2]) := by
  decide +kernel

/-! ## C14 -/

/-- C14: fewer than nine bytes, and only that, is `Short`. -/
theorem C14_short (buf : Bytes) : FrameHeader.parse buf = .err .short ↔ buf.length < 9 := by
  constructor
  · intro h
    refine Nat.lt_of_not_le fun hlt => ?_
    match buf, hlt with
    | b0 :: b1 :: b2 :: b3 :: b4 :: b5 :: b6 :: b7 :: b8 :: rest, _ =>
      rw [header_parse_nine] at h
      unfold flagNew at h
      split at h <;> simp [Res.bind] at h
    | [], h | [_], h | [_, _], h | [_, _, _], h | [_, _, _, _], h | [_, _, _, _, _], h
    | [_, _, _, _, _, _], h | [_, _, _, _, _, _, _], h | [_, _, _, _, _, _, _, _], h =>
      simp at h
  · intro h
    unfold FrameHeader.parse
    rw [if_pos h]

/-- C14: what nine bytes parse to: the 24-bit length, the kind, the flags and the low 31 bits of
the stream id; the following bytes are left alone and do not matter. -/
theorem C14_exact (b0 b1 b2 b3 b4 b5 b6 b7 b8 : UInt8) (rest : Bytes) :
    FrameHeader.parse ([b0, b1, b2, b3, b4, b5, b6, b7, b8] ++ rest) =
      if b4 &&& 0xD2 = 0 then
        .ok (⟨b0.toNat * 65536 + b1.toNat * 256 + b2.toNat, Kind.ofByte b3, b4, b5.toNat % 128 * 16777216 + b6.toNat * 65536 + b7.toNat * 256 + b8.toNat⟩, rest)
      else .err .badFlag := by
  have e1 : beNat [b0, b1, b2] = b0.toNat * 65536 + b1.toNat * 256 + b2.toNat := by
    simp [beNat]; omega
  have e2 : beNat [b5, b6, b7, b8] % 2 ^ 31
      = b5.toNat % 128 * 16777216 + b6.toNat * 65536 + b7.toNat * 256 + b8.toNat := by
    have h5 := b5.toNat_lt
    have h6 := b6.toNat_lt
    have h7 := b7.toNat_lt
    have h8 := b8.toNat_lt
    simp [beNat]
    omega
  rw [← e1, ← e2]
  have := header_parse_nine b0 b1 b2 b3 b4 b5 b6 b7 b8 rest
  simp only [List.cons_append, List.nil_append]
  rw [this]
  unfold flagNew
  have hm : ~~~flagMask = 0xD2 := by decide
  rw [hm]
  split <;> rfl

/-- C14: so a parsed length is below 2^24 and a parsed id below 2^31. -/
theorem C14_ranges (buf rest : Bytes) (h : FrameHeader) (hp : FrameHeader.parse buf = .ok (h, rest)) :
    h.length < 2 ^ 24 ∧ h.id < 2 ^ 31 ∧ buf = buf.take 9 ++ rest := by
  have hlen : ¬ buf.length < 9 := by
    intro hlt
    rw [(C14_short buf).mpr hlt] at hp
    simp at hp
  match buf, hlen, hp with
  | b0 :: b1 :: b2 :: b3 :: b4 :: b5 :: b6 :: b7 :: b8 :: tl, _, hp =>
    have hx := C14_exact b0 b1 b2 b3 b4 b5 b6 b7 b8 tl
    simp only [List.cons_append, List.nil_append] at hx
    rw [hx] at hp
    split at hp
    · simp only [Res.ok.injEq, Prod.mk.injEq] at hp
      obtain ⟨rfl, rfl⟩ := hp
      have h0 := b0.toNat_lt
      have h1 := b1.toNat_lt
      have h2 := b2.toNat_lt
      have h6 := b6.toNat_lt
      have h7 := b7.toNat_lt
      have h8 := b8.toNat_lt
      refine ⟨by simp only; omega, by simp only; omega, by simp⟩
    · simp at hp
  | [], h, _ | [_], h, _ | [_, _], h, _ | [_, _, _], h, _ | [_, _, _, _], h, _ | [_, _, _, _, _], h, _
  | [_, _, _, _, _, _], h, _ | [_, _, _, _, _, _, _], h, _ | [_, _, _, _, _, _, _, _], h, _ =>
    simp at h

/-- C14: the kinds are numbered as in RFC 9113, everything from 10 on is unregistered. -/
theorem C14_kinds (b : UInt8) :
    (b.toNat < 10 → (Kind.ofByte b).encode = b) ∧ (Kind.ofByte b = .unregistered ↔ 10 ≤ b.toNat) := by
  revert b
  decide +kernel

/-- C14, the remaining claim: unknown flags are ignored, so nine bytes always parse. -/
def C14_flags_statement : Prop :=
  ∀ buf : Bytes, 9 ≤ buf.length → ∃ h rest, FrameHeader.parse buf = .ok (h, rest)

/-- C14 is false in this point: a PING with flag 0x02 set is an error. -/
theorem C14_flags_violated : ¬ C14_flags_statement := by
  intro h
  obtain ⟨x, rest, hx⟩ := h [0, 0, 8, 6, 2, 0, 0, 0, 0] (by simp)
  have : FrameHeader.parse [0, 0, 8, 6, 2, 0, 0, 0, 0] = .err .badFlag := by decide +kernel
  rw [this] at hx
  simp at hx

/-! ## C15 -/

/-- C15: PING. -/
theorem C15_ping (p : Ping) (h : p.payload.length = 8) (rest : Bytes) (t : HeaderIndex) (m : Nat) :
    p.encode.1 = wireFrame 6 (if p.ack then 1 else 0) 0 p.payload ∧ p.encode.2 = p.encode.1.length ∧
    readFrame t m (p.encode.1 ++ rest) = some (.ok (.ping p, t, rest)) := by
  refine ⟨encode_wire .ping _ 0 p.payload, by simp [Ping.encode], ?_⟩
  have hf : (if p.ack then (1 : UInt8) else 0) &&& ~~~flagMask = 0 := by cases p.ack <;> decide
  have := readFrame_encode .ping (if p.ack then 1 else 0) 0 p.payload rest t m (by omega) (by decide) hf (by decide)
  cases p with
  | mk ack payload =>
    simp only [Ping.encode, Ping.head, List.append_assoc] at h this ⊢
    rw [this]
    unfold Frame.parse
    rw [trimPadding_unpadded _ _ _ _ _ ((by decide : ∀ a : Bool, flagIsPadded (if a = true then 1 else 0) = false) ack)]
    cases ack <;> simp [Ping.parse, wrapFrame, withRest, flagIsEndStream, h]

/-- C15: GOAWAY. -/
theorem C15_goAway (g : GoAway) (h : ControlFrameOk (.goAway g)) (rest : Bytes) (t : HeaderIndex) (m : Nat) :
    g.encode.1 = wireFrame 7 0 0 (u32Bytes g.lastStreamId ++ u32Bytes g.errorCode ++ g.debugData) ∧
    g.encode.2 = g.encode.1.length ∧
    readFrame t m (g.encode.1 ++ rest) = some (.ok (.goAway g, t, rest)) := by
  obtain ⟨h1, h2, h3⟩ := h
  have hlen : (u32Bytes g.lastStreamId ++ u32Bytes g.errorCode ++ g.debugData).length
      = 8 + g.debugData.length := by simp; omega
  have e : g.encode.1 = FrameHeader.encode ⟨(u32Bytes g.lastStreamId ++ u32Bytes g.errorCode ++ g.debugData).length, .goAway, 0, 0⟩ ++
      (u32Bytes g.lastStreamId ++ u32Bytes g.errorCode ++ g.debugData) := by
    rw [hlen]
    simp [GoAway.encode, GoAway.head, beBytes4]
  refine ⟨by rw [e]; exact encode_wire .goAway 0 0 _, by rw [e]; simp [GoAway.encode]; omega, ?_⟩
  rw [e, List.append_assoc, readFrame_encode .goAway 0 0 _ rest t m (by omega) (by decide) (by decide)
    (by decide)]
  have hp : GoAway.parse (u32Bytes g.lastStreamId ++ u32Bytes g.errorCode ++ g.debugData) = .ok g := by
    unfold GoAway.parse
    rw [if_neg (by omega), List.append_assoc, readU31_u32 _ _ h1]
    simp only
    rw [List.take_left' (u32Bytes_length _), List.drop_left' (u32Bytes_length _), beNat_u32Bytes h2]
  simp [Frame.parse, trimPadding, flagIsPadded, withRest, wrapFrame]
  rw [← List.append_assoc, hp]

/-- C15: WINDOW_UPDATE. -/
theorem C15_windowUpdate (w : WindowUpdate) (h : ControlFrameOk (.windowUpdate w)) (rest : Bytes)
    (t : HeaderIndex) (m : Nat) :
    w.encode.1 = wireFrame 8 0 w.streamId (u32Bytes w.sizeIncrement) ∧
    w.encode.2 = w.encode.1.length ∧
    readFrame t m (w.encode.1 ++ rest) = some (.ok (.windowUpdate w, t, rest)) := by
  obtain ⟨h1, h2, h3⟩ := h
  have e : w.encode.1 = FrameHeader.encode ⟨(u32Bytes w.sizeIncrement).length, .windowUpdate, 0, w.streamId⟩ ++ u32Bytes w.sizeIncrement := by
    simp [WindowUpdate.encode, WindowUpdate.head, beBytes4]
  refine ⟨by rw [e]; exact encode_wire .windowUpdate 0 _ _, by rw [e]; simp [WindowUpdate.encode], ?_⟩
  rw [e, List.append_assoc, readFrame_encode .windowUpdate 0 _ _ rest t m (by simp) (by decide)
    (by decide) h1]
  unfold Frame.parse
  rw [trimPadding_unpadded _ _ _ _ _ (by decide)]
  simp only [withRest, wrapFrame, WindowUpdate.parse]
  rw [beNat_u32Bytes (by omega)]
  simp only [Nat.mod_eq_of_lt h3]
  rw [if_neg (by simp), if_neg (by omega)]

/-- C15: RST_STREAM. -/
theorem C15_reset (r : Reset) (h : ControlFrameOk (.reset r)) (rest : Bytes)
    (t : HeaderIndex) (m : Nat) :
    r.encode.1 = wireFrame 3 0 r.streamId (u32Bytes r.errorCode) ∧
    r.encode.2 = r.encode.1.length ∧
    readFrame t m (r.encode.1 ++ rest) = some (.ok (.reset r, t, rest)) := by
  obtain ⟨h1, h2⟩ := h
  have e : r.encode.1 = FrameHeader.encode ⟨(u32Bytes r.errorCode).length, .reset, 0, r.streamId⟩ ++ u32Bytes r.errorCode := by
    simp [Reset.encode, Reset.head, beBytes4]
  refine ⟨by rw [e]; exact encode_wire .reset 0 _ _, by rw [e]; simp [Reset.encode], ?_⟩
  rw [e, List.append_assoc, readFrame_encode .reset 0 _ _ rest t m (by simp) (by decide)
    (by decide) h1]
  unfold Frame.parse
  rw [trimPadding_unpadded _ _ _ _ _ (by decide)]
  simp only [withRest, wrapFrame, Reset.parse]
  rw [beNat_u32Bytes h2]
  simp

example : ControlFrameOk (.goAway { lastStreamId := 5, errorCode := 2 ^ 32 - 1, debugData := [1, 2, 3] }) ∧
    ControlFrameOk (.windowUpdate { streamId := 0, sizeIncrement := 2 ^ 31 - 1 }) ∧
    ControlFrameOk (.reset { streamId := 7, errorCode := 8 }) ∧
    ControlFrameOk (.ping { ack := true, payload := [1, 2, 3, 4, 5, 6, 7, 8] }) := by
  simp [ControlFrameOk]

/-! ## C16 -/

/-- C16, full claim. -/
def C16_statement : Prop :=
  ∀ (p : Priority), p.streamId < 2 ^ 31 → p.dependency.dependencyId < 2 ^ 31 →
    p.dependency.dependencyId ≠ p.streamId → ∀ rest t m,
      readFrame t m (p.encode.1 ++ rest) = some (.ok (.priority p, t, rest))

/-- C16 is false: the length written is 0, so the reader finds an empty payload. -/
theorem C16_violated : ¬ C16_statement := by
  intro h
  have := h { streamId := 3, dependency := { dependencyId := 1, weight := 15, isExclusive := false } }
    (by decide) (by decide) (by decide) [] {} 0
  revert this
  decide +kernel

/-- C16, what goes wrong for every priority frame: whatever follows, the frame is read as empty and
rejected. -/
theorem C16_never_readable (p : Priority) (hi : p.streamId < 2 ^ 31) (rest : Bytes) (t : HeaderIndex)
    (m : Nat) : readFrame t m (p.encode.1 ++ rest) = some (.err .invalidPayloadLength) := by
  have e : p.encode.1 ++ rest = FrameHeader.encode ⟨([] : Bytes).length, .priority, 0, p.streamId⟩ ++ ([] ++ (p.dependency.encode.1 ++ rest)) := by
    simp [Priority.encode]
  rw [e, readFrame_encode .priority 0 p.streamId [] _ t m (by simp) (by decide) (by decide) hi]
  simp [Frame.parse, trimPadding, flagIsPadded, withRest, wrapFrame, Priority.parse,
    StreamDependency.load]

/-- C16, partial: apart from the announced length the frame is right for non-exclusive
dependencies: header and payload are those of the RFC and the payload parses back.
Missing: the length (0 instead of 5) and the exclusive flag (never written). -/
theorem C16_payload_partial (p : Priority) (hd : p.dependency.dependencyId < 2 ^ 31)
    (hne : p.dependency.dependencyId ≠ p.streamId) (hx : p.dependency.isExclusive = false)
    (head : FrameHeader) (hid : head.id = p.streamId) :
    p.encode.1 = FrameHeader.encode ⟨0, .priority, 0, p.streamId⟩ ++
      (u32Bytes p.dependency.dependencyId ++ [p.dependency.weight]) ∧
    p.encode.2 = p.encode.1.length ∧
    Priority.parse head (u32Bytes p.dependency.dependencyId ++ [p.dependency.weight]) = .ok p := by
  refine ⟨by simp [Priority.encode, StreamDependency.encode, beBytes4],
    by simp [Priority.encode, StreamDependency.encode], ?_⟩
  unfold Priority.parse StreamDependency.load
  rw [if_neg (by simp), List.take_left' (u32Bytes_length _), List.drop_left' (u32Bytes_length _),
    beNat_u32Bytes (by omega)]
  simp only [Nat.mod_eq_of_lt hd]
  cases p with
  | mk s d =>
    cases d
    simp_all

/-- C16: the receiving side is right: from five payload bytes it takes the 31-bit dependency, the
exclusive bit and the weight, and rejects a dependency on itself. -/
theorem C16_parse_exact (head : FrameHeader) (b0 b1 b2 b3 w : UInt8) (rest : Bytes) :
    Priority.parse head ([b0, b1, b2, b3, w] ++ rest) =
      let dep := b0.toNat % 128 * 16777216 + b1.toNat * 65536 + b2.toNat * 256 + b3.toNat
      if dep = head.id then .err .invalidDependencyId
      else .ok { streamId := head.id, dependency :=
        { dependencyId := dep, weight := w, isExclusive := decide (128 ≤ b0.toNat) } } := by
  have h0 := b0.toNat_lt
  have h1 := b1.toNat_lt
  have h2 := b2.toNat_lt
  have h3 := b3.toNat_lt
  have e : beNat [b0, b1, b2, b3] % 2 ^ 31
      = b0.toNat % 128 * 16777216 + b1.toNat * 65536 + b2.toNat * 256 + b3.toNat := by
    simp [beNat]; omega
  have ex : (beNat [b0, b1, b2, b3] - beNat [b0, b1, b2, b3] % 2 ^ 31 != 0) = decide (128 ≤ b0.toNat) := by
    rw [e]
    by_cases hb : 128 ≤ b0.toNat
    · rw [decide_eq_true hb]
      simp [beNat]
      omega
    · rw [decide_eq_false hb]
      simp [beNat]
      omega
  unfold Priority.parse StreamDependency.load
  rw [if_neg (by simp)]
  simp only [List.cons_append, List.nil_append, List.take_succ_cons, List.take_zero,
    List.drop_succ_cons, List.drop_zero, List.headD_cons, Res.bind_ok]
  rw [e] at ex
  rw [e, ex]

/-! ## C17 -/

/-- C17: SETTINGS round-trip, including the ACK. -/
theorem C17_roundtrip (s : Settings) (h : LegalSettings s) (rest : Bytes) (t : HeaderIndex) (m : Nat) :
    (∃ payload, s.encode.1 = wireFrame 4 s.flags 0 payload) ∧ s.encode.2 = s.encode.1.length ∧
    readFrame t m (s.encode.1 ++ rest) = some (.ok (.settings s, t, rest)) := by
  have e : s.encode.1 = FrameHeader.encode ⟨(s.forEach.flatMap Setting.encode).length, .settings, s.flags, 0⟩ ++ s.forEach.flatMap Setting.encode := by
    rw [settings_payload_length]; rfl
  refine ⟨⟨s.forEach.flatMap Setting.encode, by rw [e]; exact encode_wire .settings _ _ _⟩,
    settings_encode_size s, ?_⟩
  have hlen := payloadLen_le s
  rcases h with rfl | ⟨hf, h1, h2, h3, h4, h5, h6, h7⟩
  · rw [e, List.append_assoc, readFrame_encode .settings _ _ _ rest t m
      (by rw [settings_payload_length]; omega) (by decide) (by decide) (by decide)]
    simp [Frame.parse, trimPadding, flagIsPadded, withRest, wrapFrame, Settings.parse, flagIsEndStream,
      Settings.forEach, Settings.ack]
  · rw [e, List.append_assoc, readFrame_encode .settings _ _ _ rest t m
      (by rw [settings_payload_length]; omega) (by decide) (by rw [hf]; decide) (by decide)]
    have hp : Settings.parseSetting (s.forEach.flatMap Setting.encode) = .ok s := by
      unfold Settings.parseSetting
      have hl := settings_payload_length s
      unfold Settings.payloadLen at hl
      rw [if_neg (by omega)]
      have : (s.forEach.flatMap Setting.encode).length / 6 = s.forEach.length := by omega
      rw [this, parseLoop_list]
      · exact applyAll_forEach s hf h2 h4 h5 h7
      · intro x hx
        simp only [Settings.forEach, List.mem_append, Option.mem_toList, Option.map_eq_some_iff] at hx
        rcases hx with (((((⟨v, hv, rfl⟩ | ⟨v, hv, rfl⟩) | ⟨v, hv, rfl⟩) | ⟨v, hv, rfl⟩) |
          ⟨v, hv, rfl⟩) | ⟨v, hv, rfl⟩) | ⟨v, hv, rfl⟩
        · exact h1 v hv
        · have := h2 v hv; simp only [Setting.val]; omega
        · exact h3 v hv
        · have := h4 v hv; simp only [Setting.val]; omega
        · have := h5 v hv; simp only [Setting.val]; omega
        · exact h6 v hv
        · have := h7 v hv; simp only [Setting.val]; omega
    simp [Frame.parse, trimPadding, flagIsPadded, withRest, wrapFrame, Settings.parse, flagIsEndStream,
      hf, hp]

example : LegalSettings ⟨0, some 4096, some 0, none, some 65535, some 16384, none, none⟩ := by
  refine Or.inr ⟨rfl, ?_, ?_, ?_, ?_, ?_, ?_, ?_⟩ <;> intro v hv <;> simp_all <;> omega

/-! ## C18 -/

/-- C18: exactly the payloads that are a whole number of legal entries are accepted; for each known
parameter the last value counts, and unknown parameters are ignored. -/
theorem C18_parse_iff (head : FrameHeader) (hid : head.id = 0) (hack : head.flag = 0) (payload : Bytes)
    (s : Settings) :
    Settings.parse head payload = .ok s ↔
      payload.length % 6 = 0 ∧ (∀ e ∈ settingEntries payload, LegalSetting e) ∧
      s.flags = 0 ∧ s.headerTableSize = lastValue 1 (settingEntries payload) ∧
      s.enablePush = lastValue 2 (settingEntries payload) ∧
      s.maxConcurrentStreams = lastValue 3 (settingEntries payload) ∧
      s.initialWindowSize = lastValue 4 (settingEntries payload) ∧
      s.maxFrameSize = lastValue 5 (settingEntries payload) ∧
      s.maxHeaderListSize = lastValue 6 (settingEntries payload) ∧
      s.enableConnectProtocol = lastValue 8 (settingEntries payload) := by
  unfold Settings.parse
  rw [if_neg (by simp [hid]), hack, if_neg (by decide)]
  unfold Settings.parseSetting
  by_cases h6 : payload.length % 6 = 0
  · rw [if_neg (by simp [h6]), parseLoop_entries _ _ _ (by omega) s]
    obtain ⟨fl, a, b, c, d, e, f, g⟩ := s
    simp [h6]
  · rw [if_pos h6]
    simp [h6]

/-- C18: whatever it is given, an accepted SETTINGS frame belongs to stream 0, and an
acknowledgement has no payload and no parameters. -/
theorem C18_stream_and_ack (head : FrameHeader) (payload : Bytes) (s : Settings)
    (h : Settings.parse head payload = .ok s) :
    head.id = 0 ∧ (head.flag &&& 1 = 1 → payload = [] ∧ s = { flags := 1 }) := by
  unfold Settings.parse at h
  split at h
  · simp at h
  · rename_i hid
    refine ⟨by omega, fun hack => ?_⟩
    rw [if_pos (by simp [flagIsEndStream, hack])] at h
    split at h
    · simp at h
    · rename_i hp
      simp only [Res.ok.injEq] at h
      exact ⟨by simpa using hp, h.symm⟩

/-- C18: no payload makes the parser panic. -/
theorem C18_no_panic (head : FrameHeader) (payload : Bytes) : Settings.parse head payload ≠ .panic := by
  have ha : ∀ (s : Settings) o, s.apply o ≠ .panic := by
    intro s o
    cases o with
    | none => simp [Settings.apply]
    | some x => cases x <;> simp only [Settings.apply] <;> (try split) <;> simp
  have hl : ∀ n (s : Settings) buf, Settings.parseLoop n s buf ≠ .panic := by
    intro n
    induction n with
    | zero => intro s buf; simp [Settings.parseLoop]
    | succ n ih =>
      intro s buf
      simp only [Settings.parseLoop]
      cases h : s.apply (Setting.fromId (beNat (buf.take 2)) (beNat ((buf.drop 2).take 4))) with
      | ok s' => simpa using ih s' _
      | err e => simp
      | panic => exact absurd h (ha _ _)
  unfold Settings.parse Settings.parseSetting
  split
  · simp
  · split
    · split <;> simp
    · split
      · simp
      · exact hl _ _ _

/-- Non-vacuity: two entries for the initial window, one unknown; and an illegal one. -/
example : Settings.parse ⟨18, .settings, 0, 0⟩ ([0, 4, 0, 0, 0, 1] ++ [0, 99, 1, 1, 1, 1] ++ [0, 4, 0, 0, 1, 0])
    = .ok { initialWindowSize := some 256 } := by decide +kernel
example : Settings.parse ⟨6, .settings, 0, 0⟩ [0, 2, 0, 0, 0, 2] = .err .invalidSettingValue := by
  decide +kernel

/-! ## C19 -/

/-- C19: for every body and every frame size limit of at least one byte, the loop ends and writes
DATA frames of the stream whose payloads make up the body in order, none over the limit, all but the
last with END_STREAM cleared and the last with the given flags; the size returned is the number of
bytes written. -/
theorem C19_split (d : DataFrame) (m : Nat) (hm : 1 ≤ m) :
    ∃ (parts : List Bytes) (out : Bytes),
      d.encodeRun (d.data.length + 1) m = some (out, out.length) ∧
      out = wireFrames (dataFrames d.streamId (d.flags &&& 0xFE) d.flags parts) ∧
      parts.flatten = d.data ∧ parts ≠ [] ∧ (∀ p ∈ parts, p.length ≤ m) ∧
      (∀ p ∈ parts.dropLast, p.length = m) := by
  obtain ⟨id, data, flags⟩ := d
  simp only
  have key : ∀ (n : Nat) (data : Bytes) fuel, data.length ≤ n → data.length < fuel →
      ∃ (parts : List Bytes) (out : Bytes),
      DataFrame.encodeRun fuel m ⟨id, data, flags⟩ = some (out, out.length) ∧
      out = wireFrames (dataFrames id (flags &&& 0xFE) flags parts) ∧
      parts.flatten = data ∧ parts ≠ [] ∧ (∀ p ∈ parts, p.length ≤ m) ∧
      (∀ p ∈ parts.dropLast, p.length = m) := by
    intro n
    induction n with
    | zero =>
      intro data fuel hn hf
      have : data = [] := List.length_eq_zero_iff.mp (by omega)
      subst this
      obtain ⟨fuel, rfl⟩ : ∃ k, fuel = k + 1 := ⟨fuel - 1, by simp at hf; omega⟩
      refine ⟨[[]], (dataHead 0 flags id).encode ++ [], ?_, ?_, by simp, by simp, by simp, by simp⟩
      · rw [encodeRun_succ, if_neg (by simp)]
        simp
      · simp only [dataFrames, wireFrames, List.flatMap_cons, List.flatMap_nil, List.append_nil]
        exact encode_wire .data flags id []
    | succ n ih =>
      intro data fuel hn hf
      obtain ⟨fuel, rfl⟩ : ∃ k, fuel = k + 1 := ⟨fuel - 1, by omega⟩
      rw [encodeRun_succ]
      simp only
      by_cases hlt : min data.length m < data.length
      · have hmin : min data.length m = m := by omega
        rw [if_pos hlt, hmin]
        obtain ⟨parts, out, h1, h2, h3, h4, h5, h6⟩ := ih (data.drop m) fuel (by simp; omega) (by simp; omega)
        rw [h1]
        have htk : (data.take m).length = m := by simp; omega
        refine ⟨data.take m :: parts, (dataHead m (flagUnsetEndStream flags) id).encode ++ data.take m ++ out, ?_, ?_, ?_, by simp, ?_, ?_⟩
        · simp only [List.length_append, FrameHeader.encode_length, htk]
        · obtain ⟨p, ps, rfl⟩ := List.exists_cons_of_ne_nil h4
          simp only [dataFrames, wireFrames, List.flatMap_cons] at h2 ⊢
          rw [h2]
          congr 1
          have := encode_wire .data (flags &&& 0xFE) id (data.take m)
          rw [htk] at this
          have hfl : flagUnsetEndStream flags = flags &&& 0xFE := by
            exact (by decide +kernel : ∀ f : UInt8, flagUnsetEndStream f = f &&& 0xFE) flags
          rw [hfl]
          exact this
        · simp [h3]
        · intro p hp
          rcases List.mem_cons.mp hp with rfl | hp
          · omega
          · exact h5 p hp
        · intro p hp
          rw [List.dropLast_cons_of_ne_nil h4] at hp
          rcases List.mem_cons.mp hp with rfl | hp
          · omega
          · exact h6 p hp
      · have hmin : min data.length m = data.length := by omega
        rw [if_neg hlt, hmin]
        refine ⟨[data], (dataHead data.length flags id).encode ++ data, ?_, ?_, by simp, by simp, ?_, by simp⟩
        · simp only [List.length_append, FrameHeader.encode_length]
        · simp only [dataFrames, wireFrames, List.flatMap_cons, List.flatMap_nil, List.append_nil]
          exact encode_wire .data flags id data
        · intro p hp
          simp only [List.mem_singleton] at hp
          subst hp
          omega
  exact key data.length data _ (Nat.le_refl _) (by omega)

/-- C19, and what the reader makes of it: each of those frames is read back as a DATA frame of that
stream with that part of the body and those flags, whatever follows. -/
theorem C19_part_reads_back (id : Nat) (flags : UInt8) (part rest : Bytes) (t : HeaderIndex) (m : Nat)
    (hid : 1 ≤ id ∧ id < 2 ^ 31) (hf : flags = 0 ∨ flags = 1) (hl : part.length < 2 ^ 24) :
    readFrame t m (wireFrame 0 flags id part ++ rest) =
      some (.ok (.data { streamId := id, data := part, flags }, t, rest)) := by
  have e : wireFrame 0 flags id part = FrameHeader.encode ⟨part.length, .data, flags, id⟩ ++ part :=
    (encode_wire .data flags id part).symm
  have hfl : flags &&& ~~~flagMask = 0 := by rcases hf with rfl | rfl <;> decide
  rw [e, List.append_assoc, readFrame_encode .data flags id part rest t m hl (by decide) hfl hid.2]
  unfold Frame.parse
  rw [trimPadding_unpadded _ _ _ _ _ (by rcases hf with rfl | rfl <;> decide)]
  simp only [DataFrame.new, wrapFrame, withRest]
  rw [if_neg (by omega)]

/-- C19: so the whole output is read back as those DATA frames and nothing else. -/
theorem C19_reads_back (d : DataFrame) (m : Nat) (hm : 1 ≤ m) (hm2 : m < 2 ^ 24)
    (hid : 1 ≤ d.streamId ∧ d.streamId < 2 ^ 31) (hf : d.flags = 0 ∨ d.flags = 1)
    (t : HeaderIndex) (maxList : Nat) :
    ∃ (fs : List Frame) (parts : List Bytes) (out : Bytes),
      d.encodeRun (d.data.length + 1) m = some (out, out.length) ∧
      readFrames maxList fs.length t out = some (.ok fs) ∧
      fs = (dataFrames d.streamId 0 d.flags parts).map (fun f => .data ⟨f.2.2.1, f.2.2.2, f.2.1⟩) ∧
      parts.flatten = d.data ∧ (∀ p ∈ parts, p.length ≤ m) := by
  obtain ⟨parts, out, h1, h2, h3, h4, h5, h6⟩ := C19_split d m hm
  have hfe : d.flags &&& 0xFE = 0 := by rcases hf with h | h <;> rw [h] <;> decide
  rw [hfe] at h2
  refine ⟨_, parts, out, h1, ?_, rfl, h3, h5⟩
  subst h2
  clear h1 h3 h4 h6
  induction parts with
  | nil => rfl
  | cons p ps ih =>
    have step : ∀ (fl : UInt8) (rest : Bytes) (n : Nat) (fs : List Frame), fl = 0 ∨ fl = 1 →
        readFrames maxList n t rest = some (.ok fs) →
        readFrames maxList (n + 1) t (wireFrame 0 fl d.streamId p ++ rest)
          = some (.ok (.data ⟨d.streamId, p, fl⟩ :: fs)) := by
      intro fl rest n fs hfl hrest
      have := C19_part_reads_back d.streamId fl p rest t maxList hid hfl
        (by have := h5 p (by simp); omega)
      obtain ⟨x, xs, hx⟩ : ∃ x xs, wireFrame 0 fl d.streamId p ++ rest = x :: xs := by
        unfold wireFrame; exact ⟨_, _, rfl⟩
      rw [hx] at this ⊢
      simp only [readFrames, this, hrest]
    cases ps with
    | nil =>
      simp only [dataFrames, wireFrames, List.flatMap_cons, List.flatMap_nil, List.map_cons,
        List.map_nil, List.length_cons, List.length_nil]
      exact step d.flags [] 0 [] hf rfl
    | cons q qs =>
      have ih' := ih (fun x hx => h5 x (List.mem_cons_of_mem _ hx))
      simp only [dataFrames, wireFrames, List.flatMap_cons, List.map_cons, List.length_cons]
      exact step 0 _ _ _ (Or.inl rfl) ih'

/-- C19: with a limit of zero and a non-empty body the loop never ends. -/
theorem C19_zero_limit_never_ends (d : DataFrame) (h : d.data ≠ []) (fuel : Nat) :
    d.encodeRun fuel 0 = none := by
  induction fuel with
  | zero => rfl
  | succ fuel ih =>
    have hpos : 0 < d.data.length := List.length_pos_iff.mpr h
    rw [encodeRun_succ, if_pos (by simpa using hpos)]
    have : ({ d with data := d.data.drop (min d.data.length 0) } : DataFrame) = d := by
      cases d; simp
    rw [this, ih]

example : (DataFrame.encodeRun 8 3 ⟨5, [1, 2, 3, 4, 5, 6, 7], 1⟩) =
    some (wireFrames [(0, 0, 5, [1, 2, 3]), (0, 0, 5, [4, 5, 6]), (0, 1, 5, [7])], 34) := by
  decide +kernel

/-! ## C20 -/

/-- A padded payload: pad length, application data, padding. -/
def paddedPayload (app padding : Bytes) : Bytes := UInt8.ofNat padding.length :: (app ++ padding)

/-- C20, full claim: of a padded DATA frame the reader returns the application data only. -/
def C20_statement : Prop :=
  ∀ (id : Nat) (app padding : Bytes) (rest : Bytes) (t : HeaderIndex) (m : Nat), 1 ≤ id → id < 2 ^ 31 →
    padding.length < 256 → (paddedPayload app padding).length < 2 ^ 24 →
    ∃ f, readFrame t m (wireFrame 0 8 id (paddedPayload app padding) ++ rest) =
      some (.ok (.data f, t, rest)) ∧ f.data = app

/-- C20, what happens for every padded DATA frame: the padding is left in the data. -/
theorem C20_padding_kept_partial (id : Nat) (app padding rest : Bytes) (t : HeaderIndex) (m : Nat)
    (hid : 1 ≤ id ∧ id < 2 ^ 31) (hp : padding.length < 256)
    (hl : (paddedPayload app padding).length < 2 ^ 24) :
    readFrame t m (wireFrame 0 8 id (paddedPayload app padding) ++ rest) =
      some (.ok (.data { streamId := id, data := app ++ padding, flags := 8 }, t, rest)) := by
  have e : wireFrame 0 8 id (paddedPayload app padding) =
      FrameHeader.encode ⟨(paddedPayload app padding).length, .data, 8, id⟩ ++ paddedPayload app padding :=
    (encode_wire .data 8 id _).symm
  rw [e, List.append_assoc, readFrame_encode .data 8 id _ rest t m hl (by decide) (by decide) hid.2]
  unfold Frame.parse trimPadding paddedPayload
  simp only
  rw [if_pos (by decide)]
  have hpl : (UInt8.ofNat padding.length).toNat = padding.length := by
    simp [UInt8.toNat_ofNat']; omega
  rw [if_neg (by rw [hpl]; simp; omega)]
  simp only [DataFrame.new, wrapFrame, withRest]
  rw [if_neg (by omega)]

/-- C20 is false: two bytes of padding end up in the body. -/
theorem C20_violated : ¬ C20_statement := by
  intro h
  obtain ⟨f, hf, hd⟩ := h 1 [7] [0, 0] [] {} 0 (by decide) (by decide) (by decide) (by decide)
  rw [C20_padding_kept_partial 1 [7] [0, 0] [] {} 0 (by decide) (by decide) (by decide)] at hf
  simp only [Option.some.injEq, Res.ok.injEq, Prod.mk.injEq, Frame.data.injEq] at hf
  obtain ⟨rfl, _⟩ := hf
  simp at hd

/-- C20, second part: a pad length larger than the payload is rejected, for every kind of frame. -/
theorem C20_pad_too_long (kind : Kind) (flag : UInt8) (id : Nat) (padLength : UInt8) (body rest : Bytes)
    (t : HeaderIndex) (m : Nat) (hk : kind ≠ .unregistered) (hf : flag &&& 0xD2 = 0) (hp : flag &&& 8 = 8)
    (hid : id < 2 ^ 31) (hlong : body.length + 1 < padLength.toNat) :
    readFrame t m (wireFrame kind.encode flag id (padLength :: body) ++ rest) =
      some (.err .tooMuchPadding) := by
  have := padLength.toNat_lt
  rw [← encode_wire, List.append_assoc, readFrame_encode kind flag id _ rest t m (by simp; omega) hk hf hid]
  unfold Frame.parse trimPadding
  rw [if_pos (by simp [flagIsPadded, hp])]
  simp only [List.length_cons]
  rw [if_pos (by omega)]
  rfl

/-- C20, the boundary: RFC 9113 also forbids a pad length equal to the payload length; this code
accepts it. -/
theorem C20_boundary_violated :
    ∃ f, readFrame {} 0 (wireFrame 0 8 1 [3, 0, 0]) = some (.ok (f, {}, [])) := by
  refine ⟨.data ⟨1, [0, 0], 8⟩, by decide +kernel⟩

/-! ## C24 -/

/-- C24: the identifiers handed out are `id, id+2, id+4, …`: distinct, increasing and of one
parity; when the next would not fit 32 bits the program panics instead of repeating one. -/
theorem C24_ids (n id : Nat) (hid : id < 2 ^ 32) :
    takeIds n id =
      if id + 2 * n < 2 ^ 32 then .ok ((List.range n).map fun i => id + 2 * i, id + 2 * n) else .panic := by
  induction n generalizing id with
  | zero => simp [takeIds, hid]
  | succ n ih =>
    unfold takeIds nextId
    by_cases h1 : id + 2 < 2 ^ 32
    · rw [if_pos h1]
      simp only [Res.bind_ok]
      rw [ih (id + 2) h1]
      have e : id + 2 + 2 * n = id + 2 * (n + 1) := by omega
      rw [e]
      by_cases h2 : id + 2 * (n + 1) < 2 ^ 32
      · rw [if_pos h2, if_pos h2]
        simp only [Res.bind_ok, List.range_succ_eq_map, List.map_cons, List.map_map]
        congr 2
        · simp
          intro a _
          omega
      · rw [if_neg h2, if_neg h2]
        rfl
    · rw [if_neg h1, if_neg (by omega)]
      rfl

theorem C24_distinct (n id : Nat) (xs : List Nat) (last : Nat) (hid : id < 2 ^ 32)
    (h : takeIds n id = .ok (xs, last)) :
    xs.length = n ∧ xs.Pairwise (· < ·) ∧ ∀ x ∈ xs, x % 2 = id % 2 ∧ id ≤ x ∧ x < last := by
  rw [C24_ids n id hid] at h
  split at h
  · simp only [Res.ok.injEq, Prod.mk.injEq] at h
    obtain ⟨rfl, rfl⟩ := h
    refine ⟨by simp, ?_, ?_⟩
    · rw [List.pairwise_map]
      exact List.pairwise_lt_range.imp (by omega)
    · intro x hx
      simp only [List.mem_map, List.mem_range] at hx
      obtain ⟨i, hi, rfl⟩ := hx
      omega
  · simp at h

example : takeIds 3 1 = .ok ([1, 3, 5], 7) := by decide +kernel
example : takeIds 2 (2 ^ 32 - 3) = .panic := by decide +kernel

/-! ## C25 -/

/-- One control frame: written in full, and read back whatever follows. -/
theorem C25_one (f : Frame) (h : ControlFrameOk f) (maxFrame : Nat) (te : HeaderIndex) :
    ∃ bytes, f.encode maxFrame te = some (.ok (bytes, bytes.length, te)) ∧ 9 ≤ bytes.length ∧
      ∀ rest td m, readFrame td m (bytes ++ rest) = some (.ok (f, td, rest)) := by
  cases f with
  | ping p =>
    have := fun rest t m => C15_ping p h rest t m
    refine ⟨p.encode.1, ?_, ?_, fun rest td m => (this rest td m).2.2⟩
    · simp only [Frame.encode]; rw [(this [] {} 0).2.1]
    · simp [Ping.encode]
  | goAway g =>
    have := fun rest t m => C15_goAway g h rest t m
    refine ⟨g.encode.1, ?_, ?_, fun rest td m => (this rest td m).2.2⟩
    · simp only [Frame.encode]; rw [(this [] {} 0).2.1]
    · simp [GoAway.encode]
  | windowUpdate w =>
    have := fun rest t m => C15_windowUpdate w h rest t m
    refine ⟨w.encode.1, ?_, ?_, fun rest td m => (this rest td m).2.2⟩
    · simp only [Frame.encode]; rw [(this [] {} 0).2.1]
    · simp [WindowUpdate.encode]
  | reset r =>
    have := fun rest t m => C15_reset r h rest t m
    refine ⟨r.encode.1, ?_, ?_, fun rest td m => (this rest td m).2.2⟩
    · simp only [Frame.encode]; rw [(this [] {} 0).2.1]
    · simp [Reset.encode]
  | settings s =>
    have := fun rest t m => C17_roundtrip s h rest t m
    refine ⟨s.encode.1, ?_, ?_, fun rest td m => (this rest td m).2.2⟩
    · simp only [Frame.encode]; rw [(this [] {} 0).2.1]
    · simp [Settings.encode]
  | data _ => exact h.elim
  | headers _ => exact h.elim
  | priority _ => exact h.elim
  | pushPromise _ => exact h.elim

/-- C25: control frames written one after the other are read back as the same frames. -/
theorem C25_stream (fs : List Frame) (h : ∀ f ∈ fs, ControlFrameOk f) (maxFrame m : Nat)
    (te td : HeaderIndex) :
    ∃ bytes, writeFrames maxFrame te fs = some (.ok (bytes, te)) ∧
      readFrames m fs.length td bytes = some (.ok fs) := by
  induction fs with
  | nil => exact ⟨[], rfl, rfl⟩
  | cons f fs ih =>
    obtain ⟨bytes, hb, hr⟩ := ih (fun g hg => h g (by simp [hg]))
    obtain ⟨b, h1, h2, h3⟩ := C25_one f (h f (by simp)) maxFrame te
    refine ⟨b ++ bytes, ?_, ?_⟩
    · simp only [writeFrames, h1, hb]
    · have hcons : ∃ x xs, b ++ bytes = x :: xs :=
        List.exists_cons_of_ne_nil (by intro hc; have := congrArg List.length hc; rw [List.length_append] at this; simp only [List.length_nil] at this; omega)
      obtain ⟨x, xs, hx⟩ := hcons
      have h3' := h3 bytes td m
      rw [hx] at h3' ⊢
      simp only [List.length_cons, readFrames, h3', hr]

example : ∀ f ∈ [Frame.settings { maxFrameSize := some 20000 }, .settings Settings.ack,
    .ping ⟨false, [0, 0, 0, 0, 0, 0, 0, 1]⟩, .windowUpdate ⟨0, 1⟩, .reset ⟨9, 3⟩, .goAway ⟨9, 0, []⟩],
    ControlFrameOk f := by
  simp [ControlFrameOk, LegalSettings, OptAll, Settings.ack]

end Webparse
