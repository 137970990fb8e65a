import Verif.Model.FrameAccess
import Verif.Proofs.Rfc9113

/-! C75, C76: which HTTP/2 frames are accepted and what they say about themselves. -/

namespace Webparse
open Spec

/-! ## C75 -/

/-- C75, the full claim: for every kind of frame without a header block, a frame is taken exactly if
RFC 9113 allows it, and says what RFC 9113 says it says. -/
def C75_statement : Prop :=
  ∀ (kind flags : UInt8) (id : Nat) (payload rest : Bytes) (t : HeaderIndex) (m : Nat) (f : Frame),
    BlocklessKind kind → payload.length < 2 ^ 24 → id < 2 ^ 31 →
    (readFrame t m (wireFrame kind flags id payload ++ rest) = some (.ok (f, t, rest)) ↔
      FrameMeans kind flags id payload f)

/-- C75, partial: exactly which frames the code takes, what it makes of them, and that nothing else is
touched.  Missing: this is not what RFC 9113 allows (see below). -/
theorem C75_taken_iff_partial (kind flags : UInt8) (id : Nat) (payload rest rest' : Bytes)
    (t t' : HeaderIndex) (m : Nat) (f : Frame)
    (hk : BlocklessKind kind) (hl : payload.length < 2 ^ 24) (hi : id < 2 ^ 31) :
    readFrame t m (wireFrame kind flags id payload ++ rest) = some (.ok (f, t', rest')) ↔
      t' = t ∧ rest' = rest ∧ FrameTaken kind flags id payload f := by
  rw [readFrame_wire _ _ _ _ _ _ _ hl hi]
  unfold FrameTaken KnownFlags
  by_cases hf : flags &&& 0xD2 = 0
  · rw [if_pos hf, withRest_ok, frameParse_iff _ _ _ _ _ _ _ _ hk]
    constructor
    · rintro ⟨h1, h2, h3⟩; exact ⟨h2, h1, hf, h3⟩
    · rintro ⟨h2, h1, -, h3⟩; exact ⟨h1, h2, h3⟩
  · rw [if_neg hf]
    simp [hf]

/-- Frames for which the two agree: no flag but END_STREAM/ACK, END_HEADERS and PRIORITY, and not one
of the frames whose stream or length the code does not check. -/
def Checked (kind flags : UInt8) (id : Nat) (payload : Bytes) : Prop :=
  flags &&& 0xDA = 0 ∧ (kind = 2 → id ≠ 0 ∧ payload.length ≤ 5) ∧ (kind = 3 → id ≠ 0) ∧ (kind = 7 → id = 0)

/-- C75, partial: with these exceptions the code takes exactly the frames RFC 9113 allows, with their
meaning.  Missing: the exceptions. -/
theorem C75_checked_partial (kind flags : UInt8) (id : Nat) (payload rest : Bytes) (t : HeaderIndex)
    (m : Nat) (f : Frame) (hk : BlocklessKind kind) (hl : payload.length < 2 ^ 24) (hi : id < 2 ^ 31)
    (hc : Checked kind flags id payload) :
    readFrame t m (wireFrame kind flags id payload ++ rest) = some (.ok (f, t, rest)) ↔
      FrameMeans kind flags id payload f := by
  obtain ⟨hf, hc2, hc3, hc7⟩ := hc
  have bits : flags &&& 0xD2 = 0 ∧ flags &&& 8 = 0 := by
    clear hc2 hc3 hc7; revert flags; decide +kernel
  rw [C75_taken_iff_partial _ _ _ _ _ _ _ _ _ _ hk hl hi]
  constructor
  · rintro ⟨-, -, -, body, hu, hb⟩
    have : body = payload := by
      cases hu with
      | plain _ _ => rfl
      | empty h => rfl
      | padded _ _ h _ => rw [bits.2] at h; exact absurd h (by decide)
    subst this
    cases hb with
    | data _ _ _ h0 => exact .data _ _ _ h0 bits.2
    | priority _ _ x dep w extra h1 h2 =>
      obtain ⟨h0, h5⟩ := hc2 rfl
      have : extra = [] := by
        apply List.eq_nil_of_length_eq_zero
        simp only [List.length_append, u31Bytes_length, List.length_cons, List.length_nil] at h5
        omega
      subst this
      rw [List.append_nil]
      exact .priority _ _ _ _ _ h0 h1 h2
    | reset _ _ code h1 => exact .reset _ _ _ (hc3 rfl) h1
    | settingsAck _ h1 => exact .settingsAck _ h1
    | settings _ _ h1 h2 h3 => exact .settings _ _ h1 h2 h3
    | ping _ _ h8 => exact .ping _ _ h8
    | goAway _ _ r last code debug h1 h2 =>
      have := hc7 rfl
      subst this
      exact .goAway _ _ _ _ _ h1 h2
    | windowUpdate _ _ r inc h1 h2 => exact .windowUpdate _ _ _ _ h1 h2
  · intro h
    refine ⟨rfl, rfl, bits.1, payload, .plain _ bits.2, ?_⟩
    cases h with
    | data _ _ _ h0 h => exact .data _ _ _ h0
    | dataPadded _ _ _ _ _ h8 _ => rw [bits.2] at h8; exact absurd h8 (by decide)
    | priority _ _ x dep w h0 h1 h2 =>
      have := BodyTaken.priority flags id x dep w [] h1 h2
      rwa [List.append_nil] at this
    | reset _ _ code h0 h1 => exact .reset _ _ _ h1
    | settingsAck _ h1 => exact .settingsAck _ h1
    | settings _ _ h1 h2 h3 => exact .settings _ _ h1 h2 h3
    | ping _ _ h8 => exact .ping _ _ h8
    | goAway _ r last code debug h1 h2 => exact .goAway _ _ _ _ _ _ h1 h2
    | windowUpdate _ _ r inc h1 h2 => exact .windowUpdate _ _ _ _ h1 h2

example : BlocklessKind 6 ∧ Checked 6 1 0 [1, 2, 3, 4, 5, 6, 7, 8] ∧
    FrameMeans 6 1 0 [1, 2, 3, 4, 5, 6, 7, 8] (.ping ⟨true, [1, 2, 3, 4, 5, 6, 7, 8]⟩) :=
  ⟨by unfold BlocklessKind; decide, by unfold Checked; decide, .ping _ _ rfl⟩

example : BlocklessKind 2 ∧ Checked 2 0 3 [128, 0, 0, 1, 16] ∧
    FrameMeans 2 0 3 [128, 0, 0, 1, 16] (.priority ⟨3, ⟨1, 16, true⟩⟩) :=
  ⟨by unfold BlocklessKind; decide, by unfold Checked; decide,
    .priority 0 3 true 1 16 (by decide) (by decide) (by decide)⟩

/-- C75 is violated: a frame with a flag that means nothing must be read as if it were not set, but the
frame is refused, whatever its kind, if the code does not know the flag. -/
theorem C75_violated_unknown_flag (kind flags : UInt8) (id : Nat) (payload rest : Bytes)
    (t : HeaderIndex) (m : Nat) (hl : payload.length < 2 ^ 24) (hi : id < 2 ^ 31)
    (hf : flags &&& 0xD2 ≠ 0) :
    readFrame t m (wireFrame kind flags id payload ++ rest) = some (.err .badFlag) := by
  rw [readFrame_wire _ _ _ _ _ _ _ hl hi, if_neg hf]

example : FrameMeans 6 2 0 [1, 2, 3, 4, 5, 6, 7, 8] (.ping ⟨false, [1, 2, 3, 4, 5, 6, 7, 8]⟩) := .ping _ _ rfl

/-- C75 is violated: if the code knows the flag from another kind it acts on it: an allowed PING with
bit 8 set is always refused, and one of nine bytes, which is not allowed, is taken without its first. -/
theorem C75_violated_padded_ping (flags : UInt8) (payload rest : Bytes) (t : HeaderIndex) (m : Nat)
    (hf : flags &&& 8 = 8) :
    (payload.length = 8 → FrameMeans 6 flags 0 payload (.ping ⟨flags &&& 1 == 1, payload⟩) ∧
      ∀ f t' rest', readFrame t m (wireFrame 6 flags 0 payload ++ rest) ≠ some (.ok (f, t', rest'))) ∧
    (payload.length = 8 → flags &&& 0xD2 = 0 → (∀ f, ¬ FrameMeans 6 flags 0 (9 :: payload) f) ∧
      readFrame t m (wireFrame 6 flags 0 (9 :: payload) ++ rest) =
        some (.ok (.ping ⟨flags &&& 1 == 1, payload⟩, t, rest))) := by
  have k6 : BlocklessKind 6 := by unfold BlocklessKind; decide
  refine ⟨fun h8 => ⟨.ping _ _ h8, ?_⟩, fun h8 hk => ⟨?_, ?_⟩⟩
  · intro f t' rest' h
    rw [C75_taken_iff_partial _ _ _ _ _ _ _ _ _ _ k6 (by omega) (by decide)] at h
    obtain ⟨-, -, -, body, hu, hb⟩ := h
    cases hb with
    | ping _ _ hb8 =>
      cases hu with
      | plain _ h => rw [hf] at h; exact absurd h (by decide)
      | empty h => simp at h8
      | padded p _ _ _ => simp at h8; omega
  · intro f h
    cases h with
    | ping _ _ h => simp at h; omega
  · rw [C75_taken_iff_partial _ _ _ _ _ _ _ _ _ _ k6 (by simp; omega) (by decide)]
    exact ⟨rfl, rfl, hk, payload, .padded _ _ hf (by rw [h8]; decide), .ping _ _ h8⟩

example : (8 : UInt8) &&& 8 = 8 ∧ (8 : UInt8) &&& 0xD2 = 0 := by decide

/-- C75 is violated: RST_STREAM on stream 0, GOAWAY on another stream and a PRIORITY frame with more
than five bytes or on stream 0 are connection errors by RFC 9113, and are all taken. -/
theorem C75_violated_streams (code : Nat) (hc : code < 2 ^ 32) (id : Nat) (h0 : id ≠ 0) (hi : id < 2 ^ 31)
    (rest extra : Bytes) (hx : extra ≠ []) (hl : extra.length < 1000) (t : HeaderIndex) (m : Nat) :
    ((∀ f, ¬ FrameMeans 3 0 0 (u32Bytes code) f) ∧
      readFrame t m (wireFrame 3 0 0 (u32Bytes code) ++ rest) = some (.ok (.reset ⟨0, code⟩, t, rest))) ∧
    ((∀ f, ¬ FrameMeans 7 0 id (u32Bytes 0 ++ u32Bytes code) f) ∧
      readFrame t m (wireFrame 7 0 id (u32Bytes 0 ++ u32Bytes code) ++ rest) =
        some (.ok (.goAway ⟨0, code, []⟩, t, rest))) ∧
    ((∀ f, ¬ FrameMeans 2 0 id (u32Bytes 0 ++ [16] ++ extra) f) ∧
      readFrame t m (wireFrame 2 0 id (u32Bytes 0 ++ [16] ++ extra) ++ rest) =
        some (.ok (.priority ⟨id, ⟨0, 16, false⟩⟩, t, rest))) ∧
    ((∀ f, ¬ FrameMeans 2 0 0 (u32Bytes id ++ [16]) f) ∧
      readFrame t m (wireFrame 2 0 0 (u32Bytes id ++ [16]) ++ rest) =
        some (.ok (.priority ⟨0, ⟨id, 16, false⟩⟩, t, rest))) := by
  have k2 : BlocklessKind 2 := by unfold BlocklessKind; decide
  have k3 : BlocklessKind 3 := by unfold BlocklessKind; decide
  have k7 : BlocklessKind 7 := by unfold BlocklessKind; decide
  refine ⟨⟨?_, ?_⟩, ⟨?_, ?_⟩, ⟨?_, ?_⟩, ⟨?_, ?_⟩⟩
  · intro f h
    generalize hp : u32Bytes code = p at h
    cases h with
    | reset _ _ _ h _ => exact h rfl
  · rw [C75_taken_iff_partial _ _ _ _ _ _ _ _ _ _ k3 (by simp) (by decide)]
    exact ⟨rfl, rfl, by unfold KnownFlags; decide, _, .plain _ (by decide), .reset _ _ _ hc⟩
  · intro f h
    generalize hp : u32Bytes 0 ++ u32Bytes code = p at h
    cases h with
    | goAway _ _ _ _ _ _ _ => exact h0 rfl
  · rw [C75_taken_iff_partial _ _ _ _ _ _ _ _ _ _ k7 (by simp) hi]
    refine ⟨rfl, rfl, by unfold KnownFlags; decide, _, .plain _ (by decide), ?_⟩
    have := BodyTaken.goAway 0 id false 0 code [] (by decide) hc
    rw [List.append_nil] at this
    exact this
  · intro f h
    generalize hp : u32Bytes 0 ++ [16] ++ extra = p at h
    cases h with
    | priority _ _ x dep w _ _ _ =>
      have := congrArg List.length hp
      have := List.length_pos_iff.mpr hx
      simp only [List.length_append, u31Bytes_length, u32Bytes_length, List.length_cons, List.length_nil] at *
      omega
  · rw [C75_taken_iff_partial _ _ _ _ _ _ _ _ _ _ k2 (by simp; omega) hi]
    exact ⟨rfl, rfl, by unfold KnownFlags; decide, _, .plain _ (by decide),
      .priority 0 id false 0 16 extra (by omega) (by decide)⟩
  · intro f h
    generalize hp : u32Bytes id ++ [16] = p at h
    cases h with
    | priority _ _ x dep w h _ _ => exact h rfl
  · rw [C75_taken_iff_partial _ _ _ _ _ _ _ _ _ _ k2 (by simp) (by decide)]
    refine ⟨rfl, rfl, by unfold KnownFlags; decide, _, .plain _ (by decide), ?_⟩
    have := BodyTaken.priority 0 0 false id 16 [] h0 hi
    rw [List.append_nil] at this
    exact this

/-- C75 is violated. -/
theorem C75_violated : ¬ C75_statement := by
  intro h
  have h1 := (h 6 2 0 [1, 2, 3, 4, 5, 6, 7, 8] [] {} 0 (.ping ⟨false, [1, 2, 3, 4, 5, 6, 7, 8]⟩)
    (by unfold BlocklessKind; decide) (by decide) (by decide)).mpr (.ping _ _ rfl)
  rw [C75_violated_unknown_flag _ _ _ _ _ _ _ (by decide) (by decide) (by decide)] at h1
  cases h1

/-- C75, partial: CONTINUATION and kinds RFC 9113 does not define are refused with one and the same
error, which does not touch the table, so a caller cannot skip the unknown ones and keep the others. -/
theorem C75_unknown_kind_partial (kind flags : UInt8) (id : Nat) (payload rest : Bytes) (t : HeaderIndex)
    (m : Nat) (hl : payload.length < 2 ^ 24) (hi : id < 2 ^ 31) (hk : 9 ≤ kind.toNat)
    (hf : flags &&& 0xDA = 0) :
    readFrame t m (wireFrame kind flags id payload ++ rest) = some (.err .extension) := by
  have bits : flags &&& 0xD2 = 0 ∧ flagIsPadded flags = false := by
    revert flags; decide +kernel
  have kk : Kind.ofByte kind = .continuation ∨ Kind.ofByte kind = .unregistered := by
    revert kind; decide +kernel
  rw [readFrame_wire _ _ _ _ _ _ _ hl hi, if_pos bits.1]
  unfold Frame.parse
  rw [trimPadding_unpadded _ _ _ _ _ bits.2]
  rcases kk with h | h <;> rw [h] <;> rfl

/-! ## C76 -/

/-- C76, the full claim: a frame read says on which stream it came and with which flags. -/
def C76_statement : Prop :=
  ∀ (kind flags : UInt8) (id : Nat) (payload rest rest' : Bytes) (t t' : HeaderIndex) (m : Nat) (f : Frame),
    payload.length < 2 ^ 24 → id < 2 ^ 31 →
    readFrame t m (wireFrame kind flags id payload ++ rest) = some (.ok (f, t', rest')) →
    f.streamIdOf = id ∧ f.flagsOf = flags

/-- Every frame read is a HEADERS frame, a PUSH_PROMISE frame or one of those of C75. -/
theorem readFrame_cases {kind flags : UInt8} {id : Nat} {payload rest rest' : Bytes} {t t' : HeaderIndex}
    {m : Nat} {f : Frame} (hl : payload.length < 2 ^ 24) (hi : id < 2 ^ 31)
    (h : readFrame t m (wireFrame kind flags id payload ++ rest) = some (.ok (f, t', rest'))) :
    rest' = rest ∧
    ((kind = 1 ∧ ∃ x, f = .headers x ∧ x.streamId = id ∧ x.flags = flags) ∨
      (kind = 5 ∧ t' = t ∧ ∃ body, Unpadded flags payload body ∧
        f = .pushPromise ⟨id, (readU31 body).1, [], {}, flags⟩) ∨
      (BlocklessKind kind ∧ t' = t ∧ FrameTaken kind flags id payload f)) := by
  by_cases hk : BlocklessKind kind
  · obtain ⟨h1, h2, h3⟩ := (C75_taken_iff_partial _ _ _ _ _ _ _ _ _ _ hk hl hi).mp h
    exact ⟨h2, Or.inr (Or.inr ⟨hk, h1, h3⟩)⟩
  · rw [readFrame_wire _ _ _ _ _ _ _ hl hi] at h
    split at h
    · rw [withRest_ok] at h
      obtain ⟨hr, h⟩ := h
      refine ⟨hr, ?_⟩
      unfold Frame.parse at h
      cases ht : trimPadding ⟨payload.length, Kind.ofByte kind, flags, id⟩ payload with
      | err e => simp [ht] at h
      | panic => simp [ht] at h
      | ok body =>
        rw [ht] at h
        simp only at h
        have kinds : kind = 1 ∨ kind = 5 ∨ Kind.ofByte kind = .continuation ∨ Kind.ofByte kind = .unregistered := by
          unfold BlocklessKind at hk
          clear ht h
          revert kind
          decide +kernel
        rcases kinds with rfl | rfl | hc | hc
        · left
          refine ⟨rfl, ?_⟩
          have e : Kind.ofByte 1 = .headers := rfl
          rw [e] at h
          simp only at h
          split at h
          · simp at h
          · rename_i x _ hx
            simp only [Option.some.injEq, Res.ok.injEq, Prod.mk.injEq] at h
            have e2 := headersParse_head hx
            exact ⟨_, h.1.symm, e2.1, e2.2⟩
          · simp at h
          · simp at h
        · right; left
          have e : Kind.ofByte 5 = .pushPromise := rfl
          rw [e] at h
          simp only [Option.some.injEq, Res.ok.injEq, Prod.mk.injEq] at h
          exact ⟨rfl, h.2.symm, body, (trimPadding_iff _ _ _ _ _ _ rfl).mp ht, h.1.symm⟩
        · rw [hc] at h; simp at h
        · rw [hc] at h; simp at h
    · simp at h

/-- C76, partial: the stream of every frame read; PRIORITY and GOAWAY always say 0.  Missing: their
stream. -/
theorem C76_stream_partial (kind flags : UInt8) (id : Nat) (payload rest rest' : Bytes) (t t' : HeaderIndex)
    (m : Nat) (f : Frame) (hl : payload.length < 2 ^ 24) (hi : id < 2 ^ 31)
    (h : readFrame t m (wireFrame kind flags id payload ++ rest) = some (.ok (f, t', rest'))) :
    f.streamIdOf = if kind = 2 ∨ kind = 7 then 0 else id := by
  rcases (readFrame_cases hl hi h).2 with ⟨rfl, x, rfl, h1, h2⟩ | ⟨rfl, -, b, -, rfl⟩ | ⟨-, -, -, b, -, hb⟩
  · rw [if_neg (by decide)]; exact h1
  · rw [if_neg (by decide)]; rfl
  · cases hb <;> first | rw [if_neg (by decide)]; rfl | rw [if_pos (by decide)]; rfl

/-- C76, partial: the flags of every frame read.  Missing: PING, GOAWAY, WINDOW_UPDATE, RST_STREAM and
PRIORITY always say 0, SETTINGS only whether it is an acknowledgement. -/
theorem C76_flags_partial (kind flags : UInt8) (id : Nat) (payload rest rest' : Bytes) (t t' : HeaderIndex)
    (m : Nat) (f : Frame) (hl : payload.length < 2 ^ 24) (hi : id < 2 ^ 31)
    (h : readFrame t m (wireFrame kind flags id payload ++ rest) = some (.ok (f, t', rest'))) :
    f.flagsOf = if kind = 0 ∨ kind = 1 ∨ kind = 5 then flags else if kind = 4 then flags &&& 1 else 0 := by
  rcases (readFrame_cases hl hi h).2 with ⟨rfl, x, rfl, h1, h2⟩ | ⟨rfl, -, b, -, rfl⟩ | ⟨-, -, -, b, -, hb⟩
  · rw [if_pos (by decide)]; exact h2
  · rw [if_pos (by decide)]; rfl
  · cases hb with
    | settingsAck _ h1 => rw [if_neg (by decide), if_pos rfl, h1]; rfl
    | settings _ _ h1 _ _ => rw [if_neg (by decide), if_pos rfl, h1]; rfl
    | data => rw [if_pos (by decide)]; rfl
    | _ => rw [if_neg (by decide), if_neg (by decide)]; rfl

/-- C76: a frame read is taken for a DATA or a HEADERS frame exactly if it is one, and it ends the
stream, or the headers, exactly if its flags say so and may say so (RFC 9113 6.1, 6.2). -/
theorem C76_questions (kind flags : UInt8) (id : Nat) (payload rest rest' : Bytes) (t t' : HeaderIndex)
    (m : Nat) (f : Frame) (hl : payload.length < 2 ^ 24) (hi : id < 2 ^ 31)
    (h : readFrame t m (wireFrame kind flags id payload ++ rest) = some (.ok (f, t', rest'))) :
    (f.isData = true ↔ kind = 0) ∧ (f.isHeader = true ↔ kind = 1) ∧
    (f.isEndStream = true ↔ (kind = 0 ∨ kind = 1) ∧ flags &&& 1 = 1) ∧
    (f.isEndHeaders = true ↔ kind = 1 ∧ flags &&& 4 = 4) := by
  rcases (readFrame_cases hl hi h).2 with ⟨rfl, x, rfl, h1, h2⟩ | ⟨rfl, -, b, -, rfl⟩ | ⟨-, -, -, b, -, hb⟩
  · simp [Frame.isData, Frame.isHeader, Frame.isEndStream, Frame.isEndHeaders, flagIsEndStream,
      flagIsEndHeaders, h2]
  · simp [Frame.isData, Frame.isHeader, Frame.isEndStream, Frame.isEndHeaders]
  · cases hb <;> simp [Frame.isData, Frame.isHeader, Frame.isEndStream, Frame.isEndHeaders, flagIsEndStream]

example : readFrame {} 100 (wireFrame 1 5 3 [0x82] ++ [7]) =
    some (.ok (.headers { streamId := 3, parts := { method := some .get }, flags := 5 }, {}, [7])) := by
  decide +kernel

example : readFrame {} 100 (wireFrame 8 0 3 [0, 0, 1, 0] ++ [7]) =
    some (.ok (.windowUpdate ⟨3, 256⟩, {}, [7])) := by
  decide +kernel

/-- C76 is violated: a PRIORITY frame says it came on stream 0, whatever stream it came on. -/
theorem C76_violated_priority (id dep : Nat) (w : UInt8) (h0 : id ≠ 0) (hi : id < 2 ^ 31) (hd : dep < 2 ^ 31)
    (hne : dep ≠ id) (t : HeaderIndex) (m : Nat) (rest : Bytes) :
    ∃ f, readFrame t m (wireFrame 2 0 id (u32Bytes dep ++ [w]) ++ rest) = some (.ok (f, t, rest)) ∧
      f.streamIdOf ≠ id := by
  refine ⟨.priority ⟨id, ⟨dep, w, false⟩⟩, ?_, fun h => h0 h.symm⟩
  rw [C75_checked_partial 2 0 id _ rest t m _ (by unfold BlocklessKind; decide) (by simp) hi
    ⟨by decide, fun _ => ⟨h0, by simp⟩, fun h => absurd h (by decide), fun h => absurd h (by decide)⟩]
  exact .priority 0 id false dep w h0 hne hd

/-- C76 is violated: an acknowledged PING says its flags are 0. -/
theorem C76_violated_ping (payload : Bytes) (h8 : payload.length = 8) (t : HeaderIndex) (m : Nat)
    (rest : Bytes) :
    ∃ f, readFrame t m (wireFrame 6 1 0 payload ++ rest) = some (.ok (f, t, rest)) ∧ f.flagsOf = 0 := by
  refine ⟨.ping ⟨true, payload⟩, ?_, rfl⟩
  rw [C75_checked_partial 6 1 0 _ rest t m _ (by unfold BlocklessKind; decide) (by omega) (by decide)
    ⟨by decide, fun h => absurd h (by decide), fun h => absurd h (by decide), fun h => absurd h (by decide)⟩]
  exact .ping _ _ h8

/-- C76 is violated. -/
theorem C76_violated : ¬ C76_statement := by
  intro h
  obtain ⟨f, hf, h0⟩ := C76_violated_ping [0, 0, 0, 0, 0, 0, 0, 0] rfl {} 0 []
  have := (h 6 1 0 _ _ _ _ _ _ f (by decide) (by decide) hf).2
  rw [h0] at this
  exact absurd this (by decide)

/-- C76: every setter of `Flag` changes the one bit it is named after and no other, and the questions
look at that bit. -/
theorem C76_flag_bits (f : UInt8) :
    (∀ i, i < 8 → (flagSetEndStream f).toNat.testBit i = (i == 0 || f.toNat.testBit i)) ∧
    (∀ i, i < 8 → (flagUnsetEndStream f).toNat.testBit i = (i != 0 && f.toNat.testBit i)) ∧
    (∀ i, i < 8 → (flagSetEndHeaders f).toNat.testBit i = (i == 2 || f.toNat.testBit i)) ∧
    (∀ i, i < 8 → (flagUnsetEndHeaders f).toNat.testBit i = (i != 2 && f.toNat.testBit i)) ∧
    (∀ i, i < 8 → (flagSetPadded f).toNat.testBit i = (i == 3 || f.toNat.testBit i)) ∧
    (∀ i, i < 8 → (flagUnsetPadded f).toNat.testBit i = (i != 3 && f.toNat.testBit i)) ∧
    (∀ i, i < 8 → (flagLoad f).toNat.testBit i = (i == 0 || f.toNat.testBit i)) ∧
    flagIsEndStream f = f.toNat.testBit 0 ∧ flagIsEndHeaders f = f.toNat.testBit 2 ∧
    flagIsPadded f = f.toNat.testBit 3 ∧ flagIsPriority f = f.toNat.testBit 5 := by
  revert f
  decide +kernel

/-! ## C77 -/

/-- C77, the full claim, first part: a promise written is read as that promise: its stream, the stream
it promises and the request it promises an answer to. -/
def C77_request_statement : Prop :=
  ∀ (p : PushPromise) (maxFrame maxList n : Nat) (out : Bytes) (t : HeaderIndex),
    p.streamId < 2 ^ 31 → p.promisedId < 2 ^ 31 → p.flags = 4 → out.length < 2 ^ 24 → out.length ≤ maxList →
    p.encode maxFrame {} = .ok (out, n, t) →
    ∃ q t' rest, readFrame {} maxList out = some (.ok (.pushPromise q, t', rest)) ∧
      q.streamId = p.streamId ∧ q.promisedId = p.promisedId ∧ q.parts = p.parts

/-- C77, the full claim, second part: whatever promises and HEADERS frames are written by one encoder
are read without an error by one decoder (whose limits are never reached). -/
def C77_step_statement : Prop :=
  ∀ (frames : List Frame) (maxFrame maxList : Nat) (out : Bytes) (t : HeaderIndex),
    (∀ f ∈ frames, (∃ p, f = .pushPromise p) ∨ ∃ h, f = .headers h) →
    out.length < 2 ^ 14 → maxFrame = 2 ^ 14 → maxList = 2 ^ 20 →
    writeFrames maxFrame {} frames = some (.ok (out, t)) →
    ∃ received, readFrames maxList out.length {} out = some (.ok received)

/-- C77, partial: whatever follows the promised stream, valid header block or not, is neither read nor
decoded: the promise read has no request and no fields, and the table stays as it was. -/
theorem C77_read_partial (flags : UInt8) (id promised : Nat) (reserved : Bool) (block rest : Bytes)
    (t : HeaderIndex) (m : Nat) (hi : id < 2 ^ 31) (hp : promised < 2 ^ 31) (hb : 4 + block.length < 2 ^ 24)
    (hf : flags &&& 0xDA = 0) :
    readFrame t m (wireFrame 5 flags id (u31Bytes reserved promised ++ block) ++ rest) =
      some (.ok (.pushPromise ⟨id, promised, [], {}, flags⟩, t, rest)) := by
  have bits : flags &&& 0xD2 = 0 ∧ flagIsPadded flags = false := by
    revert flags; decide +kernel
  rw [readFrame_wire _ _ _ _ _ _ _ (by simp; omega) hi, if_pos bits.1]
  unfold Frame.parse
  rw [trimPadding_unpadded _ _ _ _ _ bits.2]
  have e : readU31 (u31Bytes reserved promised ++ block) = (promised, block) := by
    unfold readU31
    rw [if_neg (by simp)]
    have e1 : (u31Bytes reserved promised ++ block).take 4 = u31Bytes reserved promised := List.take_left' rfl
    have e2 : (u31Bytes reserved promised ++ block).drop 4 = block := List.drop_left' rfl
    rw [e1, e2, (u31_value reserved promised hp).1]
  have ek : Kind.ofByte 5 = .pushPromise := rfl
  rw [ek]
  simp only [PushPromise.parse, e, withRest]

/-- C77, partial: reading what was written for a promise gives its stream and the stream it promises;
what follows are the frames for its remaining fields, on the promised stream.  Missing: the request. -/
theorem C77_ids_partial (p : PushPromise) (maxFrame n m : Nat) (out : Bytes) (t t' : HeaderIndex)
    (td : HeaderIndex) (hs : p.streamId < 2 ^ 31) (hp : p.promisedId < 2 ^ 31) (hf : p.flags &&& 0xDA = 0)
    (hl : out.length < 2 ^ 24) (h : p.encode maxFrame t = .ok (out, n, t')) :
    ∃ fields t1 rest k, blockEncode maxFrame t1 p.flags p.promisedId fields = .ok (rest, k, t') ∧
      readFrame td m out =
        some (.ok (.pushPromise ⟨p.streamId, p.promisedId, [], {}, p.flags ||| 4⟩, td, rest)) := by
  unfold PushPromise.encode at h
  simp only [Res.bind_eq_ok] at h
  obtain ⟨m1, -, ⟨b1, m2, t2⟩, -, ⟨b2, m3, t3⟩, -, ⟨b3, m4, t4⟩, -, ⟨b4, m5, t5⟩, -, ⟨o, s, t6⟩, h1, h⟩ := h
  simp only [Res.ok.injEq, Prod.mk.injEq] at h
  obtain ⟨rfl, -, rfl⟩ := h
  refine ⟨m5, t5, o, s, h1, ?_⟩
  have hb : 4 + (b1 ++ b2 ++ b3 ++ b4).length < 2 ^ 24 := by
    simp only [List.length_append, FrameHeader.encode_length, beBytes_length] at hl ⊢
    omega
  generalize b1 ++ b2 ++ b3 ++ b4 = block at hb
  have e := encode_wire .pushPromise (flagSetEndHeaders p.flags) p.streamId (u31Bytes false p.promisedId ++ block)
  have e2 : (u31Bytes false p.promisedId ++ block).length = block.length + 4 := by simp; omega
  rw [e2] at e
  have e3 : beBytes 4 p.promisedId = u31Bytes false p.promisedId := by rw [beBytes4]; rfl
  rw [e3, List.append_assoc, List.append_assoc, ← List.append_assoc (u31Bytes false p.promisedId),
    ← List.append_assoc, e]
  refine C77_read_partial (flagSetEndHeaders p.flags) _ _ _ _ _ _ _ hs hp hb ?_
  generalize p.flags = fl at hf
  clear h1 e
  revert fl; decide +kernel

/-- A promise of the answer to `GET http://a/`. -/
def samplePromise : PushPromise :=
  { streamId := 1, promisedId := 2,
    parts := { method := some .get, scheme := some .http, authority := some [97], path := some [47] }, flags := 4 }

example : samplePromise.encode 16384 {} =
    .ok (wireFrame 5 4 1 ([0, 0, 0, 2] ++ [0x82, 0x41, 0x81, 0x1F, 0x86, 0x84]) ++ wireFrame 1 4 2 [], 28,
      { table := [(asciiBytes ":authority", [97])], size := 43, maxSize := 4096 }) := by
  decide +kernel

/-- C77 is violated: the request promised is never read; no promise with a request is read as itself. -/
theorem C77_violated_request (p : PushPromise) (maxFrame n m : Nat) (out : Bytes) (t t' td : HeaderIndex)
    (hs : p.streamId < 2 ^ 31) (hp : p.promisedId < 2 ^ 31) (hf : p.flags &&& 0xDA = 0)
    (hl : out.length < 2 ^ 24) (h : p.encode maxFrame t = .ok (out, n, t')) (hparts : p.parts ≠ {}) :
    ∀ q t2 rest, readFrame td m out = some (.ok (.pushPromise q, t2, rest)) → q.parts ≠ p.parts := by
  intro q t2 rest hq
  obtain ⟨_, _, _, _, _, h1⟩ := C77_ids_partial p maxFrame n m out t t' td hs hp hf hl h
  rw [h1] at hq
  simp only [Option.some.injEq, Res.ok.injEq, Prod.mk.injEq, Frame.pushPromise.injEq] at hq
  rw [← hq.1]
  exact fun e => hparts e.symm

theorem C77_violated : ¬ C77_request_statement := by
  intro h
  have e : samplePromise.encode 16384 {} =
      .ok (wireFrame 5 4 1 ([0, 0, 0, 2] ++ [0x82, 0x41, 0x81, 0x1F, 0x86, 0x84]) ++ wireFrame 1 4 2 [], 28,
        { table := [(asciiBytes ":authority", [97])], size := 43, maxSize := 4096 }) := by
    decide +kernel
  obtain ⟨q, t', rest, h1, -, -, h2⟩ := h samplePromise 16384 100 28 _ _ (by decide) (by decide) rfl
    (by decide) (by decide) e
  exact C77_violated_request samplePromise 16384 28 100 _ {} _ {} (by decide) (by decide) (by decide)
    (by decide) e (by decide) q t' rest h1 h2

/-- C77 is violated: the writer's table learns `:authority` from the promise and the reader's does not, so
the two number older entries differently and a HEADERS frame that uses one can not be read. -/
theorem C77_violated_step : ¬ C77_step_statement := by
  intro h
  have e : writeFrames (2 ^ 14) {} [.headers { streamId := 3, fields := [([120], [97])], flags := 4 },
        .pushPromise samplePromise, .headers { streamId := 5, fields := [([120], [97])], flags := 4 }] =
      some (.ok (wireFrame 1 4 3 [64, 129, 243, 129, 31] ++
          wireFrame 5 4 1 ([0, 0, 0, 2] ++ [0x82, 0x41, 0x81, 0x1F, 0x86, 0x84]) ++ wireFrame 1 4 2 [] ++
          wireFrame 1 4 5 [0xBF],
        { table := [(asciiBytes ":authority", [97]), ([120], [97])], size := 77, maxSize := 4096 })) := by
    decide +kernel
  obtain ⟨received, h1⟩ := h _ _ (2 ^ 20) _ _
    (by
      intro f hf
      simp only [List.mem_cons, List.not_mem_nil, or_false] at hf
      rcases hf with rfl | rfl | rfl
      · exact Or.inr ⟨_, rfl⟩
      · exact Or.inl ⟨_, rfl⟩
      · exact Or.inr ⟨_, rfl⟩) (by decide) rfl rfl e
  have h2 : readFrames (2 ^ 20) 52 {} (wireFrame 1 4 3 [64, 129, 243, 129, 31] ++
      wireFrame 5 4 1 ([0, 0, 0, 2] ++ [0x82, 0x41, 0x81, 0x1F, 0x86, 0x84]) ++
      wireFrame 1 4 2 [] ++ wireFrame 1 4 5 [0xBF]) = some (.err .headerIndexOutOfBounds) := by
    decide +kernel
  have h3 : (wireFrame 1 4 3 [64, 129, 243, 129, 31] ++
      wireFrame 5 4 1 ([0, 0, 0, 2] ++ [0x82, 0x41, 0x81, 0x1F, 0x86, 0x84]) ++
      wireFrame 1 4 2 [] ++ wireFrame 1 4 5 [0xBF]).length = 52 := by decide
  rw [h3, h2] at h1
  cases h1

/-- C77 is violated: a promise too short to say which stream it promises is taken as one of stream 0. -/
theorem C77_violated_short (id : Nat) (payload rest : Bytes) (t : HeaderIndex) (m : Nat) (hi : id < 2 ^ 31)
    (hs : payload.length < 4) :
    readFrame t m (wireFrame 5 4 id payload ++ rest) = some (.ok (.pushPromise ⟨id, 0, [], {}, 4⟩, t, rest)) := by
  rw [readFrame_wire _ _ _ _ _ _ _ (by omega) hi, if_pos (by decide)]
  unfold Frame.parse
  rw [trimPadding_unpadded _ _ _ _ _ (by decide)]
  have ek : Kind.ofByte 5 = .pushPromise := rfl
  rw [ek]
  simp only [PushPromise.parse, readU31, if_pos hs, withRest]

end Webparse
