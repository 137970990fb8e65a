import Verif.Spec.PassOn
import Verif.Props.Rfc9113
import Verif.Props.FrameHeaders

/-!
# C98: sending on a frame that was received

The full claim: a frame that was read from a peer can be sent on; with some frame size limit, encoding it gives a frame that is
read as the same.
-/

namespace Webparse
open Spec

/-- C98, the full claim, for a fresh encoder and decoder. -/
def C98_statement : Prop :=
  ∀ (kind flags : UInt8) (id : Nat) (payload : Bytes) (t t' : HeaderIndex) (m : Nat) (f : Frame),
    payload.length < 2 ^ 24 → id < 2 ^ 31 → readFrame t m (wireFrame kind flags id payload) = some (.ok (f, t', [])) →
    ∃ maxFrame, PassedOn maxFrame m {} {} f

/-! ### Control frames -/

theorem lastValue_mem {id v : Nat} {es : List (Nat × Nat)} (h : lastValue id es = some v) : (id, v) ∈ es := by
  unfold lastValue at h
  obtain ⟨e, he, rfl⟩ := Option.map_eq_some_iff.mp h
  have := List.mem_of_getLast? he
  rw [List.mem_filter] at this
  obtain ⟨h1, h2⟩ := this
  have : e.1 = id := by simpa using h2
  rw [← this]
  exact h1

theorem settingEntries_lt (p : Bytes) : ∀ e ∈ settingEntries p, e.2 < 2 ^ 32 := by
  induction p using settingEntries.induct with
  | case1 a b c d e f rest ih =>
    intro x hx
    rw [settingEntries] at hx
    rcases List.mem_cons.mp hx with rfl | hx
    · have := c.toNat_lt; have := d.toNat_lt; have := e.toNat_lt; have := f.toNat_lt
      simp only
      omega
    · exact ih x hx
  | case2 p h =>
    intro x hx
    rw [settingEntries] at hx
    · cases hx
    · exact h

theorem givenSettings_legal (p : Bytes) (h : ∀ e ∈ settingEntries p, LegalSetting e) : LegalSettings (givenSettings p) := by
  right
  have lt : ∀ k, OptAll (lastValue k (settingEntries p)) (· < 2 ^ 32) := fun k v hv => settingEntries_lt p _ (lastValue_mem hv)
  have le : ∀ {k v}, lastValue k (settingEntries p) = some v → LegalSetting (k, v) := fun hv => h _ (lastValue_mem hv)
  exact ⟨rfl, lt 1, fun v hv => (le hv).1 rfl, lt 3, fun v hv => (le hv).2.1 rfl, fun v hv => (le hv).2.2.1 rfl, lt 6,
    fun v hv => (le hv).2.2.2 rfl⟩

theorem unpadded_length {flags : UInt8} {p b : Bytes} (h : Unpadded flags p b) : b.length ≤ p.length := by
  cases h <;> simp

theorem taken_ok {kind flags : UInt8} {id : Nat} {payload : Bytes} {f : Frame} (hk : ControlKind kind)
    (hl : payload.length < 2 ^ 24) (hi : id < 2 ^ 31) (h : FrameTaken kind flags id payload f) : ControlFrameOk f := by
  obtain ⟨-, body, hu, hb⟩ := h
  have hlen := unpadded_length hu
  cases hb with
  | data => exact absurd hk (by unfold ControlKind; decide)
  | priority => exact absurd hk (by unfold ControlKind; decide)
  | reset _ _ code h1 => exact ⟨hi, h1⟩
  | settingsAck _ h1 => exact Or.inl rfl
  | settings _ _ h1 h2 h3 => exact givenSettings_legal body h3
  | ping _ _ h1 => exact h1
  | goAway _ _ r last code debug h1 h2 =>
    refine ⟨h1, h2, ?_⟩
    simp only [List.length_append, u31Bytes, u32Bytes, List.length_cons, List.length_nil] at hlen
    simp only
    omega
  | windowUpdate _ _ r inc h1 h2 => exact ⟨hi, h1, h2⟩

/-- RST_STREAM, SETTINGS, PING, GOAWAY and WINDOW_UPDATE frames can be sent on, whatever they hold. -/
theorem C98_control_partial (kind flags : UInt8) (id : Nat) (payload rest rest' : Bytes) (t t' : HeaderIndex) (m : Nat) (f : Frame)
    (hk : ControlKind kind) (hl : payload.length < 2 ^ 24) (hi : id < 2 ^ 31)
    (h : readFrame t m (wireFrame kind flags id payload ++ rest) = some (.ok (f, t', rest')))
    (maxFrame maxList : Nat) (te td : HeaderIndex) : PassedOn maxFrame maxList te td f := by
  have hb : BlocklessKind kind := by
    unfold ControlKind at hk
    unfold BlocklessKind
    clear h
    revert kind
    decide +kernel
  obtain ⟨-, -, h⟩ := (C75_taken_iff_partial _ _ _ _ _ _ _ _ _ _ hb hl hi).mp h
  obtain ⟨bytes, h1, -, h3⟩ := C25_one f (taken_ok hk hl hi h) maxFrame te
  exact ⟨bytes, bytes.length, te, td, h1, by simpa using h3 [] td maxList⟩

/-! ### DATA -/

/-- A DATA frame without padding can be sent on. -/
theorem C98_data_partial (flags : UInt8) (id : Nat) (payload rest rest' : Bytes) (t t' : HeaderIndex) (m : Nat) (f : Frame)
    (hf : flags &&& 8 = 0) (hl : payload.length < 2 ^ 24) (hi : id < 2 ^ 31)
    (h : readFrame t m (wireFrame 0 flags id payload ++ rest) = some (.ok (f, t', rest')))
    (maxFrame maxList : Nat) (hm : payload.length ≤ maxFrame) (te td : HeaderIndex) : PassedOn maxFrame maxList te td f := by
  have hb : BlocklessKind 0 := by unfold BlocklessKind; decide
  obtain ⟨-, -, ht⟩ := (C75_taken_iff_partial _ _ _ _ _ _ _ _ _ _ hb hl hi).mp h
  obtain ⟨hk, body, hu, hbody⟩ := (show FrameTaken 0 flags id payload f from ht)
  have e : body = payload := by
    cases hu with
    | plain => rfl
    | empty => rfl
    | padded _ _ h8 => rw [hf] at h8; exact absurd h8 (by decide)
  subst e
  cases hbody with
  | data _ _ _ h0 =>
    refine ⟨wireFrame 0 flags id body, 9 + body.length, te, td, ?_, ?_⟩
    · simp only [Frame.encode, DataFrame.encodeRun]
      rw [Nat.min_eq_left hm, if_neg (by omega), encode_wire]
      rfl
    · have := (C75_taken_iff_partial 0 flags id body [] [] td td maxList _ hb hl hi).mpr ⟨rfl, rfl, ht⟩
      simpa using this

/-- C98 is violated: a DATA frame with padding and with data is never sent on as it was received. -/
theorem C98_violated_padded (flags : UInt8) (id : Nat) (payload rest rest' : Bytes) (t t' : HeaderIndex) (m : Nat) (d : DataFrame)
    (hf : flags &&& 8 = 8) (hl : payload.length < 2 ^ 24) (hi : id < 2 ^ 31)
    (h : readFrame t m (wireFrame 0 flags id payload ++ rest) = some (.ok (.data d, t', rest'))) (hd : d.data ≠ [])
    (maxFrame maxList : Nat) (te td : HeaderIndex) : ¬ PassedOn maxFrame maxList te td (.data d) := by
  have hb : BlocklessKind 0 := by unfold BlocklessKind; decide
  obtain ⟨-, -, hk, body, hu, hbody⟩ := (C75_taken_iff_partial _ _ _ _ _ _ _ _ _ _ hb hl hi).mp h
  have hlen := unpadded_length hu
  cases hbody with
  | data _ _ _ h0 =>
  rintro ⟨out, size, te', td', h1, h2⟩
  simp only [Frame.encode] at h1
  rcases Nat.eq_zero_or_pos maxFrame with rfl | hm
  · rw [C19_zero_limit_never_ends _ hd] at h1
    cases h1
  obtain ⟨parts, out', e1, e2, e3, e4, e5, e6⟩ := C19_split ⟨id, body, flags⟩ maxFrame hm
  rw [e1] at h1
  simp only [Option.some.injEq, Res.ok.injEq, Prod.mk.injEq] at h1
  obtain ⟨rfl, -, -⟩ := h1
  -- the first frame written
  obtain ⟨p, ps, rfl⟩ := List.exists_cons_of_ne_nil e4
  have hflat : p.length ≤ body.length := by
    have := congrArg List.length e3
    simp only [List.flatten_cons, List.length_append] at this
    omega
  have hpne : p ≠ [] := by
    intro hp
    cases ps with
    | nil => rw [hp] at e3; exact hd (by simpa using e3.symm)
    | cons q qs =>
      have := e6 p (by simp)
      rw [hp] at this
      simp only [List.length_nil] at this
      omega
  have first : ∃ fl more, flags &&& 8 = fl &&& 8 ∧ out' = wireFrame 0 fl id p ++ more := by
    cases ps with
    | nil => exact ⟨flags, [], rfl, by rw [e2]; simp [wireFrames, dataFrames]⟩
    | cons q qs =>
      refine ⟨flags &&& 0xFE, wireFrames (dataFrames id (flags &&& 0xFE) flags (q :: qs)), ?_, ?_⟩
      · have : ∀ g : UInt8, g &&& 8 = g &&& 0xFE &&& 8 := by decide +kernel
        exact this flags
      · rw [e2]; simp [wireFrames, dataFrames]
  obtain ⟨fl, more, hfl, rfl⟩ := first
  obtain ⟨-, -, -, body', hu', hb'⟩ := (C75_taken_iff_partial _ _ _ _ _ _ _ _ _ _ hb (by omega) hi).mp h2
  have hlt : body'.length < p.length := by
    cases hu' with
    | plain _ h8 => rw [← hfl, hf] at h8; exact absurd h8 (by decide)
    | empty => exact absurd rfl hpne
    | padded _ _ _ => simp
  generalize hx : (Frame.data ⟨id, body, flags⟩) = x at hb'
  cases hb' with
  | data =>
    simp only [Frame.data.injEq, DataFrame.mk.injEq] at hx
    obtain ⟨-, hx, -⟩ := hx
    rw [hx] at hflat
    omega

/-! ### PRIORITY -/

/-- C98 is violated: no PRIORITY frame is sent on as it was received. -/
theorem C98_violated_priority (p : Priority) (hi : p.streamId < 2 ^ 31) (maxFrame maxList : Nat) (te td : HeaderIndex) :
    ¬ PassedOn maxFrame maxList te td (.priority p) := by
  rintro ⟨out, size, te', td', h1, h2⟩
  simp only [Frame.encode, Option.some.injEq, Res.ok.injEq, Prod.mk.injEq] at h1
  have := C16_never_readable p hi [] td maxList
  rw [List.append_nil, h1.1, h2] at this
  cases this

/-! ### HEADERS -/

/-- What is sent on of a HEADERS frame: the fields; not the method, scheme, authority, path and status. -/
theorem C98_headers_partial {te td : HeaderIndex} (x : HeadersFrame) (hf : x.flags &&& 0xFA = 0) (hi : x.streamId < 2 ^ 31)
    (hp : PlainFields x.fields) (hc : Conn te td x.fields.length) (maxFrame maxList : Nat) (hm : maxFrame < 2 ^ 24)
    (hsz : (x.fields.map encodedBound).sum ≤ maxFrame) (hls : headerListSize x.fields ≤ maxList) :
    ∃ out size te' td', Frame.encode maxFrame te (.headers x) = some (.ok (out, size, te')) ∧
      readFrame td maxList out =
        some (.ok (.headers { streamId := x.streamId, fields := x.fields, flags := x.flags ||| 4 }, td', [])) := by
  have hpo : PartsOk {} := ⟨by simp, by simp, by simp, by simp, by simp⟩
  have e0 : x.fields ++ partHeaders {} = x.fields := by simp [partHeaders]
  obtain ⟨block, te', td', h1, h2, h3⟩ := headers_block (te := te) (td := td) (k := 0) {} hpo x.fields hp
    (by simpa [partHeaders] using hc) maxList (by rw [e0]; exact hls)
  rw [e0] at h1
  obtain ⟨block', te'', b1, b2, b3⟩ := blockFragments_single maxFrame IsPlainName plain_sep x.fields (te := te) (td := td) 0 []
    hc.sync hc.inv hc.plain
    (fun h hm => ⟨(hp.plain h hm).1, (plain_lower (hp.plain h hm).1).2, (hp.sizes h hm).1, (hp.sizes h hm).2⟩)
    hc.room (by simpa using hsz)
  rw [h1] at b1
  simp only [Res.ok.injEq, Prod.mk.injEq] at b1
  obtain ⟨rfl, rfl⟩ := b1
  simp only [List.nil_append, List.length_nil, Nat.zero_add] at b2 b3
  have bits : (x.flags ||| 4) &&& 0xD2 = 0 ∧ flagIsPadded (x.flags ||| 4) = false ∧ flagIsPriority (x.flags ||| 4) = false := by
    revert hf
    generalize x.flags = g
    revert g
    decide +kernel
  refine ⟨wireFrame 1 (x.flags ||| 4) x.streamId block, 9 + block.length, te', td', ?_, ?_⟩
  · simp only [Frame.encode, HeadersFrame.encode, blockEncode, b2, Res.bind_ok, fragmentFrames]
    rw [show flagSetEndHeaders x.flags = x.flags ||| 4 from rfl, encode_wire .headers]
    simp [Kind.encode]
  · have := readFrame_wire 1 (x.flags ||| 4) x.streamId block [] td maxList (by omega) hi
    rw [List.append_nil] at this
    rw [this, if_pos bits.1]
    unfold Frame.parse
    rw [trimPadding_unpadded _ _ _ _ _ bits.2.1]
    have hk : Kind.ofByte 1 = .headers := by decide
    simp only [hk]
    rw [h3 x.streamId _ bits.2.2]
    rfl

/-- Trailers, which have no pseudo-headers, can be sent on. -/
theorem C98_trailers_partial {te td : HeaderIndex} (x : HeadersFrame) (hx : x.parts = {}) (hd : x.streamDep = none)
    (hf : x.flags = 4 ∨ x.flags = 5) (hi : x.streamId < 2 ^ 31)
    (hp : PlainFields x.fields) (hc : Conn te td x.fields.length) (maxFrame maxList : Nat) (hm : maxFrame < 2 ^ 24)
    (hsz : (x.fields.map encodedBound).sum ≤ maxFrame) (hls : headerListSize x.fields ≤ maxList) :
    PassedOn maxFrame maxList te td (.headers x) := by
  obtain ⟨out, size, te', td', h1, h2⟩ := C98_headers_partial x (by rcases hf with h | h <;> rw [h] <;> decide) hi hp hc maxFrame
    maxList hm hsz hls
  refine ⟨out, size, te', td', h1, ?_⟩
  rw [h2]
  have : x.flags ||| 4 = x.flags := by rcases hf with h | h <;> rw [h] <;> decide
  rw [this]
  obtain ⟨id, dep, fields, parts, flags⟩ := x
  simp only at hx hd
  subst hx hd
  rfl

/-- C98 is violated: a HEADERS frame with a method, scheme, authority, path or status is not sent on as it was received. -/
theorem C98_violated_head {te td : HeaderIndex} (x : HeadersFrame) (hx : x.parts ≠ {}) (hf : x.flags &&& 0xFA = 0)
    (hi : x.streamId < 2 ^ 31) (hp : PlainFields x.fields) (hc : Conn te td x.fields.length) (maxFrame maxList : Nat)
    (hm : maxFrame < 2 ^ 24) (hsz : (x.fields.map encodedBound).sum ≤ maxFrame) (hls : headerListSize x.fields ≤ maxList) :
    ¬ PassedOn maxFrame maxList te td (.headers x) := by
  rintro ⟨out, size, te', td', h1, h2⟩
  obtain ⟨out', size', te'', td'', e1, e2⟩ := C98_headers_partial x hf hi hp hc maxFrame maxList hm hsz hls
  rw [h1] at e1
  simp only [Option.some.injEq, Res.ok.injEq, Prod.mk.injEq] at e1
  rw [e1.1, e2] at h2
  simp only [Option.some.injEq, Res.ok.injEq, Prod.mk.injEq, Frame.headers.injEq] at h2
  exact hx (by rw [← h2.1])

/-! ### PUSH_PROMISE -/

/-- C98 is violated: of a PUSH_PROMISE frame no field is sent on, and behind it goes a HEADERS frame on the promised stream which
was not received. -/
theorem C98_violated_promise (flags : UInt8) (id : Nat) (payload rest rest' : Bytes) (t t' : HeaderIndex) (m : Nat) (f : Frame)
    (hl : payload.length < 2 ^ 24) (hi : id < 2 ^ 31)
    (h : readFrame t m (wireFrame 5 flags id payload ++ rest) = some (.ok (f, t', rest')))
    (maxFrame maxList : Nat) (te td : HeaderIndex) :
    (∃ promised, f = .pushPromise { streamId := id, promisedId := promised, flags } ∧
      Frame.encode maxFrame te f =
        some (.ok (wireFrame 5 (flags ||| 4) id (u32Bytes promised) ++ wireFrame 1 (flags ||| 4) promised [], 22, te))) ∧
    ¬ PassedOn maxFrame maxList te td f := by
  have hcase : ∃ promised, f = .pushPromise { streamId := id, promisedId := promised, flags } := by
    rcases (readFrame_cases hl hi h).2 with ⟨hk, -⟩ | ⟨-, -, b, -, rfl⟩ | ⟨hk, -⟩
    · cases hk
    · exact ⟨_, rfl⟩
    · exact absurd hk (by unfold BlocklessKind; decide)
  obtain ⟨promised, rfl⟩ := hcase
  have enc : Frame.encode maxFrame te (.pushPromise { streamId := id, promisedId := promised, flags }) =
      some (.ok (wireFrame 5 (flags ||| 4) id (u32Bytes promised) ++ wireFrame 1 (flags ||| 4) promised [], 22, te)) := by
    have e1 := encode_wire .pushPromise (flags ||| 4) id (u32Bytes promised)
    have e2 := encode_wire .headers (flags ||| 4) promised []
    simp only [Frame.encode, PushPromise.encode, Parts.encodeHeader, insertOpt, Option.map_none, Res.bind_ok, takeHeader,
      HeaderMap.remove, blockEncode, blockFragments, fragmentFrames, flagSetEndHeaders, List.append_nil, List.length_nil, beBytes4]
    rw [show wireFrame 5 (flags ||| 4) id (u32Bytes promised) = wireFrame Kind.pushPromise.encode (flags ||| 4) id (u32Bytes promised) from rfl,
      show wireFrame 1 (flags ||| 4) promised [] = wireFrame Kind.headers.encode (flags ||| 4) promised [] from rfl, ← e1, ← e2]
    simp [u32Bytes]
  refine ⟨⟨promised, rfl, enc⟩, ?_⟩
  rintro ⟨out, size, te', td', h1, h2⟩
  rw [enc] at h1
  simp only [Option.some.injEq, Res.ok.injEq, Prod.mk.injEq] at h1
  rw [← h1.1] at h2
  have := (readFrame_cases (by simp [u32Bytes]) hi h2).1
  have := congrArg List.length this
  rw [wireFrame_length] at this
  simp at this

theorem C98_violated : ¬ C98_statement := by
  intro h
  have h1 : readFrame {} 0 (wireFrame 2 0 3 [0, 0, 0, 1, 15]) =
      some (.ok (.priority ⟨3, ⟨1, 15, false⟩⟩, {}, [])) := by decide +kernel
  obtain ⟨m, hm⟩ := h 2 0 3 [0, 0, 0, 1, 15] {} {} 0 _ (by decide) (by decide) h1
  exact C98_violated_priority _ (by decide) m 0 {} {} hm

/-! ### Frames that meet the hypotheses -/

example : readFrame {} 0 (wireFrame 4 0 0 [0, 4, 0, 0, 1, 0, 0, 99, 0, 0, 0, 0] ++ [7]) =
    some (.ok (.settings { initialWindowSize := some 256 }, {}, [7])) := by decide +kernel

example : readFrame {} 0 (wireFrame 0 9 1 [1, 65, 66, 0] ++ []) = some (.ok (.data ⟨1, [65, 66, 0], 9⟩, {}, [])) := by decide +kernel

example : readFrame {} 0 (wireFrame 5 4 1 [0, 0, 0, 2, 0x82] ++ []) =
    some (.ok (.pushPromise { streamId := 1, promisedId := 2, flags := 4 }, {}, [])) := by decide +kernel

/-- A request head as it is received, and trailers. -/
example : readFrame {} 100 (wireFrame 1 5 3 [0x82, 0x84] ++ []) =
      some (.ok (.headers { streamId := 3, parts := { method := some .get, path := some [47] }, flags := 5 }, {}, [])) ∧
    PlainFields [(asciiBytes "grpc-status", asciiBytes "0")] ∧ Conn {} {} 1 := by
  refine ⟨by decide +kernel, ⟨by unfold IsPlainName; decide +kernel, by decide +kernel, by simp⟩,
    ⟨rfl, rfl, rfl⟩, ⟨rfl, Nat.zero_le _⟩, by simp, Or.inr (by simp)⟩

end Webparse
