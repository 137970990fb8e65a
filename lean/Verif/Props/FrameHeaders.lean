import Verif.Proofs.Connection
import Verif.Props.Frame

/-! C21-C23: HEADERS frames, and whole HTTP/2 connections. -/

namespace Webparse
open Spec

/-! ## C21 -/

/-- C21, full claim. -/
def C21_statement : Prop :=
  ∀ (m : Nat) (t t' : HeaderIndex) (flags : UInt8) (id : Nat) (fields : List Header) (out : Bytes)
    (size : Nat), 1 ≤ m → flags = 0 ∨ flags = 1 →
    HeadersFrame.encode { streamId := id, fields, flags } m t = .ok (out, size, t') →
    ∃ frags block, out = wireFrames (rfcHeaderFrames id flags frags) ∧
      encodeHeaders t fields = .ok (block, t') ∧ frags.flatten = block ∧
      (∀ b ∈ frags, b.length ≤ m) ∧ size = out.length

/-- C21 is false, first reason: with several frames END_STREAM goes to the last CONTINUATION. -/
theorem C21_violated_by_end_stream : ¬ C21_statement := by
  intro h
  have e : HeadersFrame.encode { streamId := 1, flags := 1, fields := [([97], [98]), ([99], [100])] } 2 {}
      = .ok (wireFrame 1 0 1 [64, 129, 31, 129, 143] ++ wireFrame 9 5 1 [64, 129, 39, 129, 147], 28,
        { table := [([99], [100]), ([97], [98])], size := 68, maxSize := 4096 }) := by
    decide +kernel
  obtain ⟨frags, block, h1, _⟩ := h 2 {} _ 1 1 _ _ _ (by decide) (Or.inr rfl) e
  have h4 := congrArg (fun l : Bytes => l[4]?) h1
  have hl : (wireFrame 1 0 1 [64, 129, 31, 129, 143] ++ wireFrame 9 5 1 [64, 129, 39, 129, 147])[4]?
      = some 0 := by decide +kernel
  simp only [hl] at h4
  match frags, h4 with
  | [], h4 => simp [rfcHeaderFrames, wireFrames] at h4
  | [b], h4 => simp [rfcHeaderFrames, wireFrames, wireFrame] at h4; exact absurd h4 (by decide)
  | b :: c :: cs, h4 => simp [rfcHeaderFrames, wireFrames, wireFrame] at h4

/-- C21 is false, second reason: the limit is compared with the plain, not the encoded, size; ten
octets that Huffman coding makes longer are written in a frame of more than ten. -/
theorem C21_violated_by_size : ¬ C21_statement := by
  intro h
  have e : HeadersFrame.encode { streamId := 1, flags := 0, fields := [([97], [1, 1, 1, 1])] } 5 {}
      = .ok (wireFrame 1 4 1 [64, 129, 31, 140, 255, 255, 177, 255, 255, 99, 255, 254, 199, 255, 253, 143],
          25, { table := [([97], [1, 1, 1, 1])], size := 37, maxSize := 4096 }) := by
    decide +kernel
  obtain ⟨frags, block, h1, _, _, h2, _⟩ := h 5 {} _ 0 1 _ _ _ (by decide) (Or.inl rfl) e
  have h4 := congrArg (fun l : Bytes => l[2]?) h1
  have hl : (wireFrame 1 4 1 [64, 129, 31, 140, 255, 255, 177, 255, 255, 99, 255, 254, 199, 255, 253, 143])[2]?
      = some 16 := by decide +kernel
  simp only [hl] at h4
  match frags, h2, h4 with
  | [], h2, h4 => simp [rfcHeaderFrames, wireFrames] at h4
  | [b], h2, h4 =>
    have := h2 b (by simp)
    simp [rfcHeaderFrames, wireFrames, wireFrame, byteAt] at h4
    have h5 := congrArg UInt8.toNat h4
    simp [UInt8.toNat_ofNat'] at h5
    omega
  | b :: c :: cs, h2, h4 =>
    have := h2 b (by simp)
    simp [rfcHeaderFrames, wireFrames, wireFrame, byteAt] at h4
    have h5 := congrArg UInt8.toNat h4
    simp [UInt8.toNat_ofNat'] at h5
    omega

/-- C21, partial: the frames are one HEADERS and then CONTINUATION frames on the stream, END_HEADERS
exactly on the last (the flags given should not hold it already), the fragments make up the block
that encoding all fields in order gives, and the size returned is right.
Missing: END_STREAM on the HEADERS frame when there are several frames (it is on the last one), and
the bound on the fragments. -/
theorem C21_block_intact_partial (m : Nat) (t t' : HeaderIndex) (f : HeadersFrame) (out : Bytes)
    (size : Nat) (h : f.encode m t = .ok (out, size, t')) :
    ∃ frags block, frags ≠ [] ∧ out = wireFrames (codeHeaderFrames f.streamId f.flags frags) ∧
      encodeHeaders t f.fields = .ok (block, t') ∧ frags.flatten = block ∧ size = out.length := by
  obtain ⟨frags, block, _, h1, h2, h3, h4, h5⟩ := blockEncode_wire h
  exact ⟨frags, block, h1, h4, h2, h3, h5⟩

/-- C21, partial: with one frame everything is as the RFC asks. -/
theorem C21_single_frame_partial (id : Nat) (flags : UInt8) (b : Bytes) (h : flags = 0 ∨ flags = 1) :
    codeHeaderFrames id flags [b] = rfcHeaderFrames id flags [b] := by
  rcases h with rfl | rfl <;> rfl

/-- C21, partial: without END_STREAM the frames are those of the RFC, however many. -/
theorem C21_no_end_stream_partial (id : Nat) (frags : List Bytes) :
    codeHeaderFrames id 0 frags = rfcHeaderFrames id 0 frags := by
  have hc : ∀ bs, codeContinuations id 0 bs = rfcContinuations id bs := by
    intro bs
    induction bs with
    | nil => rfl
    | cons b bs ih =>
      cases bs with
      | nil => rfl
      | cons c cs => simp only [codeContinuations, rfcContinuations] at ih ⊢; rw [ih]
  match frags with
  | [] => rfl
  | [b] => rfl
  | b :: c :: cs => simp only [codeHeaderFrames, rfcHeaderFrames, hc]

/-! ## C22 -/

/-- C22, full claim: a HEADERS frame with its parts, encoded into one frame with a fresh encoder, is
read back by a fresh decoder. -/
def C22_statement : Prop :=
  ∀ (id : Nat) (p : Parts) (hs : List Header) (out : Bytes) (n : Nat) (te : HeaderIndex),
    1 ≤ id → id < 2 ^ 31 → PartsOk p → PlainFields hs →
    ((hs ++ partHeaders p).map encodedBound).sum ≤ 16384 →
    HeadersFrame.encode { streamId := id, fields := hs, parts := p, flags := 0 } 16384 {} =
      .ok (out, n, te) →
    ∃ td, readFrame {} 16384 out =
      some (.ok (.headers { streamId := id, fields := hs, parts := p, flags := 4 }, td, []))

/-- C22 is false: the encoder never writes the parts. -/
theorem C22_violated : ¬ C22_statement := by
  intro h
  have e : HeadersFrame.encode { streamId := 1, fields := [([97], [98])], parts := { method := some .get }, flags := 0 } 16384 {}
      = .ok (wireFrame 1 4 1 [64, 129, 31, 129, 143], 14,
        { table := [([97], [98])], size := 34, maxSize := 4096 }) := by decide +kernel
  obtain ⟨td, h1⟩ := h 1 { method := some .get } [([97], [98])] _ _ _ (by decide) (by decide)
    ⟨by simp, by simp, by simp, by simp, by simp⟩
    ⟨by unfold IsPlainName; decide +kernel, by decide, by decide⟩ (by decide +kernel) e
  have h2 : readFrame {} 16384 (wireFrame 1 4 1 [64, 129, 31, 129, 143]) =
      some (.ok (.headers { streamId := 1, fields := [([97], [98])], parts := {}, flags := 4 },
        { table := [([97], [98])], size := 34, maxSize := 4096 }, [])) := by decide +kernel
  rw [h2] at h1
  simp at h1

/-- C22, partial: once `Parts::encode_header` has put the parts into the fields (as the library does
for requests), the block, collected from however many frames, gives back fields and parts, and the
two ends stay in step. -/
theorem C22_block_roundtrip_partial {te td : HeaderIndex} {k : Nat} (p : Parts) (hp : PartsOk p)
    (hs : List Header) (hh : PlainFields hs)
    (hc : Conn te td (hs.length + (partHeaders p).length + k)) (maxFrame maxList : Nat)
    (hsz : headerListSize (hs ++ partHeaders p) ≤ maxList) (id : Nat) (flags : UInt8)
    (hfl : flags &&& 0x20 = 0) :
    ∃ m out n te' td' frags, p.encodeHeader hs = .ok m ∧
      HeadersFrame.encode { streamId := id, fields := m, flags } maxFrame te = .ok (out, n, te') ∧
      n = out.length ∧ out = wireFrames (codeHeaderFrames id flags frags) ∧
      HeadersFrame.parse { streamId := id, flags } frags.flatten td maxList =
        some (.ok ({ streamId := id, fields := hs, parts := p, flags }, td')) ∧ Conn te' td' k := by
  obtain ⟨block, te', td', h1, h2, h3⟩ := headers_block p hp hs hh hc maxList hsz
  obtain ⟨frags, hf⟩ := blockFragments_ok maxFrame _ _ _ [] _ h1
  have he : HeadersFrame.encode { streamId := id, fields := hs ++ partHeaders p, flags } maxFrame te
      = .ok (fragmentFrames flags id frags, (frags.map fun b => 9 + b.length).sum, te') := by
    simp [HeadersFrame.encode, blockEncode, hf]
  obtain ⟨frags2, block2, a1, a2, a3, a4, a5, a6⟩ := blockEncode_wire he
  simp only at a1 a3
  rw [hf] at a1
  simp only [Res.ok.injEq, Prod.mk.injEq, and_true] at a1
  subst a1
  rw [h1] at a3
  simp only [Res.ok.injEq, Prod.mk.injEq, and_true] at a3
  subst a3
  refine ⟨_, _, _, te', td', frags, encodeHeader_parts p hp hs hh, he, a6, a5, ?_, h2⟩
  rw [a4]
  exact h3 id flags (by unfold flagIsPriority; rw [hfl]; decide)

/-- C22, partial, whole connections: control frames, messages' headers and bodies of any size, in any
order and number, written with one encoder, are read back with one decoder as what was sent.
Not covered: header blocks too big for one frame (see C21; CONTINUATION frames are refused by
`Frame::parse`), and, if the table limit is 2112 or more, more than 65 headers in all (see C09). -/
theorem C22_connection_partial (maxFrame maxList limit : Nat) (hm : 1 ≤ maxFrame) (hm2 : maxFrame < 2 ^ 24)
    (sent : List Sent) (hs : ∀ s ∈ sent, SentOk maxFrame maxList s)
    (hroom : limit < 2112 ∨ (sent.map Sent.headerCount).sum ≤ 65) :
    ∃ frames bytes te received, Zip (fun s f => s.frame = .ok f) sent frames ∧
      writeFrames maxFrame { maxSize := limit } frames = some (.ok (bytes, te)) ∧
      Zip (ReceivedAs maxFrame) sent received ∧
      readFrames maxList received.flatten.length { maxSize := limit } bytes =
        some (.ok received.flatten) := by
  have key : ∀ (sent : List Sent), (∀ s ∈ sent, SentOk maxFrame maxList s) →
      ∀ te td, Conn te td (sent.map Sent.headerCount).sum →
      ∃ frames bytes te' td' received, Zip (fun s f => s.frame = .ok f) sent frames ∧
        writeFrames maxFrame te frames = some (.ok (bytes, te')) ∧
        Zip (ReceivedAs maxFrame) sent received ∧ ReadsAs maxList td bytes received.flatten td' := by
    intro sent
    induction sent with
    | nil => intro _ te td _; exact ⟨[], [], te, td, [], .nil, rfl, .nil, readsAs_nil _ _⟩
    | cons s sent ih =>
      intro hs te td hc
      simp only [List.map_cons, List.sum_cons] at hc
      obtain ⟨f, b, n, te1, td1, fs, a1, a2, a3, a4, a5, a6⟩ :=
        sent_one maxFrame maxList hm hm2 s (hs s (by simp)) hc
      obtain ⟨frames, bytes, te', td', received, b1, b2, b3, b4⟩ :=
        ih (fun x hx => hs x (by simp [hx])) te1 td1 a4
      refine ⟨f :: frames, b ++ bytes, te', td', fs :: received, .cons a1 b1, ?_, .cons a5 b3, ?_⟩
      · simp only [writeFrames, a2, b2]
      · rw [List.flatten_cons]; exact readsAs_append a6 b4
  obtain ⟨frames, bytes, te', td', received, b1, b2, b3, b4⟩ :=
    key sent hs { maxSize := limit } { maxSize := limit }
      ⟨⟨rfl, rfl, rfl⟩, ⟨rfl, Nat.zero_le _⟩, by simp, by
        rcases hroom with h | h
        · exact Or.inl h
        · exact Or.inr (by simpa using h)⟩
  refine ⟨frames, bytes, te', received, b1, b2, b3, ?_⟩
  have := b4 [] 0 [] rfl
  simpa using this

/-- A request with a body, a response and control frames meet the hypotheses. -/
example : ∀ s ∈ [Sent.control (.settings {}), .headers 1 false
      { method := some .post, scheme := some .https, authority := some (asciiBytes "a.b"), path := some (asciiBytes "/") }
      [(asciiBytes "x-y", [0, 255])],
    .data 1 true (List.replicate 100000 7), .headers 1 true { status := some 404 } [], .control (.ping ⟨false, [1, 2, 3, 4, 5, 6, 7, 8]⟩)],
    SentOk 16384 65536 s := by
  have u1 : utf8Valid (asciiBytes "a.b") = true := by decide +kernel
  have u2 : utf8Valid (asciiBytes "/") = true := by decide +kernel
  have p1 : PlainFields [(asciiBytes "x-y", [0, 255])] :=
    ⟨by unfold IsPlainName; decide +kernel, by decide +kernel, by simp⟩
  have p2 : PlainFields [] := ⟨by simp, by simp, by simp⟩
  intro s hs
  simp only [List.mem_cons, List.not_mem_nil, or_false] at hs
  rcases hs with rfl | rfl | rfl | rfl | rfl
  · simp [SentOk, ControlFrameOk, LegalSettings, OptAll]
  · refine ⟨by decide, ⟨?_, ?_, ?_, ?_, ?_⟩, p1, by decide +kernel, by decide +kernel⟩ <;>
      simp [u1, u2] <;> decide +kernel
  · simp [SentOk]
  · exact ⟨by decide, ⟨by simp, by simp, by simp, by simp, by simp⟩, p2, by decide +kernel, by decide +kernel⟩
  · simp [SentOk, ControlFrameOk]

/-! ## C23 -/

/-- C23: a HEADERS payload is accepted only if the decoded header list (after the priority fields,
if any) is within the limit; then the list is what the HPACK decoder gives. -/
theorem C23_limit (f f' : HeadersFrame) (buf : Bytes) (t t' : HeaderIndex) (m : Nat)
    (h : f.parse buf t m = some (.ok (f', t'))) :
    ∃ hs, decode t (if f.flags &&& 0x20 = 0x20 then buf.drop 5 else buf) = some (.ok (hs, t')) ∧
      headerListSize hs ≤ m := by
  unfold HeadersFrame.parse at h
  cases hd : f.loadDep buf with
  | err e => simp [hd] at h
  | panic => simp [hd] at h
  | ok r =>
    obtain ⟨f1, buf1⟩ := r
    simp only [hd] at h
    have hb : buf1 = if f.flags &&& 0x20 = 0x20 then buf.drop 5 else buf := by
      unfold HeadersFrame.loadDep flagIsPriority at hd
      by_cases hp : f.flags &&& 0x20 = 0x20
      · rw [if_pos (by simp [hp])] at hd
        rw [if_pos hp]
        rw [Res.bind_eq_ok] at hd
        obtain ⟨⟨dep, rest⟩, hl, hd⟩ := hd
        simp only [Res.ok.injEq, Prod.mk.injEq] at hd
        obtain ⟨_, rfl⟩ := hd
        unfold StreamDependency.load at hl
        split at hl
        · simp at hl
        · simp only [Res.ok.injEq, Prod.mk.injEq] at hl
          exact hl.2.symm
      · rw [if_neg (by simp [hp])] at hd
        rw [if_neg hp]
        simp only [Res.ok.injEq, Prod.mk.injEq] at hd
        exact hd.2.symm
    rw [← hb]
    cases hdec : decode t buf1 with
    | none => simp [hdec] at h
    | some r =>
      cases r with
      | err e => simp [hdec] at h
      | panic => simp [hdec] at h
      | ok r =>
        obtain ⟨hs, t2⟩ := r
        simp only [hdec, Option.some.injEq] at h
        rw [Res.bind_eq_ok] at h
        obtain ⟨f2, ha, h⟩ := h
        simp only [Res.ok.injEq, Prod.mk.injEq] at h
        obtain ⟨_, rfl⟩ := h
        refine ⟨hs, rfl, ?_⟩
        have := addFields_size m hs 0 f1 f2 (by omega) ha
        omega

/-- The boundary is met exactly: a list of 34 octets passes a limit of 34 and not one of 33. -/
example : HeadersFrame.parse { streamId := 1, flags := 4 } [64, 129, 31, 129, 143] {} 34 =
    some (.ok ({ streamId := 1, flags := 4, fields := [([97], [98])] },
      { table := [([97], [98])], size := 34, maxSize := 4096 })) := by decide +kernel
example : HeadersFrame.parse { streamId := 1, flags := 4 } [64, 129, 31, 129, 143] {} 33 =
    some (.err .headerIndexOutOfBounds) := by decide +kernel

end Webparse
