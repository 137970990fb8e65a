import Verif.Proofs.Rfc9113Connection
import Verif.Props.FrameHeaders

/-! # C20 to C22, exactly: what becomes of padding, when the frames of a header block are those RFC 9113 asks for, and which frames are
read back -/

namespace Webparse
open Spec

/-- RFC 9113 6.1: the data of a padded payload, which has the pad length in front; a pad length of the length of the payload or more is
an error. -/
def rfcUnpad (padLength : UInt8) (body : Bytes) : Option Bytes :=
  if body.length + 1 ≤ padLength.toNat then none else some (body.take (body.length - padLength.toNat))

/-- Every DATA frame with the padding flag: it is refused if the pad length is over the length of the payload, and otherwise gives all
that follows the pad length. -/
theorem C20_read_partial (flag : UInt8) (hf : flag = 8 ∨ flag = 9) (id : Nat) (padLength : UInt8) (body rest : Bytes) (t : HeaderIndex) (m : Nat)
    (hid : 1 ≤ id ∧ id < 2 ^ 31) (hl : body.length + 1 < 2 ^ 24) :
    readFrame t m (wireFrame 0 flag id (padLength :: body) ++ rest) =
      if body.length + 1 < padLength.toNat then some (.err .tooMuchPadding)
      else some (.ok (.data { streamId := id, data := body, flags := flag }, t, rest)) := by
  have e : wireFrame 0 flag id (padLength :: body) = FrameHeader.encode ⟨(padLength :: body).length, .data, flag, id⟩ ++ (padLength :: body) :=
    (encode_wire .data flag id _).symm
  rw [e, List.append_assoc, readFrame_encode .data flag id _ rest t m (by simpa using hl) (by decide)
    (by rcases hf with rfl | rfl <;> decide) hid.2]
  unfold Frame.parse trimPadding
  simp only
  rw [if_pos (by rcases hf with rfl | rfl <;> decide)]
  simp only [List.length_cons]
  by_cases hp : body.length + 1 < padLength.toNat
  · rw [if_pos hp, if_pos hp]; rfl
  · rw [if_neg hp, if_neg hp]
    simp only [DataFrame.new, wrapFrame, withRest]
    rw [if_neg (by omega)]

/-- C20 holds of a padded DATA frame exactly if the pad length is zero or over the length of the payload; missing for C20: all others. -/
theorem C20_iff_partial (flag : UInt8) (hf : flag = 8 ∨ flag = 9) (id : Nat) (padLength : UInt8) (body rest : Bytes) (t : HeaderIndex) (m : Nat)
    (hid : 1 ≤ id ∧ id < 2 ^ 31) (hl : body.length + 1 < 2 ^ 24) :
    (match rfcUnpad padLength body with
      | some app => ∃ f, readFrame t m (wireFrame 0 flag id (padLength :: body) ++ rest) = some (.ok (.data f, t, rest)) ∧ f.data = app
      | none => ∃ e, readFrame t m (wireFrame 0 flag id (padLength :: body) ++ rest) = some (.err e)) ↔
      padLength = 0 ∨ body.length + 1 < padLength.toNat := by
  rw [C20_read_partial flag hf id padLength body rest t m hid hl]
  have h0 : padLength = 0 ↔ padLength.toNat = 0 := by
    constructor
    · rintro rfl; rfl
    · intro h; exact UInt8.toNat_inj.mp h
  rw [h0]
  unfold rfcUnpad
  by_cases h1 : body.length + 1 < padLength.toNat
  · rw [if_pos h1, if_pos (by omega)]
    simp [h1]
  · rw [if_neg h1]
    by_cases h2 : body.length + 1 ≤ padLength.toNat
    · rw [if_pos h2]
      simp
      omega
    · rw [if_neg h2]
      simp only [h1, or_false]
      constructor
      · rintro ⟨f, e, hd⟩
        simp only [Option.some.injEq, Res.ok.injEq, Prod.mk.injEq, Frame.data.injEq, and_true] at e
        subst e
        have := congrArg List.length hd
        simp only [List.length_take] at this
        omega
      · intro h
        exact ⟨_, rfl, by rw [h]; simp⟩

/-- A frame with a pad length of zero, one of one and one over the payload. -/
example : rfcUnpad 0 [7, 0] = some [7, 0] ∧ rfcUnpad 1 [7, 0] = some [7] ∧ rfcUnpad 2 [7, 0] = some [] ∧ rfcUnpad 3 [7, 0] = none := by
  decide +kernel

/-- C21 for one call: the octets are a HEADERS frame with END_STREAM, if requested, and CONTINUATION frames, the fragments make up the
block and are within the limit. -/
def AsRfcSplits (m id : Nat) (flags : UInt8) (block out : Bytes) : Prop :=
  ∃ frags, out = wireFrames (rfcHeaderFrames id flags frags) ∧ frags.flatten = block ∧ ∀ b ∈ frags, b.length ≤ m

theorem codeContinuations_payload (id : Nat) (flags : UInt8) (bs : List Bytes) :
    (codeContinuations id flags bs).map (·.2.2.2) = bs ∧ ∀ f ∈ codeContinuations id flags bs, f.2.2.1 = id := by
  induction bs with
  | nil => simp [codeContinuations]
  | cons b bs ih =>
    cases bs with
    | nil => simp [codeContinuations]
    | cons c cs =>
      simp only [codeContinuations] at ih ⊢
      exact ⟨by simp [ih.1], by simpa using ih.2⟩

theorem rfcContinuations_payload (id : Nat) (bs : List Bytes) :
    (rfcContinuations id bs).map (·.2.2.2) = bs ∧ ∀ f ∈ rfcContinuations id bs, f.2.2.1 = id := by
  induction bs with
  | nil => simp [rfcContinuations]
  | cons b bs ih =>
    cases bs with
    | nil => simp [rfcContinuations]
    | cons c cs =>
      simp only [rfcContinuations] at ih ⊢
      exact ⟨by simp [ih.1], by simpa using ih.2⟩

theorem codeHeaderFrames_payload (id : Nat) (flags : UInt8) (bs : List Bytes) :
    (codeHeaderFrames id flags bs).map (·.2.2.2) = bs ∧ ∀ f ∈ codeHeaderFrames id flags bs, f.2.2.1 = id := by
  match bs with
  | [] => simp [codeHeaderFrames]
  | [b] => simp [codeHeaderFrames]
  | b :: c :: cs =>
    have := codeContinuations_payload id flags (c :: cs)
    simp only [codeHeaderFrames]
    exact ⟨by simp [this.1], by simpa using this.2⟩

theorem rfcHeaderFrames_payload (id : Nat) (flags : UInt8) (bs : List Bytes) :
    (rfcHeaderFrames id flags bs).map (·.2.2.2) = bs ∧ ∀ f ∈ rfcHeaderFrames id flags bs, f.2.2.1 = id := by
  match bs with
  | [] => simp [rfcHeaderFrames]
  | [b] => simp [rfcHeaderFrames]
  | b :: c :: cs =>
    have := rfcContinuations_payload id (c :: cs)
    simp only [rfcHeaderFrames]
    exact ⟨by simp [this.1], by simpa using this.2⟩

/-- C21 holds of a call exactly if END_STREAM is not requested or there is one frame, and no fragment that the code makes is over the
limit.  Fragments of 2^24 bytes, which no frame can announce, are left out; missing for C21: calls for which the right side is false. -/
theorem C21_iff_partial (m : Nat) (t t' : HeaderIndex) (flags : UInt8) (id : Nat) (fields : List Header) (out : Bytes) (size : Nat)
    (hm : m < 2 ^ 24) (hi : id < 2 ^ 31) (hf : flags = 0 ∨ flags = 1)
    (h : HeadersFrame.encode { streamId := id, fields, flags } m t = .ok (out, size, t')) :
    ∃ frags block, frags ≠ [] ∧ encodeHeaders t fields = .ok (block, t') ∧ frags.flatten = block ∧
      out = wireFrames (codeHeaderFrames id flags frags) ∧
      ((∀ b ∈ frags, b.length < 2 ^ 24) →
        (AsRfcSplits m id flags block out ↔ (flags = 0 ∨ frags.length = 1) ∧ ∀ b ∈ frags, b.length ≤ m)) := by
  obtain ⟨frags, block, hne, h1, h2, h3, -⟩ := C21_block_intact_partial m t t' _ out size h
  refine ⟨frags, block, hne, h2, h3, h1, fun hs => ⟨?_, ?_⟩⟩
  · rintro ⟨gs, e, -, hg⟩
    have small : ∀ (l : List RawFrame) (bs : List Bytes), l.map (·.2.2.2) = bs → (∀ b ∈ bs, b.length < 2 ^ 24) →
        ∀ f ∈ l, f.2.2.2.length < 2 ^ 24 := by
      intro l bs e hb f hf
      exact hb _ (by rw [← e]; exact List.mem_map_of_mem hf)
    have hc := codeHeaderFrames_payload id flags frags
    have hr := rfcHeaderFrames_payload id flags gs
    have heq := wireFrames_inj _ _ (small _ _ hc.1 hs) (small _ _ hr.1 fun b hb => Nat.lt_of_le_of_lt (hg b hb) hm)
      (fun f hf => by rw [hc.2 f hf]; exact hi) (fun f hf => by rw [hr.2 f hf]; exact hi) (h1.symm.trans e)
    have hgs : frags = gs := by rw [← hc.1, ← hr.1, heq]
    subst hgs
    refine ⟨?_, hg⟩
    rcases hf with rfl | rfl
    · exact .inl rfl
    · match frags, hne, heq with
      | [b], _, _ => exact .inr rfl
      | b :: c :: cs, _, heq => simp [codeHeaderFrames, rfcHeaderFrames] at heq
  · rintro ⟨ho, hb⟩
    refine ⟨frags, ?_, h3, hb⟩
    rw [h1]
    rcases ho with rfl | ho
    · exact congrArg wireFrames (C21_no_end_stream_partial id frags)
    · match frags, ho with
      | [b], _ => exact congrArg wireFrames (C21_single_frame_partial id flags b hf)

/-- So it is violated by every header list that takes more than one frame, if END_STREAM is requested. -/
theorem C21_violated_always (m : Nat) (t t' : HeaderIndex) (id : Nat) (fields : List Header) (frags : List Bytes)
    (hm : m < 2 ^ 24) (hi : id < 2 ^ 31) (hb : blockFragments m t [] fields = .ok (frags, t')) (h2 : 2 ≤ frags.length)
    (hs : ∀ b ∈ frags, b.length < 2 ^ 24) :
    ∃ out size, HeadersFrame.encode { streamId := id, fields, flags := 1 } m t = .ok (out, size, t') ∧
      ¬ AsRfcSplits m id 1 frags.flatten out := by
  refine ⟨_, _, by unfold HeadersFrame.encode blockEncode; rw [hb]; rfl, ?_⟩
  have e : HeadersFrame.encode { streamId := id, fields, flags := 1 } m t =
      .ok (fragmentFrames 1 id frags, (frags.map fun b => 9 + b.length).sum, t') := by
    unfold HeadersFrame.encode blockEncode; rw [hb]; rfl
  obtain ⟨frags', block, hb', hne, h1, h2', h3, -⟩ := blockEncode_wire e
  rw [hb] at hb'
  simp only [Res.ok.injEq, Prod.mk.injEq, and_true] at hb'
  subst hb'
  rintro ⟨gs, e', -, hg⟩
  have hc := codeHeaderFrames_payload id 1 frags
  have hr := rfcHeaderFrames_payload id 1 gs
  have heq := wireFrames_inj _ _ (fun f hf => hs _ (by rw [← hc.1]; exact List.mem_map_of_mem hf))
    (fun f hf => Nat.lt_of_le_of_lt (hg _ (by rw [← hr.1]; exact List.mem_map_of_mem hf)) hm)
    (fun f hf => by rw [hc.2 f hf]; exact hi) (fun f hf => by rw [hr.2 f hf]; exact hi) (h3.symm.trans e')
  have hgs : frags = gs := by rw [← hc.1, ← hr.1, heq]
  subst hgs
  match frags, h2, heq with
  | b :: c :: cs, _, heq => simp [codeHeaderFrames, rfcHeaderFrames] at heq

theorem blockFragments_small (m : Nat) (hm : m < 2 ^ 26) (hs : List Header) : ∀ {te te' : HeaderIndex} {cur : Bytes} {frags : List Bytes},
    TableInv te → te.maxSize < 2 ^ 32 → (∀ h ∈ hs, h.1.length + h.2.length ≤ m) → cur.length ≤ 4 * m + 20 →
    blockFragments m te cur hs = .ok (frags, te') → ∀ b ∈ frags, b.length ≤ 4 * m + 20 := by
  induction hs with
  | nil =>
    intro te te' cur frags _ _ _ hc h
    simp only [blockFragments, Res.ok.injEq, Prod.mk.injEq] at h
    rw [← h.1]
    simpa using hc
  | cons x hs ih =>
    intro te te' cur frags hi ht hh hc h
    have hx := hh x (by simp)
    have hh' := fun y (hy : y ∈ hs) => hh y (by simp [hy])
    unfold blockFragments at h
    split at h
    next =>
      obtain ⟨⟨b, t1⟩, h1, h⟩ := (Res.bind_eq_ok ..).mp h
      obtain ⟨⟨rest, t2⟩, h2, h⟩ := (Res.bind_eq_ok ..).mp h
      simp only [Res.ok.injEq, Prod.mk.injEq] at h
      obtain ⟨i1, i2⟩ := encodeHeader_inv hi h1
      have hb := encodeHeader_length (by omega) (by omega) (tableInv_length hi ht) h1
      unfold encodedBound at hb
      have := ih i1 (by omega) hh' (by omega) h2
      rw [← h.1]
      intro c hc'
      rcases List.mem_cons.mp hc' with rfl | hc'
      · exact hc
      · exact this c hc'
    next hle =>
      obtain ⟨⟨b, t1⟩, h1, h⟩ := (Res.bind_eq_ok ..).mp h
      obtain ⟨i1, i2⟩ := encodeHeader_inv hi h1
      have hb := encodeHeader_length (by omega) (by omega) (tableInv_length hi ht) h1
      unfold encodedBound at hb
      exact ih i1 (by omega) hh' (by rw [List.length_append]; omega) h

/-- How far the limit can be missed: if every field, name and value together, is within it, no fragment is over four times the limit and
20 bytes.  Missing for C21: the limit itself. -/
theorem C21_size_partial (m : Nat) (t t' : HeaderIndex) (f : HeadersFrame) (out : Bytes) (size : Nat) (hm : m < 2 ^ 26) (ht : TableInv t)
    (hmax : t.maxSize < 2 ^ 32) (hh : ∀ h ∈ f.fields, h.1.length + h.2.length ≤ m) (h : f.encode m t = .ok (out, size, t')) :
    ∃ frags, out = wireFrames (codeHeaderFrames f.streamId f.flags frags) ∧ ∀ b ∈ frags, b.length ≤ 4 * m + 20 := by
  obtain ⟨frags, block, h1, -, -, -, h2, -⟩ := blockEncode_wire h
  exact ⟨frags, h2, blockFragments_small m hm f.fields ht hmax hh (by simp) h1⟩

/-- Two fields that take two frames. -/
example : (blockFragments 2 {} [] [([97], [98]), ([99], [100])]) =
    .ok ([[64, 129, 31, 129, 143], [64, 129, 39, 129, 147]], { table := [([99], [100]), ([97], [98])], size := 68, maxSize := 4096 }) := by
  decide +kernel

/-- A field that takes one, within the limit. -/
example : HeadersFrame.encode { streamId := 1, flags := 1, fields := [([97], [98])] } 16384 {} =
    .ok (wireFrame 1 5 1 [64, 129, 31, 129, 143], 14, { table := [([97], [98])], size := 34, maxSize := 4096 }) := by
  decide +kernel

/-! ## C22 -/

/-- What any HEADERS frame that fits one frame is read back as: its fields, and none of its parts. -/
theorem C22_read_partial {te td : HeaderIndex} {k : Nat} (id : Nat) (p : Parts) (hs : List Header) (flags : UInt8) (maxFrame maxList : Nat)
    (hf : flags = 0 ∨ flags = 1) (hid : id < 2 ^ 31) (hm : maxFrame < 2 ^ 24) (hh : PlainFields hs) (hc : Conn te td (hs.length + k))
    (hsz : headerListSize hs ≤ maxList) (hb : (hs.map encodedBound).sum ≤ maxFrame) :
    ∃ out n te' td', HeadersFrame.encode { streamId := id, fields := hs, parts := p, flags } maxFrame te = .ok (out, n, te') ∧
      n = out.length ∧ Conn te' td' k ∧ ∀ rest, readFrame td maxList (out ++ rest) =
        some (.ok (.headers { streamId := id, fields := hs, parts := {}, flags := flags ||| 4 }, td', rest)) := by
  have hp : PartsOk {} := ⟨by simp, by simp, by simp, by simp, by simp⟩
  have he : partHeaders {} = [] := rfl
  obtain ⟨block, te', td', h1, h2, h3⟩ := headers_block {} hp hs hh (by rw [he]; exact hc) maxList (by rw [he]; simpa using hsz)
  rw [he, List.append_nil] at h1
  obtain ⟨block2, te2, g1, g2, g3⟩ := blockFragments_single maxFrame IsPlainName plain_sep hs k [] hc.sync hc.inv hc.plain
    (fun h hm => ⟨(hh.plain h hm).1, (plain_lower (hh.plain h hm).1).2, (hh.sizes h hm).1, (hh.sizes h hm).2⟩) hc.room (by simpa using hb)
  rw [h1] at g1
  simp only [Res.ok.injEq, Prod.mk.injEq] at g1
  obtain ⟨rfl, rfl⟩ := g1
  simp only [List.nil_append, List.length_nil, Nat.zero_add] at g2 g3
  have hfl : flagSetEndHeaders flags = flags ||| 4 := by rcases hf with h | h <;> rw [h] <;> decide
  refine ⟨FrameHeader.encode ⟨block.length, .headers, flagSetEndHeaders flags, id⟩ ++ block, 9 + block.length, te', td', ?_, ?_, h2, fun rest => ?_⟩
  · simp [HeadersFrame.encode, blockEncode, g2, fragmentFrames]
  · simp
  · rw [List.append_assoc, readFrame_encode .headers _ id block rest td maxList (by omega) (by decide)
      (by rcases hf with h | h <;> rw [h] <;> decide) hid, hfl]
    unfold Frame.parse
    rw [trimPadding_unpadded _ _ _ _ _ (by rcases hf with h | h <;> rw [h] <;> decide)]
    simp only [h3 id (flags ||| 4) (by rcases hf with h | h <;> rw [h] <;> decide), withRest]

/-- C22 holds of such a frame exactly if it has no parts; missing for C22: all that have, which are all requests and responses. -/
theorem C22_iff_partial {te td te' : HeaderIndex} (id : Nat) (p : Parts) (hs : List Header) (flags : UInt8) (maxFrame maxList n : Nat)
    (out : Bytes) (hf : flags = 0 ∨ flags = 1) (hid : id < 2 ^ 31) (hm : maxFrame < 2 ^ 24) (hh : PlainFields hs)
    (hc : Conn te td hs.length) (hsz : headerListSize hs ≤ maxList) (hb : (hs.map encodedBound).sum ≤ maxFrame)
    (h : HeadersFrame.encode { streamId := id, fields := hs, parts := p, flags } maxFrame te = .ok (out, n, te')) :
    (∃ td', readFrame td maxList out = some (.ok (.headers { streamId := id, fields := hs, parts := p, flags := flags ||| 4 }, td', []))) ↔
      p = {} := by
  obtain ⟨out', n', te2, td', h1, -, -, h2⟩ := C22_read_partial (k := 0) id p hs flags maxFrame maxList hf hid hm hh hc hsz hb
  rw [h] at h1
  simp only [Res.ok.injEq, Prod.mk.injEq] at h1
  obtain ⟨rfl, -, -⟩ := h1
  have h3 := h2 []
  rw [List.append_nil] at h3
  rw [h3]
  constructor
  · rintro ⟨td2, e⟩
    simp only [Option.some.injEq, Res.ok.injEq, Prod.mk.injEq, Frame.headers.injEq, HeadersFrame.mk.injEq] at e
    exact e.1.2.2.2.1.symm
  · rintro rfl
    exact ⟨td', rfl⟩

/-- Trailers on a new connection meet the hypotheses. -/
example : Conn {} {} [(asciiBytes "x-y", [0, 255])].length ∧ PlainFields [(asciiBytes "x-y", [0, 255])] ∧
    headerListSize [(asciiBytes "x-y", [0, 255])] ≤ 16384 ∧ ([(asciiBytes "x-y", [0, 255])].map encodedBound).sum ≤ 16384 :=
  ⟨⟨⟨rfl, rfl, rfl⟩, ⟨rfl, by decide⟩, by simp, .inr (by decide)⟩, ⟨by unfold IsPlainName; decide +kernel, by decide +kernel, by simp⟩,
    by decide +kernel, by decide +kernel⟩

end Webparse
