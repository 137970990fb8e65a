import Verif.Spec.Chunk
import Verif.Props.Http1
import Verif.Proofs.Grammar

/-! C81: the language of `parse_chunk_data`. -/

namespace Webparse
open Spec

/-- C81, the full claim: a chunk is accepted exactly if RFC 9112 7.1 has it; the two numbers are the length of
its line and of its data. -/
def C81_statement : Prop :=
  ∀ (buf : Bytes) (off num : Nat), num + 2 < 2 ^ 64 →
    (parseChunkData buf = .ok (off, num) ↔ ∃ data, StartsWithChunk buf off data ∧ data.length = num)

theorem hexAll {s : Bytes} (h : ChunkSize s) : ∀ b ∈ s, isHex b = true :=
  fun b hb => by rw [isHex_iff]; exact h.2 b hb

theorem chunk_parts (buf : Bytes) : (∀ b ∈ buf, isHex b = true) ∨
    (∃ c r, buf = c :: r ∧ isHex c = false) ∨
    ∃ size c r, ChunkSize size ∧ isHex c = false ∧ buf = size ++ c :: r := by
  by_cases ha : buf.all isHex = true
  · exact .inl (List.all_eq_true.mp ha)
  · obtain ⟨t, b, s, rfl, h2, h3, _⟩ := scan_spec ha
    by_cases ht : t = []
    · subst ht; exact .inr (.inl ⟨b, s, rfl, h3⟩)
    · exact .inr (.inr ⟨t, b, s, ⟨ht, fun x hx => by rw [← isHex_iff]; exact List.all_eq_true.mp h2 x hx⟩, h3, rfl⟩)

/-- C81, partial: exactly what is accepted: a hexadecimal size, one line end (or a space), and after it at
least two bytes more than the size says. -/
theorem C81_taken_iff_partial (buf : Bytes) (off num : Nat) : parseChunkData buf = .ok (off, num) ↔
    ∃ size e rest, ChunkSize size ∧ (e = [13, 10] ∨ e = [10] ∨ e = [32]) ∧ buf = size ++ e ++ rest ∧
      hexVal size = num ∧ num + 2 < 2 ^ 64 ∧ num + 2 ≤ rest.length ∧ off = size.length + e.length := by
  constructor
  · intro h
    rcases chunk_parts buf with ha | ⟨c, r, rfl, hc⟩ | ⟨size, c, r, hs, hc, rfl⟩
    · rw [parseChunkData_hex ha] at h; cases h
    · rw [parseChunkData_nohex hc] at h; cases h
    · rw [parseChunkData_eq hs.1 (hexAll hs) c hc] at h
      unfold chunkTail at h
      by_cases h1 : digitsVal 16 size ≥ 2 ^ 64
      · rw [if_pos h1] at h; cases h
      rw [if_neg h1] at h
      cases hn : skipNewLine (c :: r) with
      | mk x val =>
        rw [hn] at h
        cases x with
        | err e => cases h
        | panic => cases h
        | ok u =>
          simp only at h
          by_cases h2 : digitsVal 16 size + 2 ≥ 2 ^ 64
          · rw [if_pos h2] at h; cases h
          rw [if_neg h2] at h
          by_cases h3 : digitsVal 16 size + 2 > val.length
          · rw [if_pos h3] at h; cases h
          rw [if_neg h3] at h
          cases h
          obtain ⟨e, he, hb⟩ := (skipNewLine_iff (c :: r) val).mp hn
          refine ⟨size, e, val, hs, he, by rw [hb, List.append_assoc], (digitsVal_hex (hexAll hs)).symm,
            by omega, by omega, ?_⟩
          rw [hb]; simp only [List.length_append]; omega
  · rintro ⟨size, e, rest, hs, he, rfl, rfl, h2, h3, rfl⟩
    obtain ⟨c, r, hce, hc⟩ : ∃ c r, e ++ rest = c :: r ∧ isHex c = false := by
      rcases he with rfl | rfl | rfl <;> exact ⟨_, _, rfl, by decide +kernel⟩
    have hn : skipNewLine (c :: r) = (.ok (), rest) := (skipNewLine_iff _ _).mpr ⟨e, he, hce.symm⟩
    rw [List.append_assoc, hce, parseChunkData_eq hs.1 (hexAll hs) c hc, hn, chunkTail,
      digitsVal_hex (hexAll hs), if_neg (by omega), if_neg (by omega), if_neg (by omega), ← hce]
    congr 2
    simp only [List.length_append]; omega

/-- C81, partial: what is told to be incomplete: nothing but digits, digits and a carriage return, a chunk
with too little after its line; and a size followed by a byte that belongs to no line end, which nothing that
arrives later can mend. -/
theorem C81_incomplete_iff_partial (buf : Bytes) : parseChunkData buf = .err .partialData ↔
    (∀ b ∈ buf, (hexDigit? b).isSome = true) ∨
    (∃ size, ChunkSize size ∧ hexVal size < 2 ^ 64 ∧ buf = size ++ [13]) ∨
    (∃ size c r, ChunkSize size ∧ hexVal size < 2 ^ 64 ∧ hexDigit? c = none ∧ c ≠ 13 ∧ c ≠ 10 ∧ c ≠ 32 ∧
      buf = size ++ c :: r) ∨
    ∃ size e rest, ChunkSize size ∧ (e = [13, 10] ∨ e = [10] ∨ e = [32]) ∧ buf = size ++ e ++ rest ∧
      hexVal size + 2 < 2 ^ 64 ∧ rest.length < hexVal size + 2 := by
  constructor
  · intro h
    rcases chunk_parts buf with ha | ⟨c, r, rfl, hc⟩ | ⟨size, c, r, hs, hc, rfl⟩
    · exact .inl fun b hb => by rw [← isHex_iff]; exact ha b hb
    · rw [parseChunkData_nohex hc] at h; cases h
    · right
      rw [parseChunkData_eq hs.1 (hexAll hs) c hc] at h
      unfold chunkTail at h
      rw [digitsVal_hex (hexAll hs)] at h
      by_cases h1 : hexVal size ≥ 2 ^ 64
      · rw [if_pos h1] at h; cases h
      rw [if_neg h1] at h
      cases hn : skipNewLine (c :: r) with
      | mk x val =>
        rw [hn] at h
        cases x with
        | panic => cases h
        | err e =>
          simp only at h
          cases h
          simp only [skipNewLine, nextByte, thenRead] at hn
          by_cases hc1 : c = 13
          · subst hc1
            cases r with
            | nil => exact .inl ⟨size, hs, by omega, rfl⟩
            | cons d r =>
              by_cases hd : d = 10
              · subst hd; simp [expectByte] at hn
              · simp [expectByte, hd] at hn
          · by_cases hc2 : c = 10
            · simp [hc2] at hn
            · by_cases hc3 : c = 32
              · simp [hc3] at hn
              · have := isHex_iff c
                rw [hc] at this
                exact .inr (.inl ⟨size, c, r, hs, by omega, by simpa using this.symm, hc1, hc2, hc3, rfl⟩)
        | ok u =>
          right; right
          simp only at h
          by_cases h2 : hexVal size + 2 ≥ 2 ^ 64
          · rw [if_pos h2] at h; cases h
          rw [if_neg h2] at h
          by_cases h3 : hexVal size + 2 > val.length
          · obtain ⟨e, he, hb⟩ := (skipNewLine_iff (c :: r) val).mp hn
            exact ⟨size, e, val, hs, he, by rw [hb, List.append_assoc], by omega, by omega⟩
          · rw [if_neg h3] at h; cases h
  · rintro (h | ⟨size, hs, h1, rfl⟩ | ⟨size, c, r, hs, h1, hc, hc1, hc2, hc3, rfl⟩ | ⟨size, e, rest, hs, he, rfl, h2, h3⟩)
    · exact parseChunkData_hex fun b hb => by rw [isHex_iff]; exact h b hb
    · rw [parseChunkData_eq hs.1 (hexAll hs) 13 (by decide +kernel), skipNewLine_cr, chunkTail,
        digitsVal_hex (hexAll hs), if_neg (by omega)]
    · rw [parseChunkData_eq hs.1 (hexAll hs) c (by rw [isHex_iff, hc]; rfl), chunkTail.eq_def,
        digitsVal_hex (hexAll hs), if_neg (by omega)]
      simp only [skipNewLine, nextByte, thenRead, if_neg hc1, if_neg hc2, if_neg hc3]
    · obtain ⟨c, r, hce, hc⟩ : ∃ c r, e ++ rest = c :: r ∧ isHex c = false := by
        rcases he with rfl | rfl | rfl <;> exact ⟨_, _, rfl, by decide +kernel⟩
      have hn : skipNewLine (c :: r) = (.ok (), rest) := (skipNewLine_iff _ _).mpr ⟨e, he, hce.symm⟩
      rw [List.append_assoc, hce, parseChunkData_eq hs.1 (hexAll hs) c hc, hn, chunkTail,
        digitsVal_hex (hexAll hs), if_neg (by omega), if_neg (by omega), if_pos (by omega)]

/-- C81, partial: every chunk of the RFC without extensions is accepted, however its size is written. -/
theorem C81_conforming_partial (size data rest : Bytes) (hs : ChunkSize size) (hd : hexVal size = data.length)
    (hl : data.length + 2 < 2 ^ 64) :
    parseChunkData (wireChunk size data ++ rest) = .ok (size.length + 2, data.length) :=
  parseChunkData_wire hs.1 (hexAll hs) (by rw [digitsVal_hex (hexAll hs), hd]) hl rest

/-- C81, partial: a whole body of such chunks, closed by one of size 0 (written with any number of zeros) and
no trailer, is read as its pieces, and what follows is left. -/
theorem C81_body_partial (chunks : List SizedChunk) (last : SizedChunk) (rest : Bytes) (hc : ∀ c ∈ chunks, c.Ok)
    (hn : ∀ c ∈ chunks, c.data ≠ []) (hl : last.Ok) (h0 : last.data = []) :
    readChunks (chunks.length + 1) (chunks.flatMap SizedChunk.wire ++ last.wire ++ rest) =
      .ok (chunks.map SizedChunk.data, rest) := by
  have one : ∀ (c : SizedChunk) (r : Bytes), c.Ok →
      parseChunkData (c.wire ++ r) = .ok (c.size.length + 2, c.data.length) ∧
      ((c.wire ++ r).drop (c.size.length + 2)).take c.data.length = c.data ∧
      (c.wire ++ r).drop (c.size.length + 2 + c.data.length + 2) = r := by
    intro c r ⟨h1, h2, h3⟩
    refine ⟨C81_conforming_partial _ _ _ h1 h2 (by omega), ?_, ?_⟩
    · have e : c.wire ++ r = (c.size ++ [13, 10]) ++ (c.data ++ ([13, 10] ++ r)) := by
        simp [SizedChunk.wire, wireChunk]
      rw [e, List.drop_left' (by simp), List.take_left]
    · have e : c.wire ++ r = (c.size ++ [13, 10] ++ c.data ++ [13, 10]) ++ r := by
        simp [SizedChunk.wire, wireChunk]
      rw [e, List.drop_left' (by simp; omega)]
  induction chunks with
  | nil =>
    obtain ⟨h1, -, h3⟩ := one last rest hl
    rw [h0, List.length_nil] at h3 h1
    rw [List.flatMap_nil, List.nil_append, List.length_nil, readChunks, h1]
    simp only [Res.bind_ok, if_true, h3, List.map_nil]
  | cons c chunks ih =>
    obtain ⟨h1, h2, h3⟩ := one c (chunks.flatMap SizedChunk.wire ++ last.wire ++ rest) (hc c (by simp))
    have e : (c :: chunks).flatMap SizedChunk.wire ++ last.wire ++ rest =
        c.wire ++ (chunks.flatMap SizedChunk.wire ++ last.wire ++ rest) := by simp [List.flatMap_cons]
    rw [e, List.length_cons, readChunks, h1]
    simp only [Res.bind_ok, h2, h3]
    rw [if_neg (by simpa using hn c (by simp)), ih (fun x hx => hc x (by simp [hx])) fun x hx => hn x (by simp [hx])]
    rfl

example : (∀ c ∈ [⟨asciiBytes "00A", asciiBytes "0123456789"⟩, ⟨asciiBytes "1", asciiBytes "x"⟩],
    SizedChunk.Ok c) ∧ SizedChunk.Ok ⟨asciiBytes "000", []⟩ := by
  unfold SizedChunk.Ok ChunkSize
  decide +kernel

/-- C81, violated: a chunk with extensions, which a recipient must ignore if it does not know them (7.1.1), is
never accepted; it is told to be incomplete, and still is when more has arrived, whatever it is. -/
theorem C81_violated_extension (size r more : Bytes) (hs : ChunkSize size) (hl : hexVal size < 2 ^ 64) :
    parseChunkData (size ++ 59 :: r ++ more) = .err .partialData :=
  (C81_incomplete_iff_partial _).mpr (.inr (.inr (.inl ⟨size, 59, r ++ more, hs, hl, by decide, by decide,
    by decide, by decide, by simp⟩)))

/-- C81, violated: so is a size followed by any byte that is no digit, line end or space: the code waits for
more of a message that can no longer be one. -/
theorem C81_violated_forever (size r more : Bytes) (c : UInt8) (hs : ChunkSize size) (hl : hexVal size < 2 ^ 64)
    (hc : hexDigit? c = none ∧ c ≠ 13 ∧ c ≠ 10 ∧ c ≠ 32) :
    parseChunkData (size ++ c :: r ++ more) = .err .partialData :=
  (C81_incomplete_iff_partial _).mpr (.inr (.inr (.inl ⟨size, c, r ++ more, hs, hl, hc.1, hc.2.1, hc.2.2.1,
    hc.2.2.2, by simp⟩)))

example : hexDigit? 88 = none ∧ ChunkSize (asciiBytes "1f") := by unfold ChunkSize; decide +kernel

/-- C81, violated: whatever two bytes stand after the data, they are taken for its line end. -/
theorem C81_violated_end (size data rest : Bytes) (a b : UInt8) (hs : ChunkSize size)
    (hd : hexVal size = data.length) (hl : data.length + 2 < 2 ^ 64) :
    parseChunkData (size ++ [13, 10] ++ data ++ [a, b] ++ rest) = .ok (size.length + 2, data.length) :=
  (C81_taken_iff_partial _ _ _).mpr ⟨size, [13, 10], data ++ [a, b] ++ rest, hs, .inl rfl, by simp, hd, hl,
    by simp, rfl⟩

/-- C81, violated: a space is taken for the end of the line of a chunk, so that the bytes after it count as
data. -/
theorem C81_violated_space (size data : Bytes) (a b : UInt8) (hs : ChunkSize size)
    (hd : hexVal size = data.length) (hl : data.length + 2 < 2 ^ 64) :
    parseChunkData (size ++ [32] ++ data ++ [a, b]) = .ok (size.length + 1, data.length) :=
  (C81_taken_iff_partial _ _ _).mpr ⟨size, [32], data ++ [a, b], hs, .inr (.inr rfl), by simp, hd, hl,
    by simp, rfl⟩

/-- C81, violated: trailer fields after the last chunk are not read; the first two bytes of them are lost and
the others left as if they belonged to the next message. -/
theorem C81_violated_trailer : readChunks 1 (asciiBytes "0\r\nA: b\r\n\r\nGET") = .ok ([], asciiBytes " b\r\n\r\nGET") := by
  decide +kernel

/-- C81 does not hold of the code. -/
theorem C81_violated : ¬ C81_statement := by
  intro h
  have h1 := (h (asciiBytes "1;x=y\r\na\r\n") 7 1 (by decide)).mpr ⟨asciiBytes "a",
    ⟨asciiBytes "1", asciiBytes ";x=y", [], by unfold ChunkSize; decide +kernel,
      .inr ⟨[], asciiBytes "x=y", by decide +kernel, by simp, by decide +kernel⟩, by decide +kernel,
      by decide +kernel, by decide +kernel⟩, by decide +kernel⟩
  revert h1
  decide +kernel

end Webparse
