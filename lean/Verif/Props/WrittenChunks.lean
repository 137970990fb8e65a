import Verif.Spec.WrittenChunks
import Verif.Props.Chunk
import Verif.Props.WrittenHead

/-! # C135: a body written in pieces is heard whole -/

namespace Webparse
open Spec

/-- C135: a body written in pieces with `encode_chunk_data` is heard as all of its pieces and nothing else, whatever follows. -/
def C135_statement : Prop :=
  ∀ (pieces : List Bytes) (rest body after : Bytes),
    HeardBody (writeChunked pieces ++ rest) body after ↔ body = pieces.flatten ∧ after = rest

theorem hex_no (b : UInt8) : (hexDigit? b).isSome = true → b ≠ 13 ∧ b ≠ 59 := by
  revert b; decide +kernel

theorem ext_no_cr {e : Bytes} (h : ChunkExt e) : (13 : UInt8) ∉ e := by
  rcases h with rfl | ⟨bl, r, rfl, h1, h2⟩
  · simp
  · intro hm
    simp only [List.mem_append, List.mem_cons] at hm
    rcases hm with hm | hm | hm
    · rcases h1 _ hm with h | h <;> exact absurd h (by decide)
    · exact absurd hm (by decide)
    · exact (h2 _ hm).1 rfl

/-- A size line can be read in one way. -/
theorem chunkLine_unique {size ext len x y : Bytes} (hs : ChunkSize size) (he : ChunkExt ext)
    (hl : ∀ b ∈ len, (hexDigit? b).isSome = true) (h : size ++ ext ++ [13, 10] ++ x = len ++ [13, 10] ++ y) :
    size = len ∧ x = y := by
  have h' : (size ++ ext) ++ 13 :: (10 :: x) = len ++ 13 :: (10 :: y) := by simpa using h
  obtain ⟨e1, e2⟩ := cut_unique 13 (by
    intro k
    rcases List.mem_append.mp k with k | k
    · exact (hex_no _ (hs.2 _ k)).1 rfl
    · exact ext_no_cr he k) (fun k => (hex_no _ (hl _ k)).1 rfl) h'
  have e3 : ext = [] := by
    rcases he with he | ⟨bl, r, rfl, -, -⟩
    · exact he
    · exact absurd rfl (hex_no 59 (hl 59 (by rw [← e1]; simp))).2
  subst e3
  exact ⟨by simpa using e1, by simpa using e2⟩

theorem written_len (data : Bytes) : ∃ len, (encodeChunkData data).1 = len ++ [13, 10] ++ data ++ [13, 10] ∧ ChunkSize len ∧
    hexVal len = data.length := by
  obtain ⟨len, h1, h2, h3, h4, -⟩ := C42_wire data
  exact ⟨len, h1, ⟨h2, h3⟩, h4⟩

/-- The only reading of the last chunk. -/
theorem lastChunk_unique {ds : List Bytes} {fields : List (Header × Bytes × Bytes)} {text : Bytes} (h : ChunkedBody ds fields text)
    (r after : Bytes) (e : text ++ after = (encodeChunkData []).1 ++ r) : ds = [] ∧ fields = [] ∧ after = r := by
  obtain ⟨len, hw, hl, hv⟩ := written_len []
  rw [hw] at e
  cases h with
  | @last size ext text fields hs h0 he ht =>
    obtain ⟨-, e2⟩ := chunkLine_unique (x := text ++ after) (y := [13, 10] ++ r) hs he hl.2 (by simpa using e)
    obtain ⟨g1, -, g2⟩ := section_unique ht [] r after (by simp) e2
    refine ⟨rfl, by simpa using g1, g2⟩
  | @more size ext data text ds fields hs hd hv' he ht =>
    obtain ⟨e1, -⟩ := chunkLine_unique (x := data ++ [13, 10] ++ text ++ after) (y := [13, 10] ++ r) hs he hl.2 (by simpa using e)
    rw [e1, hv] at hv'
    exact absurd (List.length_eq_zero_iff.mp hv'.symm) hd

/-- The only reading of a chunk that is not empty. -/
theorem oneChunk_unique {ds : List Bytes} {fields : List (Header × Bytes × Bytes)} {text : Bytes} (h : ChunkedBody ds fields text)
    {d : Bytes} (hd : d ≠ []) (r after : Bytes) (e : text ++ after = (encodeChunkData d).1 ++ r) :
    ∃ ds' text', ds = d :: ds' ∧ ChunkedBody ds' fields text' ∧ text' ++ after = r := by
  obtain ⟨len, hw, hl, hv⟩ := written_len d
  rw [hw] at e
  cases h with
  | @last size ext text fields hs h0 he ht =>
    obtain ⟨e1, -⟩ := chunkLine_unique (x := text ++ after) (y := d ++ [13, 10] ++ r) hs he hl.2 (by simpa using e)
    rw [e1, hv] at h0
    exact absurd (List.length_eq_zero_iff.mp h0) hd
  | @more size ext data text ds fields hs hd' hv' he ht =>
    obtain ⟨e1, e2⟩ := chunkLine_unique (x := data ++ [13, 10] ++ text ++ after) (y := d ++ [13, 10] ++ r) hs he hl.2 (by simpa using e)
    have hlen : data.length = d.length := by rw [← hv', e1, hv]
    obtain ⟨e3, e4⟩ := List.append_inj (s₁ := data) (t₁ := [13, 10] ++ text ++ after) (s₂ := d) (t₂ := [13, 10] ++ r) (by simpa using e2) hlen
    exact ⟨ds, text, by rw [e3], ht, by simpa using e4⟩

/-- The bytes of the pieces that are not empty, and of the end, are a chunked body. -/
theorem chunked_written : ∀ pieces : List Bytes, (∀ d ∈ pieces, d ≠ []) → ChunkedBody pieces [] (writeChunked pieces)
  | [], _ => by
    obtain ⟨len, hw, hl, hv⟩ := written_len []
    have : writeChunked [] = len ++ [] ++ [13, 10] ++ [13, 10] := by simp [writeChunked, hw]
    rw [this]
    exact .last hl hv (.inl rfl) .done
  | d :: pieces, h => by
    obtain ⟨len, hw, hl, hv⟩ := written_len d
    have : writeChunked (d :: pieces) = len ++ [] ++ [13, 10] ++ d ++ [13, 10] ++ writeChunked pieces := by simp [writeChunked, hw]
    rw [this]
    exact .more hl (h d List.mem_cons_self) hv (.inl rfl) (chunked_written pieces fun x hx => h x (List.mem_cons_of_mem _ hx))

theorem pieces_unique : ∀ (pieces : List Bytes), (∀ d ∈ pieces, d ≠ []) → ∀ (ds : List Bytes) (fields : List (Header × Bytes × Bytes))
    (text r after : Bytes), ChunkedBody ds fields text → text ++ after = pieces.flatMap (fun d => (encodeChunkData d).1) ++ ((encodeChunkData []).1 ++ r) →
    ds = pieces ∧ fields = [] ∧ after = r
  | [], _, ds, fields, text, r, after, ht, e => lastChunk_unique ht r after (by simpa using e)
  | d :: pieces, h, ds, fields, text, r, after, ht, e => by
    obtain ⟨ds', text', rfl, ht', e'⟩ := oneChunk_unique ht (h d List.mem_cons_self)
      (pieces.flatMap (fun d => (encodeChunkData d).1) ++ ((encodeChunkData []).1 ++ r)) after (by simpa using e)
    obtain ⟨g1, g2, g3⟩ := pieces_unique pieces (fun x hx => h x (List.mem_cons_of_mem _ hx)) ds' fields text' r after ht' e'
    exact ⟨by rw [g1], g2, g3⟩

/-- C135, exact: whatever the pieces, those before the first empty one are heard, and what was written after it is taken for the
next message. -/
theorem C135_heard_partial (pieces more : List Bytes) (rest body after : Bytes) (hp : ∀ d ∈ pieces, d ≠ []) :
    HeardBody (writeChunked (pieces ++ [] :: more) ++ rest) body after ↔
      body = pieces.flatten ∧ after = writeChunked more ++ rest := by
  have ew : writeChunked (pieces ++ [] :: more) ++ rest = writeChunked pieces ++ (writeChunked more ++ rest) := by
    simp [writeChunked]
  rw [ew]
  constructor
  · rintro ⟨ds, fields, text, ht, e, rfl⟩
    obtain ⟨g1, -, g3⟩ := pieces_unique pieces hp ds fields text (writeChunked more ++ rest) after ht
      (by rw [← e]; simp [writeChunked])
    exact ⟨by rw [g1], g3⟩
  · rintro ⟨rfl, rfl⟩
    exact ⟨pieces, [], _, chunked_written pieces hp, rfl, rfl⟩

/-- C135: a body of pieces of which none is empty is heard whole and in one way only. -/
theorem C135_whole_partial (pieces : List Bytes) (rest body after : Bytes) (hp : ∀ d ∈ pieces, d ≠ []) :
    HeardBody (writeChunked pieces ++ rest) body after ↔ body = pieces.flatten ∧ after = rest := by
  constructor
  · rintro ⟨ds, fields, text, ht, e, rfl⟩
    obtain ⟨g1, -, g3⟩ := pieces_unique pieces hp ds fields text rest after ht (by rw [← e]; simp [writeChunked])
    exact ⟨by rw [g1], g3⟩
  · rintro ⟨rfl, rfl⟩
    exact ⟨pieces, [], _, chunked_written pieces hp, rfl, rfl⟩

theorem first_empty : ∀ pieces : List Bytes, (∀ d ∈ pieces, d ≠ []) ∨ ∃ a b, pieces = a ++ [] :: b ∧ ∀ d ∈ a, d ≠ []
  | [] => .inl (by simp)
  | d :: pieces => by
    by_cases hd : d = []
    · exact .inr ⟨[], pieces, by rw [hd]; rfl, by simp⟩
    · rcases first_empty pieces with h | ⟨a, b, rfl, h⟩
      · exact .inl fun x hx => by
          rcases List.mem_cons.mp hx with rfl | hx
          · exact hd
          · exact h x hx
      · refine .inr ⟨d :: a, b, rfl, fun x hx => ?_⟩
        rcases List.mem_cons.mp hx with rfl | hx
        · exact hd
        · exact h x hx

theorem writeChunked_ne (pieces : List Bytes) : 0 < (writeChunked pieces).length := by
  obtain ⟨len, hw, -, -⟩ := written_len []
  simp only [writeChunked, hw, List.length_append, List.length_cons, List.length_nil]
  omega

/-- C135 holds of a list of pieces exactly if none is empty. -/
theorem C135_iff_partial (pieces : List Bytes) (rest : Bytes) :
    HeardBody (writeChunked pieces ++ rest) pieces.flatten rest ↔ ∀ d ∈ pieces, d ≠ [] := by
  constructor
  · intro h
    rcases first_empty pieces with hp | ⟨a, b, rfl, ha⟩
    · exact hp
    · have := congrArg List.length ((C135_heard_partial a b rest _ _ ha).mp h).2
      have := writeChunked_ne b
      simp only [List.length_append] at *
      omega
  · exact fun hp => (C135_whole_partial pieces rest _ _ hp).mpr ⟨rfl, rfl⟩

/-- C135, violated for all bodies with an empty piece: something other than the body is heard, or a message that was never sent
begins in the middle of it. -/
theorem C135_violated_always (pieces : List Bytes) (rest : Bytes) (h : [] ∈ pieces) :
    ¬ HeardBody (writeChunked pieces ++ rest) pieces.flatten rest :=
  fun k => (C135_iff_partial pieces rest).mp k [] h rfl

theorem C135_violated : ¬ C135_statement := fun h =>
  C135_violated_always [asciiBytes "a", [], asciiBytes "b"] [] (by simp) ((h _ _ _ _).mpr ⟨rfl, rfl⟩)

/-- The whole of a body of two pieces, and one that is cut by an empty piece. -/
example : HeardBody (asciiBytes "3\r\nabc\r\n1\r\nd\r\n0\r\n\r\nGET") (asciiBytes "abcd") (asciiBytes "GET") ∧
    HeardBody (writeChunked [asciiBytes "abc", [], asciiBytes "d"]) (asciiBytes "abc") (asciiBytes "1\r\nd\r\n0\r\n\r\n") := by
  constructor
  · have := (C135_whole_partial [asciiBytes "abc", asciiBytes "d"] (asciiBytes "GET") _ _ (by decide)).mpr ⟨rfl, rfl⟩
    exact this
  · have := (C135_heard_partial [asciiBytes "abc"] [asciiBytes "d"] [] _ _ (by decide)).mpr ⟨rfl, rfl⟩
    simp only [List.append_nil] at this
    exact this

end Webparse
