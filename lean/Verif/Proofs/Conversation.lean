import Verif.Spec.Conversation
import Verif.Props.Http1
import Verif.Props.HeaderMap

/-! # Several messages on one connection -/

namespace Webparse
open Spec

theorem readChunks_mono {k j : Nat} {buf : Bytes} {v : List Bytes × Bytes} (h : readChunks k buf = .ok v) (hj : k ≤ j) : readChunks j buf = .ok v := by
  induction k generalizing j buf v with
  | zero => simp [readChunks] at h
  | succ k ih =>
    obtain ⟨j, rfl⟩ : ∃ i, j = i + 1 := ⟨j - 1, by omega⟩
    rw [readChunks, Res.bind_eq_ok] at h ⊢
    obtain ⟨⟨off, len⟩, h1, h⟩ := h
    refine ⟨(off, len), h1, ?_⟩
    simp only at h ⊢
    split at h
    · rename_i h0; rw [if_pos h0]; exact h
    · rename_i h0
      rw [if_neg h0]
      rw [Res.bind_eq_ok] at h ⊢
      obtain ⟨⟨ds, r⟩, h2, h⟩ := h
      exact ⟨(ds, r), ih h2 (by omega), h⟩

theorem encodeChunk_pos (d : Bytes) : 1 ≤ (encodeChunkData d).1.length := by simp [encodeChunkData]; omega

theorem chunks_length (pieces : List Bytes) : pieces.length ≤ (pieces.flatMap (fun d => (encodeChunkData d).1)).length := by
  induction pieces with
  | nil => simp
  | cons d ps ih =>
    rw [List.flatMap_cons, List.length_append, List.length_cons]
    have := encodeChunk_pos d
    omega

theorem readChunks_full (pieces : List Bytes) (rest : Bytes) (h : ∀ d ∈ pieces, d ≠ [] ∧ d.length < 2 ^ 63) :
    readChunks ((pieces.flatMap (fun d => (encodeChunkData d).1) ++ (encodeChunkData []).1 ++ rest).length + 1)
      (pieces.flatMap (fun d => (encodeChunkData d).1) ++ (encodeChunkData []).1 ++ rest) = .ok (pieces, rest) :=
  readChunks_mono (C42_sequence pieces rest h) (by
    have := chunks_length pieces
    simp only [List.length_append]
    omega)

/-- Chunks cut short. -/
theorem readChunks_cut (pieces : List Bytes) (h : ∀ d ∈ pieces, d ≠ [] ∧ d.length < 2 ^ 63) (q : Bytes)
    (hq : q <+: pieces.flatMap (fun d => (encodeChunkData d).1) ++ (encodeChunkData []).1)
    (hl : q.length < (pieces.flatMap (fun d => (encodeChunkData d).1) ++ (encodeChunkData []).1).length) (k : Nat) :
    readChunks k q = .err .partialData := by
  induction pieces generalizing k q with
  | nil =>
    cases k with
    | zero => rfl
    | succ k =>
      rw [List.flatMap_nil, List.nil_append] at hq hl
      have : q = (encodeChunkData []).1.take q.length := List.prefix_iff_eq_take.mp hq
      rw [readChunks, this, C42_prefix [] (by decide) _ hl]
      rfl
  | cons d ps ih =>
    cases k with
    | zero => rfl
    | succ k =>
      obtain ⟨hd, hlen⟩ := h d (by simp)
      rw [List.flatMap_cons, List.append_assoc] at hq hl
      by_cases hc : q.length < (encodeChunkData d).1.length
      · have h1 : q <+: (encodeChunkData d).1 := List.prefix_of_prefix_length_le hq (List.prefix_append _ _) (by omega)
        have : q = (encodeChunkData d).1.take q.length := List.prefix_iff_eq_take.mp h1
        rw [readChunks, this, C42_prefix d hlen _ hc]
        rfl
      · have h1 : (encodeChunkData d).1 <+: q := List.prefix_of_prefix_length_le (List.prefix_append _ _) hq (by omega)
        obtain ⟨q', rfl⟩ := h1
        rw [List.prefix_append_right_inj] at hq
        rw [List.length_append, List.length_append] at hl
        obtain ⟨off, h2, h3, h4⟩ := C42_roundtrip d q' hlen
        rw [readChunks, h2]
        simp only [Res.bind_ok]
        rw [if_neg (by simpa using hd), h4, ih (fun x hx => h x (by simp [hx])) q' hq (by omega)]
        rfl

theorem chunked_contains : containsBytes (asciiBytes "chunked") (asciiBytes "chunked") = true := by decide +kernel

theorem framed_read {hd : HeaderMap} {body wire : Bytes} (h : Framed hd body wire) {σ : Type} {parse : σ → Bytes → Res Nat × σ × Bytes}
    {header : σ → HeaderMap} {o m : σ} {buf rest : Bytes} {n : Nat} (hm : header m = hd) (hp : parse o buf = (.ok n, m, wire ++ rest)) :
    receive parse header o buf = .ok (m, body, rest) := by
  unfold receive
  rw [hp]
  simp only
  rw [hm]
  cases h with
  | none h1 h2 =>
    have e1 : hd.isChunked = false := by simp [HeaderMap.isChunked, h1]
    rw [if_neg (by simp [e1]), (C43_body_len_partial hd).1 h2]
    simp
  | length h1 h2 h3 h4 =>
    have e1 : hd.isChunked = false := by simp [HeaderMap.isChunked, h1]
    rw [if_neg (by simp [e1]), (C43_body_len_partial hd).2 _ _ h2 h3 h4]
    simp only [Res.bind_ok]
    rw [if_neg (by omega), if_neg (by simp)]
    simp
  | chunks h1 h2 =>
    have e1 : hd.isChunked = true := by simp only [HeaderMap.isChunked, h1]; exact chunked_contains
    rw [if_pos e1, readChunks_full _ rest h2]
    rfl

theorem framed_cut {hd : HeaderMap} {body wire : Bytes} (h : Framed hd body wire) {σ : Type} {parse : σ → Bytes → Res Nat × σ × Bytes}
    {header : σ → HeaderMap} {o m : σ} {buf q : Bytes} {n : Nat} (hm : header m = hd) (hp : parse o buf = (.ok n, m, q))
    (hq : q <+: wire) (hl : q.length < wire.length) : receive parse header o buf = .err .partialData := by
  unfold receive
  rw [hp]
  simp only
  rw [hm]
  cases h with
  | none h1 h2 => simp at hl
  | length h1 h2 h3 h4 =>
    have e1 : hd.isChunked = false := by simp [HeaderMap.isChunked, h1]
    rw [if_neg (by simp [e1]), (C43_body_len_partial hd).2 _ _ h2 h3 h4]
    simp only [Res.bind_ok]
    rw [if_neg (by omega), if_pos (by simpa using hl)]
  | chunks h1 h2 =>
    have e1 : hd.isChunked = true := by simp only [HeaderMap.isChunked, h1]; exact chunked_contains
    rw [if_pos e1, readChunks_cut _ h2 q hq hl]
    rfl

/-- Bytes that carry one message with its body for a parser. -/
def Carries {σ : Type} (parse : σ → Bytes → Res Nat × σ × Bytes) (header : σ → HeaderMap) (wire : Bytes) (m : σ) (body : Bytes) : Prop :=
  ∃ head wireBody, wire = head ++ wireBody ∧ Framed (header m) body wireBody ∧
    (∀ o x, ∃ n, parse o (head ++ x) = (.ok n, m, x)) ∧
    (∀ o k, k < head.length → ∃ s, parse o (head.take k) = (.err .partialData, s))

theorem carries_read {σ : Type} {parse : σ → Bytes → Res Nat × σ × Bytes} {header : σ → HeaderMap} {wire : Bytes} {m : σ} {body : Bytes}
    (h : Carries parse header wire m body) (o : σ) (rest : Bytes) : receive parse header o (wire ++ rest) = .ok (m, body, rest) := by
  obtain ⟨head, wb, rfl, hf, h1, -⟩ := h
  obtain ⟨n, hn⟩ := h1 o (wb ++ rest)
  rw [List.append_assoc]
  exact framed_read hf rfl hn

theorem carries_cut {σ : Type} {parse : σ → Bytes → Res Nat × σ × Bytes} {header : σ → HeaderMap} {wire : Bytes} {m : σ} {body : Bytes}
    (h : Carries parse header wire m body) (o : σ) {q : Bytes} (hq : q <+: wire) (hl : q.length < wire.length) :
    receive parse header o q = .err .partialData := by
  obtain ⟨head, wb, rfl, hf, h1, h2⟩ := h
  by_cases hc : q.length < head.length
  · have h3 : q <+: head := List.prefix_of_prefix_length_le hq (List.prefix_append _ _) (by omega)
    have : q = head.take q.length := List.prefix_iff_eq_take.mp h3
    obtain ⟨s, hs⟩ := h2 o q.length hc
    unfold receive
    rw [this, hs]
  · have h3 : head <+: q := List.prefix_of_prefix_length_le (List.prefix_append _ _) hq (by omega)
    obtain ⟨q', rfl⟩ := h3
    rw [List.prefix_append_right_inj] at hq
    rw [List.length_append, List.length_append] at hl
    obtain ⟨n, hn⟩ := h1 o q'
    exact framed_cut hf rfl hn hq (by omega)

theorem converse_carries {σ : Type} {parse : σ → Bytes → Res Nat × σ × Bytes} {header : σ → HeaderMap} (ms : List (Bytes × σ × Bytes))
    (h : ∀ m ∈ ms, Carries parse header m.1 m.2.1 m.2.2) (q : Bytes) (hq : ∀ o, receive parse header o q = .err .partialData)
    (k : Nat) (hk : ms.length < k) (o : σ) :
    converse parse header k o ((ms.map (·.1)).flatten ++ q) = (ms.map (·.2), .err .partialData) := by
  induction ms generalizing k o with
  | nil =>
    obtain ⟨k, rfl⟩ : ∃ i, k = i + 1 := ⟨k - 1, by simp at hk; omega⟩
    simp only [List.map_nil, List.flatten_nil, List.nil_append, converse, hq]
  | cons m ms ih =>
    obtain ⟨k, rfl⟩ : ∃ i, k = i + 1 := ⟨k - 1, by simp at hk; omega⟩
    have := carries_read (h m (by simp)) o ((ms.map (·.1)).flatten ++ q)
    simp only [List.map_cons, List.flatten_cons, List.append_assoc, converse, this,
      ih (fun x hx => h x (by simp [hx])) k (by simpa using hk) m.2.1]

theorem carries_response {s : SentResponse} {wire : Bytes} (h : s.Wire wire) : Carries Response.parseBuffer (·.header) wire s.message s.body := by
  obtain ⟨n, hn⟩ := h.bytes
  have h1 := fun r0 => (C40_roundtrip_iff_partial s.ops s.status s.version false r0 s.wireBody wire n hn).mpr h.clean
  obtain ⟨-, h2, h3⟩ := C39_response _ {} _ _ _ _ (h1 {})
  have h4 := fun r0 => C38_response _ r0 _ _ _ _ (h1 {})
  refine ⟨wire.take (wire.length - s.wireBody.length), s.wireBody, ?_, h.framed, fun o x => ⟨_, (C39_response _ o _ _ _ _ (h1 {})).2.2 x⟩, ?_⟩
  · conv_lhs => rw [← List.take_append_drop (wire.length - s.wireBody.length) wire, ← h2]
  · intro o k hk
    rw [List.length_take] at hk
    rw [List.take_take, Nat.min_eq_left (by omega)]
    exact h4 o k (by omega)

end Webparse
