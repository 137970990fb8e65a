import Verif.Model.Answers
import Verif.Props.Http1
import Verif.Props.Frame
import Verif.Props.Rfc6455

/-! # C104: `is_partial` -/

namespace Webparse
open Spec

/-- A reader: the error it gives for these bytes, if any. -/
def errorOf {α : Type} : Res α → Option Error
  | .err e => some e
  | _ => none

/-- C104, the claim: if the bytes there are the beginning of something that can be read, the error says so. -/
def C104_statement : Prop :=
  (∀ (r r' : Response) (buf rest : Bytes) (n : Nat), r.parseBuffer buf = (.ok n, r', rest) → ∀ k, k < n →
    ∃ e, errorOf (r.parseBuffer (buf.take k)).1 = some e ∧ e.isPartial = true) ∧
  (∀ (r r' : Request) (buf rest : Bytes) (n : Nat), r.parseBuffer buf = (.ok n, r', rest) → ∀ k, k < n →
    ∃ e, errorOf (r.parseBuffer (buf.take k)).1 = some e ∧ e.isPartial = true) ∧
  (∀ (data : Bytes), data.length < 2 ^ 63 → ∀ k, k < (encodeChunkData data).1.length →
    ∃ e, errorOf (parseChunkData ((encodeChunkData data).1.take k)) = some e ∧ e.isPartial = true) ∧
  (∀ (buf rest : Bytes) (h : FrameHeader), FrameHeader.parse buf = .ok (h, rest) → ∀ k, k < 9 →
    ∃ e, errorOf (FrameHeader.parse (buf.take k)) = some e ∧ e.isPartial = true) ∧
  (∀ (masked : Bool) (buf rest : Bytes) (f : WsFrame), readFrameSt masked buf = (.ok f, rest) →
    ∀ k, k < buf.length - rest.length → ∃ e, errorOf (readFrameSt masked (buf.take k)).1 = some e ∧ e.isPartial = true)

/-- C104: it does for heads of HTTP/1 messages and for chunks. -/
theorem C104_http1_partial :
    (∀ (r r' : Response) (buf rest : Bytes) (n : Nat), r.parseBuffer buf = (.ok n, r', rest) → ∀ k, k < n →
      ∃ e, errorOf (r.parseBuffer (buf.take k)).1 = some e ∧ e.isPartial = true) ∧
    (∀ (r r' : Request) (buf rest : Bytes) (n : Nat), r.parseBuffer buf = (.ok n, r', rest) → ∀ k, k < n →
      ∃ e, errorOf (r.parseBuffer (buf.take k)).1 = some e ∧ e.isPartial = true) ∧
    (∀ (data : Bytes), data.length < 2 ^ 63 → ∀ k, k < (encodeChunkData data).1.length →
      ∃ e, errorOf (parseChunkData ((encodeChunkData data).1.take k)) = some e ∧ e.isPartial = true) := by
  refine ⟨fun r r' buf rest n h k hk => ?_, fun r r' buf rest n h k hk => ?_, fun data hd k hk => ?_⟩
  · obtain ⟨s, hs⟩ := C38_response r r r' buf rest n h k hk
    rw [hs]; exact ⟨_, rfl, rfl⟩
  · obtain ⟨s, hs⟩ := C38_request r r r' buf rest n h k hk
    rw [hs]; exact ⟨_, rfl, rfl⟩
  · rw [C42_prefix data hd k hk]; exact ⟨_, rfl, rfl⟩

/-- A request head that can be read. -/
example : (({} : Request).parseBuffer (asciiBytes "GET / HTTP/1.1\r\nhost: a\r\n\r\n")).1 = .ok 27 := by decide +kernel

/-- C104, violated: the reader of HTTP/2 frame headers never says so, whatever the bytes; for fewer than nine it says `Short`. -/
theorem C104_violated_http2 (buf : Bytes) :
    (∀ e, errorOf (FrameHeader.parse buf) = some e → e.isPartial = false) ∧
    (buf.length < 9 → errorOf (FrameHeader.parse buf) = some .short) := by
  constructor
  · intro e he
    by_cases h : buf.length < 9
    · rw [(C14_short buf).mpr h] at he
      cases he; rfl
    · match buf, h with
      | b0 :: b1 :: b2 :: b3 :: b4 :: b5 :: b6 :: b7 :: b8 :: tl, _ =>
        have hx := C14_exact b0 b1 b2 b3 b4 b5 b6 b7 b8 tl
        simp only [List.cons_append, List.nil_append] at hx
        rw [hx] at he
        split at he
        · cases he
        · cases he; rfl
      | [], h | [_], h | [_, _], h | [_, _, _], h | [_, _, _, _], h | [_, _, _, _, _], h
      | [_, _, _, _, _, _], h | [_, _, _, _, _, _, _], h | [_, _, _, _, _, _, _, _], h => simp at h
  · intro h
    rw [(C14_short buf).mpr h]; rfl

/-- C104, violated: nor does the reader of WebSocket frames; for the beginning of a frame it gives an I/O error. -/
theorem C104_violated_ws (masked : Bool) (key : Option MaskKey) (f : WsFrame) (ok : WsFrameOk f) (a b : Bytes)
    (h : wsWireFrame key f = a ++ b) (hb : b ≠ []) :
    errorOf (readFrameSt masked a).1 = some .io ∧ Error.isPartial .io = false := by
  rw [C85_waits_partial masked key f ok a b h hb]
  exact ⟨rfl, rfl⟩

example : wsWireFrame none ⟨true, (false, false, false), .text, [65]⟩ = [0x81] ++ [1, 65] ∧ ([1, 65] : Bytes) ≠ [] := by
  decide +kernel

theorem C104_violated : ¬ C104_statement := by
  intro h
  obtain ⟨e, h1, h2⟩ := h.2.2.2.1 [0, 0, 8, 6, 0, 0, 0, 0, 0] [] ⟨8, .ping, 0, 0⟩ (by decide +kernel) 3 (by decide)
  rw [(C104_violated_http2 _).1 e h1] at h2
  cases h2

end Webparse
