import Verif.Proofs.Conversation
import Verif.Props.Request

/-! # Several messages on one connection -/

namespace Webparse
open Spec

/-! ## C71 -/

/-- Responses sent one after the other, any number, each with its body by length or in chunks, are read back
one by one with their bodies; the receiver is then told to wait for more. -/
theorem C71_responses (sent : List (SentResponse × Bytes)) (h : ∀ s ∈ sent, s.1.Wire s.2) (object : Response) (fuel : Nat) (hf : sent.length < fuel) :
    converse Response.parseBuffer (·.header) fuel object (sent.map (·.2)).flatten =
      (sent.map fun s => (s.1.message, s.1.body), .err .partialData) := by
  have := converse_carries (parse := Response.parseBuffer) (header := (·.header)) (sent.map fun s => (s.2, s.1.message, s.1.body))
    (by intro m hm; obtain ⟨s, hs, rfl⟩ := List.mem_map.mp hm; exact carries_response (h s hs)) []
    (fun o => by simp [receive, Response.parseBuffer, Response.parseHead, skipEmptyLines, thenDo, countRead]) fuel (by simpa using hf) object
  simpa [List.map_map, Function.comp_def] using this

/-- The same if the last message is cut short anywhere: those before are read, then the receiver is told to
wait. -/
theorem C71_responses_cut (sent : List (SentResponse × Bytes)) (h : ∀ s ∈ sent, s.1.Wire s.2) (next : SentResponse) (wire q : Bytes)
    (hw : next.Wire wire) (hq : q <+: wire) (hl : q.length < wire.length) (object : Response) (fuel : Nat) (hf : sent.length < fuel) :
    converse Response.parseBuffer (·.header) fuel object ((sent.map (·.2)).flatten ++ q) =
      (sent.map fun s => (s.1.message, s.1.body), .err .partialData) := by
  have := converse_carries (parse := Response.parseBuffer) (header := (·.header)) (sent.map fun s => (s.2, s.1.message, s.1.body))
    (by intro m hm; obtain ⟨s, hs, rfl⟩ := List.mem_map.mp hm; exact carries_response (h s hs)) q
    (fun o => carries_cut (carries_response hw) o hq hl) fuel (by simpa using hf) object
  simpa [List.map_map, Function.comp_def] using this

theorem carries_request {s : SentRequest} {wire : Bytes} (h : s.Wire wire) :
    ∃ r, SameRequest s.request r ∧ Carries Request.parseBuffer (·.header) wire r s.body := by
  obtain ⟨r, h1, hr⟩ := (C41_roundtrip_iff_partial s.request {} s.ops s.wireBody wire h.header h.clean h.host h.method.1 h.method.2 h.bytes).mpr
    ⟨h.slash, h.path, h.query⟩
  refine ⟨r, hr, ?_⟩
  obtain ⟨-, h2, -⟩ := C39_request _ {} _ _ _ _ h1
  refine ⟨wire.take (wire.length - s.wireBody.length), s.wireBody, ?_, ?_, fun o x => ⟨_, (C39_request _ o _ _ _ _ h1).2.2 x⟩, ?_⟩
  · conv_lhs => rw [← List.take_append_drop (wire.length - s.wireBody.length) wire, ← h2]
  · show Framed r.header _ _
    rw [hr.2.2.2.2]; exact h.framed
  · intro o k hk
    rw [List.length_take] at hk
    rw [List.take_take, Nat.min_eq_left (by omega)]
    exact C38_request _ o _ _ _ _ h1 k (by omega)

theorem carries_requests (sent : List (SentRequest × Bytes)) (h : ∀ s ∈ sent, s.1.Wire s.2) :
    ∃ ms : List (Bytes × Request × Bytes), ms.map (·.1) = sent.map (·.2) ∧ (∀ m ∈ ms, Carries Request.parseBuffer (·.header) m.1 m.2.1 m.2.2) ∧
      Zip (fun s m => SameRequest s.1.request m.1 ∧ m.2 = s.1.body) sent (ms.map (·.2)) := by
  induction sent with
  | nil => exact ⟨[], rfl, by simp, .nil⟩
  | cons s sent ih =>
    obtain ⟨ms, h1, h2, h3⟩ := ih (fun x hx => h x (by simp [hx]))
    obtain ⟨r, hr, hc⟩ := carries_request (h s (by simp))
    refine ⟨(s.2, r, s.1.body) :: ms, by simp [h1], ?_, .cons ⟨hr, rfl⟩ h3⟩
    intro m hm
    rcases List.mem_cons.mp hm with rfl | hm
    · exact hc
    · exact h2 m hm

/-- Pipelined requests, the last one perhaps cut short: the complete ones are read back in order with their
bodies, then the receiver is told to wait.  Missing: the requests C41 cannot carry (queries, other paths, CONNECT). -/
theorem C71_requests_partial (sent : List (SentRequest × Bytes)) (h : ∀ s ∈ sent, s.1.Wire s.2) (q : Bytes)
    (hq : q = [] ∨ ∃ (next : SentRequest) (wire : Bytes), next.Wire wire ∧ q <+: wire ∧ q.length < wire.length)
    (object : Request) (fuel : Nat) (hf : sent.length < fuel) :
    ∃ received, converse Request.parseBuffer (·.header) fuel object ((sent.map (·.2)).flatten ++ q) = (received, .err .partialData) ∧
      Zip (fun s m => SameRequest s.1.request m.1 ∧ m.2 = s.1.body) sent received := by
  obtain ⟨ms, h1, h2, h3⟩ := carries_requests sent h
  refine ⟨ms.map (·.2), ?_, h3⟩
  rw [← h1]
  refine converse_carries ms h2 q ?_ fuel ?_ object
  · intro o
    rcases hq with rfl | ⟨next, wire, hw, hp, hl⟩
    · simp [receive, Request.parseBuffer, Request.parseHead, skipEmptyLines, thenDo, countRead]
    · obtain ⟨r, -, hc⟩ := carries_request hw
      exact carries_cut hc o hp hl
  · have := congrArg List.length h1
    simp only [List.length_map] at this
    omega

/-- A response with three bytes of body, and one in chunks. -/
def sentLength : SentResponse := ⟨200, .http11, [.insert (asciiBytes "Content-Length") (asciiBytes "3")], asciiBytes "abc", asciiBytes "abc"⟩

def sentChunks : SentResponse :=
  ⟨404, .http11, [.insert (asciiBytes "Transfer-Encoding") (asciiBytes "chunked")], asciiBytes "hello", asciiBytes "2\r\nhe\r\n3\r\nllo\r\n0\r\n\r\n"⟩

example : sentLength.Wire (asciiBytes "HTTP/1.1 200 OK\r\nContent-Length: 3\r\n\r\nabc") := by
  refine ⟨?_, .length (s := asciiBytes "3") (by decide +kernel) (by decide +kernel) ⟨by decide +kernel, ?_, by decide +kernel⟩ (by decide +kernel), 41, ?_⟩
  · intro e he
    have : e = (asciiBytes "Content-Length", asciiBytes "3") := by
      have h : runOps sentLength.ops = [(asciiBytes "Content-Length", asciiBytes "3")] := by decide +kernel
      rw [h] at he; simpa using he
    subst this
    exact ⟨by decide +kernel, by decide +kernel, by decide +kernel, by decide +kernel⟩
  · unfold AllDigits; decide +kernel
  · simp only [Response.serialize, statusEncode, statusAsStr_eq]; decide +kernel

example : sentChunks.Wire (asciiBytes "HTTP/1.1 404 Not Found\r\nTransfer-Encoding: chunked\r\n\r\n2\r\nhe\r\n3\r\nllo\r\n0\r\n\r\n") := by
  refine ⟨?_, ?_, 74, by simp only [Response.serialize, statusEncode, statusAsStr_eq]; decide +kernel⟩
  · intro e he
    have : e = (asciiBytes "Transfer-Encoding", asciiBytes "chunked") := by
      have h : runOps sentChunks.ops = [(asciiBytes "Transfer-Encoding", asciiBytes "chunked")] := by decide +kernel
      rw [h] at he; simpa using he
    subst this
    exact ⟨by decide +kernel, by decide +kernel, by decide +kernel, by decide +kernel⟩
  · have := Framed.chunks (header := runOps sentChunks.ops) (pieces := [asciiBytes "he", asciiBytes "llo"]) (by decide +kernel) (by decide +kernel)
    have e : [asciiBytes "he", asciiBytes "llo"].flatten = sentChunks.body ∧
      [asciiBytes "he", asciiBytes "llo"].flatMap (fun d => (encodeChunkData d).1) ++ (encodeChunkData []).1 = sentChunks.wireBody := by decide +kernel
    rw [e.1, e.2] at this
    exact this

/-- `POST /a` with two bytes. -/
def sentRequest : SentRequest :=
  ⟨{ method := .post, url := { Url.new with path := asciiBytes "/a" }, header := [(asciiBytes "Content-Length", asciiBytes "2")] },
    [.insert (asciiBytes "Content-Length") (asciiBytes "2")], [1, 2], [1, 2]⟩

example : sentRequest.Wire (asciiBytes "POST /a HTTP/1.1\r\nContent-Length: 2\r\n\r\n" ++ [1, 2]) := by
  have h : sentRequest.request.header = [(asciiBytes "Content-Length", asciiBytes "2")] := by decide +kernel
  refine ⟨by decide +kernel, ?_, ?_, by decide +kernel, by decide +kernel, ?_, by decide +kernel, ?_, by decide +kernel⟩
  · intro e he
    rw [h] at he
    simp only [List.mem_singleton] at he
    subst he
    exact ⟨by decide +kernel, by decide +kernel, by decide +kernel, by decide +kernel⟩
  · intro x hx
    rw [show sentRequest.request.header.host = none by decide +kernel] at hx
    simp at hx
  · unfold IsPrint; decide +kernel
  · exact .length (s := asciiBytes "2") (by decide +kernel) (by decide +kernel) ⟨by decide +kernel, by unfold AllDigits; decide +kernel, by decide +kernel⟩ (by decide +kernel)

end Webparse
