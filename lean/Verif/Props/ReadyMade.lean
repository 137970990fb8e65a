import Verif.Spec.ReadyMade
import Verif.Props.Builder
import Verif.Props.Conversation

/-!
# C107: ready-made responses

The full claim: a response made by one of the ready-made constructors, with the calls that follow, is sent for every body,
and its receiver gets the response and the body.
-/

namespace Webparse
open Spec

/-- C107, the full claim. -/
def C107_statement : Prop :=
  ∀ k ∈ readyMade, ∀ (body rest : Bytes) (object : Response), ∃ r out n,
    finish k.1 [] = .ok r ∧ r.serialize body = .ok (out, n) ∧
    r.status = k.2.1 ∧ r.header.get? (asciiBytes "content-type") = some (asciiBytes k.2.2) ∧
    receive Response.parseBuffer (·.header) object (out ++ rest) = .ok (r, body, rest)

theorem ready_calls (k : ResponseBuilder × Nat × String) (hk : k ∈ readyMade) (calls : List ResponseCall) :
    finish k.1 calls = buildResponse ([.status k.2.1, .header (asciiBytes "content-type") (asciiBytes k.2.2)] ++ calls) := by
  unfold finish buildResponse
  rw [List.foldl_append]
  simp only [readyMade, List.mem_cons, List.not_mem_nil, or_false] at hk
  rcases hk with rfl | rfl | rfl | rfl | rfl | rfl <;> rfl

theorem built_ops (calls : List ResponseCall) (r : Response) (h : buildResponse calls = .ok r) :
    r.isPartial = false ∧ ∃ ops, r.header = runOps ops := by
  refine ⟨?_, ?_⟩
  · unfold buildResponse ResponseBuilder.body at h
    cases hb : calls.foldl ResponseCall.run ResponseBuilder.new with
    | err e => rw [hb] at h; simp [Res.bind] at h
    | panic => rw [hb] at h; simp [Res.bind] at h
    | ok q => rw [hb] at h; simp only [Res.bind, Res.ok.injEq] at h; rw [← h]
  · rw [(response_parts calls r h).2.2, insertMissing_ops]; exact ⟨_, rfl⟩

/-- A built response that was sent is parsed to itself, up to its body. -/
theorem built_parsed (calls : List ResponseCall) (r : Response) (h : buildResponse calls = .ok r) (hc : ∀ e ∈ r.header, CleanHeader e)
    (body rest out : Bytes) (n : Nat) (hs : r.serialize body = .ok (out, n)) (object : Response) :
    ∃ m, object.parseBuffer (out ++ rest) = (.ok m, r, body ++ rest) := by
  obtain ⟨hp, ops, ho⟩ := built_ops calls r h
  obtain ⟨st, v, hd, p⟩ := r
  simp only at hp ho hc
  subst hp ho
  have h1 := (C40_roundtrip_iff_partial ops st v false object body out n hs).mpr hc
  obtain ⟨-, h2, h3⟩ := C39_response _ object _ _ _ _ h1
  have h4 := h3 (body ++ rest)
  have e : out.take (out.length - body.length) ++ (body ++ rest) = out ++ rest := by
    conv_rhs => rw [← List.take_append_drop (out.length - body.length) out, ← h2, List.append_assoc]
  rw [e] at h4
  exact ⟨_, h4⟩

/-- What a receiver makes of a built response with neither `Content-Length` nor `Transfer-Encoding`: the response with an empty body,
and the body as the start of the next response.  C107, violated for every body that is not empty. -/
theorem C107_violated_built (calls : List ResponseCall) (r : Response) (h : buildResponse calls = .ok r) (hc : ∀ e ∈ r.header, CleanHeader e)
    (h1 : r.header.get? (asciiBytes "transfer-encoding") = none) (h2 : r.header.get? (asciiBytes "content-length") = none)
    (body rest out : Bytes) (n : Nat) (hs : r.serialize body = .ok (out, n)) (object : Response) :
    receive Response.parseBuffer (·.header) object (out ++ rest) = .ok (r, [], body ++ rest) := by
  obtain ⟨m, hm⟩ := built_parsed calls r h hc body rest out n hs object
  exact framed_read (.none h1 h2) rfl (by rw [List.nil_append]; exact hm)

/-- A built response whose `Content-Length` is the length of its body is received with it. -/
theorem C107_built_partial (calls : List ResponseCall) (r : Response) (h : buildResponse calls = .ok r) (hc : ∀ e ∈ r.header, CleanHeader e)
    (s : Bytes) (h1 : r.header.get? (asciiBytes "transfer-encoding") = none) (h2 : r.header.get? (asciiBytes "content-length") = some s)
    (body rest out : Bytes) (hb : IsNumeral s body.length) (hl : body.length < 2 ^ 63)
    (n : Nat) (hs : r.serialize body = .ok (out, n)) (object : Response) :
    receive Response.parseBuffer (·.header) object (out ++ rest) = .ok (r, body, rest) := by
  obtain ⟨m, hm⟩ := built_parsed calls r h hc body rest out n hs object
  exact framed_read (.length h1 h2 hb hl) rfl hm

/-- The headers of a ready-made response, and those with a length. -/
theorem ready_header (k : ResponseBuilder × Nat × String) (hk : k ∈ readyMade) :
    finish k.1 [] = .ok ⟨k.2.1, .http11, [(asciiBytes "content-type", asciiBytes k.2.2), (asciiBytes "Server", asciiBytes "wenmeng")], false⟩ := by
  revert k; decide +kernel

theorem ready_length (k : ResponseBuilder × Nat × String) (hk : k ∈ readyMade) (s : Bytes) :
    finish k.1 [.header (asciiBytes "content-length") s] = .ok ⟨k.2.1, .http11,
      [(asciiBytes "content-type", asciiBytes k.2.2), (asciiBytes "content-length", s), (asciiBytes "Server", asciiBytes "wenmeng")], false⟩ := by
  have e1 : ∀ v : Bytes, HeaderMap.insert [(asciiBytes "content-type", v)] (asciiBytes "content-length") s =
      [(asciiBytes "content-type", v), (asciiBytes "content-length", s)] := fun v => rfl
  have e2 : ∀ v : Bytes, HeaderMap.insertMissing [(asciiBytes "content-type", v), (asciiBytes "content-length", s)] (asciiBytes "Server") (asciiBytes "wenmeng") =
      [(asciiBytes "content-type", v), (asciiBytes "content-length", s), (asciiBytes "Server", asciiBytes "wenmeng")] := fun v => rfl
  simp only [readyMade, List.mem_cons, List.not_mem_nil, or_false] at hk
  rcases hk with rfl | rfl | rfl | rfl | rfl | rfl <;> rfl

theorem ready_clean (k : ResponseBuilder × Nat × String) (hk : k ∈ readyMade) :
    CleanHeader (asciiBytes "content-type", asciiBytes k.2.2) ∧ CleanHeader (asciiBytes "Server", asciiBytes "wenmeng") := by
  refine ⟨⟨show asciiBytes "content-type" ≠ [] by decide +kernel, show ∀ b ∈ asciiBytes "content-type", isTchar b = true by decide +kernel, ?_, ?_⟩, ⟨by decide +kernel, by decide +kernel, by decide +kernel, by decide +kernel⟩⟩
  · revert k; decide +kernel
  · revert k; decide +kernel

theorem ready_status (k : ResponseBuilder × Nat × String) (hk : k ∈ readyMade) : ∃ e ∈ statusTable, e.1 = k.2.1 := by
  revert k; decide +kernel

/-- Each ready-made response is built with its status and content type and sent for every body; its receiver gets the response with an
empty body, and takes the body for the start of the next response. -/
theorem C107_violated_ready (k : ResponseBuilder × Nat × String) (hk : k ∈ readyMade) (body rest : Bytes) (object : Response) :
    ∃ r out n, finish k.1 [] = .ok r ∧ r.serialize body = .ok (out, n) ∧
      r.status = k.2.1 ∧ r.header.get? (asciiBytes "content-type") = some (asciiBytes k.2.2) ∧
      receive Response.parseBuffer (·.header) object (out ++ rest) = .ok (r, [], body ++ rest) := by
  have hr := ready_header k hk
  obtain ⟨out, n, hs⟩ := C40_serialisable ⟨k.2.1, .http11, [(asciiBytes "content-type", asciiBytes k.2.2), (asciiBytes "Server", asciiBytes "wenmeng")], false⟩
    body (show Version.http11 ≠ .none by decide) (ready_status k hk)
  obtain ⟨c1, c2⟩ := ready_clean k hk
  refine ⟨_, out, n, hr, hs, rfl, rfl, ?_⟩
  rw [ready_calls k hk] at hr
  refine C107_violated_built _ _ hr ?_ rfl rfl body rest out n hs object
  intro e he
  simp only [List.mem_cons, List.not_mem_nil, or_false] at he
  rcases he with rfl | rfl
  · exact c1
  · exact c2

/-- With a `Content-Length` the body arrives: `Response::text().header("content-length", body.len()).body(body)`. -/
theorem C107_length_partial (k : ResponseBuilder × Nat × String) (hk : k ∈ readyMade) (body rest : Bytes) (hl : body.length < 2 ^ 63) (object : Response) :
    ∃ r out n, finish k.1 [.header (asciiBytes "content-length") (decimal body.length)] = .ok r ∧ r.serialize body = .ok (out, n) ∧
      r.status = k.2.1 ∧ r.header.get? (asciiBytes "content-type") = some (asciiBytes k.2.2) ∧
      receive Response.parseBuffer (·.header) object (out ++ rest) = .ok (r, body, rest) := by
  have hr := ready_length k hk (decimal body.length)
  obtain ⟨out, n, hs⟩ := C40_serialisable ⟨k.2.1, .http11, [(asciiBytes "content-type", asciiBytes k.2.2),
    (asciiBytes "content-length", decimal body.length), (asciiBytes "Server", asciiBytes "wenmeng")], false⟩ body (show Version.http11 ≠ .none by decide) (ready_status k hk)
  obtain ⟨c1, c2⟩ := ready_clean k hk
  obtain ⟨d1, d2, d3⟩ := decimal_spec body.length
  refine ⟨_, out, n, hr, hs, rfl, rfl, ?_⟩
  rw [ready_calls k hk] at hr
  refine C107_built_partial _ _ hr ?_ (decimal body.length) rfl rfl body rest out ⟨d1, (allDigits_iff _).mpr d2, by rw [← digitsVal_dec d2]; exact d3⟩ hl n hs object
  intro e he
  simp only [List.mem_cons, List.not_mem_nil, or_false] at he
  rcases he with rfl | rfl | rfl
  · exact c1
  · refine ⟨show asciiBytes "content-length" ≠ [] by decide +kernel, show ∀ b ∈ asciiBytes "content-length", isTchar b = true by decide +kernel, ?_, ?_⟩
    · intro h; exact absurd (d2 13 h) (by decide)
    · intro h
      have : (32 : UInt8) ∈ decimal body.length := List.mem_of_head? h
      exact absurd (d2 32 this) (by decide)
  · exact c2

/-- C107 for the empty body alone: a ready-made response is received as it was sent exactly if its body is empty. -/
theorem C107_ready_iff_partial (k : ResponseBuilder × Nat × String) (hk : k ∈ readyMade) (body rest : Bytes) (object r : Response) (out : Bytes) (n : Nat)
    (hr : finish k.1 [] = .ok r) (hs : r.serialize body = .ok (out, n)) :
    receive Response.parseBuffer (·.header) object (out ++ rest) = .ok (r, body, rest) ↔ body = [] := by
  obtain ⟨r', out', n', h1, h2, -, -, h3⟩ := C107_violated_ready k hk body rest object
  rw [h1, Res.ok.injEq] at hr
  subst hr
  rw [h2, Res.ok.injEq, Prod.mk.injEq] at hs
  obtain ⟨rfl, rfl⟩ := hs
  rw [h3]
  constructor
  · intro e
    simp only [Res.ok.injEq, Prod.mk.injEq, true_and] at e
    exact e.1.symm
  · rintro rfl; rfl

/-- C107 does not hold of the code. -/
theorem C107_violated : ¬ C107_statement := by
  intro h
  obtain ⟨r, out, n, h1, h2, -, -, h3⟩ := h (Response.text, 200, "text/plain; charset=utf-8") (by simp [readyMade]) [104, 105] [] {}
  have := (C107_ready_iff_partial _ (by simp [readyMade]) [104, 105] [] {} r out n h1 h2).mp h3
  exact absurd this (by decide)

/-- A chain of calls as in the general theorems. -/
example : finish Response.json [.status 201, .header (asciiBytes "ETag") (asciiBytes "x")] = .ok ⟨201, .http11,
    [(asciiBytes "content-type", asciiBytes "application/json; charset=utf-8"), (asciiBytes "ETag", asciiBytes "x"),
     (asciiBytes "Server", asciiBytes "wenmeng")], false⟩ := by decide +kernel

end Webparse
