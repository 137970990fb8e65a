import Verif.Spec.ResponseStream
import Verif.Props.RequestStream

/-! # C137: a conforming client hears the responses that were sent -/

namespace Webparse
open Spec

/-- C137: responses that are written one after the other are for a client that follows RFC 9112 these responses with these bodies
and no others. -/
def C137_statement : Prop :=
  ∀ (sent : List (Response × SentBody)) (wire : Bytes), WroteResponses sent wire →
    ∀ heard, ResponseStream heard wire ↔ heard = sent.map meantAnswer

theorem serialize_head {r : Response} {b out : Bytes} {n : Nat} (h : r.serialize b = .ok (out, n)) :
    ∃ head k, r.encodeHeader = .ok (head, k) ∧ out = head ++ b := by
  unfold Response.serialize at h
  obtain ⟨v, hv, h⟩ := Res.bind_eq_ok.mp h
  obtain ⟨s, hs, h⟩ := Res.bind_eq_ok.mp h
  simp only [Res.ok.injEq, Prod.mk.injEq] at h
  refine ⟨v ++ [32] ++ s ++ r.header.encode, v.length + 1 + s.length + r.header.encode.length, ?_, h.1.symm⟩
  unfold Response.encodeHeader
  rw [hv]
  show (statusEncode r.status >>= _) = _
  rw [hs]
  rfl

theorem head_serialize {r : Response} {head : Bytes} {k : Nat} (h : r.encodeHeader = .ok (head, k)) (b : Bytes) :
    r.serialize b = .ok (head ++ b, k + b.length) := by
  unfold Response.encodeHeader at h
  obtain ⟨v, hv, h⟩ := Res.bind_eq_ok.mp h
  obtain ⟨s, hs, h⟩ := Res.bind_eq_ok.mp h
  simp only [Res.ok.injEq, Prod.mk.injEq] at h
  obtain ⟨rfl, rfl⟩ := h
  unfold Response.serialize
  rw [hv]
  show (statusEncode r.status >>= _) = _
  rw [hs]
  rfl

theorem responseBody_spaced (code : Nat) (fields : List (Header × Bytes × Bytes)) :
    responseBody code fields = responseBody code (spaced (fields.map (·.1))) := by
  unfold responseBody
  rw [valuesOf_spaced fields (asciiBytes "transfer-encoding"), valuesOf_spaced fields (asciiBytes "content-length")]

/-- The only reading of a head that may be written. -/
theorem answer_only {r : Response} {out : Bytes} {n : Nat} (h : r.encodeHeader = .ok (out, n)) (ha : AnswerAllowed r)
    {reason head rest rest' : Bytes} {v : Version} {code : Nat} {fields : List (Header × Bytes × Bytes)}
    (hh : IsResponseHead v code reason fields head) (he : head ++ rest' = out ++ rest) :
    v = r.version ∧ code = r.status ∧ fields.map (·.1) = r.header ∧ rest' = rest := by
  have hg : HeadAllowed { method := .get, url := { Url.new with path := [47] }, version := r.version, header := r.header } :=
    ⟨⟨by show Method.get.asStr ≠ []; decide, by show ∀ b ∈ Method.get.asStr, isTchar b = true; decide +kernel⟩, ⟨by simp, by simp⟩, ha.1, ha.2⟩
  obtain ⟨h1, h2, h3, -, h4⟩ := C134_response_only_partial r out rest rest' n h (headAllowed_lines hg) v code reason fields head hh he
  exact ⟨h1, h2, by rw [h3]; exact headAllowed_trim hg, h4⟩

theorem answer_reads {r : Response} {b : SentBody} (h : AnswerAnnounced r b) (fields : List (Header × Bytes × Bytes))
    (hf : fields.map (·.1) = r.header) : AnswerBodyBy (responseBody r.status fields) b.data b.wire := by
  rw [responseBody_spaced, hf]
  cases b with
  | whole d =>
    rcases h with h | ⟨h, rfl⟩
    · rw [h]; exact ⟨rfl, rfl⟩
    · rw [h]; exact ⟨rfl, rfl⟩
  | pieces l =>
    rw [h.1]
    exact ⟨l, [], chunked_written l h.2, rfl⟩

theorem answer_body_only {r : Response} {b : SentBody} (h : AnswerAnnounced r b) {fields : List (Header × Bytes × Bytes)}
    (hf : fields.map (·.1) = r.header) {body text rest rest' : Bytes} (hb : AnswerBodyBy (responseBody r.status fields) body text)
    (he : text ++ rest' = b.wire ++ rest) : body = b.data ∧ rest' = rest := by
  rw [responseBody_spaced, hf] at hb
  cases b with
  | whole d =>
    rcases h with h | ⟨h, rfl⟩
    · rw [h] at hb
      obtain ⟨rfl, hl⟩ := hb
      exact List.append_inj he hl
    · rw [h] at hb
      obtain ⟨rfl, rfl⟩ := hb
      exact ⟨rfl, he⟩
  | pieces l =>
    rw [h.1] at hb
    obtain ⟨ds, tr, hc, rfl⟩ := hb
    obtain ⟨g1, -, g2⟩ := pieces_unique l h.2 ds tr text rest rest' hc (by rw [he]; simp [SentBody.wire, writeChunked])
    exact ⟨by rw [g1]; rfl, g2⟩

theorem announced_not_close {r : Response} {b : SentBody} (h : AnswerAnnounced r b) :
    responseBody r.status (spaced r.header) ≠ .untilClose := by
  intro k
  cases b with
  | whole d => rcases h with h | ⟨h, -⟩ <;> rw [k] at h <;> cases h
  | pieces l => have := h.1; rw [k] at this; cases this

theorem no_answer {heard : List HeardAnswer} (h : ResponseStream heard []) : heard = [] := by
  generalize hz : ([] : Bytes) = z at h
  cases h with
  | done => rfl
  | more hh _ _ =>
    obtain ⟨-, -, -, e, -, -, text, -, rfl⟩ := hh
    have := congrArg List.length hz
    simp at this
  | close hh _ =>
    obtain ⟨-, -, -, e, -, -, text, -, rfl⟩ := hh
    have := congrArg List.length hz
    simp at this

/-- C137 for responses that RFC 9112 allows and whose status and fields announce the body that is sent: they are heard, and
nothing else is. -/
theorem C137_heard_partial {sent : List (Response × SentBody)} {wire : Bytes} (hw : WroteResponses sent wire)
    (ha : ∀ s ∈ sent, AnswerAllowed s.1) (hb : AnswersAnnounced sent) (heard : List HeardAnswer) :
    ResponseStream heard wire ↔ heard = sent.map meantAnswer := by
  induction hw generalizing heard with
  | done => exact ⟨no_answer, by rintro rfl; exact .done⟩
  | @more r b out w n l h1 h2 ih =>
    obtain ⟨head, k, he, rfl⟩ := serialize_head h1
    have a1 : AnswerAllowed r := ha (r, b) List.mem_cons_self
    have hne : head ≠ [] := by
      obtain ⟨-, reason, -, -, -, hx⟩ := responseHeader_ok he
      rw [hx]; simp
    rcases hb with ⟨a2, hb⟩ | ⟨a2, a3, rfl⟩
    · have ih' := ih (fun s hs => ha s (List.mem_cons_of_mem _ hs)) hb
      constructor
      · intro h
        generalize hz : head ++ b.wire ++ w = z at h
        cases h with
        | done => simp [hne] at hz
        | more hh hy hs =>
          obtain ⟨rfl, rfl, hf, e1⟩ := answer_only (rest := b.wire ++ w) he a1 hh (by rw [← hz]; simp)
          obtain ⟨rfl, rfl⟩ := answer_body_only a2 hf hy e1
          rw [(ih' _).mp hs, hf]
          rfl
        | close hh hy =>
          obtain ⟨rfl, rfl, hf, -⟩ := answer_only (rest := b.wire ++ w) he a1 hh (by rw [← hz]; simp)
          rw [responseBody_spaced, hf] at hy
          exact absurd hy (announced_not_close a2)
      · rintro rfl
        obtain ⟨reason, fields, hh, hf⟩ := (C134_response_iff_partial r head k he).mpr a1
        have := ResponseStream.more hh (answer_reads a2 fields hf) ((ih' _).mpr rfl)
        rw [hf] at this
        simpa [meantAnswer] using this
    · cases h2
      simp only at a2 a3
      rw [a3, List.append_nil]
      constructor
      · intro h
        generalize hz : head ++ b.data = z at h
        cases h with
        | done => simp [hne] at hz
        | more hh hy hs =>
          obtain ⟨rfl, rfl, hf, -⟩ := answer_only (rest := b.data) he a1 hh (by rw [← hz])
          rw [responseBody_spaced, hf, a2] at hy
          exact hy.elim
        | close hh hy =>
          obtain ⟨rfl, rfl, hf, rfl⟩ := answer_only (rest := b.data) he a1 hh (by rw [← hz])
          rw [hf]
          rfl
      · rintro rfl
        obtain ⟨reason, fields, hh, hf⟩ := (C134_response_iff_partial r head k he).mpr a1
        have := ResponseStream.close (body := b.data) hh (by rw [responseBody_spaced, hf, a2])
        rw [hf] at this
        exact this

/-- C137, exact, for one response that RFC 9112 allows: it is heard as it was meant exactly if its status and fields announce the
body that is sent, or leave its end to the connection. -/
theorem C137_one_iff_partial {r : Response} {b : SentBody} {wire : Bytes} {n : Nat} (hw : r.serialize b.wire = .ok (wire, n))
    (ha : AnswerAllowed r) : ResponseStream [meantAnswer (r, b)] wire ↔ AnswersAnnounced [(r, b)] := by
  have hws : WroteResponses [(r, b)] (wire ++ []) := .more hw .done
  rw [List.append_nil] at hws
  constructor
  · intro h
    obtain ⟨head, k, he, rfl⟩ := serialize_head hw
    generalize hz : head ++ b.wire = z at h
    generalize hm : [meantAnswer (r, b)] = ms at h
    cases h with
    | done => cases hm
    | @more reason head' body text rest v code fields l hh hb hs =>
      obtain ⟨hm1, rfl⟩ := List.cons.inj hm
      have hrest : rest = [] := by cases hs; rfl
      subst hrest
      obtain ⟨-, rfl, hf, e1⟩ := answer_only (rest := b.wire) he ha hh (by rw [← hz])
      rw [List.append_nil] at e1
      have hbody : body = b.data := (congrArg HeardAnswer.body hm1).symm
      subst hbody e1
      rw [responseBody_spaced, hf] at hb
      refine .inl ⟨?_, trivial⟩
      cases b with
      | whole d =>
        cases hk : responseBody r.status (spaced r.header) with
        | none => rw [hk] at hb; exact .inr ⟨hk, hb.1⟩
        | chunked =>
          rw [hk] at hb
          obtain ⟨ds, tr, hc, e⟩ := hb
          have := chunked_longer hc
          rw [← e] at this
          exact absurd this (Nat.lt_irrefl _)
        | length n => rw [hk] at hb; exact .inl (by rw [hk, ← hb.2]; rfl)
        | untilClose => rw [hk] at hb; exact hb.elim
        | invalid => rw [hk] at hb; exact hb.elim
      | pieces l =>
        have hlong := writeChunked_longer l
        cases hk : responseBody r.status (spaced r.header) with
        | none =>
          rw [hk] at hb
          have h2 : writeChunked l = [] := hb.2
          rw [h2] at hlong
          exact absurd hlong (Nat.not_lt_zero _)
        | chunked =>
          rw [hk] at hb
          obtain ⟨ds, tr, hc, e⟩ := hb
          exact ⟨hk, (C135_iff_partial l []).mp ⟨ds, tr, _, hc, rfl, e⟩⟩
        | length n =>
          rw [hk] at hb
          have := congrArg List.length hb.1
          simp only [SentBody.wire, SentBody.data] at this
          omega
        | untilClose => rw [hk] at hb; exact hb.elim
        | invalid => rw [hk] at hb; exact hb.elim
    | @close reason head' body v code fields hh hc =>
      obtain ⟨-, rfl, hf, e1⟩ := answer_only (rest := b.wire) he ha hh (by rw [← hz])
      obtain ⟨hm1, -⟩ := List.cons.inj hm
      have hbody : body = b.data := (congrArg HeardAnswer.body hm1).symm
      rw [responseBody_spaced, hf] at hc
      exact .inr ⟨hc, by rw [← e1, hbody], rfl⟩
  · intro h
    exact (C137_heard_partial hws (fun s hs => by rw [List.mem_singleton.mp hs]; exact ha) h _).mpr rfl

/-- C137, violated for the statuses that never have a body: the body is written all the same, and heard as the next response. -/
theorem C137_violated_bodyless {r1 r2 : Response} {body inner wire : Bytes} {n k : Nat} (h1 : AnswerAllowed r1) (h2 : AnswerAllowed r2)
    (hn : BodylessStatus r1.status) (hb : responseBody r2.status (spaced r2.header) = .length body.length)
    (w2 : r2.serialize body = .ok (inner, n)) (w1 : r1.serialize inner = .ok (wire, k)) (heard : List HeardAnswer) :
    ResponseStream heard wire ↔ heard = [meantAnswer (r1, .whole []), meantAnswer (r2, .whole body)] := by
  obtain ⟨head, m, he, rfl⟩ := serialize_head w1
  have hw : WroteResponses [(r1, .whole []), (r2, .whole body)] ((head ++ []) ++ (inner ++ [])) :=
    .more (head_serialize he []) (.more w2 .done)
  simp only [List.append_nil] at hw
  refine C137_heard_partial hw (fun s hs => ?_) (.inl ⟨.inr ⟨by unfold responseBody; rw [if_pos hn], rfl⟩, .inl ⟨.inl hb, trivial⟩⟩) heard
  simp only [List.mem_cons, List.not_mem_nil, or_false] at hs
  rcases hs with rfl | rfl
  · exact h1
  · exact h2

/-- C137, violated without framing: if neither field is there, whatever is written after the response, also the responses that
follow, is heard as part of its body. -/
theorem C137_violated_unframed {r : Response} {b : SentBody} {wire : Bytes} {n : Nat} (rest : Bytes)
    (ha : AnswerAllowed r) (hc : responseBody r.status (spaced r.header) = .untilClose) (hw : r.serialize b.wire = .ok (wire, n))
    (heard : List HeardAnswer) :
    ResponseStream heard (wire ++ rest) ↔ heard = [meantAnswer (r, .whole (b.wire ++ rest))] := by
  obtain ⟨head, m, he, rfl⟩ := serialize_head hw
  have hw' : WroteResponses [(r, .whole (b.wire ++ rest))] ((head ++ (b.wire ++ rest)) ++ []) :=
    .more (head_serialize he (b.wire ++ rest)) .done
  rw [List.append_nil, ← List.append_assoc] at hw'
  exact C137_heard_partial hw' (fun s hs => by rw [List.mem_singleton.mp hs]; exact ha) (.inr ⟨hc, rfl, rfl⟩) heard

/-- `HTTP/1.1 200 OK` without fields. -/
def bareOk : Response := { status := 200, version := .http11, header := [], isPartial := false }

theorem bareOk_written (b : Bytes) : bareOk.serialize b = .ok (asciiBytes "HTTP/1.1 200 OK\r\n\r\n" ++ b, 19 + b.length) := by
  have : bareOk.encodeHeader = .ok (asciiBytes "HTTP/1.1 200 OK\r\n\r\n", 19) := by
    unfold Response.encodeHeader statusEncode
    simp only [statusAsStr_eq]
    decide +kernel
  exact head_serialize this b

theorem C137_violated : ¬ C137_statement := by
  intro h
  have ha : AnswerAllowed bareOk := ⟨.inr rfl, fun e he => by cases he⟩
  have hw : WroteResponses [(bareOk, .whole [])] _ := .more (bareOk_written _) .done
  have hs := (C137_violated_unframed (b := .whole []) (asciiBytes "HTTP/1.1 200 OK\r\n\r\n" ++ (SentBody.whole []).wire ++ []) ha (by decide +kernel) (bareOk_written _) _).mpr rfl
  have := (h [(bareOk, .whole []), (bareOk, .whole [])] _ (.more (bareOk_written _) hw) _).mp hs
  exact absurd (congrArg List.length this) (by simp)

/-- A 204 response with another response as its body. -/
example : let r2 : Response := { bareOk with header := [(asciiBytes "Content-Length", asciiBytes "0")] }
    AnswerAllowed { bareOk with status := 204 } ∧ AnswerAllowed r2 ∧ BodylessStatus 204 ∧ responseBody r2.status (spaced r2.header) = .length 0 ∧
      ∃ inner n wire k, r2.serialize [] = .ok (inner, n) ∧ Response.serialize { bareOk with status := 204 } inner = .ok (wire, k) := by
  refine ⟨⟨.inr rfl, fun e he => by cases he⟩, ⟨.inr rfl, fun e he => ?_⟩, by decide, by decide +kernel, ?_⟩
  · rw [List.mem_singleton.mp he]
    unfold IsFieldName IsFieldValue IsFieldVchar IsBlank
    exact ⟨⟨by decide, by decide +kernel⟩, by decide +kernel, (fun b hb => by
      have : b = 48 := by simpa [asciiBytes, eq_comm] using hb
      subst this; decide), fun b hb => by
      have : b = 48 := by simpa [asciiBytes, eq_comm] using hb
      subst this; decide⟩
  · have h2 : Response.encodeHeader { bareOk with header := [(asciiBytes "Content-Length", asciiBytes "0")] } =
        .ok (asciiBytes "HTTP/1.1 200 OK\r\nContent-Length: 0\r\n\r\n", 38) := by
      unfold Response.encodeHeader statusEncode
      simp only [statusAsStr_eq]
      decide +kernel
    have h1 : Response.encodeHeader { bareOk with status := 204 } = .ok (asciiBytes "HTTP/1.1 204 No Content\r\n\r\n", 27) := by
      unfold Response.encodeHeader statusEncode
      simp only [statusAsStr_eq]
      decide +kernel
    exact ⟨_, _, _, _, head_serialize h2 [], head_serialize h1 _⟩

/-- A response in two pieces, one without a body and one that ends with the connection. -/
example : let r : Response := { bareOk with header := [(asciiBytes "Transfer-Encoding", asciiBytes "chunked")] }
    AnswersAnnounced [(r, .pieces [asciiBytes "ab", asciiBytes "c"]), ({ bareOk with status := 204 }, .whole []), (bareOk, .whole (asciiBytes "x"))] :=
  .inl ⟨⟨by decide +kernel, by decide⟩, .inl ⟨.inr ⟨by decide +kernel, rfl⟩, .inr ⟨by decide +kernel, rfl, rfl⟩⟩⟩

end Webparse
