import Verif.Spec.AnswerAgreement
import Verif.Props.ResponseStream
import Verif.Props.ResponseBody
import Verif.Props.Agreement

/-! # C140: this crate and a conforming client agree on the responses on a connection -/

namespace Webparse
open Spec

/-- C140: whatever bytes a client that follows RFC 9112 hears as responses, a client that uses this crate hears as these
responses with these bodies. -/
def C140_statement : Prop :=
  ∀ (heard : List HeardAnswer) (wire : Bytes) (r0 : Response), ResponseStream heard wire →
    (converse Response.parseBuffer (·.header) (heard.length + 1) r0 wire).1.map (fun m => (m.1.version, m.1.status, m.2)) =
      heard.map fun h => (h.version, h.code, h.body)

theorem responseBody_bodied {code : Nat} {fields : List (Header × Bytes × Bytes)} {k : ResponseBodyKind} (h : responseBody code fields = k)
    (hk : k ≠ .none) : ¬ BodylessStatus code := by
  intro hc
  unfold responseBody at h
  rw [if_pos hc] at h
  exact hk h.symm

theorem receive_answer (r0 : Response) {reason head body text rest : Bytes} {v : Version} {code : Nat} {fields : List (Header × Bytes × Bytes)}
    (h : IsResponseHead v code reason fields head) (hr : IsPlainReason reason) (ht : ∀ f ∈ fields, TidyBlanks f)
    (hn : NamesUnambiguous (asciiBytes "transfer-encoding" :: asciiBytes "content-length" :: fields.map (·.1.1)))
    (hb : PlainAnswerBody code fields body text) :
    ∃ r', receive Response.parseBuffer (·.header) r0 (head ++ (text ++ rest)) = .ok (r', body, rest) ∧ r'.version = v ∧ r'.status = code := by
  have h3 := C73_response_partial r0 v code reason fields head (text ++ rest) h hr
  refine ⟨⟨code, v, storeAll (fields.map receivedField), false⟩, ?_, rfl, rfl⟩
  unfold receive
  rw [h3]
  simp only
  cases hb with
  | bodyless hc hte hcl =>
    obtain ⟨r', h1, h2, h4⟩ := C105_last_partial r0 v code reason fields head ([] ++ rest) h hr ht hn
    rw [h3] at h1
    simp only [Prod.mk.injEq, true_and, and_true] at h1
    subst h1
    rw [if_neg (by rw [not_chunked_of h2 hte]; simp), (C43_body_len_partial _).1 (by rw [h4, hcl]; rfl)]
    simp
  | empty hk =>
    obtain ⟨r', h1, h2⟩ := C105_iff_partial r0 v code reason fields head ([] ++ rest) h hr ht hn (responseBody_bodied hk (by simp))
    rw [h3] at h1
    simp only [Prod.mk.injEq, true_and, and_true] at h1
    subst h1
    have := h2.mpr (.inr (.inr (.inl hk)))
    rw [hk] at this
    obtain ⟨c1, c2⟩ := this
    simp only at c1 c2
    rw [if_neg (by simp [c1]), c2]
    simp
  | @length body t hk hv hnum hlt =>
    obtain ⟨r', h1, h2⟩ := C105_iff_partial r0 v code reason fields head (body ++ rest) h hr ht hn (responseBody_bodied hk (by simp))
    rw [h3] at h1
    simp only [Prod.mk.injEq, true_and, and_true] at h1
    subst h1
    have := h2.mpr (.inr (.inr (.inr ⟨t, _, hk, hv, hnum, hlt⟩)))
    rw [hk] at this
    obtain ⟨c1, c2⟩ := this
    simp only at c1 c2
    rw [if_neg (by simp [c1]), c2]
    simp only [Res.bind_ok]
    rw [if_neg (by omega), if_neg (by simp)]
    simp
  | @chunks chunks last t hk hv hin hc hl h0 =>
    obtain ⟨r', h1, h2⟩ := C105_iff_partial r0 v code reason fields head (chunks.flatMap SizedChunk.wire ++ last.wire ++ rest) h hr ht hn
      (responseBody_bodied hk (by simp))
    rw [h3] at h1
    simp only [Prod.mk.injEq, true_and, and_true] at h1
    subst h1
    have := h2.mpr (.inl ⟨hk, t, hv, hin⟩)
    rw [hk] at this
    have c1 : (storeAll (fields.map receivedField)).isChunked = true := this
    rw [if_pos c1]
    have hread := C81_body_partial chunks last rest (fun c hc' => (hc c hc').1) (fun c hc' => (hc c hc').2) hl h0
    rw [readChunks_mono hread (by
      have := sized_length chunks
      simp only [List.length_append]
      omega)]
    rfl

/-- C140 for responses with none of what the crate takes otherwise: both hear the same responses, and after them the crate waits
for more. -/
theorem C140_agree_partial {heard : List HeardAnswer} {wire : Bytes} (h : PlainResponses heard wire) :
    ResponseStream heard wire ∧ ∀ (fuel : Nat) (r0 : Response), heard.length < fuel →
      ∃ received, converse Response.parseBuffer (·.header) fuel r0 wire = (received, .err .partialData) ∧
        received.map (fun m => (m.1.version, m.1.status, m.2)) = heard.map fun h => (h.version, h.code, h.body) := by
  induction h with
  | done =>
    refine ⟨.done, fun fuel r0 hf => ?_⟩
    obtain ⟨k, rfl⟩ : ∃ i, fuel = i + 1 := ⟨fuel - 1, by simp at hf; omega⟩
    refine ⟨[], ?_, rfl⟩
    simp [converse, receive, Response.parseBuffer, Response.parseHead, skipEmptyLines, thenDo, countRead]
  | @more reason head body text rest v code fields l hh hr ht hn hb _ ih =>
    refine ⟨.more hh ?_ ih.1, fun fuel r0 hf => ?_⟩
    · cases hb with
      | bodyless hc _ _ => unfold responseBody; rw [if_pos hc]; exact ⟨rfl, rfl⟩
      | empty hk => rw [hk]; exact ⟨rfl, rfl⟩
      | length hk => rw [hk]; exact ⟨rfl, rfl⟩
      | chunks hk _ _ hc hl h0 => rw [hk]; exact ⟨_, _, sized_chunked _ _ hc hl h0, rfl⟩
    · obtain ⟨k, rfl⟩ : ∃ i, fuel = i + 1 := ⟨fuel - 1, by simp at hf; omega⟩
      obtain ⟨r', h1, h2, h3⟩ := receive_answer (rest := rest) r0 hh hr ht hn hb
      obtain ⟨received, h4, h5⟩ := ih.2 k r' (by simpa using hf)
      refine ⟨(r', body) :: received, ?_, ?_⟩
      · unfold converse
        rw [h1]
        simp only
        rw [h4]
      · simp only [List.map_cons, h2, h3, h5]

/-- C140, violated for all responses whose body ends with the connection: what a conforming client hears as the body is the next
response for this crate, whatever it is. -/
theorem C140_violated_split (r0 : Response) (v : Version) (code : Nat) (reason : Bytes) (fields : List (Header × Bytes × Bytes)) (head body : Bytes)
    (h : IsResponseHead v code reason fields head) (hr : IsPlainReason reason) (ht : ∀ f ∈ fields, TidyBlanks f)
    (hn : NamesUnambiguous (asciiBytes "transfer-encoding" :: asciiBytes "content-length" :: fields.map (·.1.1)))
    (hc : ¬ BodylessStatus code) (hte : valuesOf fields (asciiBytes "transfer-encoding") = [])
    (hcl : valuesOf fields (asciiBytes "content-length") = []) :
    ResponseStream [⟨v, code, fields.map (·.1), body⟩] (head ++ body) ∧
      ∃ r', receive Response.parseBuffer (·.header) r0 (head ++ body) = .ok (r', [], body) := by
  obtain ⟨h1, r', h2, h3, h4⟩ := C105_violated_untilClose r0 v code reason fields head body h hr ht hn hc hte hcl
  refine ⟨.close h h1, r', ?_⟩
  unfold receive
  rw [h2]
  simp only
  rw [if_neg (by simp [h3]), h4]
  simp

theorem bare_head : IsResponseHead .http11 200 (asciiBytes "OK") [] (asciiBytes "HTTP/1.1 200 OK\r\n\r\n") :=
  ⟨by decide, by decide, by unfold IsReason IsFieldVchar IsBlank; decide +kernel, (.http11, "HTTP/1.1"), by decide, rfl, _, .done, by decide +kernel⟩

theorem C140_violated : ¬ C140_statement := by
  intro h
  obtain ⟨h1, r', h2⟩ := C140_violated_split bareOk .http11 200 (asciiBytes "OK") [] _ [1] bare_head (by unfold IsPlainReason; decide +kernel)
    (by simp) (framing_names _ (by simp)) (by decide) rfl rfl
  have := h _ _ bareOk h1
  unfold converse at this
  rw [h2] at this
  have := congrArg (fun l => l.map (fun x => x.2.2.length)) this
  simp only [List.map_cons, List.cons.injEq, List.length_nil] at this
  exact absurd this.1 (by decide)

/-- Two responses, one without a body. -/
example : ∃ wire, PlainResponses [⟨.http11, 204, [], []⟩, ⟨.http11, 200, [(asciiBytes "Content-Length", asciiBytes "2")], asciiBytes "hi"⟩] wire := by
  have hnum : IsNumeral (asciiBytes "2") 2 := ⟨by decide, by unfold AllDigits; decide +kernel, by decide +kernel⟩
  have h2 : IsResponseHead .http11 200 (asciiBytes "OK") [((asciiBytes "Content-Length", asciiBytes "2"), [32], [])]
      (asciiBytes "HTTP/1.1 200 OK\r\nContent-Length: 2\r\n\r\n") :=
    ⟨by decide, by decide, by unfold IsReason IsFieldVchar IsBlank; decide +kernel, (.http11, "HTTP/1.1"), by decide, rfl, _,
      .more ⟨name_length, numeral_value hnum, by unfold IsOwsText IsBlank; decide +kernel, (fun b hb => by cases hb), rfl⟩ .done, by decide +kernel⟩
  have h1 : IsResponseHead .http11 204 (asciiBytes "No") [] (asciiBytes "HTTP/1.1 204 No\r\n\r\n") :=
    ⟨by decide, by decide, by unfold IsReason IsFieldVchar IsBlank; decide +kernel, (.http11, "HTTP/1.1"), by decide, rfl, _, .done, by decide +kernel⟩
  exact ⟨_, .more h1 (by unfold IsPlainReason; decide +kernel) (by simp) (framing_names _ (by simp)) (.bodyless (by decide) rfl rfl)
    (.more h2 (by unfold IsPlainReason; decide +kernel)
      (by intro f hf; rw [List.mem_singleton.mp hf]; exact ⟨by simp, rfl⟩)
      (framing_names _ (by decide +kernel)) (.length (body := asciiBytes "hi") (t := asciiBytes "2") (by decide +kernel) (by decide +kernel)
        hnum (by decide)) .done)⟩

end Webparse
