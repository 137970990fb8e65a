import Verif.Spec.Agreement
import Verif.Props.RequestStream
import Verif.Props.BodyExact
import Verif.Proofs.Conversation

/-! # C139: this crate and a conforming server agree on the requests on a connection -/

namespace Webparse
open Spec

/-- C139: whatever bytes a server that follows RFC 9112 hears as requests, a server that uses this crate hears as these requests
with these bodies. -/
def C139_statement : Prop :=
  ∀ (heard : List HeardMessage) (wire : Bytes) (r0 : Request), RequestStream heard wire →
    (converse Request.parseBuffer (·.header) (heard.length + 1) r0 wire).1.map (fun m => (m.1.method.asStr, m.1.version, m.2)) =
      heard.map fun h => (h.method, h.version, h.body)

theorem sized_chunked (chunks : List SizedChunk) (last : SizedChunk) (hc : ∀ c ∈ chunks, c.Ok ∧ c.data ≠ []) (hl : last.Ok)
    (h0 : last.data = []) : ChunkedBody (chunks.map SizedChunk.data) [] (chunks.flatMap SizedChunk.wire ++ last.wire) := by
  induction chunks with
  | nil =>
    have : [].flatMap SizedChunk.wire ++ last.wire = last.size ++ [] ++ [13, 10] ++ [13, 10] := by
      simp [SizedChunk.wire, wireChunk, h0]
    rw [this]
    exact .last hl.1 (by rw [hl.2.1, h0]; rfl) (.inl rfl) .done
  | cons c cs ih =>
    obtain ⟨h1, h2⟩ := hc c List.mem_cons_self
    have : (c :: cs).flatMap SizedChunk.wire ++ last.wire =
        c.size ++ [] ++ [13, 10] ++ c.data ++ [13, 10] ++ (cs.flatMap SizedChunk.wire ++ last.wire) := by
      simp [SizedChunk.wire, wireChunk]
    rw [this]
    exact .more h1.1 h2 h1.2.1 (.inl rfl) (ih fun x hx => hc x (List.mem_cons_of_mem _ hx))

theorem sized_length (chunks : List SizedChunk) : chunks.length ≤ (chunks.flatMap SizedChunk.wire).length := by
  induction chunks with
  | nil => simp
  | cons c cs ih =>
    simp only [List.flatMap_cons, List.length_append, List.length_cons, SizedChunk.wire, wireChunk, List.length_nil] at *
    omega

theorem receive_plain (r0 : Request) {method target head body text rest : Bytes} {v : Version} {fields : List (Header × Bytes × Bytes)}
    {m : Method} {url : Url} (h : IsRequestHead method target v fields head) (hm : ∃ k ∈ methodNames, k.1 = m ∧ asciiBytes k.2 = method)
    (hu : requestUrl m (storeAll (fields.map receivedField)) target = .ok url) (ht : ∀ f ∈ fields, TidyBlanks f)
    (hn : NamesUnambiguous (asciiBytes "transfer-encoding" :: asciiBytes "content-length" :: fields.map (·.1.1)))
    (hb : PlainBody fields body text) :
    ∃ r', receive Request.parseBuffer (·.header) r0 (head ++ (text ++ rest)) = .ok (r', body, rest) ∧ r'.method.asStr = method ∧ r'.version = v := by
  obtain ⟨r', h1, h2⟩ := C96_iff_partial r0 method target v fields head (text ++ rest) m url h hm hu ht hn
  have h3 := C73_request_partial r0 method target v fields head (text ++ rest) m url h hm hu
  have h4 : r' = ⟨m, storeAll (fields.map receivedField), v, url, false⟩ := by
    rw [h1] at h3
    simpa using h3
  refine ⟨r', ?_, ?_, by rw [h4]⟩
  · unfold receive
    rw [h1]
    simp only
    cases hb with
    | none hk =>
      have := h2.mpr (.inr (.inl hk))
      rw [hk] at this
      obtain ⟨c1, c2⟩ := this
      rw [if_neg (by simp [c1]), c2]
      simp
    | @length body t hk hv hnum hlt =>
      have := h2.mpr (.inr (.inr ⟨t, _, hk, hv, hnum, hlt⟩))
      rw [hk] at this
      obtain ⟨c1, c2⟩ := this
      rw [if_neg (by simp [c1]), c2]
      simp only [Res.bind_ok]
      rw [if_neg (by omega), if_neg (by simp)]
      simp
    | @chunks chunks last t hk hv hin hc hl h0 =>
      have := h2.mpr (.inl ⟨hk, t, hv, hin⟩)
      rw [hk] at this
      have c1 : r'.header.isChunked = true := this
      rw [if_pos c1]
      have hread := C81_body_partial chunks last rest (fun c hc' => (hc c hc').1) (fun c hc' => (hc c hc').2) hl h0
      rw [readChunks_mono hread (by
        have := sized_length chunks
        simp only [List.length_append]
        omega)]
      rfl
  · rw [h4]
    obtain ⟨k, hk, rfl, rfl⟩ := hm
    have : ∀ k ∈ methodNames, k.1.asStr = asciiBytes k.2 := by decide +kernel
    exact this k hk

/-- C139 for requests with none of what the crate takes otherwise: both hear the same requests, and after them the crate waits for
more. -/
theorem C139_agree_partial {heard : List HeardMessage} {wire : Bytes} (h : PlainRequests heard wire) :
    RequestStream heard wire ∧ ∀ (fuel : Nat) (r0 : Request), heard.length < fuel →
      ∃ received, converse Request.parseBuffer (·.header) fuel r0 wire = (received, .err .partialData) ∧
        received.map (fun m => (m.1.method.asStr, m.1.version, m.2)) = heard.map fun h => (h.method, h.version, h.body) := by
  induction h with
  | done =>
    refine ⟨.done, fun fuel r0 hf => ?_⟩
    obtain ⟨k, rfl⟩ : ∃ i, fuel = i + 1 := ⟨fuel - 1, by simp at hf; omega⟩
    refine ⟨[], ?_, rfl⟩
    simp [converse, receive, Request.parseBuffer, Request.parseHead, skipEmptyLines, thenDo, countRead]
  | @more method target head body text rest v fields l m url hh hm hu ht hn hb _ ih =>
    refine ⟨.more hh ?_ ih.1, fun fuel r0 hf => ?_⟩
    · cases hb with
      | none hk => rw [hk]; exact ⟨rfl, rfl⟩
      | length hk => rw [hk]; exact ⟨rfl, rfl⟩
      | chunks hk _ _ hc hl h0 => rw [hk]; exact ⟨_, _, sized_chunked _ _ hc hl h0, rfl⟩
    · obtain ⟨k, rfl⟩ : ∃ i, fuel = i + 1 := ⟨fuel - 1, by simp at hf; omega⟩
      obtain ⟨r', h1, h2, h3⟩ := receive_plain (rest := rest) r0 hh hm hu ht hn hb
      obtain ⟨received, h4, h5⟩ := ih.2 k r' (by simpa using hf)
      refine ⟨(r', body) :: received, ?_, ?_⟩
      · unfold converse
        rw [h1]
        simp only
        rw [h4]
      · simp only [List.map_cons, h2, h3, h5]

/-- C139, violated: with a field `#ontent-Length` before `Content-Length`, what a conforming server hears as the body is the next
request for this crate, whatever it is. -/
theorem C139_violated_smuggled (r0 : Request) (s body : Bytes) (hs : IsNumeral s body.length) :
    RequestStream [⟨asciiBytes "POST", asciiBytes "/", .http11, [(asciiBytes "#ontent-Length", []), (asciiBytes "Content-Length", s)], body⟩]
      (postHead [(asciiBytes "#ontent-Length", []), (asciiBytes "Content-Length", s)] ++ body) ∧
    ∃ r', receive Request.parseBuffer (·.header) r0 (postHead [(asciiBytes "#ontent-Length", []), (asciiBytes "Content-Length", s)] ++ body) =
      .ok (r', [], body) := by
  obtain ⟨h1, h2, r', h3, h4, h5⟩ := C96_violated_hidden r0 s body body.length hs
  constructor
  · have := RequestStream.more (body := body) (text := body) h1 (by rw [h2]; exact ⟨rfl, rfl⟩) .done
    simpa [spaced] using this
  · refine ⟨r', ?_⟩
    unfold receive
    rw [h3]
    simp only
    rw [if_neg (by simp [h4]), h5]
    simp

theorem C139_violated : ¬ C139_statement := by
  intro h
  have hnum : IsNumeral (asciiBytes "19") (postHead []).length := ⟨by decide, by unfold AllDigits; decide +kernel, by decide +kernel⟩
  obtain ⟨h1, r', h2⟩ := C139_violated_smuggled {} (asciiBytes "19") (postHead []) hnum
  have := h _ _ {} h1
  unfold converse at this
  rw [h2] at this
  have := congrArg (fun l => l.map (fun x => x.2.2.length)) this
  simp only [List.map_cons, List.cons.injEq, List.length_nil] at this
  exact absurd this.1 (by decide)

/-- A request with a body. -/
example : ∃ wire, PlainRequests [⟨asciiBytes "POST", asciiBytes "/", .http11, [(asciiBytes "Content-Length", asciiBytes "2")], asciiBytes "hi"⟩] wire := by
  have hf : ∀ e ∈ [(asciiBytes "Content-Length", asciiBytes "2")], IsFieldName e.1 ∧ IsFieldValue e.2 := by
    intro e he
    rw [List.mem_singleton.mp he]
    exact ⟨name_length, numeral_value (n := 2) ⟨by decide, by unfold AllDigits; decide +kernel, by decide +kernel⟩⟩
  obtain ⟨url, hu⟩ := post_url (hs := storeAll [(asciiBytes "Content-Length", asciiBytes "2")]) (by decide +kernel) (by decide +kernel) (by decide +kernel)
  have := PlainRequests.more (url := url) (postHead_head _ hf) ⟨(.post, "POST"), by decide, rfl, rfl⟩ (by rw [spaced_received _ hf]; exact hu)
    (by intro f hf'; simp only [spaced, List.map_cons, List.map_nil, List.mem_singleton] at hf'; subst hf'; exact ⟨by simp, rfl⟩)
    (framing_names _ (by decide +kernel))
    (.length (body := asciiBytes "hi") (t := asciiBytes "2") (by decide +kernel) (by decide +kernel)
      ⟨by decide, by unfold AllDigits; decide +kernel, by decide +kernel⟩ (by decide)) .done
  exact ⟨_, this⟩

end Webparse
