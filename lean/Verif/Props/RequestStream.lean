import Verif.Spec.RequestStream
import Verif.Props.WrittenChunks

/-! # C136: a conforming server hears the requests that were sent -/

namespace Webparse
open Spec

/-- C136: requests that are written one after the other are for a server that follows RFC 9112 these requests with these bodies
and no others. -/
def C136_statement : Prop :=
  ∀ (sent : List (Request × SentBody)) (wire : Bytes), WroteRequests sent wire →
    ∀ heard, RequestStream heard wire ↔ heard = sent.map meant

theorem http1Data_ok {r : Request} {b out : Bytes} (h : r.http1Data b = .ok out) : ∃ head n, r.encodeHeader = .ok (head, n) ∧ out = head ++ b := by
  unfold Request.http1Data at h
  obtain ⟨⟨head, n⟩, h1, h2⟩ := Res.bind_eq_ok.mp h
  simp only [Res.ok.injEq] at h2
  exact ⟨head, n, h1, h2.symm⟩

theorem http1Data_written {r : Request} {head : Bytes} {n : Nat} (h : r.encodeHeader = .ok (head, n)) (b : Bytes) :
    r.http1Data b = .ok (head ++ b) := by
  unfold Request.http1Data
  rw [h]; rfl

theorem valuesOf_spaced (fields : List (Header × Bytes × Bytes)) (n : Bytes) : valuesOf fields n = valuesOf (spaced (fields.map (·.1))) n := by
  unfold valuesOf spaced
  induction fields with
  | nil => rfl
  | cons f fs ih =>
    simp only [List.map_cons, List.filter_cons]
    split <;> simp_all

theorem requestBody_spaced (fields : List (Header × Bytes × Bytes)) : requestBody fields = requestBody (spaced (fields.map (·.1))) := by
  unfold requestBody
  rw [valuesOf_spaced fields (asciiBytes "transfer-encoding"), valuesOf_spaced fields (asciiBytes "content-length")]

theorem headAllowed_lines {r : Request} (h : HeadAllowed r) : ∀ e ∈ r.header, LineHeader e := fun e he => by
  obtain ⟨h1, h2⟩ := h.2.2.2 e he
  refine ⟨h1.1, h1.2, fun k => ?_⟩
  have := h2.1 13 k
  revert this
  unfold IsFieldVchar IsBlank
  decide

theorem headAllowed_trim {r : Request} (h : HeadAllowed r) : r.header.map (fun e => (e.1, trimOws e.2)) = r.header := by
  have : ∀ l : List Header, (∀ e ∈ l, IsFieldValue e.2) → l.map (fun e => (e.1, trimOws e.2)) = l := by
    intro l
    induction l with
    | nil => simp
    | cons e l ih =>
      intro hl
      have := trimOws_value (before := []) (after := []) (hl e List.mem_cons_self) (fun b hb => by cases hb) (fun b hb => by cases hb)
      simp only [List.nil_append, List.append_nil] at this
      rw [List.map_cons, ih fun x hx => hl x (List.mem_cons_of_mem _ hx), this]
  exact this _ fun e he => (h.2.2.2 e he).2

/-- The only reading of a head that may be written. -/
theorem head_only {r : Request} {out : Bytes} {n : Nat} (h : r.encodeHeader = .ok (out, n)) (ha : HeadAllowed r)
    {method target head rest rest' : Bytes} {v : Version} {fields : List (Header × Bytes × Bytes)}
    (hh : IsRequestHead method target v fields head) (he : head ++ rest' = out ++ rest) :
    method = r.method.asStr ∧ target = r.url.path ∧ v = r.version ∧ fields.map (·.1) = r.header ∧ rest' = rest := by
  obtain ⟨h1, h2, h3, h4, -, h5⟩ := C134_request_only_partial r out rest rest' n h ha.1 ha.2.1.2 (headAllowed_lines ha) method target v fields head hh he
  exact ⟨h1, h2, h3, by rw [h4, headAllowed_trim ha], h5⟩

theorem announced_reads {r : Request} {b : SentBody} (h : Announced r b) (fields : List (Header × Bytes × Bytes))
    (hf : fields.map (·.1) = r.header) : BodyBy (requestBody fields) b.data b.wire := by
  rw [requestBody_spaced, hf]
  cases b with
  | whole d =>
    have h' : requestBody (spaced r.header) = .length d.length := h
    rw [h']
    exact ⟨rfl, rfl⟩
  | pieces l =>
    rw [h.1]
    exact ⟨l, [], chunked_written l h.2, rfl⟩

theorem announced_only {r : Request} {b : SentBody} (h : Announced r b) {fields : List (Header × Bytes × Bytes)}
    (hf : fields.map (·.1) = r.header) {body text rest rest' : Bytes} (hb : BodyBy (requestBody fields) body text)
    (he : text ++ rest' = b.wire ++ rest) : body = b.data ∧ rest' = rest := by
  rw [requestBody_spaced, hf] at hb
  cases b with
  | whole d =>
    have h' : requestBody (spaced r.header) = .length d.length := h
    rw [h'] at hb
    obtain ⟨rfl, hl⟩ := hb
    exact List.append_inj he hl
  | pieces l =>
    rw [h.1] at hb
    obtain ⟨ds, tr, hc, rfl⟩ := hb
    obtain ⟨g1, -, g2⟩ := pieces_unique l h.2 ds tr text rest rest' hc (by rw [he]; simp [SentBody.wire, writeChunked])
    exact ⟨by rw [g1]; rfl, g2⟩

/-- C136 for requests that RFC 9112 allows and whose fields announce the body that is sent: they are heard, and nothing else is. -/
theorem C136_heard_partial {sent : List (Request × SentBody)} {wire : Bytes} (hw : WroteRequests sent wire)
    (ha : ∀ s ∈ sent, HeadAllowed s.1 ∧ Announced s.1 s.2) (heard : List HeardMessage) :
    RequestStream heard wire ↔ heard = sent.map meant := by
  induction hw generalizing heard with
  | done =>
    constructor
    · intro h
      generalize hz : ([] : Bytes) = z at h
      cases h with
      | done => rfl
      | more hh _ _ =>
        obtain ⟨-, -, -, e, -, -, text, -, rfl⟩ := hh
        have := congrArg List.length hz
        simp at this
    · rintro rfl; exact .done
  | @more r b out w l h1 h2 ih =>
    obtain ⟨head, n, he, rfl⟩ := http1Data_ok h1
    obtain ⟨a1, a2⟩ := ha (r, b) List.mem_cons_self
    have ih' := ih fun s hs => ha s (List.mem_cons_of_mem _ hs)
    constructor
    · intro h
      generalize hz : head ++ b.wire ++ w = z at h
      cases h with
      | done =>
        obtain ⟨-, -, hx⟩ := requestHeader_ok he
        have := congrArg List.length hz
        rw [hx] at this
        simp at this
      | more hh hb hs =>
        obtain ⟨rfl, rfl, rfl, hf, e1⟩ := head_only (rest := b.wire ++ w) he a1 hh (by rw [← hz]; simp)
        obtain ⟨rfl, rfl⟩ := announced_only a2 hf hb e1
        rw [(ih' _).mp hs, hf]
        rfl
    · rintro rfl
      obtain ⟨fields, hh, hf⟩ := (C134_request_iff_partial r head n he).mpr a1
      have := RequestStream.more hh (announced_reads a2 fields hf) ((ih' _).mpr rfl)
      rw [hf] at this
      simpa [meant] using this

theorem chunked_longer {ds : List Bytes} {tr : List (Header × Bytes × Bytes)} {text : Bytes} (h : ChunkedBody ds tr text) :
    ds.flatten.length < text.length := by
  induction h with
  | last => simp
  | more _ _ _ _ _ ih => simp only [List.flatten_cons, List.length_append, List.length_cons, List.length_nil]; omega

theorem writeChunked_longer (l : List Bytes) : l.flatten.length < (writeChunked l).length := by
  induction l with
  | nil => exact writeChunked_ne []
  | cons d l ih =>
    obtain ⟨len, hw, -, -⟩ := written_len d
    have : writeChunked (d :: l) = (encodeChunkData d).1 ++ writeChunked l := by simp [writeChunked]
    rw [this, hw]
    simp only [List.flatten_cons, List.length_append, List.length_cons, List.length_nil]
    omega

/-- C136, exact, for one request that RFC 9112 allows: it is heard as it was meant exactly if its fields announce the body that
is sent. -/
theorem C136_one_iff_partial {r : Request} {b : SentBody} {wire : Bytes} (hw : r.http1Data b.wire = .ok wire) (ha : HeadAllowed r) :
    RequestStream [meant (r, b)] wire ↔ Announced r b := by
  have hws : WroteRequests [(r, b)] (wire ++ []) := .more hw .done
  rw [List.append_nil] at hws
  constructor
  · intro h
    obtain ⟨head, n, he, rfl⟩ := http1Data_ok hw
    generalize hz : head ++ b.wire = z at h
    generalize hm : [meant (r, b)] = ms at h
    cases h with
    | done => cases hm
    | @more method target head' body text rest v fields l hh hb hs =>
      obtain ⟨hm1, rfl⟩ := List.cons.inj hm
      have hrest : rest = [] := by cases hs; rfl
      subst hrest
      obtain ⟨-, -, -, hf, e1⟩ := head_only (rest := b.wire) he ha hh (by rw [← hz])
      rw [List.append_nil] at e1
      have hbody : body = b.data := (congrArg HeardMessage.body hm1).symm
      subst hbody e1
      rw [requestBody_spaced, hf] at hb
      cases b with
      | whole d =>
        show requestBody (spaced r.header) = .length d.length
        cases hk : requestBody (spaced r.header) with
        | chunked =>
          rw [hk] at hb
          obtain ⟨ds, tr, hc, e⟩ := hb
          have := chunked_longer hc
          rw [← e] at this
          exact absurd this (Nat.lt_irrefl _)
        | length n => rw [hk] at hb; rw [← hb.2]; rfl
        | invalid => rw [hk] at hb; exact hb.elim
      | pieces l =>
        have hlong := writeChunked_longer l
        cases hk : requestBody (spaced r.header) with
        | chunked =>
          rw [hk] at hb
          obtain ⟨ds, tr, hc, e⟩ := hb
          exact ⟨hk, (C135_iff_partial l []).mp ⟨ds, tr, _, hc, rfl, e⟩⟩
        | length n =>
          rw [hk] at hb
          have := congrArg List.length hb.1
          simp only [SentBody.wire, SentBody.data] at this
          omega
        | invalid => rw [hk] at hb; exact hb.elim
  · intro h
    exact (C136_heard_partial hws (fun s hs => by
      rw [List.mem_singleton.mp hs]; exact ⟨ha, h⟩) _).mpr rfl

/-- C136, violated: `http1_data` writes any body after any head, so the body of a request whose fields announce none is heard as
a request of its own. -/
theorem C136_violated_smuggled {r1 r2 : Request} {body inner wire : Bytes} (h1 : HeadAllowed r1) (h2 : HeadAllowed r2)
    (hn : requestBody (spaced r1.header) = .length 0) (hb : requestBody (spaced r2.header) = .length body.length)
    (w2 : r2.http1Data body = .ok inner) (w1 : r1.http1Data inner = .ok wire) (heard : List HeardMessage) :
    RequestStream heard wire ↔ heard = [meant (r1, .whole []), meant (r2, .whole body)] := by
  obtain ⟨head, n, he, rfl⟩ := http1Data_ok w1
  have hw : WroteRequests [(r1, .whole []), (r2, .whole body)] ((head ++ []) ++ (inner ++ [])) :=
    .more (http1Data_written he []) (.more w2 .done)
  simp only [List.append_nil] at hw
  refine C136_heard_partial hw (fun s hs => ?_) heard
  simp only [List.mem_cons, List.not_mem_nil, or_false] at hs
  rcases hs with rfl | rfl
  · exact ⟨h1, hn⟩
  · exact ⟨h2, hb⟩

/-- `GET p HTTP/1.1` without fields. -/
def plainGet (p : String) : Request := { method := .get, url := { Url.new with path := asciiBytes p } }

theorem plainGet_allowed (p : String) (h : asciiBytes p ≠ [] ∧ ∀ b ∈ asciiBytes p, 0x21 ≤ b.toNat ∧ b.toNat ≤ 0x7e) :
    HeadAllowed (plainGet p) :=
  ⟨⟨by show Method.get.asStr ≠ []; decide, by show ∀ b ∈ Method.get.asStr, isTchar b = true; decide +kernel⟩, h, .inr rfl, fun e he => by cases he⟩

theorem C136_violated : ¬ C136_statement := by
  intro h
  have w2 : (plainGet "/admin").http1Data [] = .ok (asciiBytes "GET /admin HTTP/1.1\r\n\r\n") := by decide +kernel
  have w1 : (plainGet "/a").http1Data (asciiBytes "GET /admin HTTP/1.1\r\n\r\n") =
      .ok (asciiBytes "GET /a HTTP/1.1\r\n\r\nGET /admin HTTP/1.1\r\n\r\n") := by decide +kernel
  have hs := (C136_violated_smuggled (plainGet_allowed "/a" (by decide +kernel)) (plainGet_allowed "/admin" (by decide +kernel))
    (by decide +kernel) (by decide +kernel) w2 w1 _).mpr rfl
  have := (h [(plainGet "/a", .whole (asciiBytes "GET /admin HTTP/1.1\r\n\r\n"))] _ (.more w1 .done) _).mp (by
    rw [List.append_nil]; exact hs)
  exact absurd (congrArg List.length this) (by simp)

/-- A request in two pieces and one after it. -/
example : let r : Request := { (plainGet "/a") with method := .post, header := [(asciiBytes "Transfer-Encoding", asciiBytes "chunked")] }
    HeadAllowed r ∧ Announced r (.pieces [asciiBytes "ab", asciiBytes "c"]) ∧ Announced (plainGet "/") (.whole []) := by
  refine ⟨⟨⟨by decide, by decide +kernel⟩, ⟨by decide, by decide +kernel⟩, .inr rfl, fun e he => ?_⟩, ⟨by decide +kernel, by decide⟩, ?_⟩
  · rw [List.mem_singleton.mp he]
    unfold IsFieldName IsFieldValue IsFieldVchar IsBlank
    exact ⟨⟨by decide, by decide +kernel⟩, by decide +kernel, (fun b hb => by
      have : b = 99 := by simpa [asciiBytes, eq_comm] using hb
      subst this; decide), fun b hb => by
      have : b = 100 := by simpa [asciiBytes, eq_comm] using hb
      subst this; decide⟩
  · show requestBody (spaced _) = _
    decide +kernel

end Webparse
