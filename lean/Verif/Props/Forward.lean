import Verif.Spec.Forward
import Verif.Props.BodyKind
import Verif.Props.ReadyMade

/-!
# C108: bodies received over HTTP/2 and sent on over HTTP/1.1

The full claim: a request or a response made from a HEADERS frame and sent on with the bytes of its DATA frames as the body is
received over HTTP/1.1 with just this body, and what is sent next is read as what it is.
-/

namespace Webparse
open Spec

/-- C108 for requests. -/
def C108_statement : Prop :=
  ∀ (f : HeadersFrame) (r : Request) (body wire rest : Bytes) (object : Request),
    requestOf f = .ok r → Forwardable r → FramingClear f.fields → r.http1Data body = .ok wire →
    ∃ r', SameRequest r r' ∧ receive Request.parseBuffer (·.header) object (wire ++ rest) = .ok (r', body, rest)

/-- C108 for responses. -/
def C108_response_statement : Prop :=
  ∀ (f : HeadersFrame) (r : Response) (body wire rest : Bytes) (n : Nat) (object : Response),
    responseOf f = .ok r → (∀ e ∈ r.header, CleanHeader e) → FramingClear f.fields → r.serialize body = .ok (wire, n) →
    receive Response.parseBuffer (·.header) object (wire ++ rest) = .ok (r, body, rest)

/-! ### The framing fields of what is sent on -/

theorem lastSent_append (a b : HeaderMap) (n : Bytes) : lastSent (a ++ b) n = (lastSent b n).or (lastSent a n) := by
  unfold lastSent
  rw [List.filter_append, List.map_append, List.getLast?_append]

theorem lastSent_single (e : Header) (n : Bytes) : lastSent [e] n = if lower e.1 = n then some e.2 else none := by
  unfold lastSent
  by_cases h : lower e.1 = n <;> simp [h]

theorem absOps_inserts (fields : HeaderMap) (n : Bytes) : absOps (fields.map fun e => .insert e.1 e.2) n = lastSent fields n := by
  have key : ∀ (rev : HeaderMap), absOps ((rev.reverse).map fun e => .insert e.1 e.2) n = lastSent rev.reverse n := by
    intro rev
    induction rev with
    | nil => rfl
    | cons e es ih =>
      rw [List.reverse_cons, lastSent_append, lastSent_single, List.map_append]
      unfold absOps at ih ⊢
      rw [List.foldl_append]
      simp only [List.map_cons, List.map_nil, List.foldl_cons, List.foldl_nil, HeaderOp.abs]
      rw [ih]
      by_cases h : lower e.1 = n
      · subst h; simp
      · rw [if_neg h, if_neg (fun hh => h hh.symm)]; simp
  simpa using key fields.reverse

theorem absOps_default (name : String) (ops : List HeaderOp) (n : Bytes) (h : n ≠ lower (asciiBytes name)) :
    absOps (withDefault name ops) n = absOps ops n := by
  unfold withDefault
  split
  · rfl
  · unfold absOps
    rw [List.foldl_append]
    simp only [List.foldl_cons, List.foldl_nil, HeaderOp.abs]
    rw [if_neg h]

theorem opNames_inserts (fields : HeaderMap) : opNames (fields.map fun e => .insert e.1 e.2) = fields.map (·.1) := by
  induction fields with
  | nil => rfl
  | cons e es ih => simp only [List.map_cons, opNames, ih]

/-- The fields a built message has when it is built from a list of fields. -/
theorem absOps_field (pre : HeaderMap) (name : String) (fields : HeaderMap) (n : Bytes) (h : n ≠ lower (asciiBytes name))
    (hp : ∀ e ∈ pre, lower e.1 ≠ n) :
    absOps (withDefault name ((pre ++ fields).map fun e => .insert e.1 e.2)) n = lastSent fields n := by
  rw [absOps_default _ _ _ h, absOps_inserts, lastSent_append]
  have : lastSent pre n = none := by
    unfold lastSent
    rw [List.filter_eq_nil_iff.mpr (fun e he => by simpa using hp e he)]
    rfl
  rw [this]
  simp

/-- The framing fields of a request made from a frame are those of the frame. -/
theorem forward_lookup (f : HeadersFrame) (r : Request) (h : requestOf f = .ok r) (hf : FramingClear f.fields) (n : Bytes)
    (hn : n = asciiBytes "transfer-encoding" ∨ n = asciiBytes "content-length") : r.header.get? n = lastSent f.fields n := by
  have hb := (C63_request f r h).2
  have hops : [RequestCall.methodIs r.method, .urlIs r.url, .headers f.fields].flatMap RequestCall.headerOps =
      ((match r.url.domain, r.url.port with
        | some d, some p => [(asciiBytes "Host", d ++ [58] ++ decimal p)]
        | _, _ => []) ++ f.fields).map (fun e => HeaderOp.insert e.1 e.2) := by
    simp only [List.flatMap_cons, List.flatMap_nil, RequestCall.headerOps, hostOps, List.map_append, List.nil_append, List.append_nil]
    cases r.url.domain <;> cases r.url.port <;> rfl
  have hl : lower n = n := by rcases hn with rfl | rfl <;> decide +kernel
  rw [C64_lookup_partial _ n r hb, hops, hl, absOps_field]
  · rcases hn with rfl | rfl <;> decide +kernel
  · intro e he
    have : e.1 = asciiBytes "Host" := by
      cases h1 : r.url.domain <;> cases h2 : r.url.port <;> rw [h1, h2] at he <;> simp at he
      rw [he]
    rw [this]
    rcases hn with rfl | rfl <;> decide +kernel
  · rw [hops, opNames_inserts, List.map_append]
    have hsub : ∀ x ∈ n :: asciiBytes "User-Agent" :: (((match r.url.domain, r.url.port with
        | some d, some p => [(asciiBytes "Host", d ++ [58] ++ decimal p)]
        | _, _ => []) : HeaderMap).map (fun e : Header => e.1) ++ f.fields.map (fun e : Header => e.1)),
        x ∈ asciiBytes "transfer-encoding" :: asciiBytes "content-length" :: asciiBytes "Host" :: asciiBytes "User-Agent" ::
          asciiBytes "Server" :: f.fields.map (·.1) := by
      intro x hx
      simp only [List.mem_cons, List.mem_append] at hx ⊢
      rcases hx with rfl | rfl | hx | hx
      · rcases hn with rfl | rfl <;> simp
      · simp
      · cases h1 : r.url.domain <;> cases h2 : r.url.port <;> rw [h1, h2] at hx <;> simp at hx
        simp [hx]
      · simp [hx]
    exact fun a ha b hb => hf a (hsub a ha) b (hsub b hb)

/-- The same for responses. -/
theorem forward_lookup_response (f : HeadersFrame) (r : Response) (h : responseOf f = .ok r) (hm : f.parts.method = none)
    (hf : FramingClear f.fields) (n : Bytes) (hn : n = asciiBytes "transfer-encoding" ∨ n = asciiBytes "content-length") :
    r.header.get? n = lastSent f.fields n := by
  obtain ⟨r', h', -, hb⟩ := C63_response f
  rw [h, Res.ok.injEq] at h'
  subst h'
  rw [hm] at hb
  have hops : (ResponseCall.statusIs r.status :: (none : Option Method).toList.map (fun m : Method => ResponseCall.method m.asStr) ++
      [ResponseCall.headers f.fields]).flatMap ResponseCall.headerOps = (([] : HeaderMap) ++ f.fields).map (fun e => HeaderOp.insert e.1 e.2) := by
    simp [ResponseCall.headerOps]
  have hl : lower n = n := by rcases hn with rfl | rfl <;> decide +kernel
  rw [C64_response_lookup_partial _ n r hb, hops, hl, absOps_field]
  · rcases hn with rfl | rfl <;> decide +kernel
  · intro e he; simp at he
  · rw [hops, opNames_inserts, List.nil_append]
    have hsub : ∀ x ∈ n :: asciiBytes "Server" :: f.fields.map (·.1),
        x ∈ asciiBytes "transfer-encoding" :: asciiBytes "content-length" :: asciiBytes "Host" :: asciiBytes "User-Agent" ::
          asciiBytes "Server" :: f.fields.map (·.1) := by
      intro x hx
      simp only [List.mem_cons] at hx ⊢
      rcases hx with rfl | rfl | hx
      · rcases hn with rfl | rfl <;> simp
      · simp
      · simp [hx]
    exact fun a ha b hb => hf a (hsub a ha) b (hsub b hb)

/-- The request sent on is read as the same request, with its body and all that follows still to be read. -/
theorem forward_parsed (f : HeadersFrame) (r : Request) (h : requestOf f = .ok r) (hr : Forwardable r) (body wire : Bytes)
    (hw : r.http1Data body = .ok wire) :
    ∃ r', SameRequest r r' ∧ ∀ (object : Request) (rest : Bytes), ∃ m, object.parseBuffer (wire ++ rest) = (.ok m, r', body ++ rest) := by
  have hops : ∃ ops, r.header = runOps ops := by
    have hb := (C63_request f r h).2
    have nf : ∀ c ∈ [RequestCall.methodIs r.method, .urlIs r.url, .headers f.fields], ∀ e, ¬ c.Fails e := by
      intro c hc e he
      simp at hc
      rcases he with ⟨t, rfl, -⟩ | ⟨t, rfl, -⟩ <;> simp at hc
    rw [built_parts _ nf, Res.ok.injEq] at hb
    rw [← hb, insertMissing_ops]
    exact ⟨_, rfl⟩
  obtain ⟨ops, ho⟩ := hops
  obtain ⟨r', h1, hs⟩ := (C41_roundtrip_iff_partial r {} ops body wire ho hr.clean hr.host hr.method.1 hr.method.2 hw).mpr
    ⟨hr.slash, hr.path, hr.query⟩
  refine ⟨r', hs, fun object rest => ?_⟩
  obtain ⟨-, h2, h3⟩ := C39_request _ object _ _ _ _ h1
  have h4 := h3 (body ++ rest)
  have e : wire.take (wire.length - body.length) ++ (body ++ rest) = wire ++ rest := by
    conv_rhs => rw [← List.take_append_drop (wire.length - body.length) wire, ← h2, List.append_assoc]
  rw [e] at h4
  exact ⟨_, h4⟩

/-- How a receiver takes the bytes after a head with a `Content-Length` and no `Transfer-Encoding`. -/
theorem receive_length {σ : Type} {parse : σ → Bytes → Res Nat × σ × Bytes} {header : σ → HeaderMap} {o m : σ} {buf after : Bytes} {k : Nat}
    (hp : parse o buf = (.ok k, m, after)) {s : Bytes} {n : Nat} (h1 : (header m).get? (asciiBytes "transfer-encoding") = none)
    (h2 : (header m).get? (asciiBytes "content-length") = some s) (h3 : IsNumeral s n) (h4 : n < 2 ^ 63) :
    receive parse header o buf = if after.length < n then .err .partialData else .ok (m, after.take n, after.drop n) := by
  unfold receive
  rw [hp]
  have e1 : (header m).isChunked = false := by simp [HeaderMap.isChunked, h1]
  simp only
  rw [if_neg (by simp [e1]), (C43_body_len_partial (header m)).2 _ _ h2 h3 h4]
  simp only [Res.bind_ok]
  rw [if_neg (by omega)]
  simp

/-! ### Requests -/

/-- C108, violated for every body that is not empty: a request without `Content-Length`, as HTTP/2 allows, is received with an empty
body, and its body is read as the next request. -/
theorem C108_violated_lost (f : HeadersFrame) (r : Request) (h : requestOf f = .ok r) (hr : Forwardable r) (hf : FramingClear f.fields)
    (h1 : lastSent f.fields (asciiBytes "transfer-encoding") = none) (h2 : lastSent f.fields (asciiBytes "content-length") = none)
    (body wire rest : Bytes) (hw : r.http1Data body = .ok wire) (object : Request) :
    ∃ r', SameRequest r r' ∧ receive Request.parseBuffer (·.header) object (wire ++ rest) = .ok (r', [], body ++ rest) := by
  obtain ⟨r', hs, hp⟩ := forward_parsed f r h hr body wire hw
  obtain ⟨m, hm⟩ := hp object rest
  have e := hs.2.2.2.2
  refine ⟨r', hs, framed_read (.none ?_ ?_) e (by rw [List.nil_append]; exact hm)⟩
  · rw [forward_lookup f r h hf _ (.inl rfl)]; exact h1
  · rw [forward_lookup f r h hf _ (.inr rfl)]; exact h2

/-- With a `Content-Length` the receiver takes that many bytes, of the body and of what was sent after it. -/
theorem C108_length_partial (f : HeadersFrame) (r : Request) (h : requestOf f = .ok r) (hr : Forwardable r) (hf : FramingClear f.fields)
    (s : Bytes) (n : Nat) (h1 : lastSent f.fields (asciiBytes "transfer-encoding") = none)
    (h2 : lastSent f.fields (asciiBytes "content-length") = some s) (hn : IsNumeral s n) (hl : n < 2 ^ 63)
    (body wire : Bytes) (hw : r.http1Data body = .ok wire) :
    ∃ r', SameRequest r r' ∧ ∀ (object : Request) (rest : Bytes),
      receive Request.parseBuffer (·.header) object (wire ++ rest) =
        if (body ++ rest).length < n then .err .partialData else .ok (r', (body ++ rest).take n, (body ++ rest).drop n) := by
  obtain ⟨r', hs, hp⟩ := forward_parsed f r h hr body wire hw
  refine ⟨r', hs, fun object rest => ?_⟩
  obtain ⟨m, hm⟩ := hp object rest
  have e := hs.2.2.2.2
  refine receive_length hm ?_ ?_ hn hl
  · show r'.header.get? _ = _
    rw [e, forward_lookup f r h hf _ (.inl rfl)]; exact h1
  · show r'.header.get? _ = _
    rw [e, forward_lookup f r h hf _ (.inr rfl)]; exact h2

/-- C108 for requests with `Content-Length` and without `Transfer-Encoding`: the body arrives, and what follows it is left alone, exactly
if the length is that of the body, which RFC 9113 8.1.1 demands and the code does not check. -/
theorem C108_length_iff_partial (f : HeadersFrame) (r : Request) (h : requestOf f = .ok r) (hr : Forwardable r) (hf : FramingClear f.fields)
    (s : Bytes) (n : Nat) (h1 : lastSent f.fields (asciiBytes "transfer-encoding") = none)
    (h2 : lastSent f.fields (asciiBytes "content-length") = some s) (hn : IsNumeral s n) (hl : n < 2 ^ 63)
    (body wire : Bytes) (hw : r.http1Data body = .ok wire) (object : Request) (rest : Bytes) :
    (∃ r', SameRequest r r' ∧ receive Request.parseBuffer (·.header) object (wire ++ rest) = .ok (r', body, rest)) ↔ n = body.length := by
  obtain ⟨r', hs, hp⟩ := C108_length_partial f r h hr hf s n h1 h2 hn hl body wire hw
  rw [hp object rest]
  constructor
  · rintro ⟨r'', -, e⟩
    split at e
    · simp at e
    · rename_i hlt
      simp only [Res.ok.injEq, Prod.mk.injEq] at e
      have := congrArg List.length e.2.1
      rw [List.length_take] at this
      omega
  · rintro rfl
    refine ⟨r', hs, ?_⟩
    rw [if_neg (by simp)]
    simp

/-- C108, violated: a `Content-Length` that is too small makes the end of the body the next request. -/
theorem C108_violated_short (f : HeadersFrame) (r : Request) (h : requestOf f = .ok r) (hr : Forwardable r) (hf : FramingClear f.fields)
    (s a b : Bytes) (h1 : lastSent f.fields (asciiBytes "transfer-encoding") = none)
    (h2 : lastSent f.fields (asciiBytes "content-length") = some s) (hn : IsNumeral s a.length) (hl : a.length < 2 ^ 63)
    (wire rest : Bytes) (hw : r.http1Data (a ++ b) = .ok wire) (object : Request) :
    ∃ r', SameRequest r r' ∧ receive Request.parseBuffer (·.header) object (wire ++ rest) = .ok (r', a, b ++ rest) := by
  obtain ⟨r', hs, hp⟩ := C108_length_partial f r h hr hf s a.length h1 h2 hn hl (a ++ b) wire hw
  refine ⟨r', hs, ?_⟩
  rw [hp object rest, if_neg (by simp), List.append_assoc]
  simp

/-- C108, violated: the connection-specific field `transfer-encoding: chunked`, with which RFC 9113 8.2.2 has a request be refused, is
sent on, and the receiver reads the body in chunks: what follows the last chunk is the next request. -/
theorem C108_violated_chunked (f : HeadersFrame) (r : Request) (h : requestOf f = .ok r) (hr : Forwardable r) (hf : FramingClear f.fields)
    (h1 : lastSent f.fields (asciiBytes "transfer-encoding") = some (asciiBytes "chunked")) (pieces : List Bytes)
    (hd : ∀ d ∈ pieces, d ≠ [] ∧ d.length < 2 ^ 63) (b wire rest : Bytes)
    (hw : r.http1Data (pieces.flatMap (fun d => (encodeChunkData d).1) ++ (encodeChunkData []).1 ++ b) = .ok wire) (object : Request) :
    ∃ r', SameRequest r r' ∧ receive Request.parseBuffer (·.header) object (wire ++ rest) = .ok (r', pieces.flatten, b ++ rest) := by
  obtain ⟨r', hs, hp⟩ := forward_parsed f r h hr _ wire hw
  obtain ⟨m, hm⟩ := hp object rest
  refine ⟨r', hs, framed_read (.chunks ?_ hd) hs.2.2.2.2 (by rw [List.append_assoc _ b rest] at hm; exact hm)⟩
  rw [forward_lookup f r h hf _ (.inl rfl)]; exact h1

/-! ### Responses -/

/-- C108, violated for responses: as for requests without a length. -/
theorem C108_violated_lost_response (f : HeadersFrame) (r : Response) (h : responseOf f = .ok r) (hm : f.parts.method = none)
    (hc : ∀ e ∈ r.header, CleanHeader e) (hf : FramingClear f.fields)
    (h1 : lastSent f.fields (asciiBytes "transfer-encoding") = none) (h2 : lastSent f.fields (asciiBytes "content-length") = none)
    (body wire rest : Bytes) (k : Nat) (hw : r.serialize body = .ok (wire, k)) (object : Response) :
    receive Response.parseBuffer (·.header) object (wire ++ rest) = .ok (r, [], body ++ rest) := by
  obtain ⟨r', h', -, hb⟩ := C63_response f
  rw [h, Res.ok.injEq] at h'
  subst h'
  exact C107_violated_built _ _ hb hc (by rw [forward_lookup_response f r h hm hf _ (.inl rfl)]; exact h1)
    (by rw [forward_lookup_response f r h hm hf _ (.inr rfl)]; exact h2) body rest wire k hw object

/-- C108 for responses with `Content-Length` and without `Transfer-Encoding`: exactly if the length is that of the body. -/
theorem C108_response_iff_partial (f : HeadersFrame) (r : Response) (h : responseOf f = .ok r) (hm : f.parts.method = none)
    (hc : ∀ e ∈ r.header, CleanHeader e) (hf : FramingClear f.fields)
    (s : Bytes) (n : Nat) (h1 : lastSent f.fields (asciiBytes "transfer-encoding") = none)
    (h2 : lastSent f.fields (asciiBytes "content-length") = some s) (hn : IsNumeral s n) (hl : n < 2 ^ 63)
    (body wire rest : Bytes) (k : Nat) (hw : r.serialize body = .ok (wire, k)) (object : Response) :
    receive Response.parseBuffer (·.header) object (wire ++ rest) = .ok (r, body, rest) ↔ n = body.length := by
  obtain ⟨r', h', -, hb⟩ := C63_response f
  rw [h, Res.ok.injEq] at h'
  subst h'
  obtain ⟨m, hp⟩ := built_parsed _ r hb hc body rest wire k hw object
  rw [receive_length hp (s := s) (n := n) (by
      show r.header.get? _ = _
      rw [forward_lookup_response f r h hm hf _ (.inl rfl)]; exact h1) (by
      show r.header.get? _ = _
      rw [forward_lookup_response f r h hm hf _ (.inr rfl)]; exact h2) hn hl]
  constructor
  · intro e
    split at e
    · simp at e
    · rename_i hlt
      simp only [Res.ok.injEq, Prod.mk.injEq] at e
      have := congrArg List.length e.2.1
      rw [List.length_take] at this
      omega
  · rintro rfl
    rw [if_neg (by simp)]
    simp

/-! ### The hypotheses together, and the full claim -/

/-- `POST http://h/x` with these fields. -/
def postFrame (fields : HeaderMap) : HeadersFrame :=
  ⟨1, none, fields, ⟨some .post, some .http, some (asciiBytes "h"), some (asciiBytes "/x"), none⟩, 4⟩

/-- The request made of it. -/
def postRequest (header : HeaderMap) : Request :=
  ⟨.post, header, .http11, ⟨.http, asciiBytes "/x", none, none, some (asciiBytes "h"), some 80, none⟩, true⟩

theorem framingClear_letters (fields : HeaderMap) (h : ∀ e ∈ fields, ∀ x ∈ e.1, (isLetter x && x != 77 || x == 45) = true) :
    FramingClear fields := by
  apply framing_names
  intro a ha
  simp only [List.mem_cons, List.mem_map] at ha
  rcases ha with rfl | rfl | rfl | ⟨e, he, rfl⟩
  · decide +kernel
  · decide +kernel
  · decide +kernel
  · exact h e he

theorem postRequest_forwardable (v : Bytes) (hv : (13 : UInt8) ∉ v ∧ v.head? ≠ some 32) (name : String)
    (hn : asciiBytes name ≠ [] ∧ (∀ b ∈ asciiBytes name, isTchar b = true))
    (hh : HeaderMap.host [(asciiBytes "Host", asciiBytes "h:80"), (asciiBytes name, v), (asciiBytes "User-Agent", asciiBytes "wenmeng")] = some (asciiBytes "h:80")) :
    Forwardable (postRequest [(asciiBytes "Host", asciiBytes "h:80"), (asciiBytes name, v), (asciiBytes "User-Agent", asciiBytes "wenmeng")]) where
  clean := by
    intro e he
    simp only [postRequest, List.mem_cons, List.not_mem_nil, or_false] at he
    rcases he with rfl | rfl | rfl
    · exact ⟨by decide +kernel, by decide +kernel, by decide +kernel, by decide +kernel⟩
    · exact ⟨hn.1, hn.2, hv.1, hv.2⟩
    · exact ⟨by decide +kernel, by decide +kernel, by decide +kernel, by decide +kernel⟩
  host := by
    intro x hx
    simp only [postRequest] at hx
    rw [hh, Option.some.injEq] at hx
    subst hx
    exact .inr ⟨asciiBytes "h", asciiBytes "80", 80, by decide, by decide, .inl ⟨by decide, by unfold AllDigits; decide +kernel, by decide +kernel⟩, by decide⟩
  method := ⟨show Method.post ≠ .connect by decide, (.post, "POST"), by decide, rfl⟩
  slash := show (asciiBytes "/x").head? = some 47 by decide
  path := by
    show ∀ b ∈ asciiBytes "/x", _
    unfold IsPrint; decide +kernel
  query := rfl

/-- The hypotheses of the theorems about requests: a field that frames the body, and none. -/
example : requestOf (postFrame [(asciiBytes "content-length", asciiBytes "2")]) =
      .ok (postRequest [(asciiBytes "Host", asciiBytes "h:80"), (asciiBytes "content-length", asciiBytes "2"), (asciiBytes "User-Agent", asciiBytes "wenmeng")]) ∧
    Forwardable (postRequest [(asciiBytes "Host", asciiBytes "h:80"), (asciiBytes "content-length", asciiBytes "2"), (asciiBytes "User-Agent", asciiBytes "wenmeng")]) ∧
    FramingClear [(asciiBytes "content-length", asciiBytes "2")] ∧
    lastSent [(asciiBytes "content-length", asciiBytes "2")] (asciiBytes "content-length") = some (asciiBytes "2") ∧
    lastSent [(asciiBytes "content-length", asciiBytes "2")] (asciiBytes "transfer-encoding") = none :=
  ⟨by decide +kernel, postRequest_forwardable (asciiBytes "2") (by decide) "content-length" (by decide +kernel) (by decide +kernel),
    framingClear_letters _ (by decide +kernel), by decide +kernel, by decide +kernel⟩

/-- A body that carries a request of its own: `transfer-encoding: chunked`, and an empty chunk before it. -/
example : requestOf (postFrame [(asciiBytes "transfer-encoding", asciiBytes "chunked")]) =
      .ok (postRequest [(asciiBytes "Host", asciiBytes "h:80"), (asciiBytes "transfer-encoding", asciiBytes "chunked"), (asciiBytes "User-Agent", asciiBytes "wenmeng")]) ∧
    Forwardable (postRequest [(asciiBytes "Host", asciiBytes "h:80"), (asciiBytes "transfer-encoding", asciiBytes "chunked"), (asciiBytes "User-Agent", asciiBytes "wenmeng")]) ∧
    FramingClear [(asciiBytes "transfer-encoding", asciiBytes "chunked")] :=
  ⟨by decide +kernel, postRequest_forwardable (asciiBytes "chunked") (by decide +kernel) "transfer-encoding" (by decide +kernel) (by decide +kernel),
    framingClear_letters _ (by decide +kernel)⟩

/-- C108 does not hold of the code. -/
theorem C108_violated : ¬ C108_statement := by
  intro h
  have hr : Forwardable (postRequest [(asciiBytes "Host", asciiBytes "h:80"), (asciiBytes "content-length", asciiBytes "2"), (asciiBytes "User-Agent", asciiBytes "wenmeng")]) :=
    postRequest_forwardable (asciiBytes "2") (by decide) "content-length" (by decide +kernel) (by decide +kernel)
  have hq : requestOf (postFrame [(asciiBytes "content-length", asciiBytes "2")]) =
      .ok (postRequest [(asciiBytes "Host", asciiBytes "h:80"), (asciiBytes "content-length", asciiBytes "2"), (asciiBytes "User-Agent", asciiBytes "wenmeng")]) := by
    decide +kernel
  have hf : FramingClear (postFrame [(asciiBytes "content-length", asciiBytes "2")]).fields := framingClear_letters _ (by decide +kernel)
  have hw : (postRequest [(asciiBytes "Host", asciiBytes "h:80"), (asciiBytes "content-length", asciiBytes "2"), (asciiBytes "User-Agent", asciiBytes "wenmeng")]).http1Data
      (asciiBytes "hello") = .ok (asciiBytes "POST /x HTTP/1.1\r\nHost: h:80\r\ncontent-length: 2\r\nUser-Agent: wenmeng\r\n\r\nhello") := by decide +kernel
  have := (C108_length_iff_partial _ _ hq hr hf (asciiBytes "2") 2 (by decide +kernel) (by decide +kernel)
    ⟨by decide, by unfold AllDigits; decide +kernel, by decide +kernel⟩ (by decide) (asciiBytes "hello") _ hw {} []).mp
      (h _ _ (asciiBytes "hello") _ [] {} hq hr hf hw)
  exact absurd this (by decide)

/-- Nor for responses. -/
theorem C108_response_violated : ¬ C108_response_statement := by
  intro h
  have hq : responseOf ⟨1, none, [], ⟨none, none, none, none, some 200⟩, 4⟩ = .ok ⟨200, .http11, [(asciiBytes "Server", asciiBytes "wenmeng")], false⟩ := by
    decide +kernel
  obtain ⟨out, n, hs⟩ := C40_serialisable ⟨200, .http11, [(asciiBytes "Server", asciiBytes "wenmeng")], false⟩ [104, 105] (by decide)
    (by decide +kernel)
  have hc : ∀ e ∈ [(asciiBytes "Server", asciiBytes "wenmeng")], CleanHeader e := by
    intro e he
    rw [List.mem_singleton] at he
    subst he
    exact ⟨by decide +kernel, by decide +kernel, by decide +kernel, by decide +kernel⟩
  have hf : FramingClear [] := framingClear_letters _ (by decide +kernel)
  have h1 := h _ _ [104, 105] out [] n {} hq hc hf hs
  rw [C108_violated_lost_response _ _ hq rfl hc hf rfl rfl [104, 105] out [] n hs {}] at h1
  exact absurd h1 (by decide)

end Webparse
