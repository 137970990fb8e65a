import Verif.Spec.Rewrite
import Verif.Props.Conversation
import Verif.Props.Target
import Verif.Props.Grammar

/-!
# C109: a request that is received and written again

The full claim: a request that was accepted and is written again, by a proxy say, is read as one request, with the method, version and
headers it had.
-/

namespace Webparse
open Spec

/-- C109, the full claim. -/
def C109_statement : Prop :=
  ∀ (object : Request) (buf rest body wire : Bytes) (n : Nat) (r : Request), object.parseBuffer buf = (.ok n, r, rest) →
    r.http1Data body = .ok wire → ∀ o : Request, ∃ n' r', o.parseBuffer wire = (.ok n', r', body) ∧
      r'.method = r.method ∧ r'.version = r.version ∧ r'.header = r.header

theorem escaped_decodes (s : Bytes) : Decodes (escaped s) s := by
  induction s with
  | nil => exact .nil
  | cons b s ih =>
    have h : ∀ b : UInt8, hexDigit? (((asciiBytes "0123456789ABCDEF")[b.toNat / 16]?).getD 0) = some (b.toNat / 16) ∧
        hexDigit? (((asciiBytes "0123456789ABCDEF")[b.toNat % 16]?).getD 0) = some (b.toNat % 16) ∧
        UInt8.ofNat (16 * (b.toNat / 16) + b.toNat % 16) = b := by decide +kernel
    obtain ⟨h1, h2, h3⟩ := h b
    have := Decodes.escape h1 h2 ih
    rw [h3] at this
    exact this

theorem escaped_bytes (s : Bytes) : ∀ b ∈ escaped s, IsPrint b ∧ b ≠ 63 ∧ b ≠ 64 := by
  intro b hb
  unfold escaped at hb
  rw [List.mem_flatMap] at hb
  obtain ⟨a, -, ha⟩ := hb
  have h : ∀ i : UInt8, IsPrint (((asciiBytes "0123456789ABCDEF")[i.toNat / 16]?).getD 0) ∧
      IsPrint (((asciiBytes "0123456789ABCDEF")[i.toNat % 16]?).getD 0) ∧
      ((asciiBytes "0123456789ABCDEF")[i.toNat / 16]?).getD 0 ≠ 63 ∧ ((asciiBytes "0123456789ABCDEF")[i.toNat / 16]?).getD 0 ≠ 64 ∧
      ((asciiBytes "0123456789ABCDEF")[i.toNat % 16]?).getD 0 ≠ 63 ∧ ((asciiBytes "0123456789ABCDEF")[i.toNat % 16]?).getD 0 ≠ 64 := by
    unfold IsPrint; decide +kernel
  obtain ⟨h1, h2, h3, h4, h5, h6⟩ := h a
  rw [List.mem_cons, List.mem_cons, List.mem_singleton] at ha
  rcases ha with ha | ha | ha
  · rw [ha]; unfold IsPrint; decide
  · rw [ha]; exact ⟨h1, h3, h4⟩
  · rw [ha]; exact ⟨h2, h5, h6⟩

theorem targetOf_bytes (p : Bytes) : ∀ b ∈ targetOf p, IsPrint b ∧ b ≠ 63 ∧ b ≠ 64 := by
  intro b hb
  rcases List.mem_cons.mp hb with rfl | hb
  · unfold IsPrint; decide
  · exact escaped_bytes _ b hb

/-- Every UTF-8 path that starts with a slash is the path of a target of printable characters. -/
theorem targetOf_parse (p : Bytes) (h47 : p.head? = some 47) (hu : utf8Valid p = true) :
    Url.parse (targetOf p) = .ok { Url.new with path := p, port := some 0 } := by
  refine (C49_origin (targetOf p) rfl _).mpr ?_
  have hb := targetOf_bytes p
  rw [cut_of_not_mem (fun hm => (hb _ hm).2.1 rfl)]
  refine ⟨fun b hb' => ⟨(hb b hb').1, (hb b hb').2.2⟩, rfl, rfl, rfl, rfl, rfl, ⟨p, ?_, hu, rfl⟩, rfl⟩
  cases p with
  | nil => simp at h47
  | cons c q =>
    simp only [List.head?_cons, Option.some.injEq] at h47
    subst h47
    exact .plain (by decide) (escaped_decodes q)

theorem method_known {m : Method} (h : ∃ e ∈ methodNames, e.1 = m) : Method.tryFrom m.asStr = .ok m := by
  obtain ⟨e, he, rfl⟩ := h
  revert e; decide +kernel

theorem http1Data_of {r : Request} (hm : r.method ≠ .none) (hv : r.version ≠ .none) (body : Bytes) :
    r.http1Data body = .ok (r.method.asStr ++ 32 :: (r.url.path ++ 32 :: (r.version.asStr ++ 13 :: 10 :: (r.header.encode ++ body)))) := by
  unfold Request.http1Data Request.encodeHeader
  have h1 : r.method.encode = .ok r.method.asStr := by
    unfold Method.encode
    split
    · rename_i h; exact absurd h hm
    · rfl
  rw [h1, (version_encode _ _).mpr ⟨hv, rfl⟩]
  simp

/-- C109, violated for any two requests that can be sent: there is one request, with a target of printable characters, that is accepted
with the method of the first and the headers of the second, and that is written as the bytes of the first followed by those of the
second; so two requests are read. -/
theorem C109_violated_split (first second : SentRequest) (w1 w2 : Bytes) (h1 : first.Wire w1) (h2 : second.Wire w2)
    (hu : utf8Valid (twoInOne first second) = true) :
    (∀ (o : Request) (rest : Bytes), ∃ n r,
      o.parseBuffer (requestText first.request.method.asStr (targetOf (twoInOne first second)) second.request.version.asStr
        (headerText second.request.header ++ rest)) = (.ok n, r, rest) ∧ r.http1Data second.wireBody = .ok (w1 ++ w2)) ∧
    ∀ object : Request, ∃ received, converse Request.parseBuffer (·.header) 3 object (w1 ++ w2) = (received, .err .partialData) ∧
      Zip (fun s m => SameRequest s.1.request m.1 ∧ m.2 = s.1.body) [(first, w1), (second, w2)] received := by
  constructor
  · intro o rest
    obtain ⟨hm1, hv1, e1⟩ := http1Data_eq h1.bytes
    obtain ⟨hm2, hv2, e2⟩ := http1Data_eq h2.bytes
    have h47 : (twoInOne first second).head? = some 47 := by
      have := h1.slash
      unfold twoInOne
      cases hp : first.request.url.path with
      | nil => rw [hp] at this; simp at this
      | cons c q => rw [hp] at this; simpa using this
    have hp := targetOf_parse _ h47 hu
    obtain ⟨u2, hu2⟩ := fillHost_ok { Url.new with path := twoInOne first second, port := some 0 } h2.host
    obtain ⟨k1, k2⟩ := fill_keeps hu2
    have hh : parseHeader [] (headerText second.request.header ++ rest) = (.ok (), second.request.header, rest) := by
      rw [headerText_eq, h2.header]
      exact (C37_roundtrip_iff second.ops [] rest).mpr (h2.header ▸ h2.clean)
    have hurl : requestUrl first.request.method second.request.header (targetOf (twoInOne first second)) =
        .ok (fillScheme second.request.header u2) := by
      unfold requestUrl
      rw [if_neg h1.method.1, hp, Res.bind_ok, hu2]
      rfl
    refine ⟨_, _, request_accept (method_known h1.method.2) hv2 (by simp [targetOf]) (fun b hb => (targetOf_bytes _ b hb).1) hh hurl, ?_⟩
    rw [http1Data_of (r := ⟨first.request.method, second.request.header, second.request.version, fillScheme second.request.header u2, false⟩) hm1 hv2, e1, e2, k1]
    simp only [twoInOne, headerText_eq]
    simp
  · intro object
    have := C71_requests_partial [(first, w1), (second, w2)] (by
      intro s hs
      simp only [List.mem_cons, List.not_mem_nil, or_false] at hs
      rcases hs with rfl | rfl
      · exact h1
      · exact h2) [] (.inl rfl) object 3 (by simp)
    simpa using this

/-- C109 for paths without spaces, control characters and bytes above 126: if what was written is accepted, it is as one request with
the method, version and headers it had, and its body is what is left.  Any method, any previous state. -/
theorem C109_printable_partial (object o : Request) (buf rest body wire left : Bytes) (n n' : Nat) (r r' : Request)
    (h : object.parseBuffer buf = (.ok n, r, rest)) (hne : r.url.path ≠ []) (hp : ∀ b ∈ r.url.path, IsPrint b)
    (hw : r.http1Data body = .ok wire) (h' : o.parseBuffer wire = (.ok n', r', left)) :
    left = body ∧ r'.method = r.method ∧ r'.version = r.version ∧ r'.header = r.header := by
  obtain ⟨m, target, v, hs, head, url, ha, -, -, -, rfl⟩ := (C74_request_iff_partial _ _ _ _ _).mp h
  obtain ⟨hm, hv, e⟩ := http1Data_eq hw
  have hclean : ∀ e ∈ storeAll hs, CleanHeader e := by
    obtain ⟨_, _, _, _, text, -, -, -, -, -, -, -, -, ht, -⟩ := ha
    exact C37_accepts_clean [] _ _ [] ((parseHeader_iff [] _ _ _).mpr ⟨hs, text, ht, rfl, rfl⟩)
  have hk : Method.tryFrom m.asStr = .ok m := by
    obtain ⟨_, _, _, _, _, -, -, -, -, -, -, -, -, -, _, -, -, k, hk1, hk2, -⟩ := ha
    exact method_known ⟨k, hk1, hk2⟩
  have et : wire = requestText m.asStr url.path v.asStr (headerText (storeAll hs) ++ body) := by
    rw [e, requestText, headerText_eq]
    simp
  rw [et] at h'
  obtain ⟨g1, g2, -, -, g5, -⟩ := request_accepted hk hv hne hp h'
  rw [headerText_eq, storeAll_ops, (C37_roundtrip_iff _ [] body).mpr (storeAll_ops hs ▸ hclean), Prod.mk.injEq, Prod.mk.injEq] at g5
  exact ⟨g5.2.2.symm, g1, g2, by rw [← g5.2.1, storeAll_ops]⟩

/-- A CONNECT request that was accepted, whatever its target, is written as one to connect to port 80 of the host `/`. -/
theorem C41_violated_connect (object o : Request) (buf rest body wire : Bytes) (n : Nat) (r : Request)
    (h : object.parseBuffer buf = (.ok n, r, rest)) (hm : r.method = .connect) (hw : r.http1Data body = .ok wire) :
    ∃ n' r', o.parseBuffer wire = (.ok n', r', body) ∧ r'.url.domain = some [47] ∧ r'.url.port = some 80 := by
  obtain ⟨m, target, v, hs, head, url, ha, -, -, hu, rfl⟩ := (C74_request_iff_partial _ _ _ _ _).mp h
  simp only at hm
  subst hm
  obtain ⟨_, _, _, _, text, -, -, -, -, -, -, -, -, ht, -⟩ := ha
  obtain ⟨-, hv, e⟩ := http1Data_eq hw
  unfold requestUrl at hu
  rw [if_pos rfl, connectByHost_iff] at hu
  obtain ⟨d, q, -, rfl⟩ := hu
  have et : wire = requestText (asciiBytes "CONNECT") [47] v.asStr (headerText (storeAll hs) ++ body) := by
    rw [e, requestText, headerText_eq]
    simp [Method.asStr, Url.new]
  have hc : ∀ e ∈ storeAll hs, CleanHeader e := C37_accepts_clean [] _ _ [] ((parseHeader_iff [] _ _ _).mpr ⟨hs, text, ht, rfl, rfl⟩)
  rw [storeAll_ops] at hc et
  obtain ⟨n', r', h1, h2⟩ := (C62_connect o [47] body v _ ⟨.none, [47], none, none, some [47], some 80, none⟩ hc hv (by simp)
    (by intro b hb; rw [List.mem_singleton] at hb; subst hb; unfold IsPrint; decide)).mpr
      ⟨[47], 80, .inl ⟨by decide, rfl, rfl⟩, rfl⟩
  rw [et]
  exact ⟨n', r', h1, by rw [h2], by rw [h2]⟩

/-- `CONNECT h:443` is such a request. -/
example : ∃ n r, ({} : Request).parseBuffer (asciiBytes "CONNECT h:443 HTTP/1.1\r\n\r\n") = (.ok n, r, []) ∧ r.method = .connect ∧
    r.url.domain = some (asciiBytes "h") ∧ r.url.port = some 443 ∧ ∃ wire, r.http1Data [] = .ok wire :=
  ⟨26, ⟨.connect, [], .http11, ⟨.none, [47], none, none, some (asciiBytes "h"), some 443, none⟩, false⟩, by decide +kernel, rfl, rfl, rfl,
    _, show _ = Res.ok (asciiBytes "CONNECT / HTTP/1.1\r\n\r\n") by decide +kernel⟩

/-- C109 holds of responses: one that was accepted and is written again is read as it was. -/
theorem C109_response (object o : Response) (buf rest body wire : Bytes) (n k : Nat) (r : Response)
    (h : object.parseBuffer buf = (.ok n, r, rest)) (hw : r.serialize body = .ok (wire, k)) :
    o.parseBuffer wire = (.ok (wire.length - body.length), r, body) := by
  obtain ⟨v, code, hs, head, ha, -, -, rfl⟩ := (C74_response_iff_partial _ _ _ _ _).mp h
  obtain ⟨_, _, _, _, _, text, -, -, -, -, -, -, -, -, -, -, -, ht, -⟩ := ha
  have hc : ∀ e ∈ storeAll hs, CleanHeader e := C37_accepts_clean [] _ _ [] ((parseHeader_iff [] _ _ _).mpr ⟨hs, text, ht, rfl, rfl⟩)
  rw [storeAll_ops] at hc hw ⊢
  exact (C40_roundtrip_iff_partial _ code v false o body wire k hw).mpr hc

/-- Such a response: one with a reason of its own and two spaces before a value. -/
example : ∃ n r, ({} : Response).parseBuffer (asciiBytes "HTTP/1.0 404 Gone fishing\r\nA:  b\r\n\r\n") = (.ok n, r, []) ∧ r.status = 404 ∧
    r.header = [(asciiBytes "A", asciiBytes "b")] ∧ ∃ wire k, r.serialize [] = .ok (wire, k) := by
  obtain ⟨out, k, hs⟩ := C40_serialisable ⟨404, .http10, [(asciiBytes "A", asciiBytes "b")], false⟩ [] (by decide) (by decide +kernel)
  exact ⟨36, ⟨404, .http10, [(asciiBytes "A", asciiBytes "b")], false⟩, by decide +kernel, rfl, rfl, out, k, hs⟩

/-- C71 for all requests with clean headers and a readable `Host`, one at a time. -/
def C71_requests_statement : Prop :=
  ∀ (s : SentRequest) (wire : Bytes), s.request.header = runOps s.ops → (∀ e ∈ s.request.header, CleanHeader e) →
    (∀ x, s.request.header.host = some x → HostValue x) → Framed s.request.header s.body s.wireBody →
    s.request.http1Data s.wireBody = .ok wire →
    ∀ object : Request, ∃ r, SameRequest s.request r ∧ converse Request.parseBuffer (·.header) 2 object wire = ([(r, s.body)], .err .partialData)

/-- It does not hold of the code: a request with a path that was escaped is not read back at all (and see `C109_violated_split`). -/
theorem C71_violated_requests : ¬ C71_requests_statement := by
  intro h
  obtain ⟨r, -, h2⟩ := h ⟨requestSpace, [], [], []⟩ (asciiBytes "GET /a b HTTP/1.1\r\n\r\n") rfl
    (by intro e he; simp [requestSpace] at he)
    (by intro x hx; rw [show requestSpace.header.host = none from by decide +kernel] at hx; simp at hx) (.none rfl rfl) (by decide +kernel) {}
  have h3 : (converse Request.parseBuffer (·.header) 2 {} (asciiBytes "GET /a b HTTP/1.1\r\n\r\n")).2 = .err .httpVersion := by decide +kernel
  rw [h2] at h3
  exact absurd h3 (show ¬ (Res.err Error.partialData : Res Unit) = .err .httpVersion by decide)

/-- C109 does not hold of the code: `GET /a%20b` is written as `GET /a b`. -/
theorem C109_violated : ¬ C109_statement := by
  intro h
  obtain ⟨n', r', h1, -⟩ := h {} (asciiBytes "GET /a%20b HTTP/1.1\r\n\r\n") [] [] (asciiBytes "GET /a b HTTP/1.1\r\n\r\n") 23
    ⟨.get, [], .http11, ⟨.http, asciiBytes "/a b", none, none, none, some 0, none⟩, false⟩ (by decide +kernel) (by decide +kernel) {}
  have := C41_violated_encoding.2.2
  rw [h1] at this
  simp at this

/-- The hypotheses of `C109_violated_split`: a harmless GET, and a request for `/admin`. -/
example : (⟨{ method := .get, url := { Url.new with path := asciiBytes "/" } }, [], [], []⟩ : SentRequest).Wire (asciiBytes "GET / HTTP/1.1\r\n\r\n") ∧
    (⟨{ method := .delete, url := { Url.new with path := asciiBytes "/admin" } }, [], [], []⟩ : SentRequest).Wire (asciiBytes "DELETE /admin HTTP/1.1\r\n\r\n") ∧
    targetOf (twoInOne ⟨{ method := .get, url := { Url.new with path := asciiBytes "/" } }, [], [], []⟩
      ⟨{ method := .delete, url := { Url.new with path := asciiBytes "/admin" } }, [], [], []⟩) =
        asciiBytes "/%20%48%54%54%50%2F%31%2E%31%0D%0A%0D%0A%44%45%4C%45%54%45%20%2F%61%64%6D%69%6E" ∧
    utf8Valid (twoInOne ⟨{ method := .get, url := { Url.new with path := asciiBytes "/" } }, [], [], []⟩
      ⟨{ method := .delete, url := { Url.new with path := asciiBytes "/admin" } }, [], [], []⟩) = true := by
  refine ⟨⟨rfl, by simp, ?_, ⟨by decide, (.get, "GET"), by decide, rfl⟩, by decide, ?_, rfl, .none rfl rfl, by decide +kernel⟩,
    ⟨rfl, by simp, ?_, ⟨by decide, (.delete, "DELETE"), by decide, rfl⟩, by decide, ?_, rfl, .none rfl rfl, by decide +kernel⟩, by decide +kernel, by decide +kernel⟩
  · intro x hx; exact absurd hx (by simp [show HeaderMap.host [] = none by decide +kernel])
  · show ∀ b ∈ asciiBytes "/", _; unfold IsPrint; decide +kernel
  · intro x hx; exact absurd hx (by simp [show HeaderMap.host [] = none by decide +kernel])
  · show ∀ b ∈ asciiBytes "/admin", _; unfold IsPrint; decide +kernel

end Webparse
