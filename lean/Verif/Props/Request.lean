import Verif.Proofs.Request

/-! # C41: requests round-trip through HTTP/1 text -/

namespace Webparse
open Spec

/-- `r'` has the method, path, query, version and headers of `r`. -/
def SameRequest (r r' : Request) : Prop :=
  r'.method = r.method ∧ r'.url.path = r.url.path ∧ r'.url.query = r.url.query ∧ r'.version = r.version ∧ r'.header = r.header

/-- C41, for clean headers (see C37 for the others) made by any history and a `Host` that is read. -/
def C41_statement : Prop :=
  ∀ (r r0 : Request) (ops : List HeaderOp) (body out : Bytes), r.header = runOps ops → (∀ e ∈ r.header, CleanHeader e) →
    (∀ x, r.header.host = some x → HostValue x) → r.http1Data body = .ok out →
    ∃ n r', r0.parseBuffer out = (.ok n, r', body) ∧ SameRequest r r'

/-- `GET /?a=1`. -/
def requestQuery : Request := { method := .get, url := { Url.new with query := some (asciiBytes "a=1") } }

/-- The query is not written. -/
theorem C41_violated : ¬ C41_statement := by
  intro h
  obtain ⟨n, r', h1, h2⟩ := h requestQuery {} [] [] (asciiBytes "GET / HTTP/1.1\r\n\r\n") rfl (by intro e he; simp [requestQuery] at he)
    (by intro x hx; rw [show requestQuery.header.host = none from by decide +kernel] at hx; simp at hx) (by decide +kernel)
  have e : ({} : Request).parseBuffer (asciiBytes "GET / HTTP/1.1\r\n\r\n") =
      (.ok 18, { method := .get, url := { Url.new with port := some 0, scheme := .http } }, []) := by decide +kernel
  rw [e, Prod.mk.injEq, Prod.mk.injEq] at h1
  have := h2.2.2.1
  rw [← h1.2.1] at this
  exact absurd this (by decide)

/-- `GET` with the path `/a b`, as it is after parsing `/a%20b`. -/
def requestSpace : Request := { method := .get, url := { Url.new with path := asciiBytes "/a b" } }

/-- The path is written without encoding, so a parsed request may be written as one that is refused. -/
theorem C41_violated_encoding :
    (({} : Request).parseBuffer (asciiBytes "GET /a%20b HTTP/1.1\r\n\r\n")).2.1.url.path = requestSpace.url.path ∧
    requestSpace.http1Data [] = .ok (asciiBytes "GET /a b HTTP/1.1\r\n\r\n") ∧
    (({} : Request).parseBuffer (asciiBytes "GET /a b HTTP/1.1\r\n\r\n")).1 = .err .httpVersion := by
  refine ⟨by decide +kernel, by decide +kernel, by decide +kernel⟩

/-- `GET` with a path that has a line end in it. -/
def requestSplit : Request :=
  { method := .get, url := { Url.new with path := asciiBytes "/ HTTP/1.1\r\nX-Admin: 1\r\nY:" } }

/-- `GET /%20HTTP/1.1%0d%0aX-Admin:%201%0d%0aY:` is parsed to a request that is written with a header
that was not there. -/
theorem C41_violated_injection :
    (({} : Request).parseBuffer (asciiBytes "GET /%20HTTP/1.1%0d%0aX-Admin:%201%0d%0aY: HTTP/1.1\r\n\r\n")).2.1.url.path = requestSplit.url.path ∧
    requestSplit.http1Data [] = .ok (asciiBytes "GET / HTTP/1.1\r\nX-Admin: 1\r\nY: HTTP/1.1\r\n\r\n") ∧
    (({} : Request).parseBuffer (asciiBytes "GET / HTTP/1.1\r\nX-Admin: 1\r\nY: HTTP/1.1\r\n\r\n")).2.1.header =
      [(asciiBytes "X-Admin", asciiBytes "1"), (asciiBytes "Y", asciiBytes "HTTP/1.1")] := by
  refine ⟨by decide +kernel, by decide +kernel, by decide +kernel⟩

/-- A request that is read back with its method, path and query, whatever else was read, has a path that starts with `/`, printable and
without `%`, `?`, `@`, and no query. -/
theorem request_path_needed {r r0 r' : Request} {body out rest : Bytes} {n : Nat} (hm : r.method ≠ .connect)
    (hstd : ∃ e ∈ methodNames, e.1 = r.method) (h : r.http1Data body = .ok out) (h1 : r0.parseBuffer out = (.ok n, r', rest))
    (hs : SameRequest r r') : r.url.path.head? = some 47 ∧ (∀ b ∈ r.url.path, IsPrint b ∧ b ∉ asciiBytes "%?@") ∧ r.url.query = none := by
  obtain ⟨hm0, hv0, eout⟩ := http1Data_eq h
  obtain ⟨h2, h3, h4, h5, h6⟩ := hs
  have hmt : Method.tryFrom r.method.asStr = .ok r.method := by
    obtain ⟨e, he, h1⟩ := hstd
    rw [← h1]
    clear h1
    revert e; decide +kernel
  obtain ⟨v1, v2, v3⟩ := version_text r.version hv0
  unfold Request.parseBuffer at h1
  rw [countRead_ok, ← forget_ok, eout, request_line r0 hmt] at h1
  obtain ⟨q, version, buf, h7, h8⟩ := target_of_path
    (f := fun path version buf => thenRead (skipNewLine buf) fun _ buf =>
      thenRead (forget (parseHeader [] buf)) fun p buf => (urlStep r.method version path p.2, buf)) v1 v2 h1.1
  obtain ⟨_, b1, -, h9⟩ := thenRead_ok h7
  obtain ⟨p, b2, -, h10⟩ := thenRead_ok h9
  simp only [Prod.mk.injEq] at h10
  obtain ⟨h10, -⟩ := h10
  unfold urlStep at h10
  split at h10
  · rename_i url hurl
    simp only [Res.ok.injEq, Prod.mk.injEq, true_and] at h10
    rw [← h10] at h3 h4
    simp only at h3 h4
    unfold requestUrl at hurl
    rw [if_neg hm] at hurl
    simp only [Res.bind_eq_ok, Res.ok.injEq] at hurl
    obtain ⟨u1, hu1, u2, hu2, rfl⟩ := hurl
    obtain ⟨k1, k2⟩ := fill_keeps hu2
    rw [k1] at h3
    rw [k2] at h4
    have hqp : q = r.url.path ∧ r.url.path ≠ [] ∧ r.url.path.all isToken = true := by
      rcases h8 with h8 | h8
      · exfalso
        rcases parse_path_length hu1 with ⟨g, g2⟩ | g | ⟨-, g⟩
        · rw [g] at h3
          rw [← h3] at h8
          cases q with
          | nil => simp [Url.parse] at hu1
          | cons => simp at h8
        · rw [h3] at g; omega
        · rw [h3] at g; omega
      · exact h8
    obtain ⟨rfl, hne, htok⟩ := hqp
    have h47 : r.url.path.head? = some 47 := by
      rcases parse_path_length hu1 with ⟨g, g2⟩ | g | ⟨g, -⟩
      · rw [h3] at g; rw [g] at g2; simp at g2
      · rw [h3] at g; omega
      · exact g
    obtain ⟨i1, -, -, -, -, -, ⟨w, i7, i8, i9⟩, i10⟩ := (C49_origin _ h47 u1).mp hu1
    rw [Option.some.injEq] at i9
    rw [h3] at i9
    rcases hcut : cut 63 r.url.path with ⟨x, _ | y⟩
    · obtain ⟨rfl, n63⟩ := cut_none hcut
      rw [hcut] at i7 i10
      obtain ⟨n37, -⟩ := decodes_self i7 (by rw [← i9])
      rw [PartIs] at i10
      refine ⟨h47, fun b hb => ⟨(i1 b hb).1, ?_⟩, by rw [← h4, i10]⟩
      intro hb2
      have : b = 37 ∨ b = 63 ∨ b = 64 := by
        clear hb
        revert hb2; revert b; decide +kernel
      rcases this with rfl | rfl | rfl
      · exact n37 hb
      · exact n63 hb
      · exact (i1 _ hb).2 rfl
    · obtain ⟨e, -⟩ := cut_some hcut
      rw [hcut] at i7
      have := decodes_length i7
      rw [← i9, e] at this
      simp at this
  · simp at h10
  · simp at h10

/-- A request with clean headers and a method other than CONNECT is read back exactly if its path starts
with `/`, is printable ASCII without `%`, `?` and `@`, and it has no query.  Missing for C41: all other
paths, every query, CONNECT. -/
theorem C41_roundtrip_iff_partial (r r0 : Request) (ops : List HeaderOp) (body out : Bytes) (hh : r.header = runOps ops)
    (hc : ∀ e ∈ r.header, CleanHeader e) (hhost : ∀ x, r.header.host = some x → HostValue x)
    (hm : r.method ≠ .connect) (hstd : ∃ e ∈ methodNames, e.1 = r.method) (h : r.http1Data body = .ok out) :
    (∃ r', r0.parseBuffer out = (.ok (out.length - body.length), r', body) ∧ SameRequest r r') ↔
      r.url.path.head? = some 47 ∧ (∀ b ∈ r.url.path, IsPrint b ∧ b ∉ asciiBytes "%?@") ∧ r.url.query = none := by
  obtain ⟨hm0, hv0, eout⟩ := http1Data_eq h
  have hmt : Method.tryFrom r.method.asStr = .ok r.method := by
    obtain ⟨e, he, h1⟩ := hstd
    rw [← h1]
    clear h1
    revert e; decide +kernel
  have hparse := (C37_roundtrip_iff ops [] body).mpr (hh ▸ hc)
  obtain ⟨v1, v2, v3⟩ := version_text r.version hv0
  constructor
  · rintro ⟨r', h1, h2⟩
    exact request_path_needed hm hstd h h1 h2
  · rintro ⟨h47, hp, hq⟩
    have hne : r.url.path ≠ [] := by intro e; rw [e] at h47; simp at h47
    have hsep : ∀ b ∈ r.url.path, b ≠ 37 ∧ b ≠ 63 ∧ b ≠ 64 := fun b hb => by
      have := (hp b hb).2
      refine ⟨?_, ?_, ?_⟩ <;> (rintro rfl; exact this (by decide))
    obtain ⟨u1, hu1, g1, g2⟩ : ∃ u1, Url.parse r.url.path = .ok u1 ∧ u1.path = r.url.path ∧ u1.query = r.url.query := by
      refine ⟨{ Url.new with path := r.url.path, port := some 0 }, (C49_origin _ h47 _).mpr ?_, rfl, hq.symm⟩
      rw [cut_of_not_mem (fun hm => (hsep _ hm).2.1 rfl)]
      refine ⟨fun b hb => ⟨(hp b hb).1, (hsep b hb).2.2⟩, rfl, rfl, rfl, rfl, rfl, ⟨_, ?_, ?_, rfl⟩, rfl⟩
      · exact decodes_plain (fun hm => (hsep _ hm).1 rfl)
      · refine utf8Valid_ascii _ fun b hb => ?_
        have := (hp b hb).1.2
        rw [UInt8.lt_iff_toNat_lt]; exact Nat.lt_of_le_of_lt this (by decide)
    obtain ⟨u2, hu2⟩ := fillHost_ok u1 hhost
    obtain ⟨k1, k2⟩ := fill_keeps hu2
    refine ⟨⟨r.method, r.header, r.version, fillScheme r.header u2, false⟩, ?_, rfl, by rw [k1, g1], by rw [k2, g2], rfl, rfl⟩
    unfold Request.parseBuffer
    rw [countRead_ok, ← forget_ok]
    refine ⟨?_, rfl⟩
    rw [eout, request_text r0 hmt hv0 hne (List.all_eq_true.mpr fun b hb => (isPrint_iff b).mp (hp b hb).1), hh, hparse]
    simp only [forget, thenRead, Prod.mk.injEq, and_true]
    unfold urlStep requestUrl
    rw [if_neg hm, hu1, Res.bind_ok, ← hh, hu2]
    rfl

example : ∃ r : Request, r.http1Data (asciiBytes "x") = .ok (asciiBytes "POST /a/b HTTP/1.0\r\nHost: h:81\r\n\r\nx") ∧
    r.header = runOps [.insert (asciiBytes "Host") (asciiBytes "h:81")] ∧ (∀ e ∈ r.header, CleanHeader e) ∧
    (∀ x, r.header.host = some x → HostValue x) ∧ r.url.path.head? = some 47 ∧ (∀ b ∈ r.url.path, IsPrint b ∧ b ∉ asciiBytes "%?@") := by
  refine ⟨{ method := .post, version := .http10, header := [(asciiBytes "Host", asciiBytes "h:81")], url := { Url.new with path := asciiBytes "/a/b" } },
    by decide +kernel, by decide +kernel, ?_, ?_, by decide, by unfold IsPrint; decide +kernel⟩
  · intro e he
    simp only [List.mem_singleton] at he
    subst he
    exact ⟨by decide +kernel, by decide +kernel, by decide +kernel, by decide +kernel⟩
  · intro x hx
    have : HeaderMap.host [(asciiBytes "Host", asciiBytes "h:81")] = some (asciiBytes "h:81") := by decide +kernel
    rw [this, Option.some.injEq] at hx
    subst hx
    exact .inr ⟨asciiBytes "h", asciiBytes "81", 81, by decide +kernel, by decide +kernel,
      .inl ⟨by decide +kernel, by unfold AllDigits; decide +kernel, by decide +kernel⟩, by decide⟩

end Webparse
