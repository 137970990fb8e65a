import Verif.Proofs.Http1
import Verif.Proofs.Numbers

/-! C37-C40, C42-C45 and C55: HTTP/1 messages. -/

namespace Webparse
open Spec

/-! ## C37 -/

/-- C37, full claim, for header maps made by any history. -/
def C37_statement : Prop :=
  ∀ (ops : List HeaderOp) (m0 : HeaderMap) (rest : Bytes),
    parseHeader m0 ((runOps ops).encode ++ rest) = (.ok (), runOps ops, rest)

/-- C37 is false: a value with CR LF writes another header line, which is read as such. -/
theorem C37_violated_injection : ∃ n v n' v' rest,
    (∀ b ∈ n, isTchar b = true) ∧ n' ≠ n ∧
    parseHeader [] ((runOps [.insert n v]).encode ++ rest) = (.ok (), [(n, asciiBytes "1"), (n', v')], rest) := by
  refine ⟨asciiBytes "x-user", asciiBytes "1\r\nx-admin: yes", asciiBytes "x-admin", asciiBytes "yes", [1, 2], ?_, ?_, ?_⟩ <;>
    decide +kernel

theorem C37_violated : ¬ C37_statement := by
  intro h
  have := h [.insert (asciiBytes "x-user") (asciiBytes "1\r\nx-admin: yes")] [] []
  revert this
  decide +kernel

/-- A header map whose names are tokens and whose values have no CR is read back, leading spaces of
values apart, and nothing that follows is read. -/
theorem C37_roundtrip_partial (ops : List HeaderOp) (m0 : HeaderMap) (rest : Bytes)
    (h : ∀ e ∈ runOps ops, LineHeader e) :
    parseHeader m0 ((runOps ops).encode ++ rest) = (.ok (), trimValues (runOps ops), rest) :=
  parseHeader_encode _ (distinct_runOps ops) h m0 rest

/-- Exactly the clean header maps are read back. -/
theorem C37_roundtrip_iff (ops : List HeaderOp) (m0 : HeaderMap) (rest : Bytes) :
    parseHeader m0 ((runOps ops).encode ++ rest) = (.ok (), runOps ops, rest) ↔ ∀ e ∈ runOps ops, CleanHeader e := by
  constructor
  · exact parseHeader_clean
  · intro h
    rw [C37_roundtrip_partial ops m0 rest fun e he => ⟨(h e he).name_ne, (h e he).name, (h e he).value⟩]
    rw [trimValues_clean h]

/-- Whatever bytes are parsed, what is accepted is clean. -/
theorem C37_accepts_clean (m0 m : HeaderMap) (buf rest : Bytes) (h : parseHeader m0 buf = (.ok (), m, rest)) :
    ∀ e ∈ m, CleanHeader e := parseHeader_clean h

example : runOps [.insert (asciiBytes "Host") (asciiBytes "a:1"), .push (asciiBytes "X-A") [], .push (asciiBytes "host") [255, 10]] =
    [(asciiBytes "Host", asciiBytes "a:1;" ++ [255, 10]), (asciiBytes "X-A", [])] := by decide +kernel

example : ∀ e ∈ ([(asciiBytes "Host", asciiBytes "a:1;" ++ [255, 10]), (asciiBytes "X-A", [])] : HeaderMap), CleanHeader e := by
  intro e he
  simp only [List.mem_cons, List.not_mem_nil, or_false] at he
  rcases he with rfl | rfl <;> exact ⟨by decide +kernel, by decide +kernel, by decide +kernel, by decide +kernel⟩

/-! ## C38 and C39 -/

/-- Responses: every strict prefix of an accepted head is reported as partial, whatever the state of
the message it is parsed into. -/
theorem C38_response (r r0 r' : Response) (buf rest : Bytes) (n : Nat) (h : r.parseBuffer buf = (.ok n, r', rest)) :
    ∀ k, k < n → ∃ s, r0.parseBuffer (buf.take k) = (.err .partialData, s) :=
  (count_exact (p := r.parseHead) (q := r0.parseHead) (fun b => by rw [forget_response, forget_response])
    (streams_response r) (exact_response r) h).2.2.2

/-- Requests: the same. -/
theorem C38_request (r r0 r' : Request) (buf rest : Bytes) (n : Nat) (h : r.parseBuffer buf = (.ok n, r', rest)) :
    ∀ k, k < n → ∃ s, r0.parseBuffer (buf.take k) = (.err .partialData, s) :=
  (count_exact (p := r.parseHead) (q := r0.parseHead) (fun b => by rw [forget_request, forget_request])
    (streams_request r) (exact_request r) h).2.2.2

/-- Responses: the count is the length of the head, what remains is the rest, and the head followed
by any other bytes gives the same message and leaves exactly those bytes. -/
theorem C39_response (r r0 r' : Response) (buf rest : Bytes) (n : Nat) (h : r.parseBuffer buf = (.ok n, r', rest)) :
    n ≤ buf.length ∧ rest = buf.drop n ∧ ∀ x, r0.parseBuffer (buf.take n ++ x) = (.ok n, r', x) :=
  have := count_exact (p := r.parseHead) (q := r0.parseHead) (fun b => by rw [forget_response, forget_response])
    (streams_response r) (exact_response r) h
  ⟨this.1, this.2.1, this.2.2.1⟩

/-- Requests: the same. -/
theorem C39_request (r r0 r' : Request) (buf rest : Bytes) (n : Nat) (h : r.parseBuffer buf = (.ok n, r', rest)) :
    n ≤ buf.length ∧ rest = buf.drop n ∧ ∀ x, r0.parseBuffer (buf.take n ++ x) = (.ok n, r', x) :=
  have := count_exact (p := r.parseHead) (q := r0.parseHead) (fun b => by rw [forget_request, forget_request])
    (streams_request r) (exact_request r) h
  ⟨this.1, this.2.1, this.2.2.1⟩

example : (({} : Response).parseBuffer (asciiBytes "HTTP/1.1 404 Not Found\r\nA: b\r\n\r\nbody")) =
    (.ok 32, { status := 404, header := [(asciiBytes "A", asciiBytes "b")] }, asciiBytes "body") := by decide +kernel

example : (({} : Request).parseBuffer (asciiBytes "\r\nGET /x?y=1 HTTP/1.0\r\nHost: h:8\r\n\r\nGET")).1 = .ok 36 := by
  decide +kernel

/-! ## C40 -/

/-- C40, full claim, for header maps made by any history. -/
def C40_statement : Prop :=
  ∀ (ops : List HeaderOp) (status : Nat) (version : Version) (p : Bool) (r0 : Response) (body out : Bytes) (size : Nat),
    Response.serialize { status, version, header := runOps ops, isPartial := p } body = .ok (out, size) →
    r0.parseBuffer out = (.ok (out.length - body.length), { status, version, header := runOps ops, isPartial := false }, body)

theorem C40_violated : ¬ C40_statement := by
  intro h
  have := h [.insert (asciiBytes "x-user") (asciiBytes "1\r\nx-admin: yes")] 200 .http11 false {} []
    (asciiBytes "HTTP/1.1 200 OK\r\nx-user: 1\r\nx-admin: yes\r\n\r\n") 44 (by decide +kernel)
  revert this
  decide +kernel

/-- A response is read back exactly if its headers are clean; status, version and body always are. -/
theorem C40_roundtrip_iff_partial (ops : List HeaderOp) (status : Nat) (version : Version) (p : Bool) (r0 : Response)
    (body out : Bytes) (size : Nat)
    (h : Response.serialize { status, version, header := runOps ops, isPartial := p } body = .ok (out, size)) :
    r0.parseBuffer out = (.ok (out.length - body.length), { status, version, header := runOps ops, isPartial := false }, body) ↔
      ∀ e ∈ runOps ops, CleanHeader e := by
  unfold Response.serialize at h
  simp only [Res.bind_eq_ok] at h
  obtain ⟨v, hv, s, hs, h⟩ := h
  simp only [Res.ok.injEq, Prod.mk.injEq] at h
  obtain ⟨rfl, _⟩ := h
  obtain ⟨hv2, rfl⟩ := (version_encode version v).mp hv
  obtain ⟨reason, rfl, f1, f2, f3, f4, f5⟩ := statusEncode_ok hs
  have ht := response_text r0 (v := version) (n := status) hv2 ⟨f1, f2⟩ f3 f4 f5 ((runOps ops).encode ++ body)
  rw [← List.append_assoc] at ht
  unfold Response.parseBuffer
  rw [countRead_ok, ← forget_ok, ht]
  constructor
  · rintro ⟨h, _⟩
    obtain ⟨a, r1, h1, h2⟩ := thenRead_ok h
    simp only [Prod.mk.injEq, Res.ok.injEq, Response.mk.injEq, and_true, true_and] at h2
    obtain ⟨⟨u, m⟩, rfl⟩ : ∃ x, a = x := ⟨a, rfl⟩
    rw [forget_ok] at h1
    have := parseHeader_clean h1
    simp only at h2
    rw [← h2.1]; exact this
  · intro hc
    refine ⟨?_, rfl⟩
    have := (C37_roundtrip_iff ops [] body).mpr hc
    rw [this]
    rfl

/-- With CR-free values and token names the response is read back up to leading spaces of values. -/
theorem C40_no_injection_partial (ops : List HeaderOp) (status : Nat) (version : Version) (p : Bool) (r0 : Response)
    (body out : Bytes) (size : Nat) (hl : ∀ e ∈ runOps ops, LineHeader e)
    (h : Response.serialize { status, version, header := runOps ops, isPartial := p } body = .ok (out, size)) :
    r0.parseBuffer out =
      (.ok (out.length - body.length), { status, version, header := trimValues (runOps ops), isPartial := false }, body) := by
  unfold Response.serialize at h
  simp only [Res.bind_eq_ok] at h
  obtain ⟨v, hv, s, hs, h⟩ := h
  simp only [Res.ok.injEq, Prod.mk.injEq] at h
  obtain ⟨rfl, _⟩ := h
  obtain ⟨hv2, rfl⟩ := (version_encode version v).mp hv
  obtain ⟨reason, rfl, f1, f2, f3, f4, f5⟩ := statusEncode_ok hs
  have ht := response_text r0 (v := version) (n := status) hv2 ⟨f1, f2⟩ f3 f4 f5 ((runOps ops).encode ++ body)
  rw [← List.append_assoc] at ht
  unfold Response.parseBuffer
  rw [countRead_ok, ← forget_ok, ht, C37_roundtrip_partial ops [] body hl]
  exact ⟨rfl, rfl⟩

/-- Every known status can be sent with every version that has a name. -/
theorem C40_serialisable (r : Response) (body : Bytes) (hv : r.version ≠ .none) (hs : ∃ e ∈ statusTable, e.1 = r.status) :
    ∃ out size, r.serialize body = .ok (out, size) := by
  obtain ⟨e, he, hes⟩ := hs
  have h1 := (version_encode r.version _).mpr ⟨hv, rfl⟩
  have hf : (statusTable.find? fun e => e.1 == r.status).isSome := by
    rw [List.find?_isSome]; exact ⟨e, he, by simp [hes]⟩
  obtain ⟨x, hx⟩ := Option.isSome_iff_exists.mp hf
  obtain ⟨f1, f2, _⟩ := statusTable_facts e he
  have h2 : ∃ s, statusEncode r.status = .ok s := by
    unfold statusEncode canonicalReason
    rw [hx, ← hes]
    simp only [Option.map_some, statusAsStr_eq, f1, f2, and_self, if_true, Res.bind_ok]
    exact ⟨_, rfl⟩
  obtain ⟨s, h2⟩ := h2
  unfold Response.serialize
  rw [h1, h2]
  exact ⟨_, _, rfl⟩

/-- A response is its head, as `encode_header` writes it, and the body after it. -/
theorem C40_head_and_body (r : Response) (body out : Bytes) (size : Nat) :
    r.serialize body = .ok (out, size) ↔ ∃ head n, r.encodeHeader = .ok (head, n) ∧ out = head ++ body ∧ size = n + body.length := by
  unfold Response.serialize Response.encodeHeader
  cases r.version.encode with
  | err e => simp
  | panic => simp
  | ok v =>
    cases statusEncode r.status with
    | err e => simp
    | panic => simp
    | ok s =>
      simp only [Res.bind_ok, Res.ok.injEq, Prod.mk.injEq]
      constructor
      · rintro ⟨rfl, rfl⟩
        exact ⟨_, _, ⟨rfl, rfl⟩, rfl, rfl⟩
      · rintro ⟨_, _, ⟨rfl, rfl⟩, rfl, rfl⟩
        exact ⟨rfl, rfl⟩

example : Response.serialize { status := 404, header := runOps [.insert (asciiBytes "A") (asciiBytes "b")] } (asciiBytes "body") =
    .ok (asciiBytes "HTTP/1.1 404 Not Found\r\nA: b\r\n\r\nbody", 36) := by decide +kernel

/-! ## C42 -/

/-- Writing a chunk: the length in lower-case hexadecimal, then the data; the size is right. -/
theorem C42_wire (data : Bytes) : ∃ len, (encodeChunkData data).1 = wireChunk len data ∧ len ≠ [] ∧
    (∀ b ∈ len, (hexDigit? b).isSome = true) ∧ hexVal len = data.length ∧
    (encodeChunkData data).2 = (encodeChunkData data).1.length := by
  obtain ⟨h1, h2, h3⟩ := hexLower_spec data.length
  refine ⟨hexLower data.length, rfl, h1, fun b hb => by rw [← isHex_iff]; exact h2 b hb, ?_, ?_⟩
  · rw [← digitsVal_hex h2]; exact h3
  · simp [encodeChunkData]; omega

/-- Reading a chunk: the offsets delimit exactly the data and what follows the line end is the rest. -/
theorem C42_roundtrip (data rest : Bytes) (hl : data.length < 2 ^ 63) :
    ∃ off, parseChunkData ((encodeChunkData data).1 ++ rest) = .ok (off, data.length) ∧
      (((encodeChunkData data).1 ++ rest).drop off).take data.length = data ∧
      ((encodeChunkData data).1 ++ rest).drop (off + data.length + 2) = rest := by
  obtain ⟨h1, h2, h3⟩ := hexLower_spec data.length
  refine ⟨(hexLower data.length).length + 2, parseChunkData_wire h1 h2 h3 (by omega) rest, ?_, ?_⟩
  · have e : (encodeChunkData data).1 ++ rest = (hexLower data.length ++ [13, 10]) ++ (data ++ ([13, 10] ++ rest)) := by
      simp [encodeChunkData]
    rw [e, List.drop_left' (by simp), List.take_left]
  · have e : (encodeChunkData data).1 ++ rest = (hexLower data.length ++ [13, 10] ++ data ++ [13, 10]) ++ rest := by
      simp [encodeChunkData]
    rw [e, List.drop_left' (by simp; omega)]

/-- A sequence of chunks, closed by the empty one, gives back the pieces in order. -/
theorem C42_sequence (pieces : List Bytes) (rest : Bytes) (h : ∀ d ∈ pieces, d ≠ [] ∧ d.length < 2 ^ 63) :
    readChunks (pieces.length + 1) (pieces.flatMap (fun d => (encodeChunkData d).1) ++ (encodeChunkData []).1 ++ rest) =
      .ok (pieces, rest) := by
  induction pieces with
  | nil =>
    obtain ⟨off, h1, _, h3⟩ := C42_roundtrip [] rest (by decide)
    rw [List.flatMap_nil, List.nil_append, List.length_nil, readChunks, h1]
    simp only [List.length_nil] at h3
    simp only [Res.bind_ok, List.length_nil, if_true, h3]
  | cons d pieces ih =>
    obtain ⟨hd, hl⟩ := h d (by simp)
    obtain ⟨off, h1, h2, h3⟩ := C42_roundtrip d (pieces.flatMap (fun d => (encodeChunkData d).1) ++ (encodeChunkData []).1 ++ rest) hl
    have e : (d :: pieces).flatMap (fun d => (encodeChunkData d).1) ++ (encodeChunkData []).1 ++ rest =
        (encodeChunkData d).1 ++ (pieces.flatMap (fun d => (encodeChunkData d).1) ++ (encodeChunkData []).1 ++ rest) := by
      simp [List.flatMap_cons]
    rw [e, List.length_cons, readChunks, h1]
    simp only [Res.bind_ok, h2, h3]
    rw [if_neg (by simpa using hd), ih fun x hx => h x (by simp [hx])]
    rfl

/-- Every strict prefix of a chunk is reported as partial. -/
theorem C42_prefix (data : Bytes) (hl : data.length < 2 ^ 63) (k : Nat) (hk : k < (encodeChunkData data).1.length) :
    parseChunkData ((encodeChunkData data).1.take k) = .err .partialData := by
  obtain ⟨h1, h2, h3⟩ := hexLower_spec data.length
  exact parseChunkData_prefix h1 h2 h3 (by omega) k hk

/-- The last part of C42, full claim. -/
def C42_no_panic_statement : Prop := ∀ buf, parseChunkData buf ≠ .panic

/-- It is false: a length of 2^64 panics. -/
theorem C42_violated_panic : ¬ C42_no_panic_statement := by
  intro h
  exact h (asciiBytes "10000000000000000\r\n") (by decide +kernel)

/-- When the reader panics: a hexadecimal length that does not fit 64 bits, or does not with 2 added. -/
theorem C42_panic_iff_partial (buf : Bytes) : parseChunkData buf = .panic ↔
    ∃ len c r, buf = len ++ c :: r ∧ len ≠ [] ∧ (∀ b ∈ len, (hexDigit? b).isSome = true) ∧ hexDigit? c = none ∧
      (2 ^ 64 ≤ hexVal len ∨ (2 ^ 64 ≤ hexVal len + 2 ∧ (c = 10 ∨ c = 32 ∨ (c = 13 ∧ r.head? = some 10)))) := by
  have hnl : ∀ (c : UInt8) (r : Bytes), (∃ s, skipNewLine (c :: r) = (.ok (), s)) ↔
      (c = 10 ∨ c = 32 ∨ (c = 13 ∧ r.head? = some 10)) := by
    intro c r
    simp only [skipNewLine, nextByte, thenRead]
    by_cases h1 : c = 13
    · subst h1
      cases r with
      | nil => simp [expectByte]
      | cons d r =>
        by_cases hd : d = 10
        · simp [expectByte, hd]
        · simp [expectByte, hd]
    · by_cases h2 : c = 10
      · simp [h2]
      · by_cases h3 : c = 32
        · simp [h3]
        · simp [h1, h2, h3]
  have hnp : ∀ (c : UInt8) (r : Bytes), (skipNewLine (c :: r)).1 ≠ .panic := by
    intro c r
    simp only [skipNewLine, nextByte, thenRead]
    split
    · cases r with
      | nil => simp [expectByte]
      | cons d r => simp only [expectByte]; split <;> simp
    · split
      · simp
      · split <;> simp
  have tail : ∀ (t : Nat) (len : Bytes) (c : UInt8) (r : Bytes), (∀ b ∈ len, isHex b = true) →
      (chunkTail t len (skipNewLine (c :: r)) = .panic ↔
      (2 ^ 64 ≤ hexVal len ∨ (2 ^ 64 ≤ hexVal len + 2 ∧ (c = 10 ∨ c = 32 ∨ (c = 13 ∧ r.head? = some 10))))) := by
    intro t len c r hh
    rw [← hnl, ← digitsVal_hex hh]
    unfold chunkTail
    by_cases h1 : digitsVal 16 len ≥ 2 ^ 64
    · rw [if_pos h1]; simp only [true_iff]; left; exact h1
    · rw [if_neg h1]
      cases hs : skipNewLine (c :: r) with
      | mk x val =>
        cases x with
        | ok u =>
          simp only
          by_cases h2 : digitsVal 16 len + 2 ≥ 2 ^ 64
          · rw [if_pos h2]; simp only [true_iff]; right; exact ⟨h2, val, rfl⟩
          · rw [if_neg h2]
            constructor
            · intro h; split at h <;> simp at h
            · rintro (h | ⟨h, _⟩) <;> omega
        | err e => simp; omega
        | panic => exact absurd (by rw [hs]) (hnp c r)
  by_cases ha : buf.all isHex = true
  · rw [parseChunkData_hex (List.all_eq_true.mp ha)]
    constructor
    · intro h; exact absurd h (by simp)
    · rintro ⟨len, c, r, rfl, _, _, h4, _⟩
      have := List.all_eq_true.mp ha c (by simp)
      rw [isHex_iff, h4] at this
      exact absurd this (by simp)
  · obtain ⟨t, b, s, rfl, h2, h3, _⟩ := scan_spec ha
    have h2' := List.all_eq_true.mp h2
    by_cases ht : t = []
    · subst ht
      rw [List.nil_append, parseChunkData_nohex h3]
      constructor
      · intro h; exact absurd h (by simp)
      · rintro ⟨len, c, r, e, h5, h6, _⟩
        obtain ⟨x, len', rfl⟩ := List.exists_cons_of_ne_nil h5
        simp only [List.cons_append, List.cons.injEq] at e
        have := h6 x (by simp)
        rw [← isHex_iff, ← e.1, h3] at this
        exact absurd this (by simp)
    · rw [parseChunkData_eq ht h2' b h3, tail _ _ _ _ h2']
      constructor
      · intro h
        refine ⟨t, b, s, rfl, ht, fun x hx => by rw [← isHex_iff]; exact h2' x hx, ?_, h⟩
        have := isHex_iff b
        rw [h3] at this
        simpa using this.symm
      · rintro ⟨len, c, r, e, h5, h6, h7, h8⟩
        have hc : isHex c = false := by rw [isHex_iff, h7]; rfl
        have hlen : len.all isHex = true := by
          rw [List.all_eq_true]; intro x hx; rw [isHex_iff]; exact h6 x hx
        have e1 : t = len := by rw [← takeWhile_of h2 h3 (r := s), e, takeWhile_of hlen hc]
        subst e1
        have := List.append_cancel_left e
        simp only [List.cons.injEq] at this
        obtain ⟨rfl, rfl⟩ := this
        exact h8

example : (encodeChunkData (asciiBytes "hello, chunks")).1 = asciiBytes "d\r\nhello, chunks\r\n" ∧
    parseChunkData (asciiBytes "D\nhello, chunks..rest") = .ok (2, 13) := by decide +kernel

/-! ## C43 -/

/-- C43, full claim. -/
def C43_statement : Prop :=
  (∀ (s : Bytes) (v : HeaderValue), v = .stand s ∨ v = .value s →
    (∀ n, v.toUsize = .ok n ↔ IsNumeral s n ∧ n < 2 ^ 64) ∧ v.toUsize ≠ .panic ∧
    (∀ n, v.toIsize = .ok n ↔ IsSignedNumeral s n ∧ -(2 ^ 63) ≤ n ∧ n < 2 ^ 63) ∧ v.toIsize ≠ .panic) ∧
  (∀ n, n < 2 ^ 64 → (HeaderValue.ofUsize n).toUsize = .ok n) ∧
  (∀ n : Int, -(2 ^ 63) ≤ n → n < 2 ^ 63 → (HeaderValue.ofIsize n).toIsize = .ok n)

/-- C43 is false: the empty value is read as 0. -/
theorem C43_violated_empty : ¬ C43_statement := by
  intro h
  have := (((h.1 [] (.value []) (Or.inr rfl)).1 0).mp (by decide +kernel)).1.1
  exact this rfl

/-- And 2^64 panics instead of being rejected. -/
theorem C43_violated_panic : ¬ C43_statement := by
  intro h
  exact (h.1 _ (.value (asciiBytes "18446744073709551616")) (Or.inr rfl)).2.1 (by decide +kernel)

/-- And `--5` is read as -5. -/
theorem C43_violated_sign : (HeaderValue.value (asciiBytes "--5")).toIsize = .ok (-5) ∧
    (HeaderValue.value (asciiBytes "0-5")).toIsize = .ok (-5) := by decide +kernel

/-- And the least number written cannot be read back. -/
theorem C43_violated_min : (HeaderValue.ofIsize (-(2 ^ 63))).toIsize = .panic := by decide +kernel

/-- Unsigned reading of stored bytes: exactly the numerals in range, and the empty value as 0. -/
theorem C43_usize_partial (s : Bytes) (n : Nat) :
    (HeaderValue.value s).toUsize = .ok n ↔ (s = [] ∧ n = 0) ∨ (IsNumeral s n ∧ n < 2 ^ 64) := by
  unfold HeaderValue.toUsize
  rw [usizeLoop_ok s 0 n (by decide)]
  unfold IsNumeral
  constructor
  · rintro ⟨h1, h2, h3⟩
    by_cases hs : s = []
    · left; refine ⟨hs, ?_⟩
      rw [hs] at h2; simpa [decVal] using h2.symm
    · right; exact ⟨⟨hs, h1, by simpa using h2⟩, h3⟩
  · rintro (⟨rfl, rfl⟩ | ⟨⟨_, h1, h2⟩, h3⟩)
    · exact ⟨by simp [AllDigits], by simp [decVal], by decide⟩
    · exact ⟨h1, by simpa using h2, h3⟩

/-- Unsigned reading of stored bytes panics exactly where adding a digit passes 2^64 but multiplying
by ten does not. -/
theorem C43_usize_panic_partial (s : Bytes) : (HeaderValue.value s).toUsize = .panic ↔
    ∃ p d q, s = p ++ d :: q ∧ AllDigits (p ++ [d]) ∧ decVal p * 10 < 2 ^ 64 ∧ 2 ^ 64 ≤ decVal p * 10 + (d.toNat - 48) := by
  unfold HeaderValue.toUsize
  rw [usizeLoop_panic]
  simp

/-- Signed reading of stored bytes: minus signs and zeros in any order, then digits in range. -/
theorem C43_isize_partial (s : Bytes) (n : Int) : (HeaderValue.value s).toIsize = .ok n ↔
    ∃ z ds, s = z ++ ds ∧ (∀ b ∈ z, b = 45 ∨ b = 48) ∧ AllDigits ds ∧ decVal ds < 2 ^ 63 ∧
      n = if (45 : UInt8) ∈ z then -(decVal ds : Int) else decVal ds := by
  unfold HeaderValue.toIsize
  simp only [Res.bind_eq_ok, Res.ok.injEq]
  constructor
  · rintro ⟨⟨k, neg⟩, h1, h2⟩
    obtain ⟨z, ds, h3, h4, h5, h6, h7, h8⟩ := (isizeLoop_zero s false k neg).mp h1
    refine ⟨z, ds, h3, h4, h5, by omega, ?_⟩
    rw [← h2, h8, h6]
    by_cases hz : (45 : UInt8) ∈ z <;> simp [hz]
  · rintro ⟨z, ds, h3, h4, h5, h6, h7⟩
    refine ⟨(decVal ds, decide ((45 : UInt8) ∈ z)), (isizeLoop_zero s false _ _).mpr ⟨z, ds, h3, h4, h5, rfl, h6, by simp⟩, ?_⟩
    rw [h7]
    by_cases hz : (45 : UInt8) ∈ z <;> simp [hz]

/-- Every numeral strictly between -2^63 and 2^63, signed or not, is read with its value. -/
theorem C43_isize_reads_partial (s : Bytes) (n : Int) (h : IsSignedNumeral s n) (hn : -(2 ^ 63) < n ∧ n < 2 ^ 63) :
    (HeaderValue.value s).toIsize = .ok n := by
  rw [C43_isize_partial]
  rcases h with ⟨k, ⟨_, h1, h2⟩, h3⟩ | ⟨t, k, rfl, ⟨_, h1, h2⟩, h3⟩
  · exact ⟨[], s, rfl, by simp, h1, by omega, by rw [h3, h2]; simp⟩
  · exact ⟨[45], t, rfl, by simp, h1, by omega, by rw [h3, h2]; simp⟩

/-- Static strings are read by the standard library: exactly the numerals in range, a leading plus
sign allowed; no panic. -/
theorem C43_static (s : Bytes) :
    (∀ n, (HeaderValue.stand s).toUsize = .ok n ↔ (IsNumeral s n ∨ ∃ t, s = 43 :: t ∧ IsNumeral t n) ∧ n < 2 ^ 64) ∧
    (HeaderValue.stand s).toUsize ≠ .panic ∧
    (∀ n, (HeaderValue.stand s).toIsize = .ok n ↔
      (IsSignedNumeral s n ∨ ∃ t k, s = 43 :: t ∧ IsNumeral t k ∧ n = k) ∧ -(2 ^ 63) ≤ n ∧ n < 2 ^ 63) ∧
    (HeaderValue.stand s).toIsize ≠ .panic := by
  have ho : ∀ {α : Type} (o : Option α) (e : Error) (a : α), (Res.ofOption o e = .ok a ↔ o = some a) ∧ Res.ofOption o e ≠ .panic := by
    intro α o e a
    cases o <;> simp [Res.ofOption]
  refine ⟨fun n => ?_, (ho _ _ 0).2, fun n => ?_, (ho _ _ 0).2⟩
  · exact (ho _ _ _).1.trans (parseUnsigned_iff _ _ _)
  · exact (ho _ _ _).1.trans (parseSigned_iff _ _)

/-- Numbers written as header values are read back: all unsigned ones. -/
theorem C43_roundtrip_usize (n : Nat) (h : n < 2 ^ 64) : (HeaderValue.ofUsize n).toUsize = .ok n := by
  obtain ⟨h1, h2, h3⟩ := decimal_spec n
  unfold HeaderValue.ofUsize
  rw [C43_usize_partial]
  right
  exact ⟨⟨h1, (allDigits_iff _).mpr h2, by rw [← digitsVal_dec h2]; exact h3⟩, h⟩

/-- And all signed ones but the least. -/
theorem C43_roundtrip_isize_partial (n : Int) (h : -(2 ^ 63) < n ∧ n < 2 ^ 63) : (HeaderValue.ofIsize n).toIsize = .ok n := by
  obtain ⟨h1, h2, h3⟩ := decimal_spec n.natAbs
  have hnum : IsNumeral (decimal n.natAbs) n.natAbs := ⟨h1, (allDigits_iff _).mpr h2, by rw [← digitsVal_dec h2]; exact h3⟩
  unfold HeaderValue.ofIsize
  apply C43_isize_reads_partial _ _ _ h
  by_cases hn : n < 0
  · rw [if_pos hn]
    right
    exact ⟨decimal n.natAbs, n.natAbs, rfl, hnum, by omega⟩
  · rw [if_neg hn]
    left
    exact ⟨n.natAbs, hnum, by omega⟩

/-- `get_body_len`: a length below 2^63 is returned exactly, a missing one is 0. -/
theorem C43_body_len_partial (m : HeaderMap) :
    (m.get? (asciiBytes "content-length") = none → m.bodyLen = .ok 0) ∧
    (∀ s n, m.get? (asciiBytes "content-length") = some s → IsNumeral s n → n < 2 ^ 63 → m.bodyLen = .ok n) := by
  constructor
  · intro h; unfold HeaderMap.bodyLen; rw [h]
  · intro s n h hs hn
    have := C43_isize_reads_partial s n (Or.inl ⟨n, hs, rfl⟩) ⟨by omega, by omega⟩
    unfold HeaderMap.bodyLen
    rw [h]
    simp only [this]

/-- A longer one panics. -/
theorem C43_violated_body_len :
    HeaderMap.bodyLen [(asciiBytes "Content-Length", asciiBytes "9223372036854775808")] = .panic := by decide +kernel

example : IsNumeral (asciiBytes "18446744073709551615") (2 ^ 64 - 1) ∧ IsSignedNumeral (asciiBytes "-12") (-12) := by
  refine ⟨⟨by decide +kernel, ?_, by decide +kernel⟩, Or.inr ⟨asciiBytes "12", 12, by decide +kernel, ⟨by decide +kernel, ?_, by decide +kernel⟩, rfl⟩⟩ <;>
    · unfold AllDigits; decide +kernel

/-! ## C44 -/

/-- `from_u16` accepts exactly 100..999. -/
theorem C44_from_u16 (n c : Nat) : statusFromU16 n = .ok c ↔ c = n ∧ 100 ≤ n ∧ n ≤ 999 := by
  unfold statusFromU16
  by_cases h : n < 100 ∨ n ≥ 1000
  · rw [if_pos h]
    constructor
    · intro h; exact absurd h (by simp)
    · rintro ⟨_, h1, h2⟩; omega
  · rw [if_neg h, Res.ok.injEq]
    constructor
    · intro h2; exact ⟨h2.symm, by omega, by omega⟩
    · intro h2; exact h2.1.symm

/-- `from_bytes` accepts exactly the three-digit numerals of 100..999. -/
theorem C44_from_bytes (s : Bytes) (n : Nat) : statusFromBytes s = .ok n ↔
    s.length = 3 ∧ IsNumeral s n ∧ 100 ≤ n ∧ n ≤ 999 := by
  have hb : ∀ x : UInt8, ((x - 48).toNat ≤ 9 ↔ (48 ≤ x.toNat ∧ x.toNat ≤ 57)) ∧ ((x - 48).toNat ≤ 9 → (x - 48).toNat = x.toNat - 48) := by
    decide +kernel
  match s with
  | [] => simp [statusFromBytes]
  | [_] => simp [statusFromBytes]
  | [_, _] => simp [statusFromBytes]
  | _ :: _ :: _ :: _ :: _ => simp [statusFromBytes]
  | [x, y, z] =>
    obtain ⟨hx1, hx2⟩ := hb x
    obtain ⟨hy1, hy2⟩ := hb y
    obtain ⟨hz1, hz2⟩ := hb z
    simp only [statusFromBytes, IsNumeral, AllDigits, decVal, List.length_cons, List.length_nil, List.mem_cons,
      List.not_mem_nil, or_false, forall_eq_or_imp, forall_eq, ← hx1, ← hy1, ← hz1]
    by_cases h : (x - 48).toNat = 0 ∨ (x - 48).toNat > 9 ∨ (y - 48).toNat > 9 ∨ (z - 48).toNat > 9
    · rw [if_pos h]
      constructor
      · intro h; exact absurd h (by simp)
      · rintro ⟨_, ⟨_, ⟨h1, h2, h3⟩, h4⟩, h5, h6⟩
        have := hx2 h1
        have := hy2 h2
        have := hz2 h3
        omega
    · rw [if_neg h, Res.ok.injEq]
      have h1 : (x - 48).toNat ≤ 9 := by omega
      have h2 : (y - 48).toNat ≤ 9 := by omega
      have h3 : (z - 48).toNat ≤ 9 := by omega
      have e1 := hx2 h1
      have e2 := hy2 h2
      have e3 := hz2 h3
      constructor
      · intro h4
        exact ⟨trivial, ⟨by simp, ⟨h1, h2, h3⟩, by omega⟩, by omega, by omega⟩
      · rintro ⟨_, ⟨_, _, h4⟩, _⟩
        omega

/-- `as_str` and `from_bytes` are inverse. -/
theorem C44_roundtrip (n : Nat) (s : Bytes) :
    (100 ≤ n ∧ n ≤ 999 → ∃ t, statusAsStr n = .ok t ∧ statusFromBytes t = .ok n) ∧
    (statusFromBytes s = .ok n → statusAsStr n = .ok s) := by
  constructor
  · intro h
    exact ⟨threeDigits n, by rw [statusAsStr_eq, if_pos h], statusFromBytes_digits n h⟩
  · intro h
    obtain ⟨hl, ⟨_, hd, hv⟩, h1, h2⟩ := (C44_from_bytes s n).mp h
    rw [statusAsStr_eq, if_pos ⟨h1, h2⟩]
    match s, hl with
    | [x, y, z], _ =>
      have hx := hd x (by simp)
      have hy := hd y (by simp)
      have hz := hd z (by simp)
      simp only [decVal, List.length_cons, List.length_nil] at hv
      have key : ∀ x : UInt8, 48 ≤ x.toNat ∧ x.toNat ≤ 57 → UInt8.ofNat (48 + (x.toNat - 48)) = x := by decide +kernel
      unfold threeDigits
      rw [show n / 100 % 10 = x.toNat - 48 by omega, show n / 10 % 10 = y.toNat - 48 by omega, show n % 10 = z.toNat - 48 by omega,
        key x hx, key y hy, key z hz]

/-- Exactly one class from 100 to 599, by the first digit, and none from 600 to 999. -/
theorem C44_classes (n : Nat) (h : 100 ≤ n ∧ n ≤ 999) :
    (isInformational n = true ↔ n / 100 = 1) ∧ (isSuccess n = true ↔ n / 100 = 2) ∧ (isRedirection n = true ↔ n / 100 = 3) ∧
    (isClientError n = true ↔ n / 100 = 4) ∧ (isServerError n = true ↔ n / 100 = 5) := by
  simp only [isInformational, isSuccess, isRedirection, isClientError, isServerError, Bool.and_eq_true, decide_eq_true_eq]
  omega

example : statusFromBytes (asciiBytes "404") = .ok 404 ∧ statusFromBytes (asciiBytes "099") = .err .invalidStatusCode := by decide +kernel

/-! ## C45 -/

/-- Method names: exactly the registered names are accepted, each as its own method. -/
theorem C45_method (s : Bytes) (m : Method) : Method.tryFrom s = .ok m ↔ ∃ e ∈ methodNames, e.1 = m ∧ asciiBytes e.2 = s := by
  constructor
  · intro h
    have h0 := h
    unfold Method.tryFrom at h
    have tab : ∀ e ∈ methodNames, Method.tryFrom (asciiBytes e.2) = .ok e.1 := by decide +kernel
    have key : ∀ (e : Method × String), e ∈ methodNames → s = asciiBytes e.2 → Method.tryFrom s = .ok e.1 :=
      fun e he hs => hs ▸ tab e he
    have fin : ∀ (e : Method × String), e ∈ methodNames → s = asciiBytes e.2 → ∃ e ∈ methodNames, e.1 = m ∧ asciiBytes e.2 = s := by
      intro e he hs
      have := key e he hs
      rw [h0, Res.ok.injEq] at this
      exact ⟨e, he, this.symm, hs.symm⟩
    by_cases h1 : s = asciiBytes "GET"
    · exact fin (.get, "GET") (by simp [methodNames]) h1
    by_cases h2 : s = asciiBytes "POST"
    · exact fin (.post, "POST") (by simp [methodNames]) h2
    by_cases h3 : s = asciiBytes "PUT"
    · exact fin (.put, "PUT") (by simp [methodNames]) h3
    by_cases h4 : s = asciiBytes "DELETE"
    · exact fin (.delete, "DELETE") (by simp [methodNames]) h4
    by_cases h5 : s = asciiBytes "HEAD"
    · exact fin (.head, "HEAD") (by simp [methodNames]) h5
    by_cases h6 : s = asciiBytes "OPTIONS"
    · exact fin (.options, "OPTIONS") (by simp [methodNames]) h6
    by_cases h7 : s = asciiBytes "CONNECT"
    · exact fin (.connect, "CONNECT") (by simp [methodNames]) h7
    by_cases h8 : s = asciiBytes "PATCH"
    · exact fin (.patch, "PATCH") (by simp [methodNames]) h8
    by_cases h9 : s = asciiBytes "TRACE"
    · exact fin (.trace, "TRACE") (by simp [methodNames]) h9
    rw [if_neg h1, if_neg h2, if_neg h3, if_neg h4, if_neg h5, if_neg h6, if_neg h7, if_neg h8, if_neg h9] at h
    exact absurd h (by simp)
  · rintro ⟨e, he, rfl, rfl⟩
    revert e
    decide +kernel

/-- A parsed method is written as it was read. -/
theorem C45_method_text (s : Bytes) (m : Method) (h : Method.tryFrom s = .ok m) : m.asStr = s ∧ m.encode = .ok s := by
  obtain ⟨e, he, rfl, rfl⟩ := (C45_method s m).mp h
  revert e
  decide +kernel

/-- Version names: exactly the four names are accepted. -/
theorem C45_version (s : Bytes) (v : Version) : versionOfToken s = .ok v ↔ ∃ e ∈ versionNames, e.1 = v ∧ asciiBytes e.2 = s := by
  constructor
  · intro h
    have h0 := h
    unfold versionOfToken at h
    have tab : ∀ e ∈ versionNames, versionOfToken (asciiBytes e.2) = .ok e.1 := by decide +kernel
    have key : ∀ (e : Version × String), e ∈ versionNames → s = asciiBytes e.2 → versionOfToken s = .ok e.1 :=
      fun e he hs => hs ▸ tab e he
    have fin : ∀ (e : Version × String), e ∈ versionNames → s = asciiBytes e.2 → ∃ e ∈ versionNames, e.1 = v ∧ asciiBytes e.2 = s := by
      intro e he hs
      have := key e he hs
      rw [h0, Res.ok.injEq] at this
      exact ⟨e, he, this.symm, hs.symm⟩
    by_cases h1 : s = asciiBytes "HTTP/1.0"
    · exact fin (.http10, "HTTP/1.0") (by simp [versionNames]) h1
    by_cases h2 : s = asciiBytes "HTTP/1.1"
    · exact fin (.http11, "HTTP/1.1") (by simp [versionNames]) h2
    by_cases h3 : s = asciiBytes "HTTP/2"
    · exact fin (.http2, "HTTP/2") (by simp [versionNames]) h3
    by_cases h4 : s = asciiBytes "HTTP/3"
    · exact fin (.http3, "HTTP/3") (by simp [versionNames]) h4
    rw [if_neg h1, if_neg h2, if_neg h3, if_neg h4] at h
    exact absurd h (by simp)
  · rintro ⟨e, he, rfl, rfl⟩
    revert e
    decide +kernel

/-- A parsed version is written as it was read. -/
theorem C45_version_text (s : Bytes) (v : Version) (h : versionOfToken s = .ok v) : v.asStr = s ∧ v.encode = .ok s := by
  obtain ⟨e, he, rfl, rfl⟩ := (C45_version s v).mp h
  revert e
  decide +kernel

/-- In a buffer: a word (printable bytes, no space) and a byte that ends it.  It is read exactly if it
is a name, and what follows it is left. -/
theorem C45_parse (w : Bytes) (c : UInt8) (r : Bytes) (hw : w ≠ []) (hp : ∀ b ∈ w, 33 ≤ b.toNat ∧ b.toNat ≤ 126)
    (hc : ¬(33 ≤ c.toNat ∧ c.toNat ≤ 126)) :
    (∀ m rest, parseMethod (w ++ c :: r) = (.ok m, rest) ↔ rest = c :: r ∧ ∃ e ∈ methodNames, e.1 = m ∧ asciiBytes e.2 = w) ∧
    (∀ v rest, parseVersion (w ++ c :: r) = (.ok v, rest) ↔ rest = c :: r ∧ ∃ e ∈ versionNames, e.1 = v ∧ asciiBytes e.2 = w) := by
  have ht : ∀ b, isToken b = true ↔ 33 ≤ b.toNat ∧ b.toNat ≤ 126 := by decide +kernel
  have e := parseToken_eq hw (by rw [List.all_eq_true]; intro b hb; exact (ht b).mpr (hp b hb))
    (c := c) (by rw [← Bool.not_eq_true, ht]; exact hc) r
  unfold parseMethod parseVersion onToken
  rw [e]
  simp only [thenRead, Prod.mk.injEq, C45_method, C45_version]
  exact ⟨fun m rest => ⟨fun h => ⟨h.2.symm, h.1⟩, fun h => ⟨h.2, h.1.symm⟩⟩,
    fun m rest => ⟨fun h => ⟨h.2.symm, h.1⟩, fun h => ⟨h.2, h.1.symm⟩⟩⟩

example : parseMethod (asciiBytes "PATCH /x") = (.ok .patch, asciiBytes " /x") ∧
    (parseMethod (asciiBytes "get /x")).1 = .err .httpMethod ∧ (parseVersion (asciiBytes "HTTP/1.2\r\n")).1 = .err .httpVersion := by
  decide +kernel

/-! ## C55 -/

/-- Responses: after a parse the message counts as complete exactly if the parse succeeded. -/
theorem C55_response (r r' : Response) (buf rest : Bytes) (res : Res Nat) (h : r.parseBuffer buf = (res, r', rest)) :
    r'.isPartial = false ↔ ∃ n, res = .ok n := by
  have key : ∀ x : Res Unit × Response × Bytes, x = r.parseHead buf → (x.2.1.isPartial = false ↔ x.1 = .ok ()) := by
    intro x hx
    subst hx
    unfold Response.parseHead
    simp only
    have flag : ∀ {α : Type} (x : Res α × Bytes) (s : Response) (f : α → Bytes → Res Unit × Response × Bytes),
        s.isPartial = true → (∀ a b, (f a b).2.1.isPartial = false ↔ (f a b).1 = .ok ()) →
        ((thenDo x s f).2.1.isPartial = false ↔ (thenDo x s f).1 = .ok ()) := by
      intro α x s f hs hf
      exact thenDo_flag (fun y => y.2.1.isPartial = false ↔ y.1 = .ok ()) x s f (by simp [hs]) (by simp [hs]) hf
    refine flag _ _ _ rfl fun _ _ => flag _ _ _ rfl fun _ _ => flag _ _ _ rfl fun _ _ => flag _ _ _ rfl fun _ _ =>
      flag _ _ _ rfl fun _ _ => flag _ _ _ rfl fun _ _ => flag _ _ _ rfl fun _ _ => flag _ _ _ rfl fun _ _ => by simp
  have := key _ rfl
  unfold Response.parseBuffer countRead at h
  cases hp : r.parseHead buf with
  | mk x s =>
    obtain ⟨s, b⟩ := s
    rw [hp] at h this
    cases x <;> simp only [Prod.mk.injEq] at h <;> obtain ⟨rfl, rfl, rfl⟩ := h <;> simpa using this

/-- C55 for requests, full claim. -/
def C55_request_statement : Prop :=
  ∀ (r r' : Request) (buf rest : Bytes) (res : Res Nat), r.parseBuffer buf = (res, r', rest) →
    (r'.isPartial = false ↔ ∃ n, res = .ok n)

/-- It is false: a request with a bad URL fails but counts as complete. -/
theorem C55_violated_request : ¬ C55_request_statement := by
  intro h
  have h1 : (({} : Request).parseBuffer (asciiBytes "GET /%zz HTTP/1.1\r\n\r\n")).2.1.isPartial = false := by decide +kernel
  have h2 : (({} : Request).parseBuffer (asciiBytes "GET /%zz HTTP/1.1\r\n\r\n")).1 = .err .urlInvalid := by decide +kernel
  obtain ⟨⟨res, r', rest⟩, hx⟩ : ∃ x, ({} : Request).parseBuffer (asciiBytes "GET /%zz HTTP/1.1\r\n\r\n") = x := ⟨_, rfl⟩
  rw [hx] at h1 h2
  obtain ⟨n, hn⟩ := (h _ _ _ _ _ hx).mp h1
  simp only at h2
  rw [h2] at hn
  exact absurd hn (by simp)

/-- Requests: success means complete; complete without success means that the URL of the head read is
bad, and nothing else. -/
theorem C55_request_partial (r r' : Request) (buf rest : Bytes) (res : Res Nat) (h : r.parseBuffer buf = (res, r', rest)) :
    ((∃ n, res = .ok n) → r'.isPartial = false) ∧
    (r'.isPartial = false → (∃ n, res = .ok n) ∨
      ∃ path, (∀ u, requestUrl r'.method r'.header path ≠ .ok u) ∧ ∀ e, res = .err e → requestUrl r'.method r'.header path = .err e) := by
  have key : ∀ x : Res Unit × Request × Bytes, x = r.parseHead buf →
      (x.1 = .ok () → x.2.1.isPartial = false) ∧ (x.2.1.isPartial = false → x.1 = .ok () ∨
        ∃ path, (∀ u, requestUrl x.2.1.method x.2.1.header path ≠ .ok u) ∧
          ∀ e, x.1 = .err e → requestUrl x.2.1.method x.2.1.header path = .err e) := by
    intro x hx
    subst hx
    unfold Request.parseHead
    simp only
    have flag : ∀ {α : Type} (x : Res α × Bytes) (s : Request) (f : α → Bytes → Res Unit × Request × Bytes),
        s.isPartial = true → (∀ a b, ((f a b).1 = .ok () → (f a b).2.1.isPartial = false) ∧
          ((f a b).2.1.isPartial = false → (f a b).1 = .ok () ∨
            ∃ path, (∀ u, requestUrl (f a b).2.1.method (f a b).2.1.header path ≠ .ok u) ∧
              ∀ e, (f a b).1 = .err e → requestUrl (f a b).2.1.method (f a b).2.1.header path = .err e)) →
        ((thenDo x s f).1 = .ok () → (thenDo x s f).2.1.isPartial = false) ∧
          ((thenDo x s f).2.1.isPartial = false → (thenDo x s f).1 = .ok () ∨
            ∃ path, (∀ u, requestUrl (thenDo x s f).2.1.method (thenDo x s f).2.1.header path ≠ .ok u) ∧
              ∀ e, (thenDo x s f).1 = .err e →
                requestUrl (thenDo x s f).2.1.method (thenDo x s f).2.1.header path = .err e) := by
      intro α x s f hs hf
      exact thenDo_flag (fun y => (y.1 = .ok () → y.2.1.isPartial = false) ∧ (y.2.1.isPartial = false → y.1 = .ok () ∨
        ∃ path, (∀ u, requestUrl y.2.1.method y.2.1.header path ≠ .ok u) ∧
          ∀ e, y.1 = .err e → requestUrl y.2.1.method y.2.1.header path = .err e)) x s f (by simp [hs]) (by simp [hs]) hf
    refine flag _ _ _ rfl fun _ _ => flag _ _ _ rfl fun method _ => flag _ _ _ rfl fun _ _ => flag _ _ _ rfl fun path _ =>
      flag _ _ _ rfl fun _ _ => flag _ _ _ rfl fun version _ => flag _ _ _ rfl fun _ _ => flag _ _ _ rfl fun _ _ => ?_
    unfold Request.finishUrl
    simp only
    cases hu : requestUrl method _ path with
    | ok u => simp [thenDo]
    | err e =>
      simp only [thenDo]
      refine ⟨by simp, fun _ => Or.inr ⟨path, by rw [hu]; simp, fun e' he => by rw [hu]; simpa using he⟩⟩
    | panic =>
      simp only [thenDo]
      refine ⟨by simp, fun _ => Or.inr ⟨path, by rw [hu]; simp, fun e' he => by simp at he⟩⟩
  have := key _ rfl
  unfold Request.parseBuffer countRead at h
  cases hp : r.parseHead buf with
  | mk x s =>
    obtain ⟨s, b⟩ := s
    rw [hp] at h this
    cases x <;> simp only [Prod.mk.injEq] at h <;> obtain ⟨rfl, rfl, rfl⟩ := h <;> simpa using this

example : ((({} : Request).parseBuffer (asciiBytes "GET /x HTTP/1.1\r\nA: b")).1 = .err .partialData) ∧
    (({} : Request).parseBuffer (asciiBytes "GET /x HTTP/1.1\r\nA: b")).2.1.isPartial = true := by decide +kernel

end Webparse
