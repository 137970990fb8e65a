import Verif.Spec.Grammar
import Verif.Proofs.Grammar
import Verif.Props.HeaderMap

/-!
# C73 and C74: the grammar of HTTP/1 heads

C73: what RFC 9112 allows is accepted and understood.  C74: what is accepted.
-/

namespace Webparse
open Spec

/-! ## C74: the accepted language -/

/-- C74, full claim for responses: what is accepted is a response head of RFC 9112, empty lines before it apart. -/
def C74_response_statement : Prop :=
  ∀ (r0 r' : Response) (buf rest : Bytes) (n : Nat), r0.parseBuffer buf = (.ok n, r', rest) →
    ∃ lines reason fields head, BlankLines lines ∧ buf.take n = lines ++ head ∧
      IsResponseHead r'.version r'.status reason fields head

/-- C74, full claim for requests. -/
def C74_request_statement : Prop :=
  ∀ (r0 r' : Request) (buf rest : Bytes) (n : Nat), r0.parseBuffer buf = (.ok n, r', rest) →
    ∃ lines method target fields head, BlankLines lines ∧ buf.take n = lines ++ head ∧
      IsRequestHead method target r'.version fields head

/-- The response parser accepts exactly the heads of `AcceptedResponse`, and the message has the status, the version and
the headers written there.  Missing for C74: `AcceptedResponse` is wider than RFC 9112. -/
theorem C74_response_iff_partial (r0 r' : Response) (buf rest : Bytes) (n : Nat) : r0.parseBuffer buf = (.ok n, r', rest) ↔
    ∃ v code hs head, AcceptedResponse v code hs head ∧ buf = head ++ rest ∧ n = head.length ∧ r' = ⟨code, v, storeAll hs, false⟩ := by
  unfold Response.parseBuffer
  rw [countRead_ok, responseHead_iff]
  constructor
  · rintro ⟨⟨v, code, hs, head, h1, rfl, h3⟩, h4⟩
    exact ⟨v, code, hs, head, h1, rfl, by rw [h4]; simp, h3⟩
  · rintro ⟨v, code, hs, head, h1, rfl, rfl, h3⟩
    exact ⟨⟨v, code, hs, head, h1, rfl, h3⟩, by simp⟩

/-- The request parser accepts exactly the heads of `AcceptedRequest` whose target and `Host` give a URL (C62). -/
theorem C74_request_iff_partial (r0 r' : Request) (buf rest : Bytes) (n : Nat) : r0.parseBuffer buf = (.ok n, r', rest) ↔
    ∃ m target v hs head url, AcceptedRequest m target v hs head ∧ buf = head ++ rest ∧ n = head.length ∧
      requestUrl m (storeAll hs) target = .ok url ∧ r' = ⟨m, storeAll hs, v, url, false⟩ := by
  unfold Request.parseBuffer
  rw [countRead_ok, requestHead_iff]
  constructor
  · rintro ⟨⟨m, target, v, hs, head, url, h1, rfl, h3, h5⟩, h4⟩
    exact ⟨m, target, v, hs, head, url, h1, rfl, by rw [h4]; simp, h3, h5⟩
  · rintro ⟨m, target, v, hs, head, url, h1, rfl, rfl, h3, h5⟩
    exact ⟨⟨m, target, v, hs, head, url, h1, rfl, h3, h5⟩, by simp⟩

theorem fieldSection_bytes {fields : List (Header × Bytes × Bytes)} {text : Bytes} (h : FieldSection fields text) : (0 : UInt8) ∉ text := by
  induction h with
  | done => decide
  | @more h before after line fields text hl _ ih =>
    obtain ⟨⟨-, h1⟩, ⟨h2, -⟩, h3, h4, rfl⟩ := hl
    simp only [List.mem_append, not_or]
    refine ⟨⟨⟨⟨⟨⟨?_, by decide⟩, ?_⟩, ?_⟩, ?_⟩, by decide⟩, ih⟩
    · intro hm; exact absurd (h1 _ hm) (by decide +kernel)
    · intro hm; exact absurd (h3 _ hm) (by unfold IsBlank; decide)
    · intro hm; exact absurd (h2 _ hm) (by unfold IsFieldVchar IsBlank; decide)
    · intro hm; exact absurd (h4 _ hm) (by unfold IsBlank; decide)

theorem blankLines_bytes {s : Bytes} (h : BlankLines s) : ∀ b ∈ s, b = 13 ∨ b = 10 := by
  induction h with
  | nil => simp
  | crlf _ ih =>
    intro b hb
    simp only [List.mem_cons] at hb
    rcases hb with rfl | rfl | hb
    · exact Or.inl rfl
    · exact Or.inr rfl
    · exact ih b hb
  | lf _ ih =>
    intro b hb
    simp only [List.mem_cons] at hb
    rcases hb with rfl | hb
    · exact Or.inr rfl
    · exact ih b hb

/-- A NUL in a header value is accepted. -/
theorem C74_violated_response : ¬ C74_response_statement := by
  intro h
  obtain ⟨lines, reason, fields, head, h1, h2, -, -, h3, e, he, -, text, h4, rfl⟩ :=
    h {} ⟨200, .http11, [(asciiBytes "a", [0])], false⟩ (asciiBytes "HTTP/1.1 200 OK\r\na: " ++ [0] ++ asciiBytes "\r\n\r\n") [] 25
      (by decide +kernel)
  have h0 : (0 : UInt8) ∈ lines ++ (asciiBytes e.2 ++ [32] ++ threeDigits 200 ++ [32] ++ reason ++ [13, 10] ++ text) := by
    rw [← h2]; decide +kernel
  simp only [List.mem_append] at h0
  rcases h0 with h0 | ((((((h0 | h0) | h0) | h0) | h0) | h0) | h0)
  · exact absurd (blankLines_bytes h1 _ h0) (by decide)
  · have : ∀ e ∈ http1Name, (0 : UInt8) ∉ asciiBytes e.2 := by decide +kernel
    exact this e he h0
  · exact absurd h0 (by decide)
  · exact absurd h0 (by decide +kernel)
  · exact absurd h0 (by decide)
  · exact absurd (h3 _ h0) (by unfold IsFieldVchar IsBlank; decide)
  · exact absurd h0 (by decide)
  · exact fieldSection_bytes h4 h0

/-- So it is in requests. -/
theorem C74_violated_request : ¬ C74_request_statement := by
  intro h
  obtain ⟨lines, method, target, fields, head, h1, h2, h3, -, h5, e, he, -, text, h4, rfl⟩ :=
    h {} ⟨.get, [(asciiBytes "a", [0])], .http11, ⟨.http, [47], none, none, none, some 0, none⟩, false⟩
      (asciiBytes "GET / HTTP/1.1\r\na: " ++ [0] ++ asciiBytes "\r\n\r\n") [] 24 (by decide +kernel)
  have h0 : (0 : UInt8) ∈ lines ++ (method ++ [32] ++ target ++ [32] ++ asciiBytes e.2 ++ [13, 10] ++ text) := by
    rw [← h2]; decide +kernel
  simp only [List.mem_append] at h0
  rcases h0 with h0 | ((((((h0 | h0) | h0) | h0) | h0) | h0) | h0)
  · exact absurd (blankLines_bytes h1 _ h0) (by decide)
  · exact absurd (h3.2 _ h0) (by decide +kernel)
  · exact absurd h0 (by decide)
  · exact absurd (h5 _ h0) (by decide)
  · exact absurd h0 (by decide)
  · have : ∀ e ∈ http1Name, (0 : UInt8) ∉ asciiBytes e.2 := by decide +kernel
    exact this e he h0
  · exact absurd h0 (by decide)
  · exact fieldSection_bytes h4 h0

/-- A bare LF does not end a header line: what follows is part of the value, though other recipients see another header
there (RFC 9112 2.2 lets them); and it is written out again as it is. -/
theorem C74_violated_smuggle :
    ({} : Response).parseBuffer (asciiBytes "HTTP/1.1 200 OK\r\na: 1\nb: 2\r\n\r\n") =
      (.ok 30, ⟨200, .http11, [(asciiBytes "a", asciiBytes "1\nb: 2")], false⟩, []) ∧
    Response.serialize ⟨200, .http11, [(asciiBytes "a", asciiBytes "1\nb: 2")], false⟩ [] =
      .ok (asciiBytes "HTTP/1.1 200 OK\r\na: 1\nb: 2\r\n\r\n", 30) := by
  refine ⟨by decide +kernel, ?_⟩
  simp only [Response.serialize, statusEncode, statusAsStr_eq]
  decide +kernel

/-- A space before the colon, which RFC 9112 5.1 requires a server to reject. -/
theorem C74_violated_colon :
    ({} : Request).parseBuffer (asciiBytes "GET / HTTP/1.1\r\nContent-Length : 5\r\n\r\n") =
      (.ok 38, ⟨.get, [(asciiBytes "Content-Length", asciiBytes "5")], .http11, ⟨.http, [47], none, none, none, some 0, none⟩, false⟩, []) := by
  decide +kernel

/-- A space ends the request line. -/
theorem C74_violated_line :
    ({} : Request).parseBuffer (asciiBytes "GET / HTTP/1.1 a: 1\r\n\r\n") =
      (.ok 23, ⟨.get, [(asciiBytes "a", asciiBytes "1")], .http11, ⟨.http, [47], none, none, none, some 0, none⟩, false⟩, []) := by
  decide +kernel

example : AcceptedResponse .http10 404 [(asciiBytes "A", asciiBytes "b"), (asciiBytes "C", [])]
    (asciiBytes "\r\n\nHTTP/1.0  404 Not Found\nA : b\r\nC:\r\r\n\n") := by
  refine ⟨asciiBytes "\r\n\n", asciiBytes "  ", asciiBytes " ", asciiBytes "Not Found", [10], asciiBytes "A : b\r\n" ++ (asciiBytes "C:\r\r\n" ++ [10]),
    .crlf (.lf .nil), by decide +kernel, by decide, by decide +kernel, by decide, by decide, by decide +kernel, by decide, Or.inr rfl, by decide, by decide,
    .more ?_ (.more ?_ (.done (Or.inr rfl))), (.http10, "HTTP/1.0"), by decide, rfl, by decide +kernel⟩
  · exact ⟨⟨by decide, by decide +kernel⟩, [32], [32], [13, 10], by decide +kernel, by decide +kernel, by decide, by decide, Or.inl rfl, by decide +kernel⟩
  · exact ⟨⟨by decide, by decide +kernel⟩, [], [], [13, 13, 10], by decide +kernel, by decide +kernel, by decide, by decide, Or.inr ⟨rfl, Or.inl rfl⟩, by decide +kernel⟩

/-! ## C73: RFC 9112 heads are accepted -/

/-- C73, full claim for responses: whatever RFC 9112 allows is accepted, to its last byte, and understood. -/
def C73_response_statement : Prop :=
  ∀ (r0 : Response) (v : Version) (code : Nat) (reason : Bytes) (fields : List (Header × Bytes × Bytes)) (head rest : Bytes),
    IsResponseHead v code reason fields head →
    ∃ r', r0.parseBuffer (head ++ rest) = (.ok head.length, r', rest) ∧ r'.status = code ∧ r'.version = v ∧
      ∀ name, IsFieldName name → r'.header.get? name = combinedValue fields name

/-- C73, full claim for requests, the URL apart (C62). -/
def C73_request_statement : Prop :=
  ∀ (r0 : Request) (method target : Bytes) (v : Version) (fields : List (Header × Bytes × Bytes)) (head rest : Bytes),
    IsRequestHead method target v fields head → target.head? = some 47 → (∀ b ∈ target, isTchar b = true ∨ b = 47) → 37 ∉ target →
    (∀ f ∈ fields, lower f.1.1 ≠ asciiBytes "host") →
    ∃ r', r0.parseBuffer (head ++ rest) = (.ok head.length, r', rest) ∧ r'.method.asStr = method ∧ r'.version = v ∧
      ∀ name, IsFieldName name → r'.header.get? name = combinedValue fields name

theorem fieldLine_accepted {h : Header} {before after line : Bytes} (hl : IsFieldLine h before after line) :
    AcceptedLine (receivedField (h, before, after)) line := by
  obtain ⟨hn, ⟨hv, -, -⟩, hb, ha, rfl⟩ := hl
  have hblank : ∀ b : UInt8, IsBlank b → b ≠ 13 := by unfold IsBlank; decide +kernel
  have hvchar : ∀ b : UInt8, IsFieldVchar b → b ≠ 13 := by unfold IsFieldVchar; decide +kernel
  have h13 : (13 : UInt8) ∉ before ++ h.2 ++ after := by
    simp only [List.mem_append, not_or]
    refine ⟨⟨fun hm => hblank _ (hb _ hm) rfl, fun hm => ?_⟩, fun hm => hblank _ (ha _ hm) rfl⟩
    rcases hv _ hm with h | h
    · exact hvchar _ h rfl
    · exact hblank _ h rfl
  have hsplit : ∀ s : Bytes, ∃ u, Spaces u ∧ s = u ++ trimLeft s := by
    intro s
    induction s with
    | nil => exact ⟨[], by intro b hb; simp at hb, rfl⟩
    | cons b s ih =>
      obtain ⟨u, hu, e⟩ := ih
      by_cases hb : b = 32
      · refine ⟨b :: u, ?_, ?_⟩
        · intro x hx
          rcases List.mem_cons.mp hx with rfl | hx
          · exact hb
          · exact hu x hx
        · rw [trimLeft, if_pos hb, List.cons_append, ← e]
      · exact ⟨[], by intro b hb; simp at hb, by rw [trimLeft, if_neg hb]; rfl⟩
  obtain ⟨u, hu, e⟩ := hsplit (before ++ h.2 ++ after)
  refine ⟨hn, [], u, [13, 10], by intro b hb; simp at hb, hu, fun hm => h13 (trimLeft_sub hm), trimLeft_head _, Or.inl rfl, ?_⟩
  simp only [receivedField, List.append_nil]
  rw [List.append_assoc (h.1 ++ [58]) u, ← e]
  simp

theorem fieldSection_accepted {fields : List (Header × Bytes × Bytes)} {text : Bytes} (h : FieldSection fields text) :
    AcceptedFields (fields.map receivedField) text := by
  induction h with
  | done => exact .done (Or.inl rfl)
  | more hl _ ih => exact .more (fieldLine_accepted hl) ih

theorem http1Name_sub : ∀ e ∈ http1Name, e ∈ versionNames := by decide

/-- Every RFC 9112 response head with a plain reason is accepted to its last byte, with status and version, and every line is
stored with all that stands between colon and CR, spaces in front apart.  Missing for C73: other reasons, and what becomes of tabs,
blanks at the end, and lines with the same name. -/
theorem C73_response_partial (r0 : Response) (v : Version) (code : Nat) (reason : Bytes) (fields : List (Header × Bytes × Bytes)) (head rest : Bytes)
    (h : IsResponseHead v code reason fields head) (hr : IsPlainReason reason) :
    r0.parseBuffer (head ++ rest) = (.ok head.length, ⟨code, v, storeAll (fields.map receivedField), false⟩, rest) := by
  obtain ⟨h1, h2, -, e, he, hev, text, ht, rfl⟩ := h
  obtain ⟨g1, g2, g3⟩ := hr
  refine (C74_response_iff_partial _ _ _ _ _).mpr ⟨v, code, fields.map receivedField, _,
    ⟨[], [32], [32], reason, [13, 10], text, .nil, by decide +kernel, by decide, by decide +kernel, by decide, g1, g2, g3, Or.inl rfl, h1, by omega,
      fieldSection_accepted ht, e, http1Name_sub e he, hev, rfl⟩, by simp, by simp, rfl⟩

/-- Every RFC 9112 request head with one of the nine methods whose target and `Host` give a URL (C62) is accepted to its last byte,
with method, version and lines as for responses. -/
theorem C73_request_partial (r0 : Request) (method target : Bytes) (v : Version) (fields : List (Header × Bytes × Bytes)) (head rest : Bytes)
    (m : Method) (url : Url) (h : IsRequestHead method target v fields head) (hm : ∃ k ∈ methodNames, k.1 = m ∧ asciiBytes k.2 = method)
    (hu : requestUrl m (storeAll (fields.map receivedField)) target = .ok url) :
    r0.parseBuffer (head ++ rest) = (.ok head.length, ⟨m, storeAll (fields.map receivedField), v, url, false⟩, rest) := by
  obtain ⟨-, h1, h2, e, he, hev, text, ht, rfl⟩ := h
  obtain ⟨k, hk, hkm, rfl⟩ := hm
  refine (C74_request_iff_partial _ _ _ _ _).mpr ⟨m, target, v, fields.map receivedField, _, url,
    ⟨[], [32], [32], [13, 10], text, .nil, by decide +kernel, by decide, by decide +kernel, by decide, h1, ?_, Or.inl rfl,
      fieldSection_accepted ht, e, http1Name_sub e he, hev, k, hk, hkm, rfl⟩, by simp, by simp, hu, rfl⟩
  intro x hx
  have := h2 x hx
  omega

theorem storeAll_ops (hs : List Header) : storeAll hs = runOps (hs.map fun h => .insert h.1 h.2) := by
  unfold storeAll runOps
  rw [List.foldl_map]
  rfl

theorem tidy_received {f : Header × Bytes × Bytes} (h : TidyBlanks f) (hv : IsFieldValue f.1.2) : receivedField f = f.1 := by
  obtain ⟨⟨n, v⟩, before, after⟩ := f
  obtain ⟨h1, h2⟩ := h
  simp only at h1 h2 hv
  subst h2
  have h3 : ∀ s : Bytes, Spaces s → trimLeft (s ++ v) = v := by
    intro s hs
    induction s with
    | nil =>
      refine trimLeft_id fun h => hv.2.1 _ h ?_
      exact Or.inl rfl
    | cons b s ih =>
      rw [List.cons_append, trimLeft, if_pos (hs b (by simp))]
      exact ih fun x hx => hs x (by simp [hx])
  simp only [receivedField, List.append_nil, h3 before h1]

theorem fieldSection_values {fields : List (Header × Bytes × Bytes)} {text : Bytes} (h : FieldSection fields text) :
    ∀ f ∈ fields, IsFieldValue f.1.2 ∧ IsFieldName f.1.1 := by
  induction h with
  | done => simp
  | more hl _ ih =>
    intro f hf
    rcases List.mem_cons.mp hf with rfl | hf
    · exact ⟨hl.2.1, hl.1⟩
    · exact ih f hf

/-- If moreover the blanks are tidy and no two names are taken for the same, the headers are the lines, in their order. -/
theorem C73_fields_partial (r0 : Response) (v : Version) (code : Nat) (reason : Bytes) (fields : List (Header × Bytes × Bytes)) (head rest : Bytes)
    (h : IsResponseHead v code reason fields head) (hr : IsPlainReason reason) (hb : ∀ f ∈ fields, TidyBlanks f)
    (hd : fields.Pairwise fun f g => lower f.1.1 ≠ lower g.1.1 ∧ Unambiguous f.1.1 g.1.1) :
    r0.parseBuffer (head ++ rest) = (.ok head.length, ⟨code, v, fields.map (·.1), false⟩, rest) := by
  rw [C73_response_partial r0 v code reason fields head rest h hr]
  obtain ⟨-, -, -, e, -, -, text, ht, -⟩ := h
  have hval := fieldSection_values ht
  have e1 : fields.map receivedField = fields.map (·.1) :=
    List.map_congr_left fun f hf => tidy_received (hb f hf) (hval f hf).1
  have hd2 : (fields.map (·.1)).Pairwise fun a b : Header => nameEq a.1 b.1 = false := by
    rw [List.pairwise_map]
    refine hd.imp ?_
    intro f g hfg
    cases hq : nameEq f.1.1 g.1.1 with
    | false => rfl
    | true => exact absurd (nameEq_unambiguous hfg.2 hq) hfg.1
  rw [e1]
  have : storeAll (fields.map (·.1)) = fields.map (·.1) := by
    unfold storeAll
    rw [foldl_insert_fresh _ [] (by simp) hd2]
    rfl
  rw [this]

theorem stored_last {fields : List (Header × Bytes × Bytes)} {text : Bytes} (ht : FieldSection fields text) (hb : ∀ f ∈ fields, TidyBlanks f)
    (name : Bytes) (hu : ∀ a ∈ name :: fields.map (·.1.1), ∀ b ∈ name :: fields.map (·.1.1), Unambiguous a b) :
    (storeAll (fields.map receivedField)).get? name = (valuesOf fields name).getLast? := by
  have hval := fieldSection_values ht
  have e1 : fields.map receivedField = fields.map (·.1) :=
    List.map_congr_left fun f hf => tidy_received (hb f hf) (hval f hf).1
  simp only [e1, storeAll_ops]
  have names : ∀ fs : List (Header × Bytes × Bytes), opNames ((fs.map (·.1)).map fun h : Header => HeaderOp.insert h.1 h.2) = fs.map (·.1.1) := by
    intro fs
    induction fs with
    | nil => rfl
    | cons f fs ih => simp only [List.map_cons, opNames, ih]
  rw [(C35_map_partial _ name (by rw [names]; exact hu)).1]
  have key : ∀ (fs : List (Header × Bytes × Bytes)) (g : AbsMap),
      (((fs.map (·.1)).map fun h : Header => HeaderOp.insert h.1 h.2).foldl HeaderOp.abs g) (lower name) =
        ((valuesOf fs name).getLast?).or (g (lower name)) := by
    intro fs
    induction fs with
    | nil => intro g; rfl
    | cons f fs ih =>
      intro g
      simp only [List.map_cons, List.foldl_cons]
      rw [ih]
      simp only [HeaderOp.abs, valuesOf, List.filter_cons]
      by_cases hq : lower f.1.1 = lower name
      · rw [if_pos hq.symm]
        simp only [hq, beq_self_eq_true, if_true, List.map_cons, List.getLast?_cons]
        cases h3 : (List.map (fun f => f.1.2) (List.filter (fun f => lower f.1.1 == lower name) fs)).getLast? <;> simp
      · rw [if_neg (fun h => hq h.symm)]
        simp only [beq_iff_eq, hq, if_false]
  unfold absOps
  rw [key]
  cases (valuesOf fields name).getLast? <;> rfl

/-- With tidy blanks, a name that comes several times keeps the value of its last line (names unambiguous). -/
theorem C73_last_partial (r0 : Response) (v : Version) (code : Nat) (reason : Bytes) (fields : List (Header × Bytes × Bytes)) (head rest name : Bytes)
    (h : IsResponseHead v code reason fields head) (hr : IsPlainReason reason) (hb : ∀ f ∈ fields, TidyBlanks f)
    (hu : ∀ a ∈ name :: fields.map (·.1.1), ∀ b ∈ name :: fields.map (·.1.1), Unambiguous a b) :
    (r0.parseBuffer (head ++ rest)).2.1.header.get? name = (valuesOf fields name).getLast? := by
  rw [C73_response_partial r0 v code reason fields head rest h hr]
  obtain ⟨-, -, -, e, -, -, text, ht, -⟩ := h
  exact stored_last ht hb name hu

/-! ### Where the full claim fails -/

theorem parseStatusToken_cr (s : Bytes) : parseStatusToken (13 :: s) = (.err .token, 13 :: s) := by
  unfold parseStatusToken parseTokenBy
  have := parseTokenEmpty_eq (f := isStatusToken) (t := []) (b := 13) (r := s) .token false rfl (by decide)
  rw [List.nil_append] at this
  rw [this]; rfl

/-- A response without a reason, which RFC 9112 4 allows (`HTTP/1.1 200 ` CRLF), is rejected, whatever else is in it. -/
theorem C73_violated_reason (r0 : Response) (v : Version) (code : Nat) (fields : List (Header × Bytes × Bytes)) (head rest : Bytes)
    (h : IsResponseHead v code [] fields head) : (r0.parseBuffer (head ++ rest)).1 = .err .token := by
  obtain ⟨h1, h2, -, e, he, hev, text, ht, rfl⟩ := h
  obtain ⟨n1, n2, -⟩ := versionName_facts e (http1Name_sub e he)
  have c1 : threeDigits code ≠ [] := by simp [threeDigits]
  have c2 := (threeDigits_token code).1
  have sp : Spaces [32] := by decide +kernel
  have key : forget (r0.parseHead (asciiBytes e.2 ++ ([32] ++ (threeDigits code ++ ([32] ++ (13 :: 10 :: (text ++ rest))))))) =
      (.err .token, 13 :: 10 :: (text ++ rest)) := by
    rw [forget_response]
    rw [skipEmptyLines_token n1 n2]
    simp only [thenRead]
    have hv := (onToken_iff versionOfToken _ _ v).mpr ⟨_, (C45_version _ _).mpr ⟨e, http1Name_sub e he, hev, rfl⟩, n1, n2, rfl,
      spaces_starts (r := threeDigits code ++ ([32] ++ (13 :: 10 :: (text ++ rest)))) (by decide : ([32] : Bytes) ≠ []) sp⟩
    unfold parseVersion
    rw [hv]
    simp only
    rw [skipSpaces_sp (token_starts c1 c2).2]
    simp only
    have hc := (onToken_iff statusFromBytes _ _ code).mpr ⟨_, (status_iff _ _).mpr ⟨h1, by omega, rfl⟩, c1, c2, rfl,
      spaces_starts (r := 13 :: 10 :: (text ++ rest)) (by decide : ([32] : Bytes) ≠ []) sp⟩
    unfold parseStatus
    rw [hc]
    simp only
    rw [skipSpaces_sp ⟨13, _, rfl, by decide⟩]
    simp only
    rw [parseStatusToken_cr]
  have e0 : asciiBytes e.2 ++ [32] ++ threeDigits code ++ [32] ++ [] ++ [13, 10] ++ text ++ rest =
    asciiBytes e.2 ++ ([32] ++ (threeDigits code ++ ([32] ++ (13 :: 10 :: (text ++ rest))))) := by simp
  obtain ⟨s, hs⟩ := forget_err.mp key
  unfold Response.parseBuffer
  rw [e0, hs]
  rfl

/-- A request with another method than the nine, which RFC 9110 9.1 allows (`PROPFIND`), is rejected. -/
theorem C73_violated_method (r0 : Request) (method target : Bytes) (v : Version) (fields : List (Header × Bytes × Bytes)) (head rest : Bytes)
    (h : IsRequestHead method target v fields head) (hm : ∀ k ∈ methodNames, asciiBytes k.2 ≠ method) :
    (r0.parseBuffer (head ++ rest)).1 = .err .httpMethod := by
  obtain ⟨h1, -, -, e, he, hev, text, ht, rfl⟩ := h
  have hall : method.all isToken = true := by
    rw [List.all_eq_true]
    intro b hb
    have := h1.2 b hb
    clear hb
    revert b; decide +kernel
  have hm2 : Method.tryFrom method = .err .httpMethod := by
    have hne : ∀ k ∈ methodNames, method ≠ asciiBytes k.2 := fun k hk e => hm k hk e.symm
    unfold Method.tryFrom
    rw [if_neg (hne (.get, "GET") (by simp [methodNames])), if_neg (hne (.post, "POST") (by simp [methodNames])),
      if_neg (hne (.put, "PUT") (by simp [methodNames])), if_neg (hne (.delete, "DELETE") (by simp [methodNames])),
      if_neg (hne (.head, "HEAD") (by simp [methodNames])), if_neg (hne (.options, "OPTIONS") (by simp [methodNames])),
      if_neg (hne (.connect, "CONNECT") (by simp [methodNames])), if_neg (hne (.patch, "PATCH") (by simp [methodNames])),
      if_neg (hne (.trace, "TRACE") (by simp [methodNames]))]
  have e0 : method ++ [32] ++ target ++ [32] ++ asciiBytes e.2 ++ [13, 10] ++ text ++ rest =
    method ++ (32 :: (target ++ [32] ++ asciiBytes e.2 ++ [13, 10] ++ text ++ rest)) := by simp
  generalize target ++ [32] ++ asciiBytes e.2 ++ [13, 10] ++ text ++ rest = more at e0
  have key : forget (r0.parseHead (method ++ (32 :: more))) = (.err .httpMethod, 32 :: more) := by
    rw [forget_request]
    rw [skipEmptyLines_token h1.1 hall]
    simp only [thenRead]
    unfold parseMethod onToken
    rw [parseToken_eq h1.1 hall (by decide)]
    simp only [thenRead, hm2]
  obtain ⟨s, hs⟩ := forget_err.mp key
  unfold Request.parseBuffer
  rw [e0, hs]
  rfl

/-- Two lines with the same name: the value of the first is gone (`Set-Cookie`, RFC 6265, needs both). -/
theorem C73_violated_response : ¬ C73_response_statement := by
  intro h
  obtain ⟨r', h1, -, -, h2⟩ := h {} .http11 200 (asciiBytes "OK")
    [((asciiBytes "a", asciiBytes "1"), [32], []), ((asciiBytes "A", asciiBytes "2"), [32], [])]
    (asciiBytes "HTTP/1.1 200 OK\r\na: 1\r\nA: 2\r\n\r\n") [] (by
      refine ⟨by decide, by decide, by unfold IsReason IsFieldVchar IsBlank; decide +kernel, (.http11, "HTTP/1.1"), by decide, rfl,
        asciiBytes "a: 1\r\n" ++ (asciiBytes "A: 2\r\n" ++ [13, 10]), .more ?_ (.more ?_ .done), by decide +kernel⟩ <;>
      · refine ⟨⟨by decide, by decide +kernel⟩, ⟨?_, ?_, ?_⟩, ?_, ?_, by decide +kernel⟩ <;>
          simp (config := { decide := true }) [IsFieldVchar, IsBlank, IsOwsText, asciiBytes])
  have e : ({} : Response).parseBuffer (asciiBytes "HTTP/1.1 200 OK\r\na: 1\r\nA: 2\r\n\r\n" ++ []) =
    (.ok 31, ⟨200, .http11, [(asciiBytes "a", asciiBytes "2")], false⟩, []) := by decide +kernel
  rw [e, Prod.mk.injEq, Prod.mk.injEq] at h1
  have := h2 (asciiBytes "a") ⟨by decide, by decide +kernel⟩
  rw [← h1.2.1] at this
  revert this
  decide +kernel

/-- Blanks after a value, and tabs before it, become part of it. -/
theorem C73_violated_blanks :
    (({} : Response).parseBuffer (asciiBytes "HTTP/1.1 200 OK\r\nContent-Length: 5 \r\nTransfer-Encoding:\tchunked\r\n\r\n")).2.1.header =
      [(asciiBytes "Content-Length", asciiBytes "5 "), (asciiBytes "Transfer-Encoding", asciiBytes "\tchunked")] := by
  decide +kernel

/-- The lines `X-A` and `XMA` are taken for the same. -/
theorem C73_violated_names :
    (({} : Response).parseBuffer (asciiBytes "HTTP/1.1 200 OK\r\nX-A: 1\r\nXMA: 2\r\n\r\n")).2.1.header = [(asciiBytes "X-A", asciiBytes "2")] := by
  decide +kernel

theorem C73_violated_request : ¬ C73_request_statement := by
  intro h
  have hh : IsRequestHead (asciiBytes "PROPFIND") [47] .http11 [] (asciiBytes "PROPFIND / HTTP/1.1\r\n\r\n") :=
    ⟨⟨by decide, by decide +kernel⟩, by decide, by decide +kernel, (.http11, "HTTP/1.1"), by decide, rfl, [13, 10], .done, by decide +kernel⟩
  obtain ⟨r', h1, -⟩ := h {} (asciiBytes "PROPFIND") [47] .http11 [] (asciiBytes "PROPFIND / HTTP/1.1\r\n\r\n") [] hh rfl (by decide +kernel) (by decide) (by simp)
  have := C73_violated_method {} _ _ _ _ _ [] hh (by decide +kernel)
  rw [h1] at this
  simp at this

/-- A head that meets the hypotheses of the partial theorems. -/
theorem plainHead : IsResponseHead .http10 404 (asciiBytes "Not Found")
    [((asciiBytes "Date", asciiBytes "x y"), asciiBytes "  ", []), ((asciiBytes "Via", []), [], [])]
    (asciiBytes "HTTP/1.0 404 Not Found\r\nDate:  x y\r\nVia:\r\n\r\n") := by
  refine ⟨by decide, by decide, by unfold IsReason IsFieldVchar IsBlank; decide +kernel, (.http10, "HTTP/1.0"), by decide, rfl,
    asciiBytes "Date:  x y\r\n" ++ (asciiBytes "Via:\r\n" ++ [13, 10]), .more ?_ (.more ?_ .done), by decide +kernel⟩
  · exact ⟨⟨by decide, by decide +kernel⟩, ⟨by unfold IsFieldVchar IsBlank; decide +kernel, by unfold IsBlank; decide +kernel,
      by unfold IsBlank; decide +kernel⟩, by unfold IsOwsText IsBlank; decide +kernel, by intro b hb; simp at hb, by decide +kernel⟩
  · exact ⟨⟨by decide, by decide +kernel⟩, ⟨by intro b hb; simp at hb, by intro b hb; simp at hb,
      by intro b hb; simp at hb⟩, by intro b hb; simp at hb, by intro b hb; simp at hb, by decide +kernel⟩

/-- The hypotheses of `C73_fields_partial` and `C73_last_partial` are met by it. -/
example (r0 : Response) (rest : Bytes) :
    r0.parseBuffer (asciiBytes "HTTP/1.0 404 Not Found\r\nDate:  x y\r\nVia:\r\n\r\n" ++ rest) =
      (.ok 44, ⟨404, .http10, [(asciiBytes "Date", asciiBytes "x y"), (asciiBytes "Via", [])], false⟩, rest) ∧
    (r0.parseBuffer (asciiBytes "HTTP/1.0 404 Not Found\r\nDate:  x y\r\nVia:\r\n\r\n" ++ rest)).2.1.header.get? (asciiBytes "dATE") =
      some (asciiBytes "x y") := by
  have hr : IsPlainReason (asciiBytes "Not Found") := ⟨by decide, by decide +kernel, by decide⟩
  have hb : ∀ f ∈ ([((asciiBytes "Date", asciiBytes "x y"), asciiBytes "  ", []), ((asciiBytes "Via", []), [], [])] : List (Header × Bytes × Bytes)),
      TidyBlanks f := by
    intro f hf
    simp only [List.mem_cons, List.not_mem_nil, or_false] at hf
    rcases hf with rfl | rfl <;> exact ⟨by decide +kernel, rfl⟩
  constructor
  · refine C73_fields_partial r0 _ _ _ _ _ rest plainHead hr hb ?_
    refine List.pairwise_cons.mpr ⟨?_, List.pairwise_singleton _ _⟩
    intro g hg
    simp only [List.mem_cons, List.not_mem_nil, or_false] at hg
    subst hg
    exact ⟨by decide +kernel, unambiguous_letters (by decide +kernel) (by decide +kernel)⟩
  · refine (C73_last_partial r0 _ _ _ _ _ rest (asciiBytes "dATE") plainHead hr hb ?_).trans (by decide +kernel)
    have hl : ∀ a ∈ asciiBytes "dATE" :: [asciiBytes "Date", asciiBytes "Via"], ∀ x ∈ a, isLetter x = true := by decide +kernel
    intro a ha b hb
    exact unambiguous_letters (hl a ha) (hl b hb)

end Webparse
