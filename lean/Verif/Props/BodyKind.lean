import Verif.Spec.BodyKind
import Verif.Spec.Conversation
import Verif.Props.Grammar
import Verif.Props.Options
import Verif.Props.Http1
import Verif.Props.Target

/-!
# C96: where the body of a request ends

The full claim: an accepted request is one whose framing RFC 9112 6.3 allows, and `is_chunked` and `get_body_len` say
where its body ends as RFC 9112 6.3 does.
-/

namespace Webparse
open Spec

/-- C96, the full claim. -/
def C96_statement : Prop :=
  ∀ (r0 r' : Request) (method target : Bytes) (v : Version) (fields : List (Header × Bytes × Bytes)) (head rest : Bytes),
    IsRequestHead method target v fields head → r0.parseBuffer (head ++ rest) = (.ok head.length, r', rest) →
    TakesBodyAs r'.header (requestBody fields)

/-- An accepted request says: chunked if the last `Transfer-Encoding` line has the word in it, and the length that the last
`Content-Length` line gives.  Missing for C96: the other lines, and the other ways to write these values. -/
theorem C96_last_partial (r0 : Request) (method target : Bytes) (v : Version) (fields : List (Header × Bytes × Bytes)) (head rest : Bytes)
    (m : Method) (url : Url) (h : IsRequestHead method target v fields head) (hm : ∃ k ∈ methodNames, k.1 = m ∧ asciiBytes k.2 = method)
    (hu : requestUrl m (storeAll (fields.map receivedField)) target = .ok url) (hb : ∀ f ∈ fields, TidyBlanks f)
    (hn : NamesUnambiguous (asciiBytes "transfer-encoding" :: asciiBytes "content-length" :: fields.map (·.1.1))) :
    ∃ r', r0.parseBuffer (head ++ rest) = (.ok head.length, r', rest) ∧
      (r'.header.isChunked = true ↔
        ∃ t, (valuesOf fields (asciiBytes "transfer-encoding")).getLast? = some t ∧ asciiBytes "chunked" <:+: t) ∧
      r'.header.get? (asciiBytes "content-length") = (valuesOf fields (asciiBytes "content-length")).getLast? := by
  refine ⟨_, C73_request_partial r0 method target v fields head rest m url h hm hu, ?_, ?_⟩
  · obtain ⟨-, -, -, e, -, -, text, ht, -⟩ := h
    have := stored_last ht hb (asciiBytes "transfer-encoding") (fun a ha b hb => hn a (by
      rcases List.mem_cons.mp ha with rfl | ha <;> simp [*]) b (by rcases List.mem_cons.mp hb with rfl | hb <;> simp [*]))
    unfold HeaderMap.isChunked
    simp only [this]
    cases (valuesOf fields (asciiBytes "transfer-encoding")).getLast? with
    | none => simp
    | some t => simp [containsBytes_iff]
  · obtain ⟨-, -, -, e, -, -, text, ht, -⟩ := h
    exact stored_last ht hb (asciiBytes "content-length") (fun a ha b hb => hn a (by
      rcases List.mem_cons.mp ha with rfl | ha <;> simp [*]) b (by rcases List.mem_cons.mp hb with rfl | hb <;> simp [*]))

theorem isDecimalText_iff (s : Bytes) : isDecimalText s = true ↔ s ≠ [] ∧ AllDigits s := by
  unfold isDecimalText AllDigits
  cases s <;> simp

theorem splitComma_plain (s : Bytes) (h : (44 : UInt8) ∉ s) : splitComma s = [s] := by
  induction s with
  | nil => rfl
  | cons b r ih =>
    simp only [List.mem_cons, not_or] at h
    rw [splitComma, if_neg (fun e => h.1 e.symm), ih h.2]

theorem trimOws_plain (s : Bytes) (h : ∀ b ∈ s, isOws b = false) : trimOws s = s := by
  have drop : ∀ s : Bytes, (∀ b ∈ s, isOws b = false) → s.dropWhile isOws = s := by
    intro s hs
    cases s with
    | nil => rfl
    | cons b r => rw [List.dropWhile_cons_of_neg (by rw [hs b (by simp)]; simp)]
  unfold trimOws
  rw [drop s h, drop s.reverse (by simpa using h), List.reverse_reverse]

theorem numeral_elements {s : Bytes} {n : Nat} (h : IsNumeral s n) : listElements s = [s] := by
  obtain ⟨-, h1, -⟩ := h
  have d44 : ∀ b : UInt8, 48 ≤ b.toNat ∧ b.toNat ≤ 57 → b ≠ 44 ∧ isOws b = false := by decide +kernel
  unfold listElements
  rw [splitComma_plain s fun hm => (d44 _ (h1 _ hm)).1 rfl]
  simp [trimOws_plain s fun b hb => (d44 b (h1 b hb)).2]

theorem elements_numeral {s : Bytes} {n : Nat} (h : IsNumeral s n) : elementsOf [s] = [s] := by
  unfold elementsOf
  simp [numeral_elements h, h.1]

theorem requestBody_length {fields : List (Header × Bytes × Bytes)} {n : Nat} (hte : valuesOf fields (asciiBytes "transfer-encoding") = [])
    (hcl : (valuesOf fields (asciiBytes "content-length") = [] ∧ n = 0) ∨
      ∃ s, valuesOf fields (asciiBytes "content-length") = [s] ∧ IsNumeral s n) : requestBody fields = .length n := by
  unfold requestBody
  rw [if_neg (by simp [hte])]
  rcases hcl with ⟨h, rfl⟩ | ⟨s, h, hs⟩
  · rw [if_pos h]
  · rw [if_neg (by simp [h]), h, elements_numeral hs]
    have : isDecimalText s = true := (isDecimalText_iff s).mpr ⟨hs.1, hs.2.1⟩
    simp [this, hs.2.2]

/-- A request without `Transfer-Encoding` and with at most one `Content-Length`, a numeral below 2^63, has the length RFC 9112 gives it. -/
theorem C96_length_partial (r0 : Request) (method target : Bytes) (v : Version) (fields : List (Header × Bytes × Bytes)) (head rest : Bytes)
    (m : Method) (url : Url) (n : Nat) (h : IsRequestHead method target v fields head) (hm : ∃ k ∈ methodNames, k.1 = m ∧ asciiBytes k.2 = method)
    (hu : requestUrl m (storeAll (fields.map receivedField)) target = .ok url) (hb : ∀ f ∈ fields, TidyBlanks f)
    (hn : NamesUnambiguous (asciiBytes "transfer-encoding" :: asciiBytes "content-length" :: fields.map (·.1.1)))
    (hte : valuesOf fields (asciiBytes "transfer-encoding") = [])
    (hcl : (valuesOf fields (asciiBytes "content-length") = [] ∧ n = 0) ∨
      ∃ s, valuesOf fields (asciiBytes "content-length") = [s] ∧ IsNumeral s n ∧ n < 2 ^ 63) :
    requestBody fields = .length n ∧
      ∃ r', r0.parseBuffer (head ++ rest) = (.ok head.length, r', rest) ∧ TakesBodyAs r'.header (.length n) := by
  obtain ⟨r', h1, h2, h3⟩ := C96_last_partial r0 method target v fields head rest m url h hm hu hb hn
  refine ⟨requestBody_length hte (hcl.imp id fun ⟨s, a, b, _⟩ => ⟨s, a, b⟩), r', h1, ?_, ?_⟩
  · cases hc : r'.header.isChunked with
    | false => rfl
    | true => obtain ⟨t, ht, _⟩ := h2.mp hc; rw [hte] at ht; simp at ht
  · rcases hcl with ⟨hcl, rfl⟩ | ⟨s, hcl, hs, hlt⟩
    · exact (C43_body_len_partial r'.header).1 (by rw [h3, hcl]; rfl)
    · exact (C43_body_len_partial r'.header).2 s n (by rw [h3, hcl]; rfl) hs hlt

/-- A request whose last coding is `chunked` in lower case is seen to be chunked. -/
theorem C96_chunked_partial (r0 : Request) (method target : Bytes) (v : Version) (fields : List (Header × Bytes × Bytes)) (head rest : Bytes)
    (m : Method) (url : Url) (t : Bytes) (h : IsRequestHead method target v fields head) (hm : ∃ k ∈ methodNames, k.1 = m ∧ asciiBytes k.2 = method)
    (hu : requestUrl m (storeAll (fields.map receivedField)) target = .ok url) (hb : ∀ f ∈ fields, TidyBlanks f)
    (hn : NamesUnambiguous (asciiBytes "transfer-encoding" :: asciiBytes "content-length" :: fields.map (·.1.1)))
    (hte : (valuesOf fields (asciiBytes "transfer-encoding")).getLast? = some t)
    (hl : (elementsOf [t]).getLast? = some (asciiBytes "chunked")) :
    requestBody fields = .chunked ∧
      ∃ r', r0.parseBuffer (head ++ rest) = (.ok head.length, r', rest) ∧ TakesBodyAs r'.header .chunked := by
  obtain ⟨r', h1, h2, h3⟩ := C96_last_partial r0 method target v fields head rest m url h hm hu hb hn
  refine ⟨?_, r', h1, h2.mpr ⟨t, hte, ?_⟩⟩
  · obtain ⟨pre, hpre⟩ := List.getLast?_eq_some_iff.mp hte
    unfold requestBody
    rw [if_pos (by rw [hpre]; simp), hpre]
    have : elementsOf (pre ++ [t]) = elementsOf pre ++ elementsOf [t] := by
      unfold elementsOf
      rw [List.flatMap_append, List.filter_append]
    rw [this, List.getLast?_append, hl]
    simp only [Option.some_or]
    rw [if_pos (by decide +kernel)]
  · have hmem : asciiBytes "chunked" ∈ listElements t := by
      have := List.mem_of_getLast? hl
      unfold elementsOf at this
      simpa using (List.mem_filter.mp this).1
    exact (listElements_infix t _ (by decide +kernel) (by decide +kernel) (by decide +kernel)).mpr ⟨_, hmem, List.infix_rfl⟩

/-! ### Where the full claim fails -/

theorem mem_elements {vs : List Bytes} {s : Bytes} {n : Nat} (hs : s ∈ vs) (hn : IsNumeral s n) : s ∈ elementsOf vs := by
  unfold elementsOf
  refine List.mem_filter.mpr ⟨List.mem_flatMap.mpr ⟨s, hs, ?_⟩, by simpa using hn.1⟩
  rw [numeral_elements hn]
  simp

/-- Two `Content-Length` lines that differ, which RFC 9112 6.3 has refused, are accepted; the last one counts. -/
theorem C96_violated_differing (r0 : Request) (method target : Bytes) (v : Version) (fields : List (Header × Bytes × Bytes)) (head rest : Bytes)
    (m : Method) (url : Url) (s w : Bytes) (n k : Nat) (h : IsRequestHead method target v fields head) (hm : ∃ k ∈ methodNames, k.1 = m ∧ asciiBytes k.2 = method)
    (hu : requestUrl m (storeAll (fields.map receivedField)) target = .ok url) (hb : ∀ f ∈ fields, TidyBlanks f)
    (hn : NamesUnambiguous (asciiBytes "transfer-encoding" :: asciiBytes "content-length" :: fields.map (·.1.1)))
    (hte : valuesOf fields (asciiBytes "transfer-encoding") = [])
    (hcl : (valuesOf fields (asciiBytes "content-length")).getLast? = some s) (hs : IsNumeral s n) (hlt : n < 2 ^ 63)
    (hw : w ∈ valuesOf fields (asciiBytes "content-length")) (hk : IsNumeral w k) (hd : w ≠ s) :
    requestBody fields = .invalid ∧
      ∃ r', r0.parseBuffer (head ++ rest) = (.ok head.length, r', rest) ∧ TakesBodyAs r'.header (.length n) := by
  obtain ⟨r', h1, h2, h3⟩ := C96_last_partial r0 method target v fields head rest m url h hm hu hb hn
  refine ⟨?_, r', h1, ?_, ?_⟩
  · unfold requestBody
    rw [if_neg (by simp [hte]), if_neg (by intro e; rw [e] at hw; simp at hw)]
    have m1 := mem_elements hw hk
    have m2 := mem_elements (List.mem_of_getLast? hcl) hs
    generalize elementsOf (valuesOf fields (asciiBytes "content-length")) = es at m1 m2
    cases es with
    | nil => rfl
    | cons l ls =>
      simp only
      rw [if_neg]
      intro hc
      simp only [Bool.and_eq_true, List.all_eq_true, beq_iff_eq] at hc
      have all : ∀ x ∈ l :: ls, x = l := by
        intro x hx
        rcases List.mem_cons.mp hx with rfl | hx
        · rfl
        · exact hc.2 x hx
      exact hd ((all w m1).trans (all s m2).symm)
  · cases hc : r'.header.isChunked with
    | false => rfl
    | true => obtain ⟨t, ht, _⟩ := h2.mp hc; rw [hte] at ht; simp at ht
  · exact (C43_body_len_partial r'.header).2 s n (by rw [h3, hcl]) hs hlt

theorem dropWhile_snoc (p : UInt8 → Bool) (b : UInt8) (hb : p b = false) (l : Bytes) : (l ++ [b]).dropWhile p = l.dropWhile p ++ [b] := by
  induction l with
  | nil => simp [hb]
  | cons a l ih =>
    by_cases ha : p a = true
    · rw [List.cons_append, List.dropWhile_cons_of_pos ha, List.dropWhile_cons_of_pos ha, ih]
    · rw [List.cons_append, List.dropWhile_cons_of_neg ha, List.dropWhile_cons_of_neg ha]; rfl

theorem trimOws_head (b : UInt8) (q : Bytes) (hb : isOws b = false) : ∃ q', trimOws (b :: q) = b :: q' := by
  unfold trimOws
  rw [List.dropWhile_cons_of_neg (by rw [hb]; simp), List.reverse_cons, dropWhile_snoc isOws b hb, List.reverse_append]
  exact ⟨_, rfl⟩

theorem elements_head (b : UInt8) (q : Bytes) (hb : isOws b = false) (h44 : b ≠ 44) : ∃ q' es, elementsOf [b :: q] = (b :: q') :: es := by
  obtain ⟨p, ps, hp⟩ := splitComma_ne q
  obtain ⟨q', hq'⟩ := trimOws_head b p hb
  refine ⟨q', ((ps.map trimOws).filter (· ≠ [])), ?_⟩
  unfold elementsOf listElements
  simp [splitComma, h44, hp, hq']

theorem requestBody_malformed {fields : List (Header × Bytes × Bytes)} {b : UInt8} {q : Bytes} (hte : valuesOf fields (asciiBytes "transfer-encoding") = [])
    (hcl : valuesOf fields (asciiBytes "content-length") = [b :: q]) (hb : ¬ (48 ≤ b.toNat ∧ b.toNat ≤ 57)) (ho : isOws b = false) (h44 : b ≠ 44) :
    requestBody fields = .invalid := by
  obtain ⟨q', es, he⟩ := elements_head b q ho h44
  unfold requestBody
  rw [if_neg (by simp [hte]), if_neg (by rw [hcl]; simp), hcl, he]
  have : isDecimalText (b :: q') = false := by
    cases hd : isDecimalText (b :: q') with
    | false => rfl
    | true => exact absurd (((isDecimalText_iff _).mp hd).2 b (by simp)) hb
  simp [this]

/-- A `Content-Length` that begins with something else than a digit (`+5`, `five`), which has to be refused, counts as 0: the
body is left to be read as the next request. -/
theorem C96_violated_malformed (r0 : Request) (method target : Bytes) (v : Version) (fields : List (Header × Bytes × Bytes)) (head rest : Bytes)
    (m : Method) (url : Url) (b : UInt8) (q : Bytes) (h : IsRequestHead method target v fields head) (hm : ∃ k ∈ methodNames, k.1 = m ∧ asciiBytes k.2 = method)
    (hu : requestUrl m (storeAll (fields.map receivedField)) target = .ok url) (hb : ∀ f ∈ fields, TidyBlanks f)
    (hn : NamesUnambiguous (asciiBytes "transfer-encoding" :: asciiBytes "content-length" :: fields.map (·.1.1)))
    (hte : valuesOf fields (asciiBytes "transfer-encoding") = [])
    (hcl : valuesOf fields (asciiBytes "content-length") = [b :: q]) (hd : ¬ (48 ≤ b.toNat ∧ b.toNat ≤ 57)) (h44 : b ≠ 44) (h45 : b ≠ 45) :
    requestBody fields = .invalid ∧
      ∃ r', r0.parseBuffer (head ++ rest) = (.ok head.length, r', rest) ∧ TakesBodyAs r'.header (.length 0) := by
  obtain ⟨r', h1, h2, h3⟩ := C96_last_partial r0 method target v fields head rest m url h hm hu hb hn
  have ho : isOws b = false := by
    obtain ⟨-, -, -, e, -, -, text, ht, -⟩ := h
    have : b :: q ∈ valuesOf fields (asciiBytes "content-length") := by rw [hcl]; simp
    unfold valuesOf at this
    obtain ⟨f, hf, hfv⟩ := List.mem_map.mp this
    have hv := (fieldSection_values ht f (List.mem_filter.mp hf).1).1
    rw [hfv] at hv
    have hnb := hv.2.1 b rfl
    unfold IsBlank at hnb
    unfold isOws
    simpa using hnb
  refine ⟨requestBody_malformed hte hcl hd ho h44, r', h1, ?_, ?_⟩
  · cases hc : r'.header.isChunked with
    | false => rfl
    | true => obtain ⟨t, ht, _⟩ := h2.mp hc; rw [hte] at ht; simp at ht
  · have hdig : isDigit b = false := by
      cases hx : isDigit b with
      | false => rfl
      | true => exact absurd ((allDigits_iff [b]).mpr (by simpa using hx) b (by simp)) hd
    unfold HeaderMap.bodyLen
    rw [h3, hcl]
    simp [HeaderValue.toIsize, isizeLoop, hdig, h45]

/-- A negative `Content-Length` is accepted, and the length reported is negative. -/
theorem C96_violated_negative (r0 : Request) (method target : Bytes) (v : Version) (fields : List (Header × Bytes × Bytes)) (head rest : Bytes)
    (m : Method) (url : Url) (q : Bytes) (n : Nat) (h : IsRequestHead method target v fields head) (hm : ∃ k ∈ methodNames, k.1 = m ∧ asciiBytes k.2 = method)
    (hu : requestUrl m (storeAll (fields.map receivedField)) target = .ok url) (hb : ∀ f ∈ fields, TidyBlanks f)
    (hn : NamesUnambiguous (asciiBytes "transfer-encoding" :: asciiBytes "content-length" :: fields.map (·.1.1)))
    (hte : valuesOf fields (asciiBytes "transfer-encoding") = [])
    (hcl : valuesOf fields (asciiBytes "content-length") = [45 :: q]) (hq : IsNumeral q n) (hlt : n < 2 ^ 63) :
    requestBody fields = .invalid ∧
      ∃ r', r0.parseBuffer (head ++ rest) = (.ok head.length, r', rest) ∧ r'.header.bodyLen = .ok (-(n : Int)) := by
  obtain ⟨r', h1, h2, h3⟩ := C96_last_partial r0 method target v fields head rest m url h hm hu hb hn
  refine ⟨requestBody_malformed hte hcl (by decide) (by decide) (by decide), r', h1, ?_⟩
  unfold HeaderMap.bodyLen
  rw [h3, hcl]
  have := C43_isize_reads_partial (45 :: q) (-(n : Int)) (.inr ⟨q, n, rfl, hq, rfl⟩) ⟨by omega, by omega⟩
  simp only [List.getLast?_singleton]
  rw [this]

/-! Requests written out -/

theorem postHead_head (hs : List Header) (h : ∀ e ∈ hs, IsFieldName e.1 ∧ IsFieldValue e.2) :
    IsRequestHead (asciiBytes "POST") (asciiBytes "/") .http11 (spaced hs) (postHead hs) := by
  refine ⟨⟨by decide +kernel, by decide +kernel⟩, by decide +kernel, by decide +kernel, (.http11, "HTTP/1.1"), by decide, rfl,
    hs.flatMap (fun h => h.1 ++ [58, 32] ++ h.2 ++ [13, 10]) ++ [13, 10], ?_, ?_⟩
  · induction hs with
    | nil => exact .done
    | cons e hs ih =>
      have : (e :: hs).flatMap (fun h => h.1 ++ [58, 32] ++ h.2 ++ [13, 10]) ++ [13, 10] =
          (e.1 ++ [58, 32] ++ e.2 ++ [13, 10]) ++ (hs.flatMap (fun h => h.1 ++ [58, 32] ++ h.2 ++ [13, 10]) ++ [13, 10]) := by simp
      rw [this]
      refine .more ⟨(h e (by simp)).1, (h e (by simp)).2, ?_, by intro b hb; simp at hb, by simp⟩ (ih fun x hx => h x (by simp [hx]))
      intro b hb
      simp only [List.mem_singleton] at hb
      exact .inl hb
  · have e : asciiBytes "POST / HTTP/1.1\r\n" = asciiBytes "POST" ++ [32] ++ asciiBytes "/" ++ [32] ++ asciiBytes "HTTP/1.1" ++ [13, 10] := by
      decide +kernel
    unfold postHead
    rw [e]
    simp

theorem spaced_received (hs : List Header) (h : ∀ e ∈ hs, IsFieldName e.1 ∧ IsFieldValue e.2) : (spaced hs).map receivedField = hs := by
  unfold spaced
  rw [List.map_map]
  conv_rhs => rw [← List.map_id hs]
  refine List.map_congr_left fun e he => ?_
  exact tidy_received (f := (e, [32], [])) ⟨by simp, rfl⟩ (h e he).2

theorem post_url {hs : HeaderMap} (h1 : hs.get? (asciiBytes "host") = none) (h2 : hs.get? (asciiBytes ":authority") = none)
    (h3 : hs.get? (asciiBytes ":scheme") = none) : ∃ url, requestUrl .post hs (asciiBytes "/") = .ok url := by
  have hp : Url.parse (asciiBytes "/") = .ok ⟨.none, asciiBytes "/", none, none, none, some 0, none⟩ := by decide +kernel
  refine ⟨⟨.http, asciiBytes "/", none, none, none, some 0, none⟩, ?_⟩
  unfold requestUrl
  rw [if_neg (by decide), hp]
  have hh : hs.host = none := by unfold HeaderMap.host; rw [h1, h2]
  simp [fillHost, fillScheme, hh, h3, Bind.bind, Res.bind]

/-- The request with these headers is accepted and holds them. -/
theorem post_accepted (r0 : Request) (hs : List Header) (rest : Bytes) (h : ∀ e ∈ hs, IsFieldName e.1 ∧ IsFieldValue e.2)
    (h1 : (storeAll hs).get? (asciiBytes "host") = none) (h2 : (storeAll hs).get? (asciiBytes ":authority") = none)
    (h3 : (storeAll hs).get? (asciiBytes ":scheme") = none) :
    ∃ url, r0.parseBuffer (postHead hs ++ rest) = (.ok (postHead hs).length, ⟨.post, storeAll hs, .http11, url, false⟩, rest) := by
  obtain ⟨url, hurl⟩ := post_url h1 h2 h3
  have := C73_request_partial r0 _ _ _ _ _ rest .post url (postHead_head hs h) ⟨(.post, "POST"), by decide, rfl, rfl⟩
    (by rw [spaced_received hs h]; exact hurl)
  rw [spaced_received hs h] at this
  exact ⟨url, this⟩

theorem name_length : IsFieldName (asciiBytes "Content-Length") := ⟨by decide +kernel, by decide +kernel⟩

theorem name_mlength : IsFieldName (asciiBytes "ContentMLength") := ⟨by decide +kernel, by decide +kernel⟩

theorem numeral_value {s : Bytes} {n : Nat} (h : IsNumeral s n) : IsFieldValue s := by
  have hd : ∀ b : UInt8, 48 ≤ b.toNat ∧ b.toNat ≤ 57 → IsFieldVchar b ∧ ¬ IsBlank b := by unfold IsFieldVchar IsBlank; decide +kernel
  refine ⟨fun b hb => .inl (hd b (h.2.1 b hb)).1, fun b hb => ?_, fun b hb => ?_⟩
  · exact (hd b (h.2.1 b (List.mem_of_head? hb))).2
  · exact (hd b (h.2.1 b (List.mem_of_getLast? hb))).2

/-- A field `ContentMLength`, which RFC 9110 has ignored, is taken for `Content-Length`: where RFC 9112 sees no body and another
request after the empty line, the first `n` bytes are taken for the body. -/
theorem C96_violated_name (r0 : Request) (s rest : Bytes) (n : Nat) (hs : IsNumeral s n) (hlt : n < 2 ^ 63) :
    IsRequestHead (asciiBytes "POST") (asciiBytes "/") .http11 (spaced [(asciiBytes "ContentMLength", s)]) (postHead [(asciiBytes "ContentMLength", s)]) ∧
    requestBody (spaced [(asciiBytes "ContentMLength", s)]) = .length 0 ∧
    ∃ r', r0.parseBuffer (postHead [(asciiBytes "ContentMLength", s)] ++ rest) = (.ok (postHead [(asciiBytes "ContentMLength", s)]).length, r', rest) ∧
      TakesBodyAs r'.header (.length n) := by
  have hf : ∀ e ∈ [(asciiBytes "ContentMLength", s)], IsFieldName e.1 ∧ IsFieldValue e.2 := by
    intro e he
    simp only [List.mem_singleton] at he
    subst he
    exact ⟨name_mlength, numeral_value hs⟩
  have hg : ∀ k : Bytes, nameEq (asciiBytes "ContentMLength") k = false → (storeAll [(asciiBytes "ContentMLength", s)]).get? k = none := by
    intro k hk
    simp [storeAll, HeaderMap.insert, HeaderMap.get?, hk]
  obtain ⟨url, hr⟩ := post_accepted r0 _ rest hf (hg _ (by decide +kernel)) (hg _ (by decide +kernel)) (hg _ (by decide +kernel))
  have e1 : lower (asciiBytes "ContentMLength") ≠ lower (asciiBytes "transfer-encoding") := by decide +kernel
  have e2 : lower (asciiBytes "ContentMLength") ≠ lower (asciiBytes "content-length") := by decide +kernel
  refine ⟨postHead_head _ hf, requestBody_length ?_ (.inl ⟨?_, rfl⟩), _, hr, ?_, ?_⟩
  · simp [valuesOf, spaced, e1]
  · simp [valuesOf, spaced, e2]
  · unfold HeaderMap.isChunked
    rw [hg _ (by decide +kernel)]
  · refine (C43_body_len_partial _).2 s n ?_ hs hlt
    have : nameEq (asciiBytes "ContentMLength") (asciiBytes "content-length") = true := by decide +kernel
    simp [storeAll, HeaderMap.insert, HeaderMap.get?, this]

/-- A field `#ontent-Length` before `Content-Length` hides it: where RFC 9112 sees a body of `n` bytes, there is none for the code,
and the body is left to be read as the next request. -/
theorem C96_violated_hidden (r0 : Request) (s rest : Bytes) (n : Nat) (hs : IsNumeral s n) :
    IsRequestHead (asciiBytes "POST") (asciiBytes "/") .http11 (spaced [(asciiBytes "#ontent-Length", []), (asciiBytes "Content-Length", s)])
      (postHead [(asciiBytes "#ontent-Length", []), (asciiBytes "Content-Length", s)]) ∧
    requestBody (spaced [(asciiBytes "#ontent-Length", []), (asciiBytes "Content-Length", s)]) = .length n ∧
    ∃ r', r0.parseBuffer (postHead [(asciiBytes "#ontent-Length", []), (asciiBytes "Content-Length", s)] ++ rest) =
        (.ok (postHead [(asciiBytes "#ontent-Length", []), (asciiBytes "Content-Length", s)]).length, r', rest) ∧
      TakesBodyAs r'.header (.length 0) := by
  have hf : ∀ e ∈ [(asciiBytes "#ontent-Length", []), (asciiBytes "Content-Length", s)], IsFieldName e.1 ∧ IsFieldValue e.2 := by
    intro e he
    simp only [List.mem_cons, List.not_mem_nil, or_false] at he
    rcases he with rfl | rfl
    · exact ⟨⟨by decide +kernel, by decide +kernel⟩, by intro b hb; simp at hb, by intro b hb; simp at hb, by intro b hb; simp at hb⟩
    · exact ⟨name_length, numeral_value hs⟩
  have he : nameEq (asciiBytes "#ontent-Length") (asciiBytes "Content-Length") = true := by decide +kernel
  have hst : storeAll [(asciiBytes "#ontent-Length", []), (asciiBytes "Content-Length", s)] = [(asciiBytes "#ontent-Length", s)] := by
    simp [storeAll, HeaderMap.insert, he]
  have hg : ∀ k : Bytes, nameEq (asciiBytes "#ontent-Length") k = false →
      (storeAll [(asciiBytes "#ontent-Length", []), (asciiBytes "Content-Length", s)]).get? k = none := by
    intro k hk
    rw [hst]
    simp [HeaderMap.get?, hk]
  obtain ⟨url, hr⟩ := post_accepted r0 _ rest hf (hg _ (by decide +kernel)) (hg _ (by decide +kernel)) (hg _ (by decide +kernel))
  have e1 : lower (asciiBytes "#ontent-Length") ≠ lower (asciiBytes "transfer-encoding") := by decide +kernel
  have e2 : lower (asciiBytes "#ontent-Length") ≠ lower (asciiBytes "content-length") := by decide +kernel
  have e3 : lower (asciiBytes "Content-Length") ≠ lower (asciiBytes "transfer-encoding") := by decide +kernel
  have e4 : lower (asciiBytes "Content-Length") = lower (asciiBytes "content-length") := by decide +kernel
  refine ⟨postHead_head _ hf, requestBody_length ?_ (.inr ⟨s, ?_, hs⟩), _, hr, ?_, ?_⟩
  · simp [valuesOf, spaced, e1, e3]
  · simp [valuesOf, spaced, e2, e4]
  · unfold HeaderMap.isChunked
    rw [hg _ (by decide +kernel)]
  · exact (C43_body_len_partial _).1 (hg _ (by decide +kernel))

/-- A chunked body whose coding is written `Chunked` lets a `Content-Length` decide that RFC 9112 overrides: the length of the
first chunk's line is taken for the body, and the chunk itself, whatever it is, for the next request. -/
theorem C96_violated_smuggle (r0 : Request) (size data tail : Bytes) (s : Bytes) (hs : ChunkSize size) (hd : hexVal size = data.length)
    (hn : IsNumeral s (size.length + 2)) (hlt : size.length + 2 < 2 ^ 63) :
    IsRequestHead (asciiBytes "POST") (asciiBytes "/") .http11
      (spaced [(asciiBytes "Content-Length", s), (asciiBytes "Transfer-Encoding", asciiBytes "Chunked")])
      (postHead [(asciiBytes "Content-Length", s), (asciiBytes "Transfer-Encoding", asciiBytes "Chunked")]) ∧
    requestBody (spaced [(asciiBytes "Content-Length", s), (asciiBytes "Transfer-Encoding", asciiBytes "Chunked")]) = .chunked ∧
    StartsWithChunk (wireChunk size data ++ tail) (size.length + 2) data ∧
    ∃ r', receive Request.parseBuffer (·.header) r0
        (postHead [(asciiBytes "Content-Length", s), (asciiBytes "Transfer-Encoding", asciiBytes "Chunked")] ++ (wireChunk size data ++ tail)) =
      .ok (r', size ++ [13, 10], data ++ [13, 10] ++ tail) := by
  have hf : ∀ e ∈ [(asciiBytes "Content-Length", s), (asciiBytes "Transfer-Encoding", asciiBytes "Chunked")], IsFieldName e.1 ∧ IsFieldValue e.2 := by
    intro e he
    simp only [List.mem_cons, List.not_mem_nil, or_false] at he
    rcases he with rfl | rfl
    · exact ⟨name_length, numeral_value hn⟩
    · exact ⟨⟨by decide +kernel, by decide +kernel⟩, by unfold IsFieldVchar IsBlank; decide +kernel, by unfold IsBlank; decide +kernel,
        by unfold IsBlank; decide +kernel⟩
  have hne : nameEq (asciiBytes "Content-Length") (asciiBytes "Transfer-Encoding") = false := by decide +kernel
  have hst : storeAll [(asciiBytes "Content-Length", s), (asciiBytes "Transfer-Encoding", asciiBytes "Chunked")] =
      [(asciiBytes "Content-Length", s), (asciiBytes "Transfer-Encoding", asciiBytes "Chunked")] := by
    simp [storeAll, HeaderMap.insert, hne]
  have hg : ∀ k : Bytes, nameEq (asciiBytes "Content-Length") k = false → nameEq (asciiBytes "Transfer-Encoding") k = false →
      (storeAll [(asciiBytes "Content-Length", s), (asciiBytes "Transfer-Encoding", asciiBytes "Chunked")]).get? k = none := by
    intro k h1 h2
    rw [hst]
    simp [HeaderMap.get?, h1, h2]
  obtain ⟨url, hr⟩ := post_accepted r0 _ (wireChunk size data ++ tail) hf (hg _ (by decide +kernel) (by decide +kernel))
    (hg _ (by decide +kernel) (by decide +kernel)) (hg _ (by decide +kernel) (by decide +kernel))
  have e1 : lower (asciiBytes "Content-Length") ≠ lower (asciiBytes "transfer-encoding") := by decide +kernel
  have e2 : lower (asciiBytes "Transfer-Encoding") = lower (asciiBytes "transfer-encoding") := by decide +kernel
  have hv : valuesOf (spaced [(asciiBytes "Content-Length", s), (asciiBytes "Transfer-Encoding", asciiBytes "Chunked")]) (asciiBytes "transfer-encoding") =
      [asciiBytes "Chunked"] := by simp [valuesOf, spaced, e1, e2]
  have hchunk : (storeAll [(asciiBytes "Content-Length", s), (asciiBytes "Transfer-Encoding", asciiBytes "Chunked")]).isChunked = false := by
    rw [hst]
    have h1 : nameEq (asciiBytes "Content-Length") (asciiBytes "transfer-encoding") = false := by decide +kernel
    have h2 : nameEq (asciiBytes "Transfer-Encoding") (asciiBytes "transfer-encoding") = true := by decide +kernel
    have h3 : containsBytes (asciiBytes "Chunked") (asciiBytes "chunked") = false := by decide +kernel
    simp [HeaderMap.isChunked, HeaderMap.get?, h1, h2, h3]
  have hlen : (storeAll [(asciiBytes "Content-Length", s), (asciiBytes "Transfer-Encoding", asciiBytes "Chunked")]).bodyLen =
      .ok ((size.length + 2 : Nat) : Int) := by
    refine (C43_body_len_partial _).2 s _ ?_ hn hlt
    rw [hst]
    have h1 : nameEq (asciiBytes "Content-Length") (asciiBytes "content-length") = true := by decide +kernel
    simp [HeaderMap.get?, h1]
  refine ⟨postHead_head _ hf, ?_, ⟨size, [], tail, hs, .inl rfl, hd, by simp [wireChunk], by simp⟩,
    ⟨.post, storeAll [(asciiBytes "Content-Length", s), (asciiBytes "Transfer-Encoding", asciiBytes "Chunked")], .http11, url, false⟩, ?_⟩
  · unfold requestBody
    rw [hv, if_pos (by simp), show elementsOf [asciiBytes "Chunked"] = [asciiBytes "Chunked"] by decide +kernel]
    simp only [List.getLast?_singleton]
    rw [if_pos (by decide +kernel)]
  · unfold receive
    rw [hr]
    simp only [hchunk, hlen, Bool.false_eq_true, if_false]
    have e3 : wireChunk size data ++ tail = (size ++ [13, 10]) ++ (data ++ [13, 10] ++ tail) := by simp [wireChunk]
    rw [e3]
    have e4 : ¬ ((size.length + 2 : Nat) : Int) < 0 := by omega
    have e5 : ((size.length + 2 : Nat) : Int).toNat = (size ++ [13, 10]).length := by rw [Int.toNat_natCast, List.length_append]; rfl
    simp only [Bind.bind, Res.bind, e4, if_false, e5]
    rw [if_neg (by simp), List.take_left, List.drop_left]

/-- A size and a length that meet the hypotheses. -/
example : ChunkSize (asciiBytes "1f") ∧ IsNumeral (asciiBytes "4") ((asciiBytes "1f").length + 2) := by
  refine ⟨by unfold ChunkSize; decide +kernel, by decide +kernel, by unfold AllDigits; decide +kernel, by decide +kernel⟩

/-- C96 does not hold of the code. -/
theorem C96_violated : ¬ C96_statement := by
  intro h
  obtain ⟨h1, h2, r', h3, h4⟩ := C96_violated_name {} (asciiBytes "5") [] 5 ⟨by decide +kernel, by unfold AllDigits; decide +kernel, by decide +kernel⟩ (by decide)
  have := h {} r' _ _ _ _ _ [] h1 h3
  rw [h2] at this
  have e := this.2.symm.trans h4.2
  simp at e

/-! Requests that meet the hypotheses -/

theorem framing_names (names : List Bytes) (h : ∀ a ∈ names, ∀ x ∈ a, (isLetter x && x != 77 || x == 45) = true) :
    NamesUnambiguous (asciiBytes "transfer-encoding" :: asciiBytes "content-length" :: names) := by
  have hall : ∀ a ∈ asciiBytes "transfer-encoding" :: asciiBytes "content-length" :: names, ∀ x ∈ a, (isLetter x && x != 77 || x == 45) = true := by
    intro a ha
    simp only [List.mem_cons] at ha
    rcases ha with rfl | rfl | ha
    · decide +kernel
    · decide +kernel
    · exact h a ha
  intro a ha b hb
  exact unambiguous_of_bytes (fun x => isLetter x && x != 77 || x == 45) (by decide +kernel) (hall a ha) (hall b hb)

theorem framing_example (hs : List Header) (h : ∀ e ∈ hs, IsFieldName e.1 ∧ IsFieldValue e.2)
    (hn : ∀ e ∈ hs, ∀ x ∈ e.1, (isLetter x && x != 77 || x == 45) = true) (h1 : (storeAll hs).get? (asciiBytes "host") = none)
    (h2 : (storeAll hs).get? (asciiBytes ":authority") = none) (h3 : (storeAll hs).get? (asciiBytes ":scheme") = none) :
    ∃ url, IsRequestHead (asciiBytes "POST") (asciiBytes "/") .http11 (spaced hs) (postHead hs) ∧
      (∃ k ∈ methodNames, k.1 = .post ∧ asciiBytes k.2 = asciiBytes "POST") ∧
      requestUrl .post (storeAll ((spaced hs).map receivedField)) (asciiBytes "/") = .ok url ∧ (∀ f ∈ spaced hs, TidyBlanks f) ∧
      NamesUnambiguous (asciiBytes "transfer-encoding" :: asciiBytes "content-length" :: (spaced hs).map (·.1.1)) := by
  obtain ⟨url, hu⟩ := post_url h1 h2 h3
  refine ⟨url, postHead_head hs h, ⟨(.post, "POST"), by decide, rfl, rfl⟩, by rw [spaced_received hs h]; exact hu, ?_, framing_names _ ?_⟩
  · intro f hf
    obtain ⟨e, -, rfl⟩ := List.mem_map.mp hf
    exact ⟨by simp, rfl⟩
  · intro a ha
    simp only [spaced, List.map_map, List.mem_map, Function.comp_def] at ha
    obtain ⟨e, he, rfl⟩ := ha
    exact hn e he

theorem field_ok {e : Header} (h : (!e.1.isEmpty && e.1.all isTchar && e.2.all (fun b => 0x21 ≤ b.toNat && b.toNat ≤ 0x7e)) = true) :
    IsFieldName e.1 ∧ IsFieldValue e.2 := by
  simp only [Bool.and_eq_true, List.all_eq_true, Bool.not_eq_true', List.isEmpty_eq_false_iff, decide_eq_true_eq] at h
  have nb : ∀ b ∈ e.2, ¬ IsBlank b := by
    intro b hb hc
    have := h.2 b hb
    rcases hc with rfl | rfl <;> simp at this
  exact ⟨⟨h.1.1, h.1.2⟩, fun b hb => .inl (.inl (h.2 b hb)), fun b hb => nb b (List.mem_of_head? hb), fun b hb => nb b (List.mem_of_getLast? hb)⟩

/-- One length: the hypotheses of `C96_length_partial`. -/
example : ∃ r', (({} : Request).parseBuffer (postHead [(asciiBytes "Content-Length", asciiBytes "12")] ++ asciiBytes "hello")).2.1 = r' ∧
    TakesBodyAs r'.header (.length 12) := by
  obtain ⟨url, a, b, c, d, e⟩ := framing_example [(asciiBytes "Content-Length", asciiBytes "12")]
    (by intro e he; exact field_ok (by revert e; decide +kernel)) (by decide +kernel) (by decide +kernel) (by decide +kernel) (by decide +kernel)
  obtain ⟨-, r', h1, h2⟩ := C96_length_partial {} _ _ _ _ _ (asciiBytes "hello") .post url 12 a b c d e (by decide +kernel)
    (.inr ⟨asciiBytes "12", by decide +kernel, ⟨by decide +kernel, by unfold AllDigits; decide +kernel, by decide +kernel⟩, by decide⟩)
  exact ⟨r', by rw [h1], h2⟩

/-- Chunks: the hypotheses of `C96_chunked_partial`. -/
example : ∃ r', (({} : Request).parseBuffer (postHead [(asciiBytes "Content-Length", asciiBytes "12"), (asciiBytes "Transfer-Encoding", asciiBytes "gzip,chunked")])).2.1 = r' ∧
    TakesBodyAs r'.header .chunked := by
  obtain ⟨url, a, b, c, d, e⟩ := framing_example [(asciiBytes "Content-Length", asciiBytes "12"), (asciiBytes "Transfer-Encoding", asciiBytes "gzip,chunked")]
    (by intro e he; exact field_ok (by revert e; decide +kernel)) (by decide +kernel) (by decide +kernel) (by decide +kernel) (by decide +kernel)
  obtain ⟨-, r', h1, h2⟩ := C96_chunked_partial {} _ _ _ _ _ [] .post url (asciiBytes "gzip,chunked") a b c d e (by decide +kernel) (by decide +kernel)
  exact ⟨r', by rw [List.append_nil] at h1; rw [h1], h2⟩

/-- Two lengths, no number, a negative one: the hypotheses of the violations. -/
example : (∃ r', (({} : Request).parseBuffer (postHead [(asciiBytes "Content-Length", asciiBytes "5"), (asciiBytes "content-length", asciiBytes "6")])).2.1 = r' ∧
      TakesBodyAs r'.header (.length 6)) ∧
    (∃ r', (({} : Request).parseBuffer (postHead [(asciiBytes "Content-Length", asciiBytes "+5")])).2.1 = r' ∧ TakesBodyAs r'.header (.length 0)) ∧
    (∃ r', (({} : Request).parseBuffer (postHead [(asciiBytes "Content-Length", asciiBytes "-5")])).2.1 = r' ∧ r'.header.bodyLen = .ok (-5)) := by
  refine ⟨?_, ?_, ?_⟩
  · obtain ⟨url, a, b, c, d, e⟩ := framing_example [(asciiBytes "Content-Length", asciiBytes "5"), (asciiBytes "content-length", asciiBytes "6")]
      (by intro e he; exact field_ok (by revert e; decide +kernel)) (by decide +kernel) (by decide +kernel) (by decide +kernel) (by decide +kernel)
    obtain ⟨-, r', h1, h2⟩ := C96_violated_differing {} _ _ _ _ _ [] .post url (asciiBytes "6") (asciiBytes "5") 6 5 a b c d e (by decide +kernel) (by decide +kernel)
      ⟨by decide +kernel, by unfold AllDigits; decide +kernel, by decide +kernel⟩ (by decide) (by decide +kernel)
      ⟨by decide +kernel, by unfold AllDigits; decide +kernel, by decide +kernel⟩ (by decide +kernel)
    exact ⟨r', by rw [List.append_nil] at h1; rw [h1], h2⟩
  · obtain ⟨url, a, b, c, d, e⟩ := framing_example [(asciiBytes "Content-Length", asciiBytes "+5")]
      (by intro e he; exact field_ok (by revert e; decide +kernel)) (by decide +kernel) (by decide +kernel) (by decide +kernel) (by decide +kernel)
    obtain ⟨-, r', h1, h2⟩ := C96_violated_malformed {} _ _ _ _ _ [] .post url 43 (asciiBytes "5") a b c d e (by decide +kernel) (by decide +kernel)
      (by decide) (by decide) (by decide)
    exact ⟨r', by rw [List.append_nil] at h1; rw [h1], h2⟩
  · obtain ⟨url, a, b, c, d, e⟩ := framing_example [(asciiBytes "Content-Length", asciiBytes "-5")]
      (by intro e he; exact field_ok (by revert e; decide +kernel)) (by decide +kernel) (by decide +kernel) (by decide +kernel) (by decide +kernel)
    obtain ⟨-, r', h1, h2⟩ := C96_violated_negative {} _ _ _ _ _ [] .post url (asciiBytes "5") 5 a b c d e (by decide +kernel) (by decide +kernel)
      ⟨by decide +kernel, by unfold AllDigits; decide +kernel, by decide +kernel⟩ (by decide)
    exact ⟨r', by rw [List.append_nil] at h1; rw [h1], h2⟩

end Webparse
