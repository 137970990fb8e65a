import Verif.Spec.ResponseBody
import Verif.Props.BodyKind

/-!
# C105: where the body of a response ends

The full claim: an accepted response is one whose framing RFC 9112 6.3 allows, and `is_chunked` and `get_body_len` say
where its body ends as RFC 9112 6.3 does.
-/

namespace Webparse
open Spec

/-- C105, the full claim. -/
def C105_statement : Prop :=
  ∀ (r0 r' : Response) (v : Version) (code : Nat) (reason : Bytes) (fields : List (Header × Bytes × Bytes)) (head rest : Bytes),
    IsResponseHead v code reason fields head → r0.parseBuffer (head ++ rest) = (.ok head.length, r', rest) →
    TakesResponseBodyAs r'.header (responseBody code fields)

/-- What an accepted response says: chunked if the last `Transfer-Encoding` line has the word in it, and the length that the
last `Content-Length` line gives. -/
theorem C105_last_partial (r0 : Response) (v : Version) (code : Nat) (reason : Bytes) (fields : List (Header × Bytes × Bytes)) (head rest : Bytes)
    (h : IsResponseHead v code reason fields head) (hr : IsPlainReason reason) (hb : ∀ f ∈ fields, TidyBlanks f)
    (hn : NamesUnambiguous (asciiBytes "transfer-encoding" :: asciiBytes "content-length" :: fields.map (·.1.1))) :
    ∃ r', r0.parseBuffer (head ++ rest) = (.ok head.length, r', rest) ∧
      (r'.header.isChunked = true ↔
        ∃ t, (valuesOf fields (asciiBytes "transfer-encoding")).getLast? = some t ∧ asciiBytes "chunked" <:+: t) ∧
      r'.header.get? (asciiBytes "content-length") = (valuesOf fields (asciiBytes "content-length")).getLast? := by
  refine ⟨_, C73_response_partial r0 v code reason fields head rest h hr, ?_, ?_⟩
  · obtain ⟨-, -, -, e, -, -, text, ht, -⟩ := h
    have := stored_last ht hb (asciiBytes "transfer-encoding") (fun a ha b hb => hn a (by
      rcases List.mem_cons.mp ha with rfl | ha <;> simp [*]) b (by rcases List.mem_cons.mp hb with rfl | hb <;> simp [*]))
    unfold HeaderMap.isChunked
    simp only [this]
    cases (valuesOf fields (asciiBytes "transfer-encoding")).getLast? with
    | none => simp
    | some t => simp [containsBytes_iff]
  · obtain ⟨-, -, -, e, -, -, text, ht, -⟩ := h
    exact stored_last ht hb (asciiBytes "content-length") (fun a ha b hb => hn a (by
      rcases List.mem_cons.mp ha with rfl | ha <;> simp [*]) b (by rcases List.mem_cons.mp hb with rfl | hb <;> simp [*]))

theorem not_chunked_of {m : HeaderMap} {vs : List Bytes}
    (h2 : m.isChunked = true ↔ ∃ t, vs.getLast? = some t ∧ asciiBytes "chunked" <:+: t) (hte : vs = []) :
    m.isChunked = false := by
  cases hc : m.isChunked with
  | false => rfl
  | true => obtain ⟨t, ht, _⟩ := h2.mp hc; rw [hte] at ht; simp at ht

/-- A response with one `Content-Length`, a numeral below 2^63, and no `Transfer-Encoding` has that length, if its status
allows a body. -/
theorem C105_length_partial (r0 : Response) (v : Version) (code : Nat) (reason : Bytes) (fields : List (Header × Bytes × Bytes)) (head rest : Bytes)
    (s : Bytes) (n : Nat) (h : IsResponseHead v code reason fields head) (hr : IsPlainReason reason) (hb : ∀ f ∈ fields, TidyBlanks f)
    (hn : NamesUnambiguous (asciiBytes "transfer-encoding" :: asciiBytes "content-length" :: fields.map (·.1.1)))
    (hc : ¬ BodylessStatus code) (hte : valuesOf fields (asciiBytes "transfer-encoding") = [])
    (hcl : valuesOf fields (asciiBytes "content-length") = [s]) (hs : IsNumeral s n) (hlt : n < 2 ^ 63) :
    responseBody code fields = .length n ∧
      ∃ r', r0.parseBuffer (head ++ rest) = (.ok head.length, r', rest) ∧ TakesResponseBodyAs r'.header (.length n) := by
  obtain ⟨r', h1, h2, h3⟩ := C105_last_partial r0 v code reason fields head rest h hr hb hn
  refine ⟨?_, r', h1, not_chunked_of h2 hte, (C43_body_len_partial r'.header).2 s n (by rw [h3, hcl]; rfl) hs hlt⟩
  unfold responseBody
  rw [if_neg hc, if_neg (by simp [hte]), if_neg (by simp [hcl]), hcl, elements_numeral hs]
  have : isDecimalText s = true := (isDecimalText_iff s).mpr ⟨hs.1, hs.2.1⟩
  simp [this, hs.2.2]

/-- A response whose last coding is `chunked` in lower case is seen to be chunked. -/
theorem C105_chunked_partial (r0 : Response) (v : Version) (code : Nat) (reason : Bytes) (fields : List (Header × Bytes × Bytes)) (head rest : Bytes)
    (t : Bytes) (h : IsResponseHead v code reason fields head) (hr : IsPlainReason reason) (hb : ∀ f ∈ fields, TidyBlanks f)
    (hn : NamesUnambiguous (asciiBytes "transfer-encoding" :: asciiBytes "content-length" :: fields.map (·.1.1)))
    (hc : ¬ BodylessStatus code) (hte : (valuesOf fields (asciiBytes "transfer-encoding")).getLast? = some t)
    (hl : (elementsOf [t]).getLast? = some (asciiBytes "chunked")) :
    responseBody code fields = .chunked ∧
      ∃ r', r0.parseBuffer (head ++ rest) = (.ok head.length, r', rest) ∧ TakesResponseBodyAs r'.header .chunked := by
  obtain ⟨r', h1, h2, h3⟩ := C105_last_partial r0 v code reason fields head rest h hr hb hn
  refine ⟨?_, r', h1, h2.mpr ⟨t, hte, ?_⟩⟩
  · obtain ⟨pre, hpre⟩ := List.getLast?_eq_some_iff.mp hte
    unfold responseBody
    rw [if_neg hc, if_pos (by rw [hpre]; simp), hpre]
    have : elementsOf (pre ++ [t]) = elementsOf pre ++ elementsOf [t] := by
      unfold elementsOf
      rw [List.flatMap_append, List.filter_append]
    rw [this, List.getLast?_append, hl]
    simp only [Option.some_or]
    rw [if_pos (by decide +kernel)]
  · have hmem : asciiBytes "chunked" ∈ listElements t := by
      have := List.mem_of_getLast? hl
      unfold elementsOf at this
      simpa using (List.mem_filter.mp this).1
    exact (listElements_infix t _ (by decide +kernel) (by decide +kernel) (by decide +kernel)).mpr ⟨_, hmem, List.infix_rfl⟩

/-! ### Where the full claim fails -/

/-- C105, violated: a response with neither field, whose body RFC 9112 has end with the connection, is said to have an empty
body. -/
theorem C105_violated_untilClose (r0 : Response) (v : Version) (code : Nat) (reason : Bytes) (fields : List (Header × Bytes × Bytes)) (head rest : Bytes)
    (h : IsResponseHead v code reason fields head) (hr : IsPlainReason reason) (hb : ∀ f ∈ fields, TidyBlanks f)
    (hn : NamesUnambiguous (asciiBytes "transfer-encoding" :: asciiBytes "content-length" :: fields.map (·.1.1)))
    (hc : ¬ BodylessStatus code) (hte : valuesOf fields (asciiBytes "transfer-encoding") = [])
    (hcl : valuesOf fields (asciiBytes "content-length") = []) :
    responseBody code fields = .untilClose ∧
      ∃ r', r0.parseBuffer (head ++ rest) = (.ok head.length, r', rest) ∧ TakesResponseBodyAs r'.header .none := by
  obtain ⟨r', h1, h2, h3⟩ := C105_last_partial r0 v code reason fields head rest h hr hb hn
  refine ⟨?_, r', h1, not_chunked_of h2 hte, (C43_body_len_partial r'.header).1 (by rw [h3, hcl]; rfl)⟩
  unfold responseBody
  rw [if_neg hc, if_neg (by simp [hte]), if_pos hcl]

/-- C105, violated: a response that never has a body is said to have one of as many bytes as its `Content-Length` says (RFC 9110
8.6 allows the field in a 304). -/
theorem C105_violated_noContent (r0 : Response) (v : Version) (code : Nat) (reason : Bytes) (fields : List (Header × Bytes × Bytes)) (head rest : Bytes)
    (s : Bytes) (n : Nat) (h : IsResponseHead v code reason fields head) (hr : IsPlainReason reason) (hb : ∀ f ∈ fields, TidyBlanks f)
    (hn : NamesUnambiguous (asciiBytes "transfer-encoding" :: asciiBytes "content-length" :: fields.map (·.1.1)))
    (hc : BodylessStatus code) (hte : valuesOf fields (asciiBytes "transfer-encoding") = [])
    (hcl : valuesOf fields (asciiBytes "content-length") = [s]) (hs : IsNumeral s n) (hlt : n < 2 ^ 63) :
    responseBody code fields = .none ∧
      ∃ r', r0.parseBuffer (head ++ rest) = (.ok head.length, r', rest) ∧ TakesResponseBodyAs r'.header (.length n) := by
  obtain ⟨r', h1, h2, h3⟩ := C105_last_partial r0 v code reason fields head rest h hr hb hn
  refine ⟨?_, r', h1, not_chunked_of h2 hte, (C43_body_len_partial r'.header).2 s n (by rw [h3, hcl]; rfl) hs hlt⟩
  unfold responseBody
  rw [if_pos hc]

/-- C105, violated: a response with a transfer coding other than `chunked` last, of which RFC 9112 has the body end with the
connection, is said to be chunked if the word occurs anywhere in the last line. -/
theorem C105_violated_coding (r0 : Response) (v : Version) (code : Nat) (reason : Bytes) (fields : List (Header × Bytes × Bytes)) (head rest : Bytes)
    (t last : Bytes) (h : IsResponseHead v code reason fields head) (hr : IsPlainReason reason) (hb : ∀ f ∈ fields, TidyBlanks f)
    (hn : NamesUnambiguous (asciiBytes "transfer-encoding" :: asciiBytes "content-length" :: fields.map (·.1.1)))
    (hc : ¬ BodylessStatus code) (hte : valuesOf fields (asciiBytes "transfer-encoding") = [t])
    (hin : asciiBytes "chunked" <:+: t) (hl : (elementsOf [t]).getLast? = some last) (hne : lower last ≠ asciiBytes "chunked") :
    responseBody code fields = .untilClose ∧
      ∃ r', r0.parseBuffer (head ++ rest) = (.ok head.length, r', rest) ∧ TakesResponseBodyAs r'.header .chunked := by
  obtain ⟨r', h1, h2, h3⟩ := C105_last_partial r0 v code reason fields head rest h hr hb hn
  refine ⟨?_, r', h1, h2.mpr ⟨t, by rw [hte]; rfl, hin⟩⟩
  unfold responseBody
  rw [if_neg hc, if_pos (by simp [hte]), hte, hl]
  simp only
  rw [if_neg hne]

/-- The hypotheses together: `HTTP/1.1 200 OK`, `Content-Length: 5`. -/
example : IsResponseHead .http11 200 (asciiBytes "OK") [((asciiBytes "Content-Length", asciiBytes "5"), [32], [])]
      (asciiBytes "HTTP/1.1 200 OK\r\nContent-Length: 5\r\n\r\n") ∧ IsPlainReason (asciiBytes "OK") ∧ ¬ BodylessStatus 200 ∧ BodylessStatus 304 ∧
    TidyBlanks ((asciiBytes "Content-Length", asciiBytes "5"), [32], []) ∧
    NamesUnambiguous [asciiBytes "transfer-encoding", asciiBytes "content-length", asciiBytes "Content-Length"] ∧
    valuesOf [((asciiBytes "Content-Length", asciiBytes "5"), [32], [])] (asciiBytes "content-length") = [asciiBytes "5"] ∧
    IsNumeral (asciiBytes "5") 5 := by
  refine ⟨⟨by decide, by decide, ?_, (.http11, "HTTP/1.1"), by decide, rfl, _,
    .more ⟨name_length, numeral_value (n := 5) ⟨by decide +kernel, by unfold AllDigits; decide +kernel, by decide +kernel⟩,
      by unfold IsOwsText IsBlank; decide +kernel, (fun b hb => by cases hb), rfl⟩ .done, by decide +kernel⟩, ?_, by decide, by decide, ?_, ?_, by decide +kernel, ?_⟩
  · unfold IsReason IsFieldVchar IsBlank; decide +kernel
  · unfold IsPlainReason; decide +kernel
  · unfold TidyBlanks; decide +kernel
  · intro a ha b hb
    refine unambiguous_of_bytes (fun x => isLetter x && x != 77 || x == 45) (by decide +kernel) ?_ ?_
    · revert a; decide +kernel
    · revert b; decide +kernel
  · exact ⟨by decide +kernel, by unfold AllDigits; decide +kernel, by decide +kernel⟩

/-- C105 does not hold of the code. -/
theorem C105_violated : ¬ C105_statement := by
  intro h
  have := h {} ⟨200, .http11, [], false⟩ .http11 200 (asciiBytes "OK") [] (asciiBytes "HTTP/1.1 200 OK\r\n\r\n") []
    ⟨by decide, by decide, by unfold IsReason IsFieldVchar IsBlank; decide +kernel, (.http11, "HTTP/1.1"), by decide, rfl, _, .done,
      by decide +kernel⟩ (by decide +kernel)
  have e : responseBody 200 [] = .untilClose := by decide +kernel
  rw [e] at this
  exact this.2 (by decide +kernel)

end Webparse
