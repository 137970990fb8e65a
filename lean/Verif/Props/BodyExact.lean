import Verif.Proofs.Basic
import Verif.Props.BodyKind
import Verif.Props.ResponseBody

/-! # C96, C105: exactly which messages have their body end where RFC 9112 says -/

namespace Webparse
open Spec

/-- Every byte of a list value is a comma, white space, or part of an element. -/
theorem byte_elements {t : Bytes} {b : UInt8} (hb : b ∈ t) (h44 : b ≠ 44) (ho : isOws b = false) : ∃ e ∈ listElements t, e ≠ [] ∧ b ∈ e := by
  obtain ⟨e, he, h⟩ := (listElements_infix t [b] (by simp) (by simpa using ho) (by simpa using fun h => h44 h.symm)).mp (by
    obtain ⟨p, q, rfl⟩ := List.append_of_mem hb
    exact ⟨p, q, by simp⟩)
  have : b ∈ e := h.subset (by simp)
  exact ⟨e, he, fun h => by simp [h] at this, this⟩

theorem decVal_zero {s : Bytes} (hd : AllDigits s) (h : decVal s = 0) : ∀ b ∈ s, b = 48 := by
  induction s with
  | nil => simp
  | cons c s ih =>
    simp only [decVal] at h
    have h0 : 0 < 10 ^ s.length := Nat.pow_pos (by decide)
    have h1 : (c.toNat - 48) * 10 ^ s.length = 0 := by omega
    have h2 : c.toNat - 48 = 0 := by
      rcases Nat.mul_eq_zero.mp h1 with h | h <;> omega
    have h3 := hd c (by simp)
    intro b hb
    rcases List.mem_cons.mp hb with rfl | hb
    · apply UInt8.toNat_inj.mp
      show b.toNat = 48
      omega
    · exact ih (fun x hx => hd x (by simp [hx])) (by omega) b hb

/-- A list of zeros is read as 0 or not at all. -/
theorem isizeLoop_zeros (t : Bytes) (h : ∀ b ∈ t, b = 48 ∨ b = 44 ∨ isOws b = true) :
    isizeLoop 0 false t = .ok (0, false) ∨ ∃ e, isizeLoop 0 false t = .err e := by
  induction t with
  | nil => exact .inl rfl
  | cons b t ih =>
    have key : ∀ b : UInt8, b = 48 ∨ b = 44 ∨ isOws b = true → b = 48 ∨ (isDigit b = false ∧ b ≠ 45) := by decide +kernel
    rcases key b (h b (by simp)) with rfl | ⟨h1, h2⟩
    · exact ih fun c hc => h c (by simp [hc])
    · right
      refine ⟨.intoError, ?_⟩
      rw [isizeLoop, h1]
      simp [h2]

/-- What `get_body_len` says if the lines of `Content-Length` list one numeral only. -/
theorem bodyLen_list {m : HeaderMap} {vs : List Bytes} {s t : Bytes} (hg : m.get? (asciiBytes "content-length") = some t) (ht : t ∈ vs)
    (hs : isDecimalText s = true) (he : ∀ e ∈ elementsOf vs, e = s) :
    m.bodyLen = .ok (decVal s : Int) ↔ decVal s = 0 ∨ (IsNumeral t (decVal s) ∧ decVal s < 2 ^ 63) := by
  obtain ⟨hs0, hsd⟩ := (isDecimalText_iff s).mp hs
  constructor
  · intro h
    by_cases h0 : decVal s = 0
    · exact .inl h0
    · right
      unfold HeaderMap.bodyLen at h
      rw [hg] at h
      simp only at h
      cases hi : (HeaderValue.value t).toIsize with
      | panic => rw [hi] at h; simp at h
      | err e => rw [hi] at h; simp only [Res.ok.injEq] at h; omega
      | ok k =>
        rw [hi] at h
        simp only [Res.ok.injEq] at h
        subst h
        obtain ⟨z, ds, h1, h2, h3, h4, h5⟩ := (C43_isize_partial t _).mp hi
        have hz : (45 : UInt8) ∉ z := by
          intro hz; rw [if_pos hz] at h5; omega
        rw [if_neg hz] at h5
        have h5' : decVal s = decVal ds := by omega
        have hz' : ∀ b ∈ z, b = 48 := fun b hb => (h2 b hb).resolve_left fun e => hz (e ▸ hb)
        have hval : ∀ z : Bytes, (∀ b ∈ z, b = 48) → decVal (z ++ ds) = decVal ds := by
          intro z hz
          induction z with
          | nil => rfl
          | cons b z ih =>
            rw [List.cons_append, decVal, ih fun c hc => hz c (by simp [hc]), hz b (by simp)]
            simp
        refine ⟨⟨?_, ?_, ?_⟩, by omega⟩
        · rintro rfl
          have hx := List.append_eq_nil_iff.mp h1.symm
          rw [hx.2] at h5'
          simp [decVal] at h5'; exact h0 h5'
        · rw [h1]
          intro b hb
          rcases List.mem_append.mp hb with hb | hb
          · rw [hz' b hb]; decide
          · exact h3 b hb
        · rw [h1, hval z hz', h5']
  · rintro (h0 | ⟨h1, h2⟩)
    · have hb : ∀ b ∈ t, b = 48 ∨ b = 44 ∨ isOws b = true := by
        intro b hb
        by_cases h44 : b = 44
        · exact .inr (.inl h44)
        · cases ho : isOws b with
          | true => exact .inr (.inr rfl)
          | false =>
            obtain ⟨e, he1, he2, he3⟩ := byte_elements hb h44 ho
            have : e = s := he e (by
              unfold elementsOf
              exact List.mem_filter.mpr ⟨List.mem_flatMap.mpr ⟨t, ht, he1⟩, by simpa using he2⟩)
            rw [this] at he3
            exact .inl (decVal_zero hsd h0 b he3)
      unfold HeaderMap.bodyLen
      rw [hg, h0]
      simp only [HeaderValue.toIsize]
      rcases isizeLoop_zeros t hb with h | ⟨e, h⟩ <;> rw [h] <;> rfl
    · exact (C43_body_len_partial m).2 t _ hg h1 h2

theorem requestBody_length_cases {fields : List (Header × Bytes × Bytes)} {n : Nat} (h : requestBody fields = .length n) :
    valuesOf fields (asciiBytes "transfer-encoding") = [] ∧
    ((valuesOf fields (asciiBytes "content-length") = [] ∧ n = 0) ∨
      (valuesOf fields (asciiBytes "content-length") ≠ [] ∧ ∃ s, isDecimalText s = true ∧ decVal s = n ∧
        ∀ e ∈ elementsOf (valuesOf fields (asciiBytes "content-length")), e = s)) := by
  unfold requestBody at h
  split at h
  · split at h
    · split at h <;> cases h
    · cases h
  · rename_i hte
    refine ⟨by simpa using hte, ?_⟩
    split at h
    · rename_i hcl
      exact .inl ⟨hcl, by cases h; rfl⟩
    · rename_i hcl
      refine .inr ⟨hcl, ?_⟩
      split at h
      · cases h
      · rename_i s ss hss
        split at h
        · rename_i hc
          simp only [Bool.and_eq_true, List.all_eq_true, beq_iff_eq] at hc
          refine ⟨s, hc.1, by cases h; rfl, ?_⟩
          rw [hss]
          intro e he
          rcases List.mem_cons.mp he with rfl | he
          · rfl
          · exact hc.2 e he
        · cases h

theorem length_taken {m : HeaderMap} {fields : List (Header × Bytes × Bytes)} {n : Nat} (h : requestBody fields = .length n)
    (h3 : m.get? (asciiBytes "content-length") = (valuesOf fields (asciiBytes "content-length")).getLast?) :
    m.bodyLen = .ok (n : Int) ↔
      n = 0 ∨ ∃ t, (valuesOf fields (asciiBytes "content-length")).getLast? = some t ∧ IsNumeral t n ∧ n < 2 ^ 63 := by
  obtain ⟨-, hcl | ⟨hne, s, hs, rfl, he⟩⟩ := requestBody_length_cases h
  · obtain ⟨hcl, rfl⟩ := hcl
    have := (C43_body_len_partial m).1 (by rw [h3, hcl]; rfl)
    simp [this]
  · cases hl : (valuesOf fields (asciiBytes "content-length")).getLast? with
    | none => exact absurd (List.getLast?_eq_none_iff.mp hl) hne
    | some t =>
      rw [hl] at h3
      rw [bodyLen_list h3 (List.mem_of_getLast? hl) hs he]
      simp

/-- C96, exactly, for tidy blanks and names that are not confused: the body of an accepted request ends where RFC 9112 says if
and only if the last coding is `chunked` and the last line of codings has the word in lower case, or there is no body, or the last line of
`Content-Length` is the number and less than 2^63. -/
theorem C96_iff_partial (r0 : Request) (method target : Bytes) (v : Version) (fields : List (Header × Bytes × Bytes)) (head rest : Bytes)
    (m : Method) (url : Url) (h : IsRequestHead method target v fields head) (hm : ∃ k ∈ methodNames, k.1 = m ∧ asciiBytes k.2 = method)
    (hu : requestUrl m (storeAll (fields.map receivedField)) target = .ok url) (hb : ∀ f ∈ fields, TidyBlanks f)
    (hn : NamesUnambiguous (asciiBytes "transfer-encoding" :: asciiBytes "content-length" :: fields.map (·.1.1))) :
    ∃ r', r0.parseBuffer (head ++ rest) = (.ok head.length, r', rest) ∧
      (TakesBodyAs r'.header (requestBody fields) ↔
        (requestBody fields = .chunked ∧
          ∃ t, (valuesOf fields (asciiBytes "transfer-encoding")).getLast? = some t ∧ asciiBytes "chunked" <:+: t) ∨
        requestBody fields = .length 0 ∨
        ∃ t n, requestBody fields = .length n ∧ (valuesOf fields (asciiBytes "content-length")).getLast? = some t ∧ IsNumeral t n ∧ n < 2 ^ 63) := by
  obtain ⟨r', h1, h2, h3⟩ := C96_last_partial r0 method target v fields head rest m url h hm hu hb hn
  refine ⟨r', h1, ?_⟩
  cases hk : requestBody fields with
  | chunked => simpa [TakesBodyAs] using h2
  | invalid => simp [TakesBodyAs]
  | length n =>
    have hc : r'.header.isChunked = false := by
      cases hc : r'.header.isChunked with
      | false => rfl
      | true => obtain ⟨t, ht, _⟩ := h2.mp hc; rw [(requestBody_length_cases hk).1] at ht; simp at ht
    simp only [TakesBodyAs, hc, true_and]
    rw [length_taken hk h3]
    simp only [reduceCtorEq, false_and, false_or, BodyKind.length.injEq]
    constructor
    · rintro (h | ⟨t, h⟩)
      · exact .inl h
      · exact .inr ⟨t, n, rfl, h⟩
    · rintro (h | ⟨t, _, rfl, h⟩)
      · exact .inl h
      · exact .inr ⟨t, h⟩

/-- With the status set aside, RFC 9112 frames a response as a request but where it ends with the connection. -/
theorem responseBody_request {code : Nat} {fields : List (Header × Bytes × Bytes)} (hc : ¬ BodylessStatus code) :
    responseBody code fields =
      match requestBody fields with
      | .chunked => .chunked
      | .length n => if valuesOf fields (asciiBytes "content-length") = [] then .untilClose else .length n
      | .invalid => if valuesOf fields (asciiBytes "transfer-encoding") = [] then .invalid else .untilClose := by
  unfold responseBody requestBody
  rw [if_neg hc]
  by_cases hte : valuesOf fields (asciiBytes "transfer-encoding") = []
  · simp only [hte, ne_eq, not_true_eq_false, if_false, if_true]
    by_cases hcl : valuesOf fields (asciiBytes "content-length") = []
    · simp [hcl]
    · simp only [hcl, if_false]
      cases elementsOf (valuesOf fields (asciiBytes "content-length")) with
      | nil => rfl
      | cons s ss => by_cases hx : (isDecimalText s && ss.all (· == s)) = true <;> simp only [hx] <;> rfl
  · simp only [hte, ne_eq, not_false_eq_true, if_true, if_false]
    cases (elementsOf (valuesOf fields (asciiBytes "transfer-encoding"))).getLast? with
    | none => rfl
    | some c => by_cases hx : lower c = asciiBytes "chunked" <;> simp only [hx, if_true, if_false]

/-- C105, exactly, for responses that may have a body, tidy blanks and names that are not confused: the body ends where RFC 9112 says if and
only if the last coding is `chunked` and the last line of codings has the word in lower case, or there is another coding and the last line has not
the word and the length read from `Content-Length` is not 0, or there is no coding and the last line of `Content-Length` is the number and less than
2^63, or some list of zeros.  So never if there is neither field. -/
theorem C105_iff_partial (r0 : Response) (v : Version) (code : Nat) (reason : Bytes) (fields : List (Header × Bytes × Bytes)) (head rest : Bytes)
    (h : IsResponseHead v code reason fields head) (hr : IsPlainReason reason) (hb : ∀ f ∈ fields, TidyBlanks f)
    (hn : NamesUnambiguous (asciiBytes "transfer-encoding" :: asciiBytes "content-length" :: fields.map (·.1.1)))
    (hc : ¬ BodylessStatus code) :
    ∃ r', r0.parseBuffer (head ++ rest) = (.ok head.length, r', rest) ∧
      (TakesResponseBodyAs r'.header (responseBody code fields) ↔
        (responseBody code fields = .chunked ∧
          ∃ t, (valuesOf fields (asciiBytes "transfer-encoding")).getLast? = some t ∧ asciiBytes "chunked" <:+: t) ∨
        (∃ t, responseBody code fields = .untilClose ∧ (valuesOf fields (asciiBytes "transfer-encoding")).getLast? = some t ∧
          ¬ asciiBytes "chunked" <:+: t ∧ r'.header.bodyLen ≠ .ok 0) ∨
        responseBody code fields = .length 0 ∨
        ∃ t n, responseBody code fields = .length n ∧ (valuesOf fields (asciiBytes "content-length")).getLast? = some t ∧ IsNumeral t n ∧ n < 2 ^ 63) := by
  obtain ⟨r', h1, h2, h3⟩ := C105_last_partial r0 v code reason fields head rest h hr hb hn
  refine ⟨r', h1, ?_⟩
  have hkind := responseBody_request (fields := fields) hc
  cases hk : responseBody code fields with
  | none =>
    rw [hk] at hkind
    split at hkind
    · cases hkind
    · split at hkind <;> cases hkind
    · split at hkind <;> cases hkind
  | chunked => simpa [TakesResponseBodyAs] using h2
  | invalid => simp [TakesResponseBodyAs]
  | untilClose =>
    simp only [TakesResponseBodyAs, reduceCtorEq, false_and, false_or, or_false, exists_false, true_and]
    constructor
    · rintro ⟨a, b⟩
      cases hl : (valuesOf fields (asciiBytes "transfer-encoding")).getLast? with
      | some t =>
        refine ⟨t, rfl, fun ht => ?_, b⟩
        rw [h2.mpr ⟨t, hl, ht⟩] at a; cases a
      | none =>
        have hte := List.getLast?_eq_none_iff.mp hl
        have hcl : valuesOf fields (asciiBytes "content-length") = [] := by
          apply Classical.byContradiction
          intro hcl
          unfold responseBody at hk
          rw [if_neg hc, if_neg (by simp [hte]), if_neg hcl] at hk
          split at hk
          · cases hk
          · split at hk <;> cases hk
        exact absurd ((C43_body_len_partial r'.header).1 (by rw [h3, hcl]; rfl)) b
    · rintro ⟨t, ht, a, b⟩
      refine ⟨?_, b⟩
      cases hx : r'.header.isChunked with
      | false => rfl
      | true =>
        obtain ⟨t', ht', hin⟩ := h2.mp hx
        rw [ht, Option.some.injEq] at ht'
        subst ht'
        exact absurd hin a
  | length n =>
    have hreq : requestBody fields = .length n := by
      rw [hk] at hkind
      split at hkind
      · cases hkind
      · rename_i k hk'
        split at hkind
        · cases hkind
        · cases hkind; exact hk'
      · split at hkind <;> cases hkind
    have hx : r'.header.isChunked = false := by
      cases hx : r'.header.isChunked with
      | false => rfl
      | true => obtain ⟨t, ht, _⟩ := h2.mp hx; rw [(requestBody_length_cases hreq).1] at ht; simp at ht
    simp only [TakesResponseBodyAs, hx, true_and]
    rw [length_taken hreq h3]
    simp only [reduceCtorEq, false_and, false_or, exists_false, ResponseBodyKind.length.injEq]
    constructor
    · rintro (h | ⟨t, h⟩)
      · exact .inl h
      · exact .inr ⟨t, n, rfl, h⟩
    · rintro (h | ⟨t, _, rfl, h⟩)
      · exact .inl h
      · exact .inr ⟨t, h⟩

/-- Two equal lines of `Content-Length`, and a list of two zeros, which are right. -/
example : requestBody (spaced [(asciiBytes "Content-Length", asciiBytes "5"), (asciiBytes "content-length", asciiBytes "5")]) = .length 5 ∧
    (valuesOf (spaced [(asciiBytes "Content-Length", asciiBytes "5"), (asciiBytes "content-length", asciiBytes "5")])
      (asciiBytes "content-length")).getLast? = some (asciiBytes "5") ∧
    requestBody (spaced [(asciiBytes "Content-Length", asciiBytes "0, 0")]) = .length 0 ∧
    requestBody (spaced [(asciiBytes "Content-Length", asciiBytes "5, 5")]) = .length 5 ∧ ¬ IsNumeral (asciiBytes "5, 5") 5 := by
  refine ⟨by decide +kernel, by decide +kernel, by decide +kernel, by decide +kernel, fun h => ?_⟩
  have := h.2.1 44 (by decide +kernel)
  revert this; decide

end Webparse
