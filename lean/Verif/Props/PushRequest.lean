import Verif.Model.PushRequest
import Verif.Spec.PushRequest
import Verif.Proofs.HeaderMap
import Verif.Props.Http1

/-!
# C97: checking a request before it is promised

The full claim: `PushPromise::validate_request` accepts the requests that RFC 9113 8.4 lets a server promise, and no others.
-/

namespace Webparse
open Spec

/-- C97, the full claim. -/
def C97_statement : Prop := ∀ r : Request, validateRequest r = .ok () ↔ Promisable r

theorem safeAndCacheable_iff (m : Method) : safeAndCacheable m = true ↔ PromisableMethod m := by
  unfold PromisableMethod safeAndCacheable safeMethods cacheableMethods
  cases m <;> simp

theorem validateRequest_iff (r : Request) :
    validateRequest r = .ok () ↔ PromisableMethod r.method ∧ ∃ n, r.header.bodyLen = .ok n ∧ n ≠ 0 := by
  unfold validateRequest
  rw [Res.bind_eq_ok, ← safeAndCacheable_iff]
  constructor
  · rintro ⟨n, h1, h2⟩
    split at h2
    · cases h2
    · rename_i hn
      split at h2
      · cases h2
      · rename_i hm
        exact ⟨by simpa using hm, n, h1, hn⟩
  · rintro ⟨h1, n, h2, h3⟩
    exact ⟨n, h2, by rw [if_neg h3, h1]; rfl⟩

/-- C97, partial: no request with a method that is not safe or not cacheable is accepted. -/
theorem C97_method_partial (r : Request) (h : validateRequest r = .ok ()) : PromisableMethod r.method :=
  ((validateRequest_iff r).mp h).1

/-- The other half is the wrong way round: with at most one `Content-Length`, a request with a safe and cacheable method is
accepted exactly if it has content. -/
theorem C97_violated_reversed (r : Request) (h : OneContentLength r.header) :
    validateRequest r = .ok () ↔ PromisableMethod r.method ∧ ¬ NoContent r.header := by
  obtain ⟨h1, h2, h3⟩ := h
  have key : ∀ e ∈ r.header, nameEq e.1 (asciiBytes "content-length") = true ↔ lower e.1 = asciiBytes "content-length" := by
    intro e he
    rw [nameEq_iff_lower (h1 e he)]
    have : lower (asciiBytes "content-length") = asciiBytes "content-length" := by decide +kernel
    rw [this]
  rw [validateRequest_iff, and_congr_right_iff]
  intro _
  by_cases hc : ∃ e ∈ r.header, lower e.1 = asciiBytes "content-length"
  · obtain ⟨e, he, hl⟩ := hc
    obtain ⟨n, hn, hlt⟩ := h2 e he hl
    have hg : r.header.get? (asciiBytes "content-length") = some e.2 := by
      unfold HeaderMap.get?
      cases hf : r.header.find? fun e => nameEq e.1 (asciiBytes "content-length") with
      | none =>
        have := List.find?_eq_none.mp hf e he
        exact absurd ((key e he).mpr hl) (by simpa using this)
      | some e' =>
        have hm := List.mem_of_find?_eq_some hf
        have := List.find?_some hf
        rw [h3 e' hm e he ((key e' hm).mp this) hl]
        rfl
    rw [(C43_body_len_partial r.header).2 e.2 n hg hn hlt]
    constructor
    · rintro ⟨k, hk, hne⟩ hno
      have := (hno e he hl).2.2
      rw [hn.2.2] at this
      simp only [Res.ok.injEq] at hk
      omega
    · intro hno
      refine ⟨n, rfl, fun h0 => hno ?_⟩
      intro e' he' hl'
      rw [h3 e' he' e he hl' hl]
      have : n = 0 := by omega
      rw [← this]
      exact hn
  · have hno : ∀ e ∈ r.header, lower e.1 ≠ asciiBytes "content-length" := fun e he hl => hc ⟨e, he, hl⟩
    have hg : r.header.get? (asciiBytes "content-length") = none := by
      apply get?_none_of
      intro e he
      cases hq : nameEq e.1 (asciiBytes "content-length") with
      | false => rfl
      | true => exact absurd ((key e he).mp hq) (hno e he)
    rw [(C43_body_len_partial r.header).1 hg]
    constructor
    · rintro ⟨k, hk, hne⟩
      simp only [Res.ok.injEq] at hk
      exact absurd hk.symm hne
    · intro h
      exact absurd (fun e he hl => absurd hl (hno e he)) h

/-- C97 is violated: no request that may be promised is accepted. -/
theorem C97_violated_refused (r : Request) (h : OneContentLength r.header) (hp : Promisable r) :
    validateRequest r = .err .payloadLengthTooShort := by
  have hno := mt (C97_violated_reversed r h).mp fun hx => hx.2 hp.2
  have hb : r.header.bodyLen = .ok 0 := by
    by_cases hq : r.header.bodyLen = .ok 0
    · exact hq
    · exfalso
      cases hb : r.header.bodyLen with
      | ok n => exact hno ((validateRequest_iff r).mpr ⟨hp.1, n, hb, fun h0 => hq (by rw [hb, h0])⟩)
      | err e => unfold HeaderMap.bodyLen at hb; repeat' split at hb
                 all_goals cases hb
      | panic =>
        unfold HeaderMap.bodyLen at hb
        split at hb
        · cases hb
        · rename_i v hg
          unfold HeaderMap.get? at hg
          obtain ⟨e, he, rfl⟩ := Option.map_eq_some_iff.mp hg
          have hm := List.mem_of_find?_eq_some he
          have hl := List.find?_some he
          have hl' : lower e.1 = asciiBytes "content-length" := by
            rw [nameEq_unambiguous (h.1 e hm) hl]
            decide +kernel
          rw [C43_isize_reads_partial e.2 (0 : Nat) (Or.inl ⟨0, hp.2 e hm hl', rfl⟩) ⟨by omega, by omega⟩] at hb
          cases hb
  unfold validateRequest
  rw [hb]
  rfl

/-- C97 is violated: a GET request with content is accepted, whatever its length. -/
theorem C97_violated_content (n : Nat) (h0 : 0 < n) (hn : n < 2 ^ 63) (url : Url) :
    validateRequest { method := .get, header := [(asciiBytes "Content-Length", decimal n)], url } = .ok () ∧
    ¬ Promisable { method := .get, header := [(asciiBytes "Content-Length", decimal n)], url } := by
  have hs : IsNumeral (decimal n) n := by
    obtain ⟨h1, h2, h3⟩ := decimal_spec n
    exact ⟨h1, (allDigits_iff _).mpr h2, by rw [← digitsVal_dec h2]; exact h3⟩
  have hl : lower (asciiBytes "Content-Length") = asciiBytes "content-length" := by decide +kernel
  have hp : ¬ NoContent [(asciiBytes "Content-Length", decimal n)] := by
    intro h
    have := (h _ (List.mem_singleton.mpr rfl) hl).2.2
    rw [hs.2.2] at this
    omega
  refine ⟨?_, fun h => hp h.2⟩
  rw [validateRequest_iff]
  refine ⟨show PromisableMethod .get by unfold PromisableMethod; decide, n, ?_, by omega⟩
  refine (C43_body_len_partial _).2 (decimal n) n ?_ hs hn
  rw [get?_cons, if_pos (show nameEq (asciiBytes "Content-Length") (asciiBytes "content-length") = true by decide +kernel)]

theorem C97_violated : ¬ C97_statement := by
  intro h
  have := (h { method := .get }).mpr ⟨by unfold PromisableMethod; decide, by simp [NoContent]⟩
  revert this
  decide +kernel

/-- Requests that may be promised and meet the hypotheses: with and without `Content-Length: 0`. -/
example : Promisable { method := .head, header := [(asciiBytes "Accept", asciiBytes "*/*"), (asciiBytes "content-length", asciiBytes "0")] } ∧
    OneContentLength [(asciiBytes "content-length", asciiBytes "0")] ∧ OneContentLength [] := by
  have n0 : IsNumeral (asciiBytes "0") 0 := ⟨by decide +kernel, by unfold AllDigits; decide +kernel, by decide +kernel⟩
  refine ⟨⟨by unfold PromisableMethod; decide, ?_⟩, ⟨?_, ?_, ?_⟩, by simp [OneContentLength]⟩
  · intro h hm hl
    simp only [List.mem_cons, List.not_mem_nil, or_false] at hm
    rcases hm with rfl | rfl
    · exact absurd hl (by decide +kernel)
    · exact n0
  · intro h hm
    rw [List.mem_singleton.mp hm]
    intro _ _
    rfl
  · intro h hm _
    rw [List.mem_singleton.mp hm]
    exact ⟨0, n0, by decide⟩
  · intro h hm h' hm' _ _
    rw [List.mem_singleton.mp hm, List.mem_singleton.mp hm']

end Webparse
