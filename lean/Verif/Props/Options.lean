import Verif.Spec.Options
import Verif.Proofs.Basic
import Verif.Props.HeaderMap

/-! # Lists in header values -/

namespace Webparse
open Spec

theorem splitComma_ne (v : Bytes) : ∃ p ps, splitComma v = p :: ps := by
  cases v with
  | nil => exact ⟨_, _, rfl⟩
  | cons b r =>
    unfold splitComma
    split
    · exact ⟨_, _, rfl⟩
    · split <;> exact ⟨_, _, rfl⟩

theorem splitComma_infix (v d : Bytes) (hd : d ≠ []) (hc : (44 : UInt8) ∉ d) :
    d <:+: v ↔ ∃ e ∈ splitComma v, d <:+: e := by
  have hpre : ∀ (v d : Bytes), (44 : UInt8) ∉ d → ∀ p ps, splitComma v = p :: ps → (d <+: v ↔ d <+: p) := by
    intro v
    induction v with
    | nil =>
      intro d _ p ps h
      simp only [splitComma, List.cons.injEq] at h
      rw [← h.1]
    | cons b r ih =>
      intro d hd p ps h
      obtain ⟨q, qs, hq⟩ := splitComma_ne r
      cases d with
      | nil => simp
      | cons c d =>
        simp only [List.mem_cons, not_or] at hd
        unfold splitComma at h
        split at h
        · rename_i hb
          simp only [List.cons.injEq] at h
          rw [← h.1]
          subst hb
          simp only [List.cons_prefix_cons, List.prefix_nil, reduceCtorEq, iff_false, not_and]
          exact fun e => absurd e.symm hd.1
        · rw [hq] at h
          simp only [List.cons.injEq] at h
          rw [← h.1, List.cons_prefix_cons, List.cons_prefix_cons, ih d hd.2 q qs hq]
  induction v with
  | nil => simp [splitComma]
  | cons b r ih =>
    obtain ⟨q, qs, hq⟩ := splitComma_ne r
    rw [List.infix_cons_iff]
    refine (or_congr_right ih).trans ?_
    by_cases hb : b = 44
    · have e : splitComma (b :: r) = [] :: splitComma r := by rw [splitComma, if_pos hb]
      rw [e]
      have h1 : ¬ d <+: b :: r := by
        rw [hpre _ d hc _ _ e]
        simpa using hd
      have h2 : ¬ d <:+: [] := by simpa using hd
      simp [h1, h2]
    · have e : splitComma (b :: r) = (b :: q) :: qs := by rw [splitComma, if_neg hb, hq]
      rw [hpre _ d hc _ _ e, e, hq]
      simp only [List.mem_cons, exists_eq_or_imp, List.infix_cons_iff]
      rw [or_assoc]

theorem dropOws_infix (v d : Bytes) (hd : d ≠ []) (hc : ∀ b ∈ d, isOws b = false) : d <:+: v.dropWhile isOws ↔ d <:+: v := by
  induction v with
  | nil => simp
  | cons b r ih =>
    by_cases hb : isOws b = true
    · rw [List.dropWhile_cons_of_pos hb, ih, List.infix_cons_iff]
      have : ¬ d <+: b :: r := by
        cases d with
        | nil => exact absurd rfl hd
        | cons c d =>
          rw [List.cons_prefix_cons]
          rintro ⟨rfl, _⟩
          rw [hc c (by simp)] at hb
          simp at hb
      simp [this]
    · rw [List.dropWhile_cons_of_neg hb]

theorem trimOws_infix (v d : Bytes) (hd : d ≠ []) (hc : ∀ b ∈ d, isOws b = false) : d <:+: trimOws v ↔ d <:+: v := by
  unfold trimOws
  rw [← List.reverse_infix, List.reverse_reverse, dropOws_infix _ _ (by simpa using hd) (by simpa using hc), List.reverse_infix,
    dropOws_infix _ _ hd hc]

theorem listElements_infix (v d : Bytes) (hd : d ≠ []) (hc : ∀ b ∈ d, isOws b = false) (h44 : (44 : UInt8) ∉ d) :
    d <:+: v ↔ ∃ e ∈ listElements v, d <:+: e := by
  rw [splitComma_infix v d hd h44]
  unfold listElements
  constructor
  · rintro ⟨e, he, h⟩
    exact ⟨trimOws e, List.mem_map.mpr ⟨e, he, rfl⟩, (trimOws_infix e d hd hc).mpr h⟩
  · rintro ⟨e', he', h⟩
    obtain ⟨e, he, rfl⟩ := List.mem_map.mp he'
    exact ⟨e, he, (trimOws_infix e d hd hc).mp h⟩

theorem contains_lists (v d : Bytes) (hd : d ≠ []) (hc : ∀ b ∈ d, isOws b = false) (h44 : (44 : UInt8) ∉ d) (hs : SpelledAs v d) :
    containsBytes v d = true ↔ Lists v d := by
  rw [containsBytes_iff, listElements_infix v d hd hc h44]
  constructor
  · rintro ⟨e, he, h⟩
    exact ⟨e, he, by rw [hs.2 e he h]⟩
  · rintro ⟨e, he, h⟩
    exact ⟨e, he, by rw [hs.1 e he h]; exact List.infix_rfl⟩

/-! ## C72 -/

/-- A message asks for a kept connection, an upgrade or chunks if the header lists the option. -/
def C72_statement : Prop :=
  ∀ (m : HeaderMap) (v : Bytes),
    (m.get? (asciiBytes "connection") = some v →
      (m.isKeepAlive = true ↔ Lists v (asciiBytes "keep-alive")) ∧
      ∀ u, m.get? (asciiBytes "upgrade") = some u → utf8Valid u = true → (m.upgradeProtocol = some u ↔ Lists v (asciiBytes "upgrade"))) ∧
    (m.get? (asciiBytes "transfer-encoding") = some v → (m.isChunked = true ↔ Lists v (asciiBytes "chunked")))

/-- It is false: `Connection: keep-alive`, as most clients write it, is not recognised. -/
theorem C72_violated : ¬ C72_statement := by
  intro h
  have := ((h [(asciiBytes "Connection", asciiBytes "keep-alive")] (asciiBytes "keep-alive")).1 (by decide +kernel)).1.mpr
    ⟨asciiBytes "keep-alive", by decide +kernel, rfl⟩
  exact absurd this (by decide +kernel)

/-- Nor is `Transfer-Encoding: Chunked`. -/
theorem C72_violated_case : HeaderMap.isChunked [(asciiBytes "Transfer-Encoding", asciiBytes "Chunked")] = false ∧
    Lists (asciiBytes "Chunked") (asciiBytes "chunked") := by
  refine ⟨by decide +kernel, asciiBytes "Chunked", by decide +kernel, by decide +kernel⟩

/-- While a coding that only has the word in it is. -/
theorem C72_violated_substring : HeaderMap.isChunked [(asciiBytes "Transfer-Encoding", asciiBytes "x-unchunked")] = true ∧
    ¬ Lists (asciiBytes "x-unchunked") (asciiBytes "chunked") := by
  refine ⟨by decide +kernel, ?_⟩
  rintro ⟨e, he, h⟩
  have h1 : listElements (asciiBytes "x-unchunked") = [asciiBytes "x-unchunked"] := by decide +kernel
  rw [h1] at he
  simp only [List.mem_singleton] at he
  subst he
  revert h
  decide +kernel

/-- It holds if the option is spelled as the code expects and no other element has the word inside. -/
theorem C72_spelled_partial (m : HeaderMap) (v : Bytes) :
    (m.get? (asciiBytes "connection") = some v → SpelledAs v (asciiBytes "Keep-Alive") →
      (m.isKeepAlive = true ↔ Lists v (asciiBytes "keep-alive"))) ∧
    (m.get? (asciiBytes "connection") = some v → SpelledAs v (asciiBytes "Upgrade") →
      ∀ u, m.get? (asciiBytes "upgrade") = some u → utf8Valid u = true → (m.upgradeProtocol = some u ↔ Lists v (asciiBytes "upgrade"))) ∧
    (m.get? (asciiBytes "transfer-encoding") = some v → SpelledAs v (asciiBytes "chunked") →
      (m.isChunked = true ↔ Lists v (asciiBytes "chunked"))) := by
  have hl : ∀ a b : Bytes, lower a = lower b → ∀ v, Lists v a ↔ Lists v b := by
    intro a b h v
    unfold Lists
    rw [h]
  refine ⟨fun h hs => ?_, fun h hs u hu hv => ?_, fun h hs => ?_⟩
  · rw [hl (asciiBytes "keep-alive") (asciiBytes "Keep-Alive") (by decide +kernel),
      ← contains_lists v _ (by decide +kernel) (by decide +kernel) (by decide +kernel) hs]
    simp only [HeaderMap.isKeepAlive, h]
  · rw [hl (asciiBytes "upgrade") (asciiBytes "Upgrade") (by decide +kernel),
      ← contains_lists v _ (by decide +kernel) (by decide +kernel) (by decide +kernel) hs]
    simp only [HeaderMap.upgradeProtocol, h, hu, valueAsString, hv, if_true]
    simp
  · rw [← contains_lists v _ (by decide +kernel) (by decide +kernel) (by decide +kernel) hs]
    simp only [HeaderMap.isChunked, h]

/-- Without the header nothing is asked for. -/
theorem C72_absent (m : HeaderMap) : (m.get? (asciiBytes "connection") = none → m.isKeepAlive = false ∧ m.upgradeProtocol = none) ∧
    (m.get? (asciiBytes "transfer-encoding") = none → m.isChunked = false) := by
  refine ⟨fun h => ⟨?_, ?_⟩, fun h => ?_⟩
  · simp [HeaderMap.isKeepAlive, h]
  · simp [HeaderMap.upgradeProtocol, h]
  · simp [HeaderMap.isChunked, h]

/-- `gzip, chunked` meets the hypothesis and lists it. -/
example : SpelledAs (asciiBytes "gzip,\tchunked ") (asciiBytes "chunked") ∧ Lists (asciiBytes "gzip,\tchunked ") (asciiBytes "chunked") := by
  have h : listElements (asciiBytes "gzip,\tchunked ") = [asciiBytes "gzip", asciiBytes "chunked"] := by decide +kernel
  unfold SpelledAs Lists
  rw [h]
  refine ⟨⟨by decide +kernel, ?_⟩, asciiBytes "chunked", by simp, rfl⟩
  intro e he hi
  simp only [List.mem_cons, List.not_mem_nil, or_false] at he
  rcases he with rfl | rfl
  · have := hi.length_le
    exact absurd this (by decide)
  · rfl

end Webparse
