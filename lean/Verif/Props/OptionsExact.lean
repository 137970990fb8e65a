import Verif.Props.Options

/-! # C72, exactly: when a connection option or a coding is recognised -/

namespace Webparse
open Spec

theorem contains_elements (v d : Bytes) (hd : d ≠ []) (hc : ∀ b ∈ d, isOws b = false) (h44 : (44 : UInt8) ∉ d) :
    containsBytes v d = true ↔ ∃ e ∈ listElements v, ∃ p s, e = p ++ d ++ s := by
  rw [containsBytes_iff, listElements_infix v d hd hc h44]
  constructor
  · rintro ⟨e, he, p, s, h⟩
    exact ⟨e, he, p, s, h.symm⟩
  · rintro ⟨e, he, p, s, h⟩
    exact ⟨e, he, p, s, h.symm⟩

/-- An option is recognised exactly if some element of the list has the word somewhere inside, in the code's spelling.  Missing for C72:
options in another spelling, and elements that have more than the word. -/
theorem C72_elements_iff_partial (m : HeaderMap) (v : Bytes) :
    (m.get? (asciiBytes "connection") = some v →
      (m.isKeepAlive = true ↔ ∃ e ∈ listElements v, ∃ p s, e = p ++ asciiBytes "Keep-Alive" ++ s) ∧
      ∀ u, m.get? (asciiBytes "upgrade") = some u → utf8Valid u = true →
        (m.upgradeProtocol = some u ↔ ∃ e ∈ listElements v, ∃ p s, e = p ++ asciiBytes "Upgrade" ++ s)) ∧
    (m.get? (asciiBytes "transfer-encoding") = some v →
      (m.isChunked = true ↔ ∃ e ∈ listElements v, ∃ p s, e = p ++ asciiBytes "chunked" ++ s)) := by
  refine ⟨fun h => ⟨?_, fun u hu hv => ?_⟩, fun h => ?_⟩
  · rw [← contains_elements v _ (by decide +kernel) (by decide +kernel) (by decide +kernel)]
    simp only [HeaderMap.isKeepAlive, h]
  · rw [← contains_elements v _ (by decide +kernel) (by decide +kernel) (by decide +kernel), C53_upgrade, h, hu, C53_contains]
    simp [hv]
  · rw [← contains_elements v _ (by decide +kernel) (by decide +kernel) (by decide +kernel)]
    simp only [HeaderMap.isChunked, h]

/-- So C72 holds of a coding exactly if it is listed and some element has the word inside, or neither. -/
theorem C72_chunked_iff_partial (m : HeaderMap) (v : Bytes) (h : m.get? (asciiBytes "transfer-encoding") = some v) :
    (m.isChunked = true ↔ Lists v (asciiBytes "chunked")) ↔
      ((∃ e ∈ listElements v, ∃ p s, e = p ++ asciiBytes "chunked" ++ s) ↔ ∃ e ∈ listElements v, lower e = asciiBytes "chunked") := by
  have hl : lower (asciiBytes "chunked") = asciiBytes "chunked" := by decide +kernel
  rw [(C72_elements_iff_partial m v).2 h]
  unfold Lists
  rw [hl]

/-- Of a value of one element: exactly if it is the word, or not the word in any spelling and without it inside. -/
theorem C72_one_iff_partial (m : HeaderMap) (v e : Bytes) (h : m.get? (asciiBytes "transfer-encoding") = some v) (hv : listElements v = [e]) :
    (m.isChunked = true ↔ Lists v (asciiBytes "chunked")) ↔
      e = asciiBytes "chunked" ∨ (lower e ≠ asciiBytes "chunked" ∧ ¬ ∃ p s, e = p ++ asciiBytes "chunked" ++ s) := by
  rw [C72_chunked_iff_partial m v h, hv]
  simp only [List.mem_singleton, exists_eq_left]
  have hl : lower (asciiBytes "chunked") = asciiBytes "chunked" := by decide +kernel
  constructor
  · intro hi
    by_cases he : lower e = asciiBytes "chunked"
    · obtain ⟨p, s, hps⟩ := hi.mpr he
      have h1 := congrArg List.length he
      have h2 := congrArg List.length hps
      simp only [lower, List.length_map, List.length_append] at h1 h2
      have hp : p = [] := List.length_eq_zero_iff.mp (by omega)
      have hs : s = [] := List.length_eq_zero_iff.mp (by omega)
      exact .inl (by rw [hps, hp, hs]; simp)
    · exact .inr ⟨he, fun h => he (hi.mp h)⟩
  · rintro (rfl | ⟨h1, h2⟩)
    · exact ⟨fun _ => hl, fun _ => ⟨[], [], by simp⟩⟩
    · exact ⟨fun h => absurd h h2, fun h => absurd h h1⟩

/-- Values of one element: the word, another spelling, and another coding. -/
example : HeaderMap.get? [(asciiBytes "Transfer-Encoding", asciiBytes " chunked")] (asciiBytes "transfer-encoding") = some (asciiBytes " chunked") ∧
    listElements (asciiBytes " chunked") = [asciiBytes "chunked"] ∧ listElements (asciiBytes "Chunked") = [asciiBytes "Chunked"] ∧
    listElements (asciiBytes "gzip") = [asciiBytes "gzip"] := by decide +kernel

end Webparse
