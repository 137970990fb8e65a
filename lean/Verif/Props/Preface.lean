import Verif.Model.Preface
import Verif.Spec.Preface
import Verif.Props.Grammar
import Verif.Props.Pieces

/-!
# C112: the first word on a connection decides the protocol

A text is taken for a request only if its first word is a method, for a response only if its first word is a version, and the connection
preface of HTTP/2 is taken for neither, whatever follows it.
-/

namespace Webparse
open Spec

theorem method_unknown {w : Bytes} (h : ∀ k ∈ methodNames, asciiBytes k.2 ≠ w) : Method.tryFrom w = .err .httpMethod := by
  have hk : ∀ (m : Method) (s : String), (m, s) ∈ methodNames → ¬ w = asciiBytes s := fun m s hm e => h (m, s) hm e.symm
  unfold Method.tryFrom
  rw [if_neg (hk .get _ (by decide)), if_neg (hk .post _ (by decide)), if_neg (hk .put _ (by decide)), if_neg (hk .delete _ (by decide)),
    if_neg (hk .head _ (by decide)), if_neg (hk .options _ (by decide)), if_neg (hk .connect _ (by decide)), if_neg (hk .patch _ (by decide)),
    if_neg (hk .trace _ (by decide))]

theorem version_unknown {w : Bytes} (h : ∀ k ∈ versionNames, asciiBytes k.2 ≠ w) : versionOfToken w = .err .httpVersion := by
  have hk : ∀ (m : Version) (s : String), (m, s) ∈ versionNames → ¬ w = asciiBytes s := fun m s hm e => h (m, s) hm e.symm
  unfold versionOfToken
  rw [if_neg (hk .http10 _ (by decide)), if_neg (hk .http11 _ (by decide)), if_neg (hk .http2 _ (by decide)), if_neg (hk .http3 _ (by decide))]

theorem first_word {lines w x : Bytes} {c : UInt8} (hl : BlankLines lines) (hw : IsWord w) (hc : EndsWord c) :
    skipEmptyLines (lines ++ w ++ c :: x) = (.ok (), w ++ c :: x) ∧ parseToken (w ++ c :: x) = (.ok w, c :: x) := by
  have ht := (token_bytes w).mpr hw.2
  refine ⟨(skipEmptyLines_iff _ _).mpr ⟨lines, hl, by simp, (token_starts hw.1 ht).1⟩, parseToken_eq hw.1 ht ?_ x⟩
  cases h : isToken c with
  | false => rfl
  | true => exact absurd ((token_bytes [c]).mp (by simp [h]) c (by simp)) hc

/-- A text whose first word is no method is rejected as a request as soon as that word has ended, whatever follows. -/
theorem C112_request_word (r : Request) (lines w x : Bytes) (c : UInt8) (hl : BlankLines lines) (hw : IsWord w) (hc : EndsWord c)
    (h : ∀ k ∈ methodNames, asciiBytes k.2 ≠ w) : (r.parseBuffer (lines ++ w ++ c :: x)).1 = .err .httpMethod := by
  obtain ⟨h1, h2⟩ := first_word (x := x) hl hw hc
  unfold Request.parseBuffer Request.parseHead parseMethod onToken
  simp only [h1, h2, thenDo, thenRead, method_unknown h, countRead]

/-- A text whose first word is no version is rejected as a response as soon as that word has ended, whatever follows. -/
theorem C112_response_word (r : Response) (lines w x : Bytes) (c : UInt8) (hl : BlankLines lines) (hw : IsWord w) (hc : EndsWord c)
    (h : ∀ k ∈ versionNames, asciiBytes k.2 ≠ w) : (r.parseBuffer (lines ++ w ++ c :: x)).1 = .err .httpVersion := by
  obtain ⟨h1, h2⟩ := first_word (x := x) hl hw hc
  unfold Response.parseBuffer Response.parseHead parseVersion onToken
  simp only [h1, h2, thenDo, thenRead, version_unknown h, countRead]

theorem method_words : ∀ k ∈ methodNames, IsWord (asciiBytes k.2) ∧ ∀ n ∈ versionNames, asciiBytes n.2 ≠ asciiBytes k.2 := by
  unfold IsWord; decide +kernel

theorem version_words : ∀ k ∈ versionNames, IsWord (asciiBytes k.2) ∧ ∀ n ∈ methodNames, asciiBytes n.2 ≠ asciiBytes k.2 := by
  unfold IsWord; decide +kernel

/-- What is accepted as a request is rejected as a response, with everything that may follow. -/
theorem C112_request_not_response (r r' : Request) (q : Response) (buf rest x : Bytes) (n : Nat) (h : r.parseBuffer buf = (.ok n, r', rest)) :
    (q.parseBuffer (buf ++ x)).1 = .err .httpVersion := by
  obtain ⟨m, target, v, hs, head, url, ⟨lines, a, b, e, text, hl, ha, ha', -, -, -, -, -, -, vn, -, -, k, hk, -, rfl⟩, rfl, -⟩ :=
    (C74_request_iff_partial r r' buf rest n).mp h
  obtain ⟨c, a, rfl⟩ := List.exists_cons_of_ne_nil ha'
  obtain rfl : c = 32 := ha c (by simp)
  obtain ⟨k1, k2⟩ := method_words k hk
  have := C112_response_word q lines _ (a ++ (target ++ (b ++ (asciiBytes vn.2 ++ (e ++ (text ++ (rest ++ x))))))) 32 hl k1 (by unfold EndsWord; decide) k2
  simpa using this

/-- What is accepted as a response is rejected as a request, with everything that may follow. -/
theorem C112_response_not_request (r r' : Response) (q : Request) (buf rest x : Bytes) (n : Nat) (h : r.parseBuffer buf = (.ok n, r', rest)) :
    (q.parseBuffer (buf ++ x)).1 = .err .httpMethod := by
  obtain ⟨v, code, hs, head, ⟨lines, a, b, reason, e, text, hl, ha, ha', -, -, -, -, -, -, -, -, -, vn, hvn, -, rfl⟩, rfl, -⟩ :=
    (C74_response_iff_partial r r' buf rest n).mp h
  obtain ⟨c, a, rfl⟩ := List.exists_cons_of_ne_nil ha'
  obtain rfl : c = 32 := ha c (by simp)
  obtain ⟨k1, k2⟩ := version_words vn hvn
  have := C112_request_word q lines _ (a ++ (threeDigits code ++ (b ++ (reason ++ (e ++ (text ++ (rest ++ x))))))) 32 hl k1 (by unfold EndsWord; decide) k2
  simpa using this

/-- The constant is the connection preface, and its length is 24. -/
theorem C112_magic : http2Magic = preface ∧ magicLen = 24 := by decide +kernel

/-- The connection preface is rejected as a request and as a response from its fourth octet on, however it is cut and whatever follows. -/
theorem C112_preface (r : Request) (q : Response) (k : Nat) (hk : 4 ≤ k) (x : Bytes) :
    (r.parseBuffer (http2Magic.take k ++ x)).1 = .err .httpMethod ∧ (q.parseBuffer (http2Magic.take k ++ x)).1 = .err .httpVersion := by
  have e : http2Magic.take k ++ x = [] ++ asciiBytes "PRI" ++ 32 :: ((http2Magic.drop 4).take (k - 4) ++ x) := by
    have : http2Magic = asciiBytes "PRI" ++ [32] ++ http2Magic.drop 4 := by decide +kernel
    have hl : List.length (asciiBytes "PRI" ++ [32] : Bytes) = 4 := by decide
    conv_lhs => rw [this]
    rw [List.take_append, List.take_of_length_le (by rw [hl]; exact hk), hl]
    simp
  have hw : IsWord (asciiBytes "PRI") := by unfold IsWord; decide +kernel
  have hc : EndsWord 32 := by unfold EndsWord; decide
  rw [e]
  exact ⟨C112_request_word r [] _ _ 32 .nil hw hc (by decide +kernel), C112_response_word q [] _ _ 32 .nil hw hc (by decide +kernel)⟩

/-- Before its fourth octet the preface could still be anything: both parsers ask for more. -/
theorem C112_preface_start (r : Request) (q : Response) (k : Nat) (hk : k < 4) :
    (r.parseBuffer (http2Magic.take k)).1 = .err .partialData ∧ (q.parseBuffer (http2Magic.take k)).1 = .err .partialData := by
  rw [(request_sameOutcome r {} _).1, (response_sameOutcome q {} _).1]
  have : ∀ k : Fin 4, (({} : Request).parseBuffer (http2Magic.take k.val)).1 = .err .partialData ∧
      (({} : Response).parseBuffer (http2Magic.take k.val)).1 = .err .partialData := by decide +kernel
  exact this ⟨k, hk⟩

/-- No request and no response that is accepted begins with the preface. -/
theorem C112_accepted (r r' : Request) (q q' : Response) (buf rest : Bytes) (n : Nat) :
    (r.parseBuffer buf = (.ok n, r', rest) → ¬ preface <+: buf) ∧ (q.parseBuffer buf = (.ok n, q', rest) → ¬ preface <+: buf) := by
  have e : http2Magic.take 24 = preface := by decide +kernel
  constructor
  · rintro h ⟨x, rfl⟩
    have := (C112_preface r q 24 (by omega) x).1
    rw [e, h] at this
    simp at this
  · rintro h ⟨x, rfl⟩
    have := (C112_preface r q 24 (by omega) x).2
    rw [e, h] at this
    simp at this

/-- A first word that is no method, after an empty line, and one that is. -/
example : (({} : Request).parseBuffer (asciiBytes "\r\nPROPFIND /")).1 = .err .httpMethod ∧
    (({} : Request).parseBuffer (asciiBytes "\r\nGET / HTTP/1.1\r\n\r\n")).1 = .ok 20 := by decide +kernel

end Webparse
