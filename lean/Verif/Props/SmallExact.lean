import Verif.Props.Url
import Verif.Props.Builder
import Verif.Proofs.Utf8Spec

/-! # Exact conditions: C47 (percent-decoding), C51 (schemes), C65 (`set_url`) -/

namespace Webparse
open Spec

/-- C51, exactly: the text of a scheme converts to that scheme if and only if it has at most 64 bytes and the scheme is
neither `None` nor an extension with the name of a known scheme. -/
theorem C51_iff_partial (s : Scheme) : Scheme.tryFrom s.asStr = .ok s ↔
    s.asStr.length ≤ 64 ∧ s ≠ .none ∧ ∀ e ∈ schemeNames, s ≠ .extension (asciiBytes e.2) := by
  constructor
  · intro h
    obtain ⟨-, h1, h2, h3⟩ := tryFrom_asStr h
    exact ⟨h2, h1, fun e he hs => h3 _ hs e he rfl⟩
  · rintro ⟨h1, h2, h3⟩
    exact C51_roundtrip_partial s h1 h2 h3

/-- C47, exactly: a well-escaped text gives what it stands for if and only if that is UTF-8. -/
theorem C47_iff_partial (s v : Bytes) (h : Decodes s v) : urlDecode s = .ok v ↔ IsUtf8 v := by
  rw [C47_result_partial s v h, Res.ok.injEq, lossy_eq_iff]

/-- C65, exactly: after `set_url` with host and port the Host header is that host and port if and only if there was
no Host header or it said so already. -/
theorem C65_set_url_iff_partial (r : Request) (u : Url) (d : Bytes) (p : Nat) (hd : u.domain = some d) (hp : u.port = some p) :
    (r.setUrl u).header.get? (asciiBytes "Host") = some (d ++ [58] ++ decimal p) ↔
    ∀ v, r.header.get? (asciiBytes "Host") = some v → v = d ++ [58] ++ decimal p := by
  rw [(C65_set_url_partial r u d p hd hp).2]
  cases r.header.get? (asciiBytes "Host") with
  | none => simp
  | some v => simp

/-- Both sides of each condition are met by something. -/
example : Scheme.tryFrom (Scheme.extension (asciiBytes "gopher")).asStr = .ok (.extension (asciiBytes "gopher")) ∧
    Scheme.tryFrom (Scheme.extension (asciiBytes "http")).asStr ≠ .ok (.extension (asciiBytes "http")) := by decide +kernel

example : Decodes (asciiBytes "%FF") [0xFF] ∧ Decodes (asciiBytes "%41") (asciiBytes "A") :=
  ⟨Decodes.escape (x := 70) (y := 70) (t := 15) (u := 15) (by decide) (by decide) .nil,
    Decodes.escape (x := 52) (y := 49) (t := 4) (u := 1) (by decide) (by decide) .nil⟩

end Webparse
