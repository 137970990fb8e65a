import Verif.Spec.ByteClass
import Verif.Model.Helper
import Verif.Proofs.Basic

/-! # C119: the character classes of `Helper` -/

namespace Webparse
open Spec

/-- C119, as the names and comments of the functions have it: each class is that of the RFC. -/
def C119_classes_statement : Prop :=
  ∀ b : UInt8, isAlpha b = isRfcAlpha b ∧ isDigit b = isRfcDigit b ∧ isHex b = isRfcHexdig b ∧ isSchemeToken b = isSchemeChar b ∧
    isHeaderNameToken b = isTchar b ∧ isToken b = isTchar b ∧ isUriToken b = isUriChar b ∧ isStatusToken b = isReasonChar b

/-- C119: letters, digits, hexadecimal digits, the characters of schemes and of header names are those of the RFCs. -/
theorem C119_right (b : UInt8) : isAlpha b = isRfcAlpha b ∧ isDigit b = isRfcDigit b ∧ isHex b = isRfcHexdig b ∧
    isSchemeToken b = isSchemeChar b ∧ isHeaderNameToken b = isTchar b := by
  revert b
  decide +kernel

/-- C119 is violated: the comma is no token character, the caret no URI character, and a reason phrase may have UTF-8 in it. -/
theorem C119_violated : (isToken 44 = true ∧ isTchar 44 = false) ∧ (isUriToken 94 = true ∧ isUriChar 94 = false) ∧
    (isStatusToken 195 = false ∧ isReasonChar 195 = true) ∧ ¬ C119_classes_statement := by
  refine ⟨by decide +kernel, by decide +kernel, by decide +kernel, fun h => ?_⟩
  exact absurd (h 44).2.2.2.2.2.1 (by decide +kernel)

/-- C119, partial and exact: `is_token` has the characters of a token and the delimiters of RFC 9110, section 5.6.2, and no others.  Missing:
the delimiters are let through. -/
theorem C119_token_iff_partial (b : UInt8) : isToken b = true ↔ isTchar b = true ∨ oneOf "\"(),/:;<=>?@[\\]{}" b = true := by
  revert b
  decide +kernel

/-- C119, partial and exact: `is_uri_token` has the characters of a URI and seven more.  Missing: those seven. -/
theorem C119_uri_iff_partial (b : UInt8) : isUriToken b = true ↔ isUriChar b = true ∨ oneOf "\"\\^`{|}" b = true := by
  revert b
  decide +kernel

/-- C119, partial and exact: `is_status_token` has the characters of a reason phrase but for the tab and obs-text.  Missing: those. -/
theorem C119_reason_iff_partial (b : UInt8) : isReasonChar b = true ↔ isStatusToken b = true ∨ b = 9 ∨ 128 ≤ b.toNat := by
  revert b
  decide +kernel

/-- C119: none of the classes has a control character or a byte beyond ASCII, so no scanned token holds a line end. -/
theorem C119_no_controls (b : UInt8) (h : b.toNat < 32 ∨ 127 ≤ b.toNat) :
    isToken b = false ∧ isUriToken b = false ∧ isStatusToken b = false ∧ isSchemeToken b = false ∧ isHeaderNameToken b = false := by
  revert b
  decide +kernel

example : (10 : UInt8).toNat < 32 ∨ 127 ≤ (10 : UInt8).toNat := by decide

end Webparse
