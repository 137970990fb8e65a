import Verif.Spec.Ascii

/-! # Character classes of RFC 5234, RFC 3986, RFC 9110 and RFC 9112 -/

namespace Webparse.Spec

/-- The bytes of an ASCII text. -/
def oneOf (s : String) (b : UInt8) : Bool := (asciiBytes s).contains b

/-- RFC 5234, appendix B.1: `ALPHA`. -/
def isRfcAlpha (b : UInt8) : Bool := oneOf "ABCDEFGHIJKLMNOPQRSTUVWXYZabcdefghijklmnopqrstuvwxyz" b

/-- RFC 5234, appendix B.1: `DIGIT`. -/
def isRfcDigit (b : UInt8) : Bool := oneOf "0123456789" b

/-- RFC 5234, appendix B.1: `HEXDIG`, in either case. -/
def isRfcHexdig (b : UInt8) : Bool := isRfcDigit b || oneOf "ABCDEFabcdef" b

/-- RFC 3986, section 3.1: the characters of a scheme, the first apart. -/
def isSchemeChar (b : UInt8) : Bool := isRfcAlpha b || isRfcDigit b || oneOf "+-." b

/-- RFC 3986, section 2: unreserved characters, gen-delims, sub-delims and the percent sign. -/
def isUriChar (b : UInt8) : Bool :=
  isRfcAlpha b || isRfcDigit b || oneOf "-._~" b || oneOf ":/?#[]@" b || oneOf "!$&'()*+,;=" b || oneOf "%" b

/-- RFC 9112, section 4: the characters of a reason phrase: HTAB, SP, VCHAR and obs-text. -/
def isReasonChar (b : UInt8) : Bool := b.toNat == 9 || b.toNat == 32 || (33 ≤ b.toNat && b.toNat ≤ 126) || 128 ≤ b.toNat

end Webparse.Spec
