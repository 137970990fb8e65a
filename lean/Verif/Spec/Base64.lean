import Verif.Spec.Huffman

/-! RFC 4648, section 5, without padding, on bits. -/

namespace Webparse.Spec

/-- The characters of the alphabet, in order. -/
def base64url : Bytes := asciiBytes "ABCDEFGHIJKLMNOPQRSTUVWXYZabcdefghijklmnopqrstuvwxyz0123456789-_"

/-- `text` stands for `bytes`: the bits of the bytes, filled up with fewer than six zero bits, in groups
of six, each group written as the character of its number. -/
def IsBase64Url (text bytes : Bytes) : Prop :=
  ∃ ds : List Nat, text.map some = ds.map (fun d => base64url[d]?) ∧
    ∃ k, k < 6 ∧ ds.flatMap (toBits 6) = bitsOf bytes ++ List.replicate k false

end Webparse.Spec
