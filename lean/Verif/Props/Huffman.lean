import Verif.Proofs.HuffmanDecode

/-! C03, C04, C05: Huffman strings. -/

namespace Webparse

/-- C03: decoding the encoding of any byte string returns it. -/
theorem C03_roundtrip (s : Bytes) : huffDecode (huffEncode s) = .ok s := huffDecode_encode s

/-- C03: the encoder writes the RFC 7541 form: the code words one after the other, then ones up to
the byte boundary. -/
theorem C03_encode_meets_rfc (s : Bytes) : Spec.IsHuffmanOf (huffEncode s) (Spec.byteSyms s) :=
  huffEncode_bits s

/-- C03: the code table is the canonical code for its code lengths (as the RFC's is). -/
theorem C03_table_canonical (sym : Nat) (h : sym < 257) :
    (huffmanCodeArray.getD sym (0, 0)).1
      = Spec.canonicalCode (huffmanCodeArray.map (·.2)) sym :=
  huff_canonical sym h

example : huffEncode (asciiBytes "www.example.com")
    = [0xf1, 0xe3, 0xc2, 0xe5, 0xf2, 0x3a, 0x6b, 0xa0, 0xab, 0x90, 0xf4, 0xff] := by decide +kernel

/-- C04, full claim: a string accepted by the decoder is the encoding of what it decodes to. -/
def C04_statement : Prop := ∀ bs r, huffDecode bs = .ok r → bs = huffEncode r

/-- C04 is false: the EOS code word is accepted and decoded as byte 0. -/
theorem C04_violated : ¬ C04_statement := by
  intro h
  have h1 : huffDecode [0xff, 0xff, 0xff, 0xff] = .ok [0] := by decide +kernel
  have h2 := h _ _ h1
  have h3 : huffEncode [0] = [0xff, 0xc7] := by decide +kernel
  rw [h3] at h2
  simp at h2

/-- C04, exact description of what is accepted: code words of any symbols, EOS included (missing
for the full claim: EOS must be refused), then fewer than eight one bits. -/
theorem C04_accepts_exactly_partial (bs r : Bytes) : huffDecode bs = .ok r ↔
    ∃ syms, (∀ x ∈ syms, x ≤ 256) ∧ Spec.IsHuffmanOf bs syms ∧ r = syms.map UInt8.ofNat := by
  rw [huffDecode_exact]
  simp only [Nat.lt_succ_iff]

/-- C04, for inputs without EOS: an accepted string either contains the EOS code word at a symbol
boundary, or is exactly the encoding of the result. -/
theorem C04_canonical_partial (bs r : Bytes) (h : huffDecode bs = .ok r) :
    bs = huffEncode r ∨ ∃ syms, 256 ∈ syms ∧ Spec.IsHuffmanOf bs syms := by
  obtain ⟨syms, hs, hb, rfl⟩ := (huffDecode_exact bs r).mp h
  by_cases h256 : 256 ∈ syms
  · exact Or.inr ⟨syms, h256, hb⟩
  · left
    have : Spec.byteSyms (syms.map UInt8.ofNat) = syms := by
      simp only [Spec.byteSyms, List.map_map]
      conv_rhs => rw [← List.map_id syms]
      apply List.map_congr_left
      intro x hx
      have := hs x hx
      have hne : x ≠ 256 := fun e => h256 (e ▸ hx)
      simp
      omega
    have h2 := huffEncode_bits (syms.map UInt8.ofNat)
    rw [this] at h2
    exact isHuffman_unique hb h2

example : huffDecode [0xf1, 0xe3, 0xc2, 0xe5, 0xf2, 0x3a, 0x6b, 0xa0, 0xab, 0x90, 0xf4, 0xff]
    = .ok (asciiBytes "www.example.com") := by decide +kernel

/-- C05: the lower-casing encoder writes the encoding of the string with `A`-`Z` replaced by
`a`-`z`, which decodes to that string. -/
theorem C05_encode_lower (s : Bytes) :
    huffEncodeLower s = huffEncode (Spec.lower s) ∧ huffDecode (huffEncodeLower s) = .ok (Spec.lower s) := by
  have : nameHashInput s = Spec.lower s := nameHashInput_eq_lower s
  rw [huffEncodeLower_eq, this]
  exact ⟨rfl, huffDecode_encode _⟩

example : huffDecode (huffEncodeLower (asciiBytes "Cache-Control")) = .ok (asciiBytes "cache-control") := by
  decide +kernel

end Webparse
