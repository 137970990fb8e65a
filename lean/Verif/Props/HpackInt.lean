import Verif.Proofs.HpackInt

/-! C01, C02: HPACK integers. -/

namespace Webparse

/-- C01: what the encoder writes is a representation of the value in the sense of RFC 7541 5.1,
with the requested bits in front of the prefix. -/
theorem C01_encode_meets_rfc (N v : Nat) (lead : UInt8) (h1 : 1 ≤ N) (h8 : N ≤ 8) :
    Spec.intValue N (encodeInteger v N lead) = some v ∧
      ((encodeInteger v N lead).headD 0).toNat / 2 ^ N = lead.toNat / 2 ^ N := by
  refine ⟨encodeInteger_intValue h1 h8 lead, ?_⟩
  obtain ⟨b, rest, hb, hl⟩ := encodeInteger_lead (v := v) h1 h8 lead
  rw [hb]
  have key : ∀ b : UInt8, b.toNat / 2 ^ N = (b &&& ~~~prefixMask N).toNat / 2 ^ N := by
    interval_cases N <;> decide +kernel
  simp only [List.headD_cons]
  rw [key b, key lead, hl]

/-- C01: values within the decoder's limit (four continuation octets) are read back, whatever
follows. -/
theorem C01_roundtrip (N v : Nat) (lead : UInt8) (rest : Bytes) (h1 : 1 ≤ N) (h8 : N ≤ 8)
    (hv : v < 2 ^ N - 1 + 2 ^ 28) :
    decodeInteger (encodeInteger v N lead ++ rest) N
      = .ok (v, (encodeInteger v N lead).length) :=
  decodeInteger_encode h1 h8 lead hv rest

/-- C01: values above the limit are rejected, never decoded to something else. -/
theorem C01_too_large_rejected (N v : Nat) (lead : UInt8) (rest : Bytes) (h1 : 1 ≤ N) (h8 : N ≤ 8)
    (hv : 2 ^ N - 1 + 2 ^ 28 ≤ v) :
    decodeInteger (encodeInteger v N lead ++ rest) N = .err .intTooManyOctets :=
  decodeInteger_encode_big h1 h8 lead hv rest

example : encodeInteger 1337 5 0xE0 = [0xFF, 0x9A, 0x0A] := by decide +kernel
example : (1337 : Nat) < 2 ^ 5 - 1 + 2 ^ 28 ∧ 2 ^ 5 - 1 + 2 ^ 28 ≤ 300000000 := by decide

/-- C02: the decoder succeeds exactly when at most five octets at the front of the buffer form a
complete RFC 7541 integer; then it returns its value and those octets' number. -/
theorem C02_decode_exact (buf : Bytes) (N v n : Nat) (h1 : 1 ≤ N) (h8 : N ≤ 8) :
    decodeInteger buf N = .ok (v, n) ↔
      n ≤ 5 ∧ n ≤ buf.length ∧ Spec.intValue N (buf.take n) = some v :=
  decodeInteger_spec buf N v n h1 h8

/-- C02: one to five octets, inside the buffer, and independent of what follows. -/
theorem C02_decode_local (buf : Bytes) (N v n : Nat) (h : decodeInteger buf N = .ok (v, n)) :
    1 ≤ n ∧ n ≤ 5 ∧ n ≤ buf.length ∧ ∀ more, decodeInteger (buf.take n ++ more) N = .ok (v, n) :=
  decodeInteger_consumed h

/-- C02: a buffer that ends inside an integer is an error (any strict prefix of one is). -/
theorem C02_truncated_is_error (buf : Bytes) (N v n k : Nat)
    (h : decodeInteger buf N = .ok (v, n)) (hk : k < n) :
    ∃ e, decodeInteger (buf.take k) N = .err e := by
  cases hd : decodeInteger (buf.take k) N with
  | err e => exact ⟨e, rfl⟩
  | panic =>
    exact absurd hd (decodeInteger_no_panic _ _)
  | ok r =>
    exfalso
    obtain ⟨v', n'⟩ := r
    obtain ⟨_, _, hl, hmore⟩ := decodeInteger_consumed hd
    have h' := hmore (buf.drop n')
    have hle : n' ≤ k := le_trans hl (by simp)
    rw [List.take_take, min_eq_left hle, List.take_append_drop, h] at h'
    simp at h'
    omega

example : decodeInteger [0x1F, 0x9A, 0x0A, 0x55] 5 = .ok (1337, 3) := by decide +kernel

end Webparse
