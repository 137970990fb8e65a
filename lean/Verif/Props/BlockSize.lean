import Verif.Spec.BlockSize
import Verif.Props.SharedIndex

/-!
# C124: a header block is not longer than the header list
-/

namespace Webparse
open Spec Spec.Rfc

/-- C124: the block written for a header list is no longer than the size of that list. -/
def C124_statement : Prop := ∀ (t t' : HeaderIndex) (hs : List Header) (b : Bytes), TableInv t → t.maxSize < 2 ^ 64 → InMemory hs →
  encodeHeaders t hs = .ok (b, t') → b.length ≤ headerListSize hs

/-! ## Lengths of integers and strings -/

theorem tail_octets (v : Nat) : (encodeIntegerTail v).length = digits128 v := by
  induction v using Nat.strongRecOn with
  | _ v ih =>
    unfold encodeIntegerTail digits128
    by_cases h : 128 ≤ v
    · rw [if_pos h, if_neg (by omega), List.length_cons, ih _ (by omega)]
    · rw [if_neg h, if_pos (by omega)]
      rfl

theorem integer_octets {p v : Nat} (h1 : 1 ≤ p) (h8 : p ≤ 8) (lead : UInt8) : (encodeInteger v p lead).length = integerOctets p v := by
  unfold encodeInteger integerOctets
  simp only [prefixMask_toNat h1 h8]
  by_cases h : v < 2 ^ p - 1
  · rw [if_pos h, if_pos h]; rfl
  · rw [if_neg h, if_neg h, List.length_cons, tail_octets, Nat.add_comm]

theorem huff_octets (s : Bytes) : (huffEncode s).length = huffmanOctets s := by
  obtain ⟨k, hk, hb⟩ := huffEncode_bits s
  have := congrArg List.length hb
  rw [bitsOf_length, List.length_append, List.length_replicate] at this
  unfold huffmanOctets huffmanBits
  omega

/-- C124: exactly how long a string is written: always in Huffman code, whether that is shorter or not. -/
theorem C124_string_partial (s : Bytes) : (encodeStringLiteral s).length = integerOctets 7 (huffmanOctets s) + huffmanOctets s := by
  unfold encodeStringLiteral
  simp only [List.length_append, huff_octets]
  rw [integer_octets (by decide) (by decide)]

theorem digits128_le (k : Nat) : ∀ v, v < 128 ^ (k + 1) → digits128 v ≤ k + 1 := by
  induction k with
  | zero => intro v h; unfold digits128; rw [if_pos (by simpa using h)]
  | succ k ih =>
    intro v h
    unfold digits128
    by_cases hv : v < 128
    · rw [if_pos hv]; omega
    · rw [if_neg hv]
      have := ih (v / 128) (by rw [Nat.div_lt_iff_lt_mul (by decide)]; rw [Nat.pow_succ] at h; exact h)
      omega

theorem integerOctets_le {p v : Nat} (h : v < 2 ^ 70) : integerOctets p v ≤ 11 := by
  unfold integerOctets
  by_cases hv : v < 2 ^ p - 1
  · rw [if_pos hv]; decide
  · rw [if_neg hv]
    have := digits128_le 9 (v - (2 ^ p - 1)) (by have : (128 : Nat) ^ (9 + 1) = 2 ^ 70 := by decide
                                                 omega)
    omega

theorem integerOctets_pos (p v : Nat) : 1 ≤ integerOctets p v := by
  unfold integerOctets
  by_cases hv : v < 2 ^ p - 1
  · rw [if_pos hv]
  · rw [if_neg hv]; omega

theorem huffmanBits_le (s : Bytes) : huffmanBits s ≤ 30 * s.length := by
  have := codesBits_length_le (byteSyms s) (byteSyms_lt s)
  simpa [huffmanBits, byteSyms] using this

theorem find_index_le {t : HeaderIndex} {h : Header} {i : Nat} {c : Bool} (hf : findHeader t h = some (i, c)) : i ≤ 61 + t.table.length := by
  unfold findHeader at hf
  simp only at hf
  by_cases hv : staticHash h.1 ≠ []
  · rw [if_pos hv] at hf
    cases h1 : staticHashFind (staticHash h.1) h.2 with
    | some j =>
      rw [h1] at hf
      simp only [Option.some.injEq, Prod.mk.injEq] at hf
      obtain ⟨rfl, -⟩ := hf
      have := (staticHash_mem (staticHashFind_mem h1)).2.1
      omega
    | none =>
      rw [h1] at hf
      cases h2 : staticHashFind (staticHash h.1) [] with
      | some j =>
        rw [h2] at hf
        simp only [Option.some.injEq, Prod.mk.injEq] at hf
        obtain ⟨rfl, -⟩ := hf
        have := (staticHash_mem (staticHashFind_mem h2)).2.1
        omega
      | none => rw [h2] at hf; simp at hf
  · rw [if_neg hv] at hf
    cases h1 : t.table.findIdx? (fun e => nameEq e.1 h.1 && e.2 == h.2) with
    | none => rw [h1] at hf; simp at hf
    | some j =>
      rw [h1] at hf
      simp only [Option.some.injEq, Prod.mk.injEq, staticTable_length] at hf
      have := (List.findIdx?_eq_some_iff_findIdx_eq.mp h1).1
      omega

theorem table_length_le (l : List Header) : 32 * l.length ≤ tableSize l := by
  induction l with
  | nil => simp [tableSize]
  | cons h l ih => simp only [tableSize, List.map_cons, List.sum_cons, List.length_cons] at *; omega

/-- One header: an index, or an index for the name and the value, or both as strings. -/
theorem header_octets {t t' : HeaderIndex} {h : Header} {b : Bytes} (ht : TableInv t) (hm : t.maxSize < 2 ^ 64)
    (hh : h.1.length + h.2.length < 2 ^ 63) (he : encodeHeader t h = .ok (b, t')) :
    TableInv t' ∧ t'.maxSize = t.maxSize ∧
      b.length ≤ 23 + huffmanOctets (lower h.1) + huffmanOctets h.2 := by
  have b1 := huffmanBits_le (lower h.1)
  have b2 := huffmanBits_le h.2
  have hl : (lower h.1).length = h.1.length := by simp [lower]
  rw [hl] at b1
  have o1 : huffmanOctets (lower h.1) < 2 ^ 70 := by unfold huffmanOctets; omega
  have o2 : huffmanOctets h.2 < 2 ^ 70 := by unfold huffmanOctets; omega
  have i1 := integerOctets_le (p := 7) o1
  have i2 := integerOctets_le (p := 7) o2
  have hidx : ∀ {i c}, findHeader t h = some (i, c) → i < 2 ^ 70 := by
    intro i c hf
    have h1 := find_index_le hf
    have h2 := table_length_le t.table
    have h3 := ht.1
    have h4 := ht.2
    unfold SizeOk at h3
    omega
  obtain ⟨t1, ha, hi, hx, -⟩ := addHeader_spec t h ht.1
  unfold encodeHeader at he
  cases hf : findHeader t h with
  | none =>
    rw [hf] at he
    simp only [ha, Res.bind_ok, Res.ok.injEq, Prod.mk.injEq] at he
    obtain ⟨rfl, rfl⟩ := he
    refine ⟨hi, hx, ?_⟩
    simp only [encodeLiteral, List.length_append, List.length_cons, List.length_nil, encodeStringLiteralLower_eq, C124_string_partial]
    omega
  | some x =>
    obtain ⟨i, c⟩ := x
    rw [hf] at he
    have hi' := hidx hf
    cases c with
    | true =>
      simp only [Res.ok.injEq, Prod.mk.injEq] at he
      obtain ⟨rfl, rfl⟩ := he
      refine ⟨ht, rfl, ?_⟩
      have := integerOctets_le (p := 7) hi'
      rw [encodeIndexed, integer_octets (by decide) (by decide)]
      omega
    | false =>
      simp only [ha, Res.bind_ok, Res.ok.injEq, Prod.mk.injEq] at he
      obtain ⟨rfl, rfl⟩ := he
      refine ⟨hi, hx, ?_⟩
      have := integerOctets_le (p := 6) hi'
      simp only [encodeIndexedName, List.length_append, C124_string_partial, if_true]
      rw [integer_octets (by decide) (by decide)]
      omega

/-- Blocks, for any bound on each header. -/
theorem block_octets (f : Header → Nat) (hs : List Header) : ∀ (t t' : HeaderIndex) (b : Bytes), TableInv t → t.maxSize < 2 ^ 64 → InMemory hs →
    (∀ h ∈ hs, 23 + huffmanOctets (lower h.1) + huffmanOctets h.2 ≤ f h) → encodeHeaders t hs = .ok (b, t') → b.length ≤ (hs.map f).sum := by
  induction hs with
  | nil =>
    intro t t' b _ _ _ _ he
    simp only [encodeHeaders, Res.ok.injEq, Prod.mk.injEq] at he
    obtain ⟨rfl, -⟩ := he
    simp
  | cons h hs ih =>
    intro t t' b ht hm hmem hf he
    simp only [encodeHeaders] at he
    obtain ⟨⟨b1, t1⟩, h1, he⟩ := (Res.bind_eq_ok ..).mp he
    obtain ⟨⟨b2, t2⟩, h2, he⟩ := (Res.bind_eq_ok ..).mp he
    simp only [Res.ok.injEq, Prod.mk.injEq] at he
    obtain ⟨rfl, rfl⟩ := he
    obtain ⟨hi, hx, hlen⟩ := header_octets ht hm (hmem _ (by simp)) h1
    have h3 := ih t1 t2 b2 hi (by omega) (fun x hx => hmem x (by simp [hx])) (fun x hx => hf x (by simp [hx])) h2
    have h4 := hf h (by simp)
    simp only [List.map_cons, List.sum_cons, List.length_append]
    omega

theorem sum_scale (k : Nat) (f : Header → Nat) (hs : List Header) : (hs.map fun h => k * f h).sum = k * (hs.map f).sum := by
  induction hs with
  | nil => simp
  | cons h hs ih => simp only [List.map_cons, List.sum_cons, ih, Nat.mul_add]

/-- C124: whatever is sent, the block is no longer than four times the size of the list. -/
theorem C124_bound_partial (t t' : HeaderIndex) (hs : List Header) (b : Bytes) (ht : TableInv t) (hm : t.maxSize < 2 ^ 64) (hmem : InMemory hs)
    (he : encodeHeaders t hs = .ok (b, t')) : b.length ≤ 4 * headerListSize hs := by
  have := block_octets (fun h => 4 * (h.1.length + h.2.length + 32)) hs t t' b ht hm hmem (by
    intro h _
    have b1 := huffmanBits_le (lower h.1)
    have b2 := huffmanBits_le h.2
    have hl : (lower h.1).length = h.1.length := by simp [lower]
    rw [hl] at b1
    unfold huffmanOctets
    omega) he
  rwa [sum_scale 4 (fun h => h.1.length + h.2.length + 32)] at this

/-- C124: it is no longer than the size of the list if in each field the code words take no more than eight bits for a character on the whole. -/
theorem C124_text_partial (t t' : HeaderIndex) (hs : List Header) (b : Bytes) (ht : TableInv t) (hm : t.maxSize < 2 ^ 64) (hmem : InMemory hs)
    (htext : ∀ h ∈ hs, huffmanBits (lower h.1) + huffmanBits h.2 ≤ 8 * (h.1.length + h.2.length))
    (he : encodeHeaders t hs = .ok (b, t')) : b.length ≤ headerListSize hs := by
  refine block_octets (fun h => h.1.length + h.2.length + 32) hs t t' b ht hm hmem ?_ he
  intro h hh
  have := htext h hh
  unfold huffmanOctets
  omega

/-! ## Texts that are not ASCII -/

theorem high_bits (c : UInt8) (h : 128 ≤ c) : 19 ≤ (codeBits c.toNat).length := by
  revert c; decide +kernel

theorem huffmanBits_high (v : Bytes) (h : ∀ c ∈ v, 128 ≤ c) : 19 * v.length ≤ huffmanBits v := by
  induction v with
  | nil => simp
  | cons c v ih =>
    have h1 := high_bits c (h c (by simp))
    have h2 := ih fun x hx => h x (by simp [hx])
    have : huffmanBits (c :: v) = (codeBits c.toNat).length + huffmanBits v := by simp [huffmanBits, byteSyms, codesBits]
    rw [this, List.length_cons]
    omega

/-- C124 is false for every value outside ASCII that is long enough: each byte takes 19 bits or more. -/
theorem C124_violated_value (t : HeaderIndex) (ht : TableInv t) (h : Header) (hn : findHeader t h = none) (hv : ∀ c ∈ h.2, 128 ≤ c)
    (hlen : 8 * headerListSize [h] ≤ 19 * h.2.length) : ∃ b t', encodeHeaders t [h] = .ok (b, t') ∧ headerListSize [h] < b.length := by
  obtain ⟨t1, ha, -⟩ := addHeader_spec t h ht.1
  refine ⟨_, t1, send_new hn ha, ?_⟩
  have := huffmanBits_high h.2 hv
  have p1 := integerOctets_pos 7 (huffmanOctets h.2)
  simp only [encodeLiteral, List.length_append, List.length_cons, List.length_nil, C124_string_partial]
  have : huffmanOctets h.2 * 8 + 7 ≥ huffmanBits h.2 := by unfold huffmanOctets; omega
  omega

theorem C124_violated : ¬ C124_statement := by
  intro h
  obtain ⟨b, t', he, hl⟩ := C124_violated_value {} ⟨rfl, by decide⟩ (asciiBytes "x", List.replicate 25 0xe4) (by decide +kernel) (by decide +kernel)
    (by decide +kernel)
  have := h {} t' _ b ⟨rfl, by decide⟩ (by decide) (by intro x hx; simp at hx; rw [hx]; decide +kernel) he
  omega

/-- A text of letters, digits and blanks. -/
example : ∃ b t', encodeHeaders {} [(asciiBytes "X-Title", asciiBytes "a plain text of 2023")] = .ok (b, t') ∧
    b.length ≤ headerListSize [(asciiBytes "X-Title", asciiBytes "a plain text of 2023")] := by
  have he := send_new (t := {}) (h := (asciiBytes "X-Title", asciiBytes "a plain text of 2023")) (by decide +kernel)
    (addHeader_fits (by decide +kernel))
  refine ⟨_, _, he, C124_text_partial {} _ _ _ ⟨rfl, by decide⟩ (by decide) ?_ ?_ he⟩
  · intro x hx; simp at hx; rw [hx]; decide +kernel
  · intro x hx; simp at hx; rw [hx]; decide +kernel

end Webparse
