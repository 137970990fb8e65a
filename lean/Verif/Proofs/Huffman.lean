import Verif.Model.HpackPrim
import Verif.Spec.Huffman
import Verif.Proofs.Basic
import Mathlib.Tactic.Ring
import Mathlib.Tactic.Linarith

/-! Lemmas about Huffman coding. -/

namespace Webparse
open Spec

theorem byteBits_eq (b : UInt8) : byteBits b = toBits 8 b.toNat := by
  revert b; decide +kernel

theorem bytesBits_eq (bs : Bytes) : bytesBits bs = bitsOf bs := by
  simp only [bytesBits, bitsOf]
  congr 1; funext b; exact byteBits_eq b

@[simp] theorem toBits_length (w n : Nat) : (toBits w n).length = w := by
  induction w <;> simp [toBits, *]

theorem toBits_mod (w n k : Nat) (h : w ≤ k) : toBits w (n % 2 ^ k) = toBits w n := by
  induction w with
  | zero => rfl
  | succ w ih =>
    simp only [toBits]
    rw [ih (by omega)]
    congr 2
    obtain ⟨d, rfl⟩ : ∃ d, k = w + 1 + d := ⟨k - (w + 1), by omega⟩
    have : 2 ^ (w + 1 + d) = 2 ^ w * (2 * 2 ^ d) := by rw [Nat.pow_add, Nat.pow_succ]; ring
    rw [this, Nat.mod_mul_right_div_self, Nat.mod_mul_right_mod]

theorem toBits_add (a b n : Nat) : toBits (a + b) n = toBits a (n / 2 ^ b) ++ toBits b n := by
  induction a with
  | zero => simp [toBits]
  | succ a ih =>
    have : a + 1 + b = (a + b) + 1 := by omega
    rw [this]
    simp only [toBits, List.cons_append]
    rw [ih, Nat.div_div_eq_div_mul, ← Nat.pow_add, Nat.add_comm b a]

theorem toBits_ones (w : Nat) : toBits w (2 ^ w - 1) = List.replicate w true := by
  suffices h : ∀ k, toBits w (2 ^ (w + k) - 1) = List.replicate w true from h 0
  induction w with
  | zero => intro k; rfl
  | succ w ih =>
    intro k
    simp only [toBits, List.replicate_succ]
    have e : w + 1 + k = w + (k + 1) := by omega
    rw [e, ih (k + 1)]
    congr 1
    have hp : 2 ^ (w + (k + 1)) - 1 = 2 ^ w * (2 ^ (k + 1) - 1) + (2 ^ w - 1) := by
      have h1 : 1 ≤ 2 ^ (k + 1) := Nat.one_le_two_pow
      have h2 : 1 ≤ 2 ^ w := Nat.one_le_two_pow
      rw [Nat.pow_add, Nat.mul_sub]
      have : 2 ^ w * 1 ≤ 2 ^ w * 2 ^ (k + 1) := Nat.mul_le_mul_left _ h1
      omega
    have h2 : 1 ≤ 2 ^ w := Nat.one_le_two_pow
    rw [hp, Nat.mul_add_div (by omega), Nat.div_eq_of_lt (a := 2 ^ w - 1) (by omega)]
    have : 1 ≤ 2 ^ k := Nat.one_le_two_pow
    rw [Nat.pow_succ]
    simp
    omega

/-- Facts about the whole table. -/
theorem huff_table_len : huffmanCodeArray.length = 257 := by decide +kernel

theorem huff_len_le : ∀ e ∈ huffmanCodeArray, 5 ≤ e.2 ∧ e.2 ≤ 30 ∧ e.1 < 2 ^ e.2 := by
  decide +kernel

theorem huff_entry (b : Nat) (h : b < 257) :
    5 ≤ (huffmanCodeArray.getD b (0, 0)).2 ∧ (huffmanCodeArray.getD b (0, 0)).2 ≤ 30 ∧
    (huffmanCodeArray.getD b (0, 0)).1 < 2 ^ (huffmanCodeArray.getD b (0, 0)).2 := by
  apply huff_len_le
  have hb : b < huffmanCodeArray.length := by rw [huff_table_len]; exact h
  rw [List.getD_eq_getElem?_getD, List.getElem?_eq_getElem hb, Option.getD_some]
  exact List.getElem_mem _

/-- The encoder's accumulator `bits` holds the pending bits `v` (`40 - left` of them) just above
position `left`; whatever is above bit 40 has been emitted already. -/
def Acc (bits left v : Nat) : Prop :=
  ∃ H, bits = H * 2 ^ 40 + v * 2 ^ left ∧ v < 2 ^ (40 - left) ∧ left ≤ 40

theorem huffEmit_left (bits left : Nat) (h : left ≤ 40) :
    33 ≤ (huffEmit bits left).2.2 ∧ (huffEmit bits left).2.2 ≤ 40 := by
  induction hn : 40 - left using Nat.strongRecOn generalizing bits left with
  | ind n ih =>
    rw [huffEmit]
    split
    · exact ih (40 - (left + 8)) (by omega) _ _ (by omega) rfl
    · simp; omega

theorem huffEmit_acc (bits left v : Nat) (h : Acc bits left v) :
    ∃ v', Acc (huffEmit bits left).2.1 (huffEmit bits left).2.2 v' ∧
      bitsOf (huffEmit bits left).1 ++ toBits (40 - (huffEmit bits left).2.2) v'
        = toBits (40 - left) v := by
  obtain ⟨H, hb, hv, hl⟩ := h
  induction hn : 40 - left using Nat.strongRecOn generalizing bits left v H with
  | ind n ih =>
    rw [huffEmit]
    split
    · rename_i h32
      have hsplit : 2 ^ (40 - left) = 2 ^ 8 * 2 ^ (32 - left) := by
        rw [← Nat.pow_add]; congr 1; omega
      have h40 : (2 : Nat) ^ 40 = 2 ^ 8 * 2 ^ 32 := by norm_num
      have h32' : (2 : Nat) ^ 32 = 2 ^ (32 - left) * 2 ^ left := by
        rw [← Nat.pow_add]; congr 1; omega
      set q := v / 2 ^ (32 - left) with hq
      set r := v % 2 ^ (32 - left) with hr
      have hvqr : v = 2 ^ (32 - left) * q + r := (Nat.div_add_mod _ _).symm
      have hrlt : r < 2 ^ (32 - left) := Nat.mod_lt _ (Nat.pos_of_ne_zero (by simp))
      have hqlt : q < 2 ^ 8 := by
        rw [hq, Nat.div_lt_iff_lt_mul (Nat.pos_of_ne_zero (by simp)), ← hsplit]; exact hv
      -- the byte
      have hbyte : (UInt8.ofNat (bits / 2 ^ 32)).toNat = q := by
        rw [UInt8.toNat_ofNat']
        have : bits = 2 ^ 32 * (2 ^ 8 * H + q) + r * 2 ^ left := by
          rw [hb, h40]
          conv_lhs => rw [hvqr]
          rw [Nat.add_mul, Nat.mul_add]
          rw [show 2 ^ (32 - left) * q * 2 ^ left = (2 ^ (32 - left) * 2 ^ left) * q by ring, ← h32']
          ring
        have hlt : r * 2 ^ left < 2 ^ 32 := by
          rw [h32']; exact Nat.mul_lt_mul_of_pos_right hrlt (Nat.pos_of_ne_zero (by simp))
        rw [this, Nat.mul_add_div (by norm_num), Nat.div_eq_of_lt hlt]
        omega
      -- the new accumulator
      have hnew : ∃ H', bits * 256 % 2 ^ 64 = H' * 2 ^ 40 + r * 2 ^ (left + 8) := by
        have e1 : bits * 256 = (256 * H + q) * 2 ^ 40 + r * 2 ^ (left + 8) := by
          rw [hb]
          conv_lhs => rw [hvqr]
          rw [Nat.add_mul, Nat.add_mul, Nat.add_mul, Nat.pow_add 2 left 8]
          rw [show 2 ^ (32 - left) * q * 2 ^ left * 256 = (2 ^ (32 - left) * 2 ^ left) * (q * 256) by ring, ← h32']
          ring
        have hlt : r * 2 ^ (left + 8) < 2 ^ 40 := by
          have : (2 : Nat) ^ 40 = 2 ^ (32 - left) * 2 ^ (left + 8) := by
            rw [← Nat.pow_add]; congr 1; omega
          rw [this]
          exact Nat.mul_lt_mul_of_pos_right hrlt (Nat.pos_of_ne_zero (by simp))
        refine ⟨(256 * H + q) % 2 ^ 24, ?_⟩
        rw [e1]
        generalize r * 2 ^ (left + 8) = x at *
        generalize 256 * H + q = y at *
        omega
      obtain ⟨H', hnew⟩ := hnew
      have hv' : r < 2 ^ (40 - (left + 8)) := by
        have : 40 - (left + 8) = 32 - left := by omega
        rw [this]; exact hrlt
      obtain ⟨v', ha, hbits⟩ := ih (40 - (left + 8)) (by omega) _ _ r H' hnew hv' (by omega) rfl
      refine ⟨v', ha, ?_⟩
      simp only
      have hcons : ∀ (b : UInt8) (l : Bytes), bitsOf (b :: l) = toBits 8 b.toNat ++ bitsOf l := by
        intro b l; simp [bitsOf]
      rw [hcons, List.append_assoc, hbits, hbyte]
      have hn8 : n = 8 + (32 - left) := by omega
      have : 40 - (left + 8) = 32 - left := by omega
      rw [hn8, toBits_add, this, hr, toBits_mod _ _ _ (le_refl _)]
    · subst hn
      exact ⟨v, ⟨H, hb, hv, hl⟩, by simp [bitsOf]⟩

theorem or_add (H v left n c : Nat) (hn : n ≤ left) (hl : left ≤ 40) (hc : c < 2 ^ n) :
    (H * 2 ^ 40 + v * 2 ^ left) ||| c * 2 ^ (left - n)
      = H * 2 ^ 40 + (v * 2 ^ n + c) * 2 ^ (left - n) := by
  have hlt : c * 2 ^ (left - n) < 2 ^ left := by
    calc c * 2 ^ (left - n) < 2 ^ n * 2 ^ (left - n) :=
          Nat.mul_lt_mul_of_pos_right hc (Nat.pos_of_ne_zero (by simp))
      _ = 2 ^ left := by rw [← Nat.pow_add]; congr 1; omega
  have h40 : (2 : Nat) ^ 40 = 2 ^ left * 2 ^ (40 - left) := by
    rw [← Nat.pow_add]; congr 1; omega
  have e : H * 2 ^ 40 + v * 2 ^ left = 2 ^ left * (H * 2 ^ (40 - left) + v) := by
    rw [h40]; ring
  rw [e, ← Nat.two_pow_add_eq_or_of_lt hlt, ← e]
  have : 2 ^ left = 2 ^ n * 2 ^ (left - n) := by rw [← Nat.pow_add]; congr 1; omega
  rw [Nat.add_mul, Nat.mul_assoc, ← this, Nat.add_assoc]

theorem huffEncodeLoop_bits (src : Bytes) : ∀ (bits left v : Nat), Acc bits left v → 33 ≤ left →
    ∃ k, k < 8 ∧ toBits (40 - left) v ++ codesBits (byteSyms src) ++ List.replicate k true
      = bitsOf (huffEncodeLoop src bits left) := by
  induction src with
  | nil =>
    rintro bits left v ⟨H, hb, hv, hl⟩ h33
    simp only [huffEncodeLoop]
    by_cases h : left = 40
    · subst h
      refine ⟨0, by omega, ?_⟩
      simp [toBits, bitsOf, codesBits, byteSyms]
    · rw [if_pos h]
      refine ⟨left - 32, by omega, ?_⟩
      simp only [bitsOf, List.flatMap_cons, List.flatMap_nil, List.append_nil, byteSyms, codesBits,
        List.map_nil]
      have hor := or_add H v left left (2 ^ left - 1) (le_refl _) hl
        (by have : 1 ≤ 2 ^ left := Nat.one_le_two_pow
            omega)
      simp only [Nat.sub_self, Nat.pow_zero, Nat.mul_one] at hor
      rw [hb, hor, UInt8.toNat_ofNat']
      have h8 : 8 = (40 - left) + (left - 32) := by omega
      have e1 : (2:Nat) ^ left = 2 ^ (left - 32) * 2 ^ 32 := by rw [← Nat.pow_add]; congr 1; omega
      have h1 : 1 ≤ 2 ^ (left - 32) := Nat.one_le_two_pow
      have e2 : 2 ^ left - 1 = (2 ^ (left - 32) - 1) * 2 ^ 32 + (2 ^ 32 - 1) := by
        rw [e1, Nat.sub_mul]; generalize 2 ^ (left - 32) = c at *; omega
      have hdiv : (H * 2 ^ 40 + (v * 2 ^ left + (2 ^ left - 1))) / 2 ^ 32
          = H * 256 + (v * 2 ^ (left - 32) + (2 ^ (left - 32) - 1)) := by
        rw [e2, e1]
        have : H * 2 ^ 40 + (v * (2 ^ (left - 32) * 2 ^ 32) + ((2 ^ (left - 32) - 1) * 2 ^ 32 + (2 ^ 32 - 1)))
          = 2 ^ 32 * (H * 256 + (v * 2 ^ (left - 32) + (2 ^ (left - 32) - 1))) + (2 ^ 32 - 1) := by
          generalize 2 ^ (left - 32) - 1 = d
          generalize 2 ^ (left - 32) = c
          ring_nf
        rw [this, Nat.mul_add_div (by norm_num), Nat.div_eq_of_lt (by norm_num), Nat.add_zero]
      rw [hdiv]
      have hm : ∀ x, toBits 8 (x % 2 ^ 8) = toBits 8 x := fun x => toBits_mod 8 x 8 (le_refl _)
      rw [hm]
      have : toBits 8 (H * 256 + (v * 2 ^ (left - 32) + (2 ^ (left - 32) - 1)))
          = toBits 8 (v * 2 ^ (left - 32) + (2 ^ (left - 32) - 1)) := by
        rw [← hm (H * 256 + _), ← hm (v * _ + _)]
        congr 1
        generalize v * 2 ^ (left - 32) + (2 ^ (left - 32) - 1) = y
        omega
      rw [this, h8, toBits_add]
      congr 1
      · congr 1
        rw [Nat.mul_comm, Nat.mul_add_div (by omega), Nat.div_eq_of_lt (by omega)]; rfl
      · rw [← toBits_mod (left - 32) _ (left - 32) (le_refl _), ← toBits_ones]
        congr 1
        rw [Nat.mul_comm, Nat.mul_add_mod, Nat.mod_eq_of_lt (by omega)]
  | cons b src ih =>
    rintro bits left v ⟨H, hb, hv, hl⟩ h33
    have hlt := b.toNat_lt
    obtain ⟨h5, h30, hc⟩ := huff_entry b.toNat (by omega)
    simp only [huffEncodeLoop]
    set code := (huffmanCodeArray.getD b.toNat (0, 0)).1 with hcode
    set nb := (huffmanCodeArray.getD b.toNat (0, 0)).2 with hnb
    have hacc : Acc (bits ||| code * 2 ^ (left - nb)) (left - nb) (v * 2 ^ nb + code) := by
      refine ⟨H, by rw [hb, or_add H v left nb code (by omega) hl hc], ?_, by omega⟩
      have : 2 ^ (40 - (left - nb)) = 2 ^ (40 - left) * 2 ^ nb := by
        rw [← Nat.pow_add]; congr 1; omega
      rw [this]
      calc v * 2 ^ nb + code < v * 2 ^ nb + 2 ^ nb := by omega
        _ = (v + 1) * 2 ^ nb := by ring
        _ ≤ _ := Nat.mul_le_mul_right _ hv
    obtain ⟨v', ha', hbits⟩ := huffEmit_acc _ _ _ hacc
    obtain ⟨hl1, _⟩ := huffEmit_left (bits ||| code * 2 ^ (left - nb)) (left - nb) (by omega)
    obtain ⟨k, hk, heq⟩ := ih _ _ v' ha' hl1
    refine ⟨k, hk, ?_⟩
    have happ : ∀ x y : Bytes, bitsOf (x ++ y) = bitsOf x ++ bitsOf y := by
      intro x y; simp [bitsOf]
    rw [happ, ← heq, ← List.append_assoc, ← List.append_assoc, hbits]
    have : 40 - (left - nb) = (40 - left) + nb := by omega
    rw [this, toBits_add]
    have e1 : (v * 2 ^ nb + code) / 2 ^ nb = v := by
      rw [Nat.mul_comm, Nat.mul_add_div (Nat.pos_of_ne_zero (by simp)), Nat.div_eq_of_lt hc]; rfl
    have e2 : toBits nb (v * 2 ^ nb + code) = toBits nb code := by
      rw [← toBits_mod nb _ nb (le_refl _), Nat.mul_comm, Nat.mul_add_mod, toBits_mod _ _ _ (le_refl _)]
    rw [e1, e2]
    simp only [codesBits, byteSyms, List.map_cons, List.flatMap_cons, codeBits, ← hcode, ← hnb,
      List.append_assoc]

/-- The accumulator loop concatenates the code words and pads with ones. -/
theorem huffEncode_bits (src : Bytes) : IsHuffmanOf (huffEncode src) (byteSyms src) := by
  obtain ⟨k, hk, h⟩ := huffEncodeLoop_bits src 0 40 0 ⟨0, by simp, by simp, le_refl _⟩ (by omega)
  refine ⟨k, hk, ?_⟩
  rw [huffEncode, ← h]
  simp [toBits]

theorem huffEncodeLowerLoop_eq (src : Bytes) : ∀ bits left,
    huffEncodeLowerLoop src bits left
      = huffEncodeLoop (src.map fun b => if b ≥ 65 && b ≤ 90 then b + 32 else b) bits left := by
  induction src with
  | nil => intro bits left; rfl
  | cons b src ih =>
    intro bits left
    simp only [huffEncodeLowerLoop, List.map_cons, huffEncodeLoop, ih]

end Webparse
