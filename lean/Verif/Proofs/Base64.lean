import Verif.Model.HttpSettings
import Verif.Spec.Base64
import Verif.Proofs.Basic

/-! Lemmas about base64. -/

namespace Webparse
open Spec

theorem base64Val_iff (c : UInt8) (n : Nat) : base64Val c = some n ↔ n < 64 ∧ base64Char n = c := by
  constructor
  · have : ∀ c : UInt8, ∀ n, base64Val c = some n → n < 64 ∧ base64Char n = c := by
      have key : ∀ c : UInt8, (base64Val c).all (fun n => decide (n < 64 ∧ base64Char n = c)) = true := by
        decide +kernel
      intro c n hn
      have := key c
      rw [hn] at this
      simpa using this
    exact this c n
  · rintro ⟨h, rfl⟩
    have : ∀ n : Fin 64, base64Val (base64Char n.1) = some n.1 := by decide +kernel
    exact this ⟨n, h⟩

theorem base64Val_char {n : Nat} (h : n < 64) : base64Val (base64Char n) = some n := (base64Val_iff _ _).mpr ⟨h, rfl⟩

theorem ofNat_toNat_of {n : Nat} {b : UInt8} (h : n = b.toNat) : UInt8.ofNat n = b := by rw [h]; simp

theorem base64_decode_encode : ∀ b : Bytes, base64Decode (base64Encode b) = some b
  | [] => rfl
  | [a] => by
    have ha := a.toNat_lt
    simp only [base64Encode, base64Decode]
    rw [base64Val_char (by omega), base64Val_char (by omega)]
    simp only
    rw [if_pos (by omega), ofNat_toNat_of (b := a) (by omega)]
  | [a, b] => by
    have ha := a.toNat_lt
    have hb := b.toNat_lt
    simp only [base64Encode, base64Decode]
    rw [base64Val_char (by omega), base64Val_char (by omega), base64Val_char (by omega)]
    simp only
    rw [if_pos (by omega), ofNat_toNat_of (b := a) (by omega), ofNat_toNat_of (b := b) (by omega)]
  | a :: b :: c :: r => by
    have ha := a.toNat_lt
    have hb := b.toNat_lt
    have hc := c.toNat_lt
    simp only [base64Encode, base64Decode]
    rw [base64Val_char (by omega), base64Val_char (by omega), base64Val_char (by omega), base64Val_char (by omega),
      base64_decode_encode r]
    simp only
    rw [ofNat_toNat_of (b := a) (by omega), ofNat_toNat_of (b := b) (by omega), ofNat_toNat_of (b := c) (by omega)]

theorem base64_encode_decode : ∀ (t b : Bytes), base64Decode t = some b → base64Encode b = t
  | [], b, h => by simp [base64Decode] at h; subst h; rfl
  | [_], b, h => by simp [base64Decode] at h
  | [w, x], b, h => by
    simp only [base64Decode] at h
    split at h
    · rename_i w' x' hw hx
      obtain ⟨hw, rfl⟩ := (base64Val_iff _ _).mp hw
      obtain ⟨hx, rfl⟩ := (base64Val_iff _ _).mp hx
      split at h
      · simp only [Option.some.injEq] at h
        subst h
        simp only [base64Encode, UInt8.toNat_ofNat']
        rw [show (w' * 4 + x' / 16) % 2 ^ 8 / 4 = w' by omega, show (w' * 4 + x' / 16) % 2 ^ 8 % 4 * 16 = x' by omega]
      · simp at h
    · simp at h
  | [w, x, y], b, h => by
    simp only [base64Decode] at h
    split at h
    · rename_i w' x' y' hw hx hy
      obtain ⟨hw, rfl⟩ := (base64Val_iff _ _).mp hw
      obtain ⟨hx, rfl⟩ := (base64Val_iff _ _).mp hx
      obtain ⟨hy, rfl⟩ := (base64Val_iff _ _).mp hy
      split at h
      · simp only [Option.some.injEq] at h
        subst h
        simp only [base64Encode, UInt8.toNat_ofNat']
        rw [show (w' * 4 + x' / 16) % 2 ^ 8 / 4 = w' by omega,
          show (w' * 4 + x' / 16) % 2 ^ 8 % 4 * 16 + (x' % 16 * 16 + y' / 4) % 2 ^ 8 / 16 = x' by omega,
          show (x' % 16 * 16 + y' / 4) % 2 ^ 8 % 16 * 4 = y' by omega]
      · simp at h
    · simp at h
  | w :: x :: y :: z :: r, b, h => by
    simp only [base64Decode] at h
    split at h
    · rename_i w' x' y' z' r' hw hx hy hz hr
      obtain ⟨hw, rfl⟩ := (base64Val_iff _ _).mp hw
      obtain ⟨hx, rfl⟩ := (base64Val_iff _ _).mp hx
      obtain ⟨hy, rfl⟩ := (base64Val_iff _ _).mp hy
      obtain ⟨hz, rfl⟩ := (base64Val_iff _ _).mp hz
      simp only [Option.some.injEq] at h
      subst h
      simp only [base64Encode, UInt8.toNat_ofNat']
      rw [base64_encode_decode r r' hr, show (w' * 4 + x' / 16) % 2 ^ 8 / 4 = w' by omega,
          show (w' * 4 + x' / 16) % 2 ^ 8 % 4 * 16 + (x' % 16 * 16 + y' / 4) % 2 ^ 8 / 16 = x' by omega,
          show (x' % 16 * 16 + y' / 4) % 2 ^ 8 % 16 * 4 + (y' % 4 * 64 + z') % 2 ^ 8 / 64 = y' by omega,
          show (y' % 4 * 64 + z') % 2 ^ 8 % 64 = z' by omega]
    · simp at h

/-! ## Bits -/

theorem bits_byte (a : UInt8) : toBits 8 a.toNat = toBits 6 (a.toNat / 4) ++ toBits 2 (a.toNat % 4) ∧
    toBits 8 a.toNat = toBits 4 (a.toNat / 16) ++ toBits 4 (a.toNat % 16) ∧
    toBits 8 a.toNat = toBits 2 (a.toNat / 64) ++ toBits 6 (a.toNat % 64) := by
  revert a; decide +kernel

theorem bits_join24 {x y : Nat} (hx : x < 4) (hy : y < 16) : toBits 6 (x * 16 + y) = toBits 2 x ++ toBits 4 y := by
  have : ∀ (x : Fin 4) (y : Fin 16), toBits 6 (x.1 * 16 + y.1) = toBits 2 x.1 ++ toBits 4 y.1 := by decide +kernel
  exact this ⟨x, hx⟩ ⟨y, hy⟩

theorem bits_join42 {x y : Nat} (hx : x < 16) (hy : y < 4) : toBits 6 (x * 4 + y) = toBits 4 x ++ toBits 2 y := by
  have : ∀ (x : Fin 16) (y : Fin 4), toBits 6 (x.1 * 4 + y.1) = toBits 4 x.1 ++ toBits 2 y.1 := by decide +kernel
  exact this ⟨x, hx⟩ ⟨y, hy⟩

theorem base64_char_get {n : Nat} (h : n < 64) : base64url[n]? = some (base64Char n) := by
  have : ∀ n : Fin 64, base64url[n.1]? = some (base64Char n.1) := by decide +kernel
  exact this ⟨n, h⟩

theorem base64_spec_encode : ∀ b : Bytes, IsBase64Url (base64Encode b) b
  | [] => ⟨[], rfl, 0, by decide, rfl⟩
  | [a] => by
    have ha := a.toNat_lt
    refine ⟨[a.toNat / 4, a.toNat % 4 * 16], ?_, 4, by decide, ?_⟩
    · simp only [base64Encode, List.map_cons, List.map_nil]
      rw [base64_char_get (by omega), base64_char_get (by omega)]
    · have := bits_join24 (x := a.toNat % 4) (y := 0) (by omega) (by omega)
      simp only [Nat.add_zero] at this
      simp only [List.flatMap_cons, List.flatMap_nil, bitsOf, this, (bits_byte a).1]
      simp [toBits, List.replicate]
  | [a, b] => by
    have ha := a.toNat_lt
    have hb := b.toNat_lt
    refine ⟨[a.toNat / 4, a.toNat % 4 * 16 + b.toNat / 16, b.toNat % 16 * 4], ?_, 2, by decide, ?_⟩
    · simp only [base64Encode, List.map_cons, List.map_nil]
      rw [base64_char_get (by omega), base64_char_get (by omega), base64_char_get (by omega)]
    · have := bits_join42 (x := b.toNat % 16) (y := 0) (by omega) (by omega)
      simp only [Nat.add_zero] at this
      simp only [List.flatMap_cons, List.flatMap_nil, bitsOf, this, (bits_byte a).1, (bits_byte b).2.1,
        bits_join24 (x := a.toNat % 4) (y := b.toNat / 16) (by omega) (by omega)]
      simp [toBits, List.replicate]
  | a :: b :: c :: r => by
    have ha := a.toNat_lt
    have hb := b.toNat_lt
    have hc := c.toNat_lt
    obtain ⟨ds, h1, k, hk, h2⟩ := base64_spec_encode r
    refine ⟨a.toNat / 4 :: (a.toNat % 4 * 16 + b.toNat / 16) :: (b.toNat % 16 * 4 + c.toNat / 64) :: c.toNat % 64 :: ds, ?_, k, hk, ?_⟩
    · simp only [base64Encode, List.map_cons, h1]
      rw [base64_char_get (by omega), base64_char_get (by omega), base64_char_get (by omega), base64_char_get (by omega)]
    · simp only [bitsOf] at h2
      simp only [List.flatMap_cons, bitsOf, h2, (bits_byte a).1, (bits_byte b).2.1, (bits_byte c).2.2,
        bits_join24 (x := a.toNat % 4) (y := b.toNat / 16) (by omega) (by omega),
        bits_join42 (x := b.toNat % 16) (y := c.toNat / 64) (by omega) (by omega), List.append_assoc]

theorem bits_len (w n : Nat) : (toBits w n).length = w := by
  induction w with
  | zero => rfl
  | succ w ih => simp [toBits, ih]

theorem flatMap_bits_length (ds : List Nat) : (ds.flatMap (toBits 6)).length = 6 * ds.length := by
  induction ds with
  | nil => rfl
  | cons d ds ih => simp only [List.flatMap_cons, List.length_append, ih, bits_len, List.length_cons]; omega

theorem flatMap_bits_inj : ∀ ds es : List Nat, (∀ d ∈ ds, d < 64) → (∀ d ∈ es, d < 64) →
    ds.flatMap (toBits 6) = es.flatMap (toBits 6) → ds = es
  | [], [], _, _, _ => rfl
  | [], e :: es, _, _, h => by have := congrArg List.length h; simp only [flatMap_bits_length, List.length_nil, List.length_cons] at this; omega
  | d :: ds, [], _, _, h => by have := congrArg List.length h; simp only [flatMap_bits_length, List.length_nil, List.length_cons] at this; omega
  | d :: ds, e :: es, hd, he, h => by
    rw [List.flatMap_cons, List.flatMap_cons] at h
    obtain ⟨h1, h2⟩ := List.append_inj h (by rw [bits_len, bits_len])
    have : ∀ x y : Fin 64, toBits 6 x.1 = toBits 6 y.1 → x = y := by decide +kernel
    have hde := this ⟨d, hd d (by simp)⟩ ⟨e, he e (by simp)⟩ h1
    simp only [Fin.mk.injEq] at hde
    rw [hde, flatMap_bits_inj ds es (fun x hx => hd x (by simp [hx])) (fun x hx => he x (by simp [hx])) h2]

theorem base64_digits {t : Bytes} {ds : List Nat} (h : t.map some = ds.map (fun d => base64url[d]?)) : ∀ d ∈ ds, d < 64 := by
  intro d hd
  have : base64url[d]? ∈ t.map some := by rw [h]; exact List.mem_map_of_mem hd
  obtain ⟨c, -, hc⟩ := List.mem_map.mp this
  have := (List.getElem?_eq_some_iff.mp hc.symm).1
  exact this

theorem base64_unique {t t' b : Bytes} (h : IsBase64Url t b) (h' : IsBase64Url t' b) : t = t' := by
  obtain ⟨ds, h1, k, hk, h2⟩ := h
  obtain ⟨es, g1, l, hl, g2⟩ := h'
  have e1 := congrArg List.length h2
  have e2 := congrArg List.length g2
  rw [flatMap_bits_length, List.length_append, List.length_replicate] at e1 e2
  have : k = l := by omega
  subst this
  have := flatMap_bits_inj ds es (base64_digits h1) (base64_digits g1) (h2.trans g2.symm)
  subst this
  have := h1.trans g1.symm
  exact (List.map_inj_right (by simp)).mp this

/-- The decoder of the model is the relation of RFC 4648. -/
theorem base64Decode_iff (t b : Bytes) : base64Decode t = some b ↔ IsBase64Url t b := by
  constructor
  · intro h
    rw [← base64_encode_decode t b h]
    exact base64_spec_encode b
  · intro h
    rw [base64_unique h (base64_spec_encode b)]
    exact base64_decode_encode b

end Webparse
