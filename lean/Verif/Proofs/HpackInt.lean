import Verif.Model.HpackPrim
import Verif.Proofs.Basic
import Verif.Spec.HpackInt
import Mathlib.Tactic.Ring
import Mathlib.Tactic.IntervalCases

/-! Lemmas about HPACK integers. -/

namespace Webparse

theorem prefixMask_toNat {p : Nat} (h1 : 1 ≤ p) (h8 : p ≤ 8) :
    (prefixMask p).toNat = 2 ^ p - 1 := by
  interval_cases p <;> decide

theorem or_and_mask (l m x : UInt8) : ((l &&& ~~~m) ||| x) &&& m = x &&& m := by
  apply UInt8.eq_of_toBitVec_eq
  simp only [UInt8.toBitVec_and, UInt8.toBitVec_or, UInt8.toBitVec_not]
  ext i hi
  simp
  cases l.toBitVec[i] <;> cases m.toBitVec[i] <;> simp

theorem or_and_not_mask (l m x : UInt8) (h : x &&& ~~~m = 0) :
    ((l &&& ~~~m) ||| x) &&& ~~~m = l &&& ~~~m := by
  have h' := congrArg UInt8.toBitVec h
  apply UInt8.eq_of_toBitVec_eq
  simp only [UInt8.toBitVec_and, UInt8.toBitVec_or, UInt8.toBitVec_not] at h' ⊢
  ext i hi
  have h2 := congrArg (fun v : BitVec 8 => v[i]) h'
  simp at h2 ⊢
  revert h2
  cases l.toBitVec[i] <;> cases m.toBitVec[i] <;> simp

theorem and_mask_self {p : Nat} (h1 : 1 ≤ p) (h8 : p ≤ 8) (x : UInt8) (hx : x.toNat ≤ 2 ^ p - 1) :
    x &&& prefixMask p = x ∧ x &&& ~~~prefixMask p = 0 := by
  interval_cases p <;> revert hx <;> revert x <;> decide +kernel

theorem and_mask_lead {p : Nat} (h1 : 1 ≤ p) (h8 : p ≤ 8) (l : UInt8) (x : UInt8) (hx : x.toNat ≤ 2 ^ p - 1) :
    ((l &&& ~~~prefixMask p) ||| x) &&& prefixMask p = x := by
  rw [or_and_mask, (and_mask_self h1 h8 x hx).1]

theorem decodeIntegerTail_consumed {bs : Bytes} {v m t v' t' : Nat}
    (h : decodeIntegerTail bs v m t = .ok (v', t')) (ht : t < 5) :
    t < t' ∧ t' ≤ 5 ∧ t' ≤ t + bs.length ∧ v ≤ v' ∧
    (∀ bs', decodeIntegerTail (bs.take (t' - t) ++ bs') v m t = .ok (v', t')) := by
  induction bs generalizing v m t with
  | nil => simp [decodeIntegerTail] at h
  | cons b bs ih =>
    simp only [decodeIntegerTail] at h
    by_cases hb : b &&& 128 ≠ 128
    · simp [hb] at h
      obtain ⟨rfl, rfl⟩ := h
      refine ⟨by omega, by omega, by simp, by omega, ?_⟩
      intro bs'
      simp [decodeIntegerTail, hb]
    · simp only [hb, if_false] at h
      by_cases h5 : t + 1 = 5
      · simp [h5] at h
      · simp only [h5, if_false] at h
        obtain ⟨h1, h2, h3, h4, h6⟩ := ih h (by omega)
        refine ⟨by omega, h2, by simp; omega, by omega, ?_⟩
        intro bs'
        have : t' - t = (t' - (t + 1)) + 1 := by omega
        rw [this]
        simp only [List.take_succ_cons, List.cons_append, decodeIntegerTail, hb, h5, if_false]
        exact h6 bs'

theorem decodeIntegerTail_no_panic (bs : Bytes) (v m t : Nat) :
    decodeIntegerTail bs v m t ≠ .panic := by
  induction bs generalizing v m t with
  | nil => simp [decodeIntegerTail]
  | cons b bs ih =>
    simp only [decodeIntegerTail]
    split
    · simp
    split
    · simp
    · exact ih _ _ _

theorem decodeInteger_no_panic (bs : Bytes) (p : Nat) : decodeInteger bs p ≠ .panic := by
  unfold decodeInteger
  split
  · simp
  split
  · simp
  dsimp only
  split
  · simp
  · exact decodeIntegerTail_no_panic _ _ _ _

theorem encodeIntegerTail_ne_nil (v : Nat) : encodeIntegerTail v ≠ [] := by
  rw [encodeIntegerTail]; split <;> simp

theorem decodeIntegerTail_encode (k : Nat) : ∀ (w v m t : Nat) (rest : Bytes),
    t + k = 5 → 1 ≤ k → w < 128 ^ k →
    decodeIntegerTail (encodeIntegerTail w ++ rest) v m t
      = .ok (v + w * 2 ^ m, t + (encodeIntegerTail w).length) := by
  induction k with
  | zero => intro w v m t rest _ h; omega
  | succ k ih =>
    intro w v m t rest ht _ hw
    rw [encodeIntegerTail]
    by_cases h : 128 ≤ w
    · simp only [h, if_true, List.cons_append, decodeIntegerTail]
      have hk : 1 ≤ k := by
        rcases k with _ | k
        · simp at hw; omega
        · omega
      have hb : ∀ x : Nat, x < 128 → UInt8.ofNat (x + 128) &&& 128 = 128 ∧ (UInt8.ofNat (x + 128) &&& 127).toNat = x := by
        decide +kernel
      obtain ⟨hb1, hb2⟩ := hb (w % 128) (Nat.mod_lt _ (by decide))
      rw [if_neg (not_not.mpr hb1), if_neg (by omega), hb2, ih (w / 128) _ _ _ _ (by omega) hk
        (by rw [Nat.div_lt_iff_lt_mul (by decide)]; rw [Nat.pow_succ] at hw; exact hw)]
      congr 1
      rw [Prod.mk.injEq]
      constructor
      · have h1 : w = 128 * (w / 128) + w % 128 := (Nat.div_add_mod w 128).symm
        have h2 : 2 ^ (m + 7) = 128 * 2 ^ m := by rw [Nat.pow_add]; omega
        generalize 2 ^ m = c at *
        rw [h2]
        conv_rhs => rw [h1]
        ring
      · simp; omega
    · simp only [h, if_false, List.cons_append, List.nil_append, decodeIntegerTail]
      have hb : ∀ x : Nat, x < 128 → UInt8.ofNat x &&& 128 ≠ 128 ∧ (UInt8.ofNat x &&& 127).toNat = x := by
        decide +kernel
      obtain ⟨hb1, hb2⟩ := hb w (by omega)
      rw [if_pos hb1, hb2]; simp

theorem decodeIntegerTail_encode_big (k : Nat) : ∀ (w v m t : Nat) (rest : Bytes),
    t + k = 5 → 1 ≤ k → 128 ^ k ≤ w →
    decodeIntegerTail (encodeIntegerTail w ++ rest) v m t = .err .intTooManyOctets := by
  induction k with
  | zero => intro w v m t rest _ h; omega
  | succ k ih =>
    intro w v m t rest ht _ hw
    rw [encodeIntegerTail]
    have h128 : 128 ≤ w := by
      have : 128 ^ 1 ≤ 128 ^ (k + 1) := Nat.pow_le_pow_right (by decide) (by omega)
      omega
    simp only [h128, if_true, List.cons_append, decodeIntegerTail]
    have hb : ∀ x : Nat, x < 128 → UInt8.ofNat (x + 128) &&& 128 = 128 := by
      decide +kernel
    have hb1 := hb (w % 128) (Nat.mod_lt _ (by decide))
    rw [if_neg (not_not.mpr hb1)]
    by_cases h5 : t + 1 = 5
    · rw [if_pos h5]
    · rw [if_neg h5, ih (w / 128) _ _ _ _ (by omega) (by omega)
        (by rw [Nat.le_div_iff_mul_le (by decide)]; rw [Nat.pow_succ] at hw; exact hw)]

theorem decodeInteger_consumed {buf : Bytes} {p v n : Nat}
    (h : decodeInteger buf p = .ok (v, n)) :
    1 ≤ n ∧ n ≤ 5 ∧ n ≤ buf.length ∧ ∀ more, decodeInteger (buf.take n ++ more) p = .ok (v, n) := by
  unfold decodeInteger at h
  split at h
  · simp at h
  rename_i hp
  cases buf with
  | nil => simp at h
  | cons b rest =>
    simp only at h
    split at h
    · rename_i hv
      simp at h
      obtain ⟨rfl, rfl⟩ := h
      refine ⟨by omega, by omega, by simp, ?_⟩
      intro more
      simp only [decodeInteger, hp, if_false, List.take_succ_cons, List.cons_append]
      rw [if_pos hv, UInt8.toNat_and]
    · rename_i hv
      obtain ⟨h1, h2, h3, _, h6⟩ := decodeIntegerTail_consumed h (by omega)
      refine ⟨by omega, h2, by simp; omega, ?_⟩
      intro more
      have hn : n = (n - 1) + 1 := by omega
      rw [hn, List.take_succ_cons, List.cons_append]
      simp only [decodeInteger, hp, if_false, hv]
      rw [h6 more, ← hn]

theorem decodeInteger_encode {p v : Nat} (h1 : 1 ≤ p) (h8 : p ≤ 8) (lead : UInt8)
    (hv : v < 2 ^ p - 1 + 2 ^ 28) (rest : Bytes) :
    decodeInteger (encodeInteger v p lead ++ rest) p = .ok (v, (encodeInteger v p lead).length) := by
  have hm := prefixMask_toNat h1 h8
  have h256 : 2 ^ p ≤ 2 ^ 8 := Nat.pow_le_pow_right (by decide) h8
  simp only [decodeInteger, encodeInteger]
  rw [if_neg (by omega)]
  by_cases hs : v < (prefixMask p).toNat
  · rw [if_pos hs]
    have hx : (UInt8.ofNat v).toNat = v := by simp; omega
    simp only [List.cons_append, List.nil_append]
    rw [and_mask_lead h1 h8 _ _ (by omega), hx, if_pos hs]; simp
  · rw [if_neg hs]
    simp only [List.cons_append]
    rw [and_mask_lead h1 h8 _ _ (by omega), if_neg (by omega),
      decodeIntegerTail_encode 4 _ _ _ _ _ (by omega) (by omega) (by rw [hm]; omega)]
    simp; omega

theorem decodeInteger_encode_big {p v : Nat} (h1 : 1 ≤ p) (h8 : p ≤ 8) (lead : UInt8)
    (hv : 2 ^ p - 1 + 2 ^ 28 ≤ v) (rest : Bytes) :
    decodeInteger (encodeInteger v p lead ++ rest) p = .err .intTooManyOctets := by
  have hm := prefixMask_toNat h1 h8
  simp only [decodeInteger, encodeInteger]
  rw [if_neg (by omega), if_neg (by omega)]
  simp only [List.cons_append]
  rw [and_mask_lead h1 h8 _ _ (by omega), if_neg (by omega),
      decodeIntegerTail_encode_big 4 _ _ _ _ _ (by omega) (by omega) (by rw [hm]; omega)]

/-- The bits outside the prefix are those of `lead`. -/
theorem encodeInteger_lead {p v : Nat} (h1 : 1 ≤ p) (h8 : p ≤ 8) (lead : UInt8) :
    ∃ b rest, encodeInteger v p lead = b :: rest ∧ b &&& ~~~prefixMask p = lead &&& ~~~prefixMask p := by
  have key : ∀ x : UInt8, x.toNat ≤ 2 ^ p - 1 →
      ((lead &&& ~~~prefixMask p) ||| x) &&& ~~~prefixMask p = lead &&& ~~~prefixMask p := by
    intro x hx
    exact or_and_not_mask _ _ _ (and_mask_self h1 h8 x hx).2
  have hm := prefixMask_toNat h1 h8
  have h256 : 2 ^ p ≤ 2 ^ 8 := Nat.pow_le_pow_right (by decide) h8
  simp only [encodeInteger]
  split
  · refine ⟨_, _, rfl, key _ ?_⟩
    simp; omega
  · exact ⟨_, _, rfl, key _ (by omega)⟩


open Spec in
theorem decodeIntegerTail_spec (bs : Bytes) (v m t v' n : Nat) (ht : t < 5) :
    decodeIntegerTail bs v m t = .ok (v', n) ↔
      t < n ∧ n ≤ 5 ∧ n ≤ t + bs.length ∧
        ∃ w, contValue (bs.take (n - t)) = some w ∧ v' = v + w * 2 ^ m := by
  induction bs generalizing v m t with
  | nil =>
    simp [decodeIntegerTail]
    intro h1 h2 h3; omega
  | cons b bs ih =>
    simp only [decodeIntegerTail]
    have hbit : (b &&& 128 ≠ 128) ↔ b.toNat < 128 := by
      revert b; decide +kernel
    have hlow : (b &&& 127).toNat = b.toNat % 128 := by
      revert b; decide +kernel
    rw [hlow]
    by_cases hb : b.toNat < 128
    · rw [if_pos (hbit.mpr hb)]
      constructor
      · intro h
        simp at h
        obtain ⟨rfl, rfl⟩ := h
        refine ⟨by omega, by omega, by simp, b.toNat, ?_, ?_⟩
        · simp [contValue, hb]
        · rw [Nat.mod_eq_of_lt hb]
      · rintro ⟨h1, h2, h3, w, hw, rfl⟩
        obtain ⟨d, rfl⟩ : ∃ d, n = t + 1 + d := ⟨n - (t + 1), by omega⟩
        have : t + 1 + d - t = d + 1 := by omega
        rw [this, List.take_succ_cons] at hw
        cases htk : List.take d bs with
        | nil =>
          rw [htk] at hw
          simp [contValue, hb] at hw
          subst hw
          have hd : d = 0 := by
            simp at htk h3
            rcases htk with h | h
            · exact h
            · subst h; simp at h3; exact h3
          subst hd
          rw [Nat.mod_eq_of_lt hb]
        | cons c cs =>
          rw [htk] at hw
          simp [contValue] at hw
          omega
    · rw [if_neg (fun h => hb (hbit.mp h))]
      by_cases h5 : t + 1 = 5
      · rw [if_pos h5]
        simp only [reduceCtorEq, false_iff]
        rintro ⟨h1, h2, h3, w, hw, rfl⟩
        have : n - t = 1 := by omega
        rw [this] at hw
        simp [contValue] at hw
        omega
      · rw [if_neg h5, ih _ _ _ (by omega)]
        constructor
        · rintro ⟨h1, h2, h3, w, hw, rfl⟩
          refine ⟨by omega, h2, by simp; omega, b.toNat % 128 + 128 * w, ?_, ?_⟩
          · have : n - t = (n - (t + 1)) + 1 := by omega
            rw [this, List.take_succ_cons]
            cases htk : List.take (n - (t + 1)) bs with
            | nil => rw [htk] at hw; simp [contValue] at hw
            | cons c cs =>
              rw [htk] at hw
              simp only [contValue, hw]
              rw [if_pos (by omega)]; rfl
          · rw [Nat.pow_add]; ring
        · rintro ⟨h1, h2, h3, w, hw, rfl⟩
          have : n - t = (n - (t + 1)) + 1 := by omega
          rw [this, List.take_succ_cons] at hw
          cases htk : List.take (n - (t + 1)) bs with
          | nil => rw [htk] at hw; simp [contValue] at hw; omega
          | cons c cs =>
            rw [htk] at hw
            simp only [contValue] at hw
            rw [if_pos (by omega)] at hw
            cases hc : contValue (c :: cs) with
            | none => rw [hc] at hw; simp at hw
            | some w' =>
              rw [hc] at hw
              simp at hw
              refine ⟨?_, h2, by simp at h3; omega, w', rfl, ?_⟩
              · by_contra hcon
                have : n - (t + 1) = 0 := by omega
                rw [this] at htk
                simp at htk
              · rw [← hw, Nat.pow_add]; ring

theorem and_prefixMask {p : Nat} (h1 : 1 ≤ p) (h8 : p ≤ 8) (b : UInt8) :
    (b &&& prefixMask p).toNat = b.toNat % 2 ^ p := by
  interval_cases p <;> revert b <;> decide +kernel

open Spec in
theorem decodeInteger_spec (buf : Bytes) (p v n : Nat) (h1 : 1 ≤ p) (h8 : p ≤ 8) :
    decodeInteger buf p = .ok (v, n) ↔
      n ≤ 5 ∧ n ≤ buf.length ∧ intValue p (buf.take n) = some v := by
  unfold decodeInteger
  rw [if_neg (by omega)]
  cases buf with
  | nil => simp [intValue]
  | cons b rest =>
    simp only
    rw [and_prefixMask h1 h8, prefixMask_toNat h1 h8]
    split
    · rename_i hv
      constructor
      · intro h
        simp at h
        obtain ⟨rfl, rfl⟩ := h
        simp [intValue, hv]
      · rintro ⟨h2, h3, h4⟩
        cases n with
        | zero => simp [intValue] at h4
        | succ d =>
          rw [List.take_succ_cons] at h4
          simp only [intValue] at h4
          rw [if_pos hv] at h4
          cases htk : List.take d rest with
          | nil =>
            rw [htk] at h4
            simp at h4
            subst h4
            have : d = 0 := by
              simp at htk h3
              rcases htk with h | h
              · exact h
              · subst h; simp at h3; exact h3
            subst this; rfl
          | cons c cs => rw [htk] at h4; simp at h4
    · rename_i hv
      have hv' : b.toNat % 2 ^ p = 2 ^ p - 1 := by
        have := Nat.mod_lt b.toNat (show 2 ^ p > 0 from Nat.pos_of_ne_zero (by simp))
        omega
      rw [decodeIntegerTail_spec _ _ _ _ _ _ (by omega)]
      constructor
      · rintro ⟨h2, h3, h4, w, hw, rfl⟩
        refine ⟨h3, by simp; omega, ?_⟩
        have : n = (n - 1) + 1 := by omega
        rw [this, List.take_succ_cons]
        simp [intValue, hv', hw]
      · rintro ⟨h2, h3, h4⟩
        cases n with
        | zero => simp [intValue] at h4
        | succ d =>
          rw [List.take_succ_cons] at h4
          simp only [intValue] at h4
          rw [if_neg hv] at h4
          cases hc : contValue (List.take d rest) with
          | none => rw [hc] at h4; simp at h4
          | some w =>
            rw [hc] at h4
            simp at h4 h3
            refine ⟨?_, h2, by omega, w, by simpa using hc, by omega⟩
            rcases d with _ | d
            · simp [contValue] at hc
            · omega

open Spec in
theorem encodeIntegerTail_contValue (v : Nat) : contValue (encodeIntegerTail v) = some v := by
  induction v using Nat.strongRecOn with
  | ind v ih =>
    rw [encodeIntegerTail]
    split
    · rename_i h
      have hd := ih (v / 128) (by omega)
      have hx : (UInt8.ofNat (v % 128 + 128)).toNat = v % 128 + 128 := by
        have := Nat.mod_lt v (show 128 > 0 by decide)
        rw [UInt8.toNat_ofNat']; omega
      cases hc : encodeIntegerTail (v / 128) with
      | nil => exact absurd hc (encodeIntegerTail_ne_nil _)
      | cons c cs =>
        rw [hc] at hd
        simp only [contValue, hd, hx]
        rw [if_pos (by omega)]
        simp
        omega
    · rename_i h
      have hx : (UInt8.ofNat v).toNat = v := by rw [UInt8.toNat_ofNat']; omega
      simp [contValue, hx]; omega

open Spec in
theorem encodeInteger_intValue {p v : Nat} (h1 : 1 ≤ p) (h8 : p ≤ 8) (lead : UInt8) :
    intValue p (encodeInteger v p lead) = some v := by
  have hm := prefixMask_toNat h1 h8
  have h256 : 2 ^ p ≤ 2 ^ 8 := Nat.pow_le_pow_right (by decide) h8
  simp only [encodeInteger]
  split
  · have hx : (UInt8.ofNat v).toNat = v := by rw [UInt8.toNat_ofNat']; omega
    have := and_prefixMask h1 h8 ((lead &&& ~~~prefixMask p) ||| UInt8.ofNat v)
    rw [and_mask_lead h1 h8 _ _ (by omega), hx] at this
    simp only [intValue]
    rw [← this, if_pos (by omega)]
    simp
  · have := and_prefixMask h1 h8 ((lead &&& ~~~prefixMask p) ||| prefixMask p)
    rw [and_mask_lead h1 h8 _ _ (by omega), hm] at this
    simp only [intValue]
    rw [← this, if_neg (by omega), encodeIntegerTail_contValue]
    simp; omega

end Webparse
