import Verif.Spec.Http1
import Verif.Proofs.Streams
import Verif.Proofs.Basic

/-! Lemmas about numerals and chunks. -/

namespace Webparse
open Spec

theorem isDigit_iff (b : UInt8) : isDigit b = true ↔ 48 ≤ b.toNat ∧ b.toNat ≤ 57 := by
  revert b; decide +kernel

theorem isDigit_val (b : UInt8) (h : isDigit b = true) : (b - 48).toNat = b.toNat - 48 ∧ digitVal b = b.toNat - 48 := by
  revert h; revert b; decide +kernel

theorem isHex_iff (b : UInt8) : isHex b = (hexDigit? b).isSome := by
  revert b; decide +kernel

theorem isHex_val (b : UInt8) (h : isHex b = true) : digitVal b = (hexDigit? b).getD 0 := by
  revert h; revert b; decide +kernel

theorem digitsVal_append (base : Nat) (s : Bytes) (b : UInt8) :
    digitsVal base (s ++ [b]) = digitsVal base s * base + digitVal b := by
  simp [digitsVal]

theorem foldl_digits (base : Nat) (f : UInt8 → Nat) (s : Bytes) : ∀ a : Nat,
    s.foldl (fun a b => a * base + f b) a = a * base ^ s.length + s.foldl (fun a b => a * base + f b) 0 := by
  induction s with
  | nil => intro a; simp
  | cons b s ih =>
    intro a
    rw [List.foldl_cons, ih, List.foldl_cons, ih (0 * base + f b)]
    rw [List.length_cons, Nat.pow_succ]
    grind

theorem digitsVal_cons (base : Nat) (b : UInt8) (s : Bytes) :
    digitsVal base (b :: s) = digitVal b * base ^ s.length + digitsVal base s := by
  unfold digitsVal
  rw [List.foldl_cons, foldl_digits]
  simp

theorem digitsVal_hex {s : Bytes} (h : ∀ b ∈ s, isHex b = true) : digitsVal 16 s = hexVal s := by
  induction s with
  | nil => rfl
  | cons b s ih =>
    rw [digitsVal_cons, hexVal, ih (fun x hx => h x (by simp [hx])), isHex_val b (h b (by simp))]

theorem digitsVal_dec {s : Bytes} (h : ∀ b ∈ s, isDigit b = true) : digitsVal 10 s = decVal s := by
  induction s with
  | nil => rfl
  | cons b s ih =>
    rw [digitsVal_cons, decVal, ih (fun x hx => h x (by simp [hx])), (isDigit_val b (h b (by simp))).2]

theorem digitByte_dec : ∀ d : Fin 10, isDigit (digitByte d.val) = true ∧ digitVal (digitByte d.val) = d.val := by
  decide +kernel

theorem digitByte_hex : ∀ d : Fin 16, isHex (digitByte d.val) = true ∧ digitVal (digitByte d.val) = d.val := by
  decide +kernel

theorem numeral_spec (base : Nat) (p : UInt8 → Bool) (hb : 1 < base)
    (hd : ∀ d, d < base → p (digitByte d) = true ∧ digitVal (digitByte d) = d) (fuel n : Nat) (h : n < fuel) :
    numeralAux base fuel n ≠ [] ∧ (∀ b ∈ numeralAux base fuel n, p b = true) ∧ digitsVal base (numeralAux base fuel n) = n := by
  induction fuel generalizing n with
  | zero => omega
  | succ fuel ih =>
    rw [numeralAux]
    by_cases hn : n < base
    · rw [if_pos hn]
      refine ⟨by simp, ?_, ?_⟩
      · intro b hb
        rw [List.mem_singleton.mp hb]; exact (hd n hn).1
      · simp [digitsVal, (hd n hn).2]
    · rw [if_neg hn]
      have hlt : n / base < n := Nat.div_lt_self (by omega) hb
      obtain ⟨_, h2, h3⟩ := ih (n / base) (by omega)
      have hm := hd (n % base) (Nat.mod_lt _ (by omega))
      refine ⟨by simp, ?_, ?_⟩
      · intro b hb
        rcases List.mem_append.mp hb with hb | hb
        · exact h2 b hb
        · rw [List.mem_singleton.mp hb]; exact hm.1
      · rw [digitsVal_append, h3, hm.2, Nat.mul_comm]
        exact Nat.div_add_mod n base

theorem decimal_spec (n : Nat) : decimal n ≠ [] ∧ (∀ b ∈ decimal n, isDigit b = true) ∧ digitsVal 10 (decimal n) = n :=
  numeral_spec 10 isDigit (by decide) (fun d hd => digitByte_dec ⟨d, hd⟩) (n + 1) n (by omega)

theorem hexLower_spec (n : Nat) : hexLower n ≠ [] ∧ (∀ b ∈ hexLower n, isHex b = true) ∧ digitsVal 16 (hexLower n) = n :=
  numeral_spec 16 isHex (by decide) (fun d hd => digitByte_hex ⟨d, hd⟩) (n + 1) n (by omega)

/-! ## Chunks -/

theorem parseHex_eq {h : Bytes} (hne : h ≠ []) (hh : ∀ b ∈ h, isHex b = true) (c : UInt8) (hc : isHex c = false) (r : Bytes) :
    parseHex (h ++ c :: r) = (.ok h, c :: r) := by
  unfold parseHex parseTokenBy
  rw [parseTokenEmpty_eq _ _ (by simpa using hh) hc, if_neg hne]

/-- What follows the length of a chunk. -/
def chunkTail (total : Nat) (h : Bytes) (x : Res Unit × Bytes) : Res (Nat × Nat) :=
  (if digitsVal 16 h ≥ 2 ^ 64 then .panic
    else match x with
      | (.ok _, val) =>
        if digitsVal 16 h + 2 ≥ 2 ^ 64 then .panic
        else if digitsVal 16 h + 2 > val.length then .err .partialData
        else .ok (total - val.length, digitsVal 16 h)
      | (.err e, _) => .err e
      | (.panic, _) => .panic)

theorem parseChunkData_eq {h : Bytes} (hne : h ≠ []) (hh : ∀ b ∈ h, isHex b = true) (c : UInt8) (hc : isHex c = false) (r : Bytes) :
    parseChunkData (h ++ c :: r) = chunkTail (h ++ c :: r).length h (skipNewLine (c :: r)) := by
  unfold parseChunkData chunkTail
  rw [parseHex_eq hne hh c hc]
  simp only [thenRead]
  split
  · rfl
  · cases hs : skipNewLine (c :: r) with
    | mk x val =>
      cases x with
      | ok u =>
        simp only
        split
        · rfl
        · split <;> rfl
      | err e => rfl
      | panic => rfl

theorem parseChunkData_hex {h : Bytes} (hh : ∀ b ∈ h, isHex b = true) : parseChunkData h = .err .partialData := by
  unfold parseChunkData parseHex parseTokenBy
  rw [parseTokenEmpty_all _ _ (by simpa using hh)]
  rfl

theorem parseChunkData_nohex {c : UInt8} (hc : isHex c = false) (r : Bytes) : parseChunkData (c :: r) = .err .token := by
  unfold parseChunkData parseHex parseTokenBy
  rw [show c :: r = [] ++ c :: r from rfl, parseTokenEmpty_eq _ _ rfl hc]
  rfl

theorem skipNewLine_crlf (r : Bytes) : skipNewLine (13 :: 10 :: r) = (.ok (), r) := by
  simp [skipNewLine, nextByte, thenRead, expectByte]

theorem skipNewLine_cr : skipNewLine [13] = (.err .partialData, []) := by
  simp [skipNewLine, nextByte, thenRead, expectByte]

/-- Reading a chunk whose length is written as `h`. -/
theorem parseChunkData_wire {h data : Bytes} (hne : h ≠ []) (hh : ∀ b ∈ h, isHex b = true) (hl : digitsVal 16 h = data.length)
    (hs : data.length + 2 < 2 ^ 64) (r : Bytes) :
    parseChunkData (wireChunk h data ++ r) = .ok (h.length + 2, data.length) := by
  have e : wireChunk h data ++ r = h ++ 13 :: 10 :: (data ++ 13 :: 10 :: r) := by simp [wireChunk]
  rw [e, parseChunkData_eq hne hh 13 (by decide +kernel), skipNewLine_crlf, chunkTail, hl]
  rw [if_neg (by omega)]
  rw [if_neg (by omega), if_neg (by simp)]
  rw [show (h ++ 13 :: 10 :: (data ++ 13 :: 10 :: r)).length - (data ++ 13 :: 10 :: r).length = h.length + 2 from by
    simp; omega]

/-- Every strict prefix of a chunk is incomplete. -/
theorem parseChunkData_prefix {h data : Bytes} (hne : h ≠ []) (hh : ∀ b ∈ h, isHex b = true) (hl : digitsVal 16 h = data.length)
    (hs : data.length + 2 < 2 ^ 64) (k : Nat) (hk : k < (wireChunk h data).length) :
    parseChunkData ((wireChunk h data).take k) = .err .partialData := by
  have e : wireChunk h data = h ++ 13 :: 10 :: (data ++ [13, 10]) := by simp [wireChunk]
  have hlen : (wireChunk h data).length = h.length + data.length + 4 := by simp [wireChunk]; omega
  rw [e]
  by_cases h1 : k ≤ h.length
  · rw [List.take_append_of_le_length h1]
    exact parseChunkData_hex fun b hb => hh b (List.mem_of_mem_take hb)
  · obtain ⟨j, rfl⟩ : ∃ j, k = h.length + (j + 1) := ⟨k - h.length - 1, by omega⟩
    rw [List.take_length_add_append, List.take_succ_cons, parseChunkData_eq hne hh 13 (by decide +kernel)]
    unfold chunkTail
    rw [hl, if_neg (by omega)]
    cases j with
    | zero => rw [List.take_zero, skipNewLine_cr]
    | succ j =>
      rw [List.take_succ_cons, skipNewLine_crlf]
      simp only
      rw [if_neg (by omega), if_pos]
      simp only [List.length_take, List.length_append, List.length_cons, List.length_nil]
      omega

/-! ## Numbers in header values -/

theorem allDigits_iff (s : Bytes) : AllDigits s ↔ ∀ b ∈ s, isDigit b = true := by
  unfold AllDigits
  simp only [isDigit_iff]

theorem allDigits_cons {b : UInt8} {s : Bytes} : AllDigits (b :: s) ↔ isDigit b = true ∧ AllDigits s := by
  simp [allDigits_iff]

theorem decVal_cons (b : UInt8) (s : Bytes) : decVal (b :: s) = (b.toNat - 48) * 10 ^ s.length + decVal s := rfl

/-- Value of digits after a value already read. -/
theorem digits_step (r d : Nat) (s : Bytes) (v : Nat) : (r * 10 + d) * 10 ^ s.length + v = r * 10 ^ (s.length + 1) + (d * 10 ^ s.length + v) := by
  rw [Nat.pow_succ]; grind

theorem le_of_digits (a v L : Nat) : a ≤ a * 10 ^ L + v := by
  have : 0 < 10 ^ L := Nat.pow_pos (by decide)
  have := Nat.le_mul_of_pos_right a this
  omega

theorem usizeLoop_ok (s : Bytes) : ∀ (r n : Nat), r < 2 ^ 64 →
    (usizeLoop r s = .ok n ↔ AllDigits s ∧ r * 10 ^ s.length + decVal s = n ∧ n < 2 ^ 64) := by
  induction s with
  | nil =>
    intro r n hr
    simp only [usizeLoop, Res.ok.injEq, AllDigits, decVal, List.length_nil]
    constructor
    · rintro rfl; simp [hr]
    · rintro ⟨_, h, _⟩; simpa using h
  | cons b s ih =>
    intro r n hr
    rw [usizeLoop, allDigits_cons, decVal_cons, List.length_cons]
    by_cases hd : isDigit b = true
    · simp only [hd, Bool.not_true, Bool.false_eq_true, if_false, true_and]
      obtain ⟨hv, _⟩ := isDigit_val b hd
      have key := le_of_digits (r * 10 + (b - 48).toNat) (decVal s) s.length
      have step := digits_step r (b.toNat - 48) s (decVal s)
      rw [hv] at key ⊢
      by_cases h1 : r * 10 ≥ 2 ^ 64
      · rw [if_pos h1]
        constructor
        · intro h; exact absurd h (by simp)
        · rintro ⟨_, h2, h3⟩; omega
      · rw [if_neg h1]
        by_cases h2 : r * 10 + (b.toNat - 48) ≥ 2 ^ 64
        · rw [if_pos h2]
          constructor
          · intro h; exact absurd h (by simp)
          · rintro ⟨_, h2, h3⟩; omega
        · rw [if_neg h2, ih _ _ (by omega), step]
    · simp [hd]

theorem usizeLoop_panic (s : Bytes) : ∀ (r : Nat), usizeLoop r s = .panic ↔
    ∃ p d q, s = p ++ d :: q ∧ AllDigits (p ++ [d]) ∧ (r * 10 ^ p.length + decVal p) * 10 < 2 ^ 64 ∧
      2 ^ 64 ≤ (r * 10 ^ p.length + decVal p) * 10 + (d.toNat - 48) := by
  induction s with
  | nil => intro r; simp [usizeLoop]
  | cons b s ih =>
    intro r
    rw [usizeLoop]
    by_cases hd : isDigit b = true
    · simp only [hd, Bool.not_true, Bool.false_eq_true, if_false]
      obtain ⟨hv, _⟩ := isDigit_val b hd
      rw [hv]
      by_cases h1 : r * 10 ≥ 2 ^ 64
      · rw [if_pos h1]
        constructor
        · intro h; exact absurd h (by simp)
        · rintro ⟨p, d, q, h2, h3, h4, h5⟩
          have := le_of_digits r (decVal p) p.length
          omega
      · rw [if_neg h1]
        by_cases h2 : r * 10 + (b.toNat - 48) ≥ 2 ^ 64
        · rw [if_pos h2]
          refine ⟨fun _ => ⟨[], b, s, rfl, ?_, ?_, ?_⟩, fun _ => rfl⟩
          · rw [List.nil_append, allDigits_cons]; exact ⟨hd, by simp [AllDigits]⟩
          · simp [decVal]; omega
          · simp [decVal]; omega
        · rw [if_neg h2, ih]
          constructor
          · rintro ⟨p, d, q, h3, h4, h5, h6⟩
            refine ⟨b :: p, d, q, by rw [h3]; rfl, ?_, ?_, ?_⟩
            · rw [List.cons_append, allDigits_cons]; exact ⟨hd, h4⟩
            · rw [decVal_cons, List.length_cons, ← digits_step]; exact h5
            · rw [decVal_cons, List.length_cons, ← digits_step]; exact h6
          · rintro ⟨p, d, q, h3, h4, h5, h6⟩
            cases p with
            | nil =>
              simp only [List.nil_append, List.cons.injEq] at h3
              obtain ⟨rfl, rfl⟩ := h3
              simp [decVal] at h6
              omega
            | cons c p =>
              simp only [List.cons_append, List.cons.injEq] at h3
              obtain ⟨rfl, rfl⟩ := h3
              rw [List.cons_append, allDigits_cons] at h4
              rw [decVal_cons, List.length_cons, ← digits_step] at h5 h6
              exact ⟨p, d, q, rfl, h4.2, h5, h6⟩
    · simp only [hd, Bool.not_false, if_true]
      constructor
      · intro h; exact absurd h (by simp)
      · rintro ⟨p, d, q, h3, h4, _⟩
        refine absurd ?_ hd
        cases p with
        | nil =>
          simp only [List.nil_append, List.cons.injEq] at h3
          rw [List.nil_append, allDigits_cons] at h4
          rw [h3.1]; exact h4.1
        | cons c p =>
          simp only [List.cons_append, List.cons.injEq] at h3
          rw [List.cons_append, allDigits_cons] at h4
          rw [h3.1]; exact h4.1

theorem isizeLoop_pos (s : Bytes) : ∀ (r : Nat) (neg : Bool) (k : Nat) (neg' : Bool), 0 < r → r < 2 ^ 63 →
    (isizeLoop r neg s = .ok (k, neg') ↔ AllDigits s ∧ r * 10 ^ s.length + decVal s = k ∧ k < 2 ^ 63 ∧ neg' = neg) := by
  induction s with
  | nil =>
    intro r neg k neg' _ hr
    simp only [isizeLoop, Res.ok.injEq, AllDigits, decVal, List.length_nil, Prod.mk.injEq]
    constructor
    · rintro ⟨rfl, rfl⟩; simp [hr]
    · rintro ⟨_, h, _, h2⟩; exact ⟨by simpa using h, h2.symm⟩
  | cons b s ih =>
    intro r neg k neg' h0 hr
    rw [isizeLoop, allDigits_cons, decVal_cons, List.length_cons]
    by_cases hd : isDigit b = true
    · simp only [hd, Bool.not_true, Bool.false_eq_true, if_false, true_and]
      obtain ⟨hv, _⟩ := isDigit_val b hd
      have key := le_of_digits (r * 10 + (b - 48).toNat) (decVal s) s.length
      have step := digits_step r (b.toNat - 48) s (decVal s)
      rw [hv] at key ⊢
      by_cases h1 : r * 10 ≥ 2 ^ 63
      · rw [if_pos h1]
        constructor
        · intro h; exact absurd h (by simp)
        · rintro ⟨_, h2, h3, _⟩; omega
      · rw [if_neg h1]
        by_cases h2 : r * 10 + (b.toNat - 48) ≥ 2 ^ 63
        · rw [if_pos h2]
          constructor
          · intro h; exact absurd h (by simp)
          · rintro ⟨_, h2, h3, _⟩; omega
        · rw [if_neg h2, ih _ _ _ _ (by omega) (by omega), step]
    · have : ¬(b = 45 ∧ r = 0) := by omega
      simp [hd, this]

/-- Minus signs and zeros, which the code skips in any order before the number. -/
def SignZeros (z : Bytes) : Prop := ∀ b ∈ z, b = 45 ∨ b = 48

theorem isizeLoop_zero (s : Bytes) : ∀ (neg : Bool) (k : Nat) (neg' : Bool),
    (isizeLoop 0 neg s = .ok (k, neg') ↔ ∃ z ds, s = z ++ ds ∧ SignZeros z ∧ AllDigits ds ∧ decVal ds = k ∧ k < 2 ^ 63 ∧
      neg' = (neg || decide ((45 : UInt8) ∈ z))) := by
  induction s with
  | nil =>
    intro neg k neg'
    simp only [isizeLoop, Res.ok.injEq, Prod.mk.injEq]
    constructor
    · rintro ⟨rfl, rfl⟩; exact ⟨[], [], rfl, by simp [SignZeros], by simp [AllDigits], rfl, by decide, by simp⟩
    · rintro ⟨z, ds, h, _, _, h2, _, h3⟩
      have hz : z = [] := (List.append_eq_nil_iff.mp h.symm).1
      have hds : ds = [] := (List.append_eq_nil_iff.mp h.symm).2
      subst hz hds
      exact ⟨h2, by rw [h3]; simp⟩
  | cons b s ih =>
    intro neg k neg'
    rw [isizeLoop]
    by_cases hd : isDigit b = true
    · simp only [hd, Bool.not_true, Bool.false_eq_true, if_false]
      obtain ⟨hv, _⟩ := isDigit_val b hd
      have hr := (isDigit_iff b).mp hd
      rw [hv, if_neg (by decide), if_neg (by omega), Nat.zero_mul, Nat.zero_add]
      have h45 : b ≠ 45 := by rintro rfl; exact absurd hd (by decide)
      by_cases h48 : b = 48
      · subst h48
        rw [show ((48 : UInt8).toNat - 48) = 0 from rfl, ih]
        constructor
        · rintro ⟨z, ds, rfl, h1, h2, h3, h4, h5⟩
          refine ⟨48 :: z, ds, rfl, ?_, h2, h3, h4, ?_⟩
          · intro x hx
            rcases List.mem_cons.mp hx with rfl | hx
            · right; rfl
            · exact h1 x hx
          · rw [h5]; simp
        · rintro ⟨z, ds, h, h1, h2, h3, h4, h5⟩
          cases z with
          | nil =>
            simp only [List.nil_append] at h
            subst h
            rw [allDigits_cons] at h2
            rw [decVal_cons] at h3
            exact ⟨[], s, rfl, by simp [SignZeros], h2.2, by simpa using h3, h4, by simpa using h5⟩
          | cons c z =>
            simp only [List.cons_append, List.cons.injEq] at h
            obtain ⟨rfl, rfl⟩ := h
            exact ⟨z, ds, rfl, fun x hx => h1 x (by simp [hx]), h2, h3, h4, by rw [h5]; simp⟩
      · have hne : b.toNat ≠ 48 := by
          intro h; exact h48 (UInt8.toNat_inj.mp (by simpa using h))
        rw [isizeLoop_pos _ _ _ _ _ (by omega) (by omega)]
        constructor
        · rintro ⟨h1, h2, h3, h4⟩
          exact ⟨[], b :: s, rfl, by simp [SignZeros], allDigits_cons.mpr ⟨hd, h1⟩, by rw [decVal_cons]; exact h2, h3, by rw [h4]; simp⟩
        · rintro ⟨z, ds, h, h1, h2, h3, h4, h5⟩
          cases z with
          | nil =>
            simp only [List.nil_append] at h
            subst h
            rw [allDigits_cons] at h2
            rw [decVal_cons] at h3
            exact ⟨h2.2, h3, h4, by simpa using h5⟩
          | cons c z =>
            simp only [List.cons_append, List.cons.injEq] at h
            rcases h1 c (by simp) with hc | hc
            · exact absurd (h.1.trans hc) h45
            · exact absurd (h.1.trans hc) h48
    · simp only [hd, Bool.not_false, if_true, and_true]
      by_cases h45 : b = 45
      · subst h45
        rw [if_pos rfl, ih]
        constructor
        · rintro ⟨z, ds, rfl, h1, h2, h3, h4, h5⟩
          refine ⟨45 :: z, ds, rfl, ?_, h2, h3, h4, ?_⟩
          · intro x hx
            rcases List.mem_cons.mp hx with rfl | hx
            · left; rfl
            · exact h1 x hx
          · rw [h5]; simp
        · rintro ⟨z, ds, h, h1, h2, h3, h4, h5⟩
          cases z with
          | nil =>
            simp only [List.nil_append] at h
            subst h
            rw [allDigits_cons] at h2
            exact absurd h2.1 hd
          | cons c z =>
            simp only [List.cons_append, List.cons.injEq] at h
            obtain ⟨rfl, rfl⟩ := h
            exact ⟨z, ds, rfl, fun x hx => h1 x (by simp [hx]), h2, h3, h4, by rw [h5]; simp⟩
      · rw [if_neg h45]
        constructor
        · intro h; exact absurd h (by simp)
        · rintro ⟨z, ds, h, h1, h2, _⟩
          cases z with
          | nil =>
            simp only [List.nil_append] at h
            subst h
            exact absurd (allDigits_cons.mp h2).1 hd
          | cons c z =>
            simp only [List.cons_append, List.cons.injEq] at h
            rcases h1 c (by simp) with hc | hc
            · exact absurd (h.1.trans hc) h45
            · rw [h.1, hc] at hd; exact absurd rfl hd

/-! ## The standard library's numerals -/

theorem numeral_iff (s : Bytes) (n : Nat) : (s ≠ [] ∧ s.all isDigit = true ∧ digitsVal 10 s = n) ↔ IsNumeral s n := by
  unfold IsNumeral
  rw [List.all_eq_true, ← allDigits_iff]
  constructor
  · rintro ⟨h1, h2, h3⟩; exact ⟨h1, h2, by rw [← digitsVal_dec ((allDigits_iff s).mp h2)]; exact h3⟩
  · rintro ⟨h1, h2, h3⟩; exact ⟨h1, h2, by rw [digitsVal_dec ((allDigits_iff s).mp h2)]; exact h3⟩

theorem numeral_head {s : Bytes} {n : Nat} (h : IsNumeral s n) : s.head? ≠ some 43 ∧ s.head? ≠ some 45 := by
  obtain ⟨h1, h2, _⟩ := h
  obtain ⟨b, t, rfl⟩ := List.exists_cons_of_ne_nil h1
  have := h2 b (by simp)
  constructor
  · simp only [List.head?_cons, ne_eq, Option.some.injEq]; rintro rfl; revert this; decide
  · simp only [List.head?_cons, ne_eq, Option.some.injEq]; rintro rfl; revert this; decide

theorem parseUnsigned_iff (bound : Nat) (s : Bytes) (n : Nat) :
    parseUnsigned bound s = some n ↔ (IsNumeral s n ∨ ∃ t, s = 43 :: t ∧ IsNumeral t n) ∧ n < bound := by
  have key : ∀ ds : Bytes, (if ds ≠ [] ∧ ds.all isDigit = true ∧ digitsVal 10 ds < bound then some (digitsVal 10 ds) else none) =
      some n ↔ IsNumeral ds n ∧ n < bound := by
    intro ds
    rw [← numeral_iff]
    constructor
    · intro h
      split at h
      · rename_i hc
        rw [Option.some.injEq] at h
        subst h
        exact ⟨⟨hc.1, hc.2.1, rfl⟩, hc.2.2⟩
      · exact absurd h (by simp)
    · rintro ⟨⟨h1, h2, rfl⟩, h3⟩
      rw [if_pos ⟨h1, h2, h3⟩]
  unfold parseUnsigned
  simp only
  rw [key]
  by_cases hp : s.head? = some 43
  · rw [if_pos hp]
    obtain ⟨t, rfl⟩ : ∃ t, s = 43 :: t := by
      cases s with
      | nil => simp at hp
      | cons b t => simp only [List.head?_cons, Option.some.injEq] at hp; exact ⟨t, by rw [hp]⟩
    constructor
    · rintro ⟨h1, h2⟩; exact ⟨Or.inr ⟨t, rfl, h1⟩, h2⟩
    · rintro ⟨h1 | ⟨t', h1, h3⟩, h2⟩
      · exact absurd hp (numeral_head h1).1
      · rw [List.cons.injEq] at h1; rw [h1.2]; exact ⟨h3, h2⟩
  · rw [if_neg hp]
    constructor
    · rintro ⟨h1, h2⟩; exact ⟨Or.inl h1, h2⟩
    · rintro ⟨h1 | ⟨t', h1, h3⟩, h2⟩
      · exact ⟨h1, h2⟩
      · rw [h1] at hp; simp at hp

theorem parseSigned_iff (s : Bytes) (n : Int) :
    parseSigned s = some n ↔
      (IsSignedNumeral s n ∨ ∃ t k, s = 43 :: t ∧ IsNumeral t k ∧ n = k) ∧ -(2 ^ 63) ≤ n ∧ n < 2 ^ 63 := by
  have key : ∀ (neg : Prop) [Decidable neg] (ds : Bytes),
      (if ds ≠ [] ∧ ds.all isDigit = true then
        (if -(2 ^ 63) ≤ (if neg then -(digitsVal 10 ds : Int) else digitsVal 10 ds) ∧
            (if neg then -(digitsVal 10 ds : Int) else digitsVal 10 ds) < 2 ^ 63 then
          some (if neg then -(digitsVal 10 ds : Int) else digitsVal 10 ds) else none) else none) = some n ↔
      (∃ k, IsNumeral ds k ∧ n = if neg then -(k : Int) else k) ∧ -(2 ^ 63) ≤ n ∧ n < 2 ^ 63 := by
    intro neg _ ds
    simp only [← numeral_iff]
    constructor
    · intro h
      split at h
      · rename_i hc
        obtain ⟨v, hv⟩ : ∃ v, (if neg then -(digitsVal 10 ds : Int) else digitsVal 10 ds) = v := ⟨_, rfl⟩
        rw [hv] at h
        by_cases hb : -(2 ^ 63) ≤ v ∧ v < 2 ^ 63
        · rw [if_pos hb, Option.some.injEq] at h
          rw [h] at hb
          exact ⟨⟨digitsVal 10 ds, ⟨hc.1, hc.2, rfl⟩, by rw [hv, h]⟩, hb⟩
        · rw [if_neg hb] at h; exact absurd h (by simp)
      · exact absurd h (by simp)
    · rintro ⟨⟨k, ⟨h1, h2, rfl⟩, h4⟩, h3⟩
      rw [if_pos ⟨h1, h2⟩, ← h4, if_pos h3]
  unfold parseSigned
  simp only
  rw [key]
  refine and_congr_left fun _ => ?_
  unfold IsSignedNumeral
  cases s with
  | nil =>
    constructor
    · rintro ⟨k, h, _⟩; exact absurd rfl h.1
    · rintro ((⟨k, h, _⟩ | ⟨t, k, h, _⟩) | ⟨t, k, h, _⟩)
      · exact absurd rfl h.1
      · exact absurd h (by simp)
      · exact absurd h (by simp)
  | cons b t =>
    simp only [List.head?_cons, Option.some.injEq, List.drop_succ_cons, List.drop_zero, List.cons.injEq]
    by_cases h43 : b = 43
    · subst h43
      rw [if_pos (Or.inl rfl)]
      simp only [show ((43 : UInt8) = 45) = False from by decide, if_false]
      constructor
      · rintro ⟨k, h1, h2⟩; exact Or.inr ⟨t, k, ⟨trivial, rfl⟩, h1, h2⟩
      · rintro ((⟨k, h, _⟩ | ⟨t, k, h, _⟩) | ⟨t', k, ⟨_, rfl⟩, h2, h3⟩)
        · exact absurd rfl (numeral_head h).1
        · exact absurd h.1 (by decide)
        · exact ⟨k, h2, h3⟩
    · by_cases h45 : b = 45
      · subst h45
        rw [if_pos (Or.inr rfl)]
        simp only [if_true]
        constructor
        · rintro ⟨k, h1, h2⟩; exact Or.inl (Or.inr ⟨t, k, ⟨trivial, rfl⟩, h1, h2⟩)
        · rintro ((⟨k, h, _⟩ | ⟨t', k, ⟨_, rfl⟩, h2, h3⟩) | ⟨t', k, ⟨h, _⟩, _⟩)
          · exact absurd rfl (numeral_head h).2
          · exact ⟨k, h2, h3⟩
          · exact absurd h (by decide)
      · rw [if_neg (by simp [h43, h45])]
        simp only [h45, h43, if_false]
        constructor
        · rintro ⟨k, h1, h2⟩; exact Or.inl (Or.inl ⟨k, h1, h2⟩)
        · rintro ((⟨k, h, h2⟩ | ⟨t', k, ⟨h, _⟩, _⟩) | ⟨t', k, ⟨h, _⟩, _⟩)
          · exact ⟨k, h, h2⟩
          · exact absurd h (by simp)
          · exact absurd h (by simp)

end Webparse
