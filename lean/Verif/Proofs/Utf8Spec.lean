import Verif.Spec.Utf8
import Verif.Proofs.Utf8

/-! The model of `from_utf8` accepts exactly the UTF-8 of RFC 3629, and `from_utf8_lossy` produces it. -/

namespace Webparse
open Spec

theorem seqLen_cases (b : UInt8) :
    (b.toNat < 0x80 ∧ seqLen b = 1) ∨ (0xC2 ≤ b.toNat ∧ b.toNat ≤ 0xDF ∧ seqLen b = 2) ∨
    (0xE0 ≤ b.toNat ∧ b.toNat ≤ 0xEF ∧ seqLen b = 3) ∨ (0xF0 ≤ b.toNat ∧ b.toNat ≤ 0xF4 ∧ seqLen b = 4) ∨
    (((0x80 ≤ b.toNat ∧ b.toNat < 0xC2) ∨ 0xF4 < b.toNat) ∧ seqLen b = 0) := by
  revert b; decide +kernel

theorem isCont_toNat (b : UInt8) : isCont b = true ↔ 0x80 ≤ b.toNat ∧ b.toNat ≤ 0xBF := by
  revert b; decide +kernel

theorem secondOk_toNat (a c : UInt8) : secondOk a c = true ↔
    0xC2 ≤ a.toNat ∧ a.toNat ≤ 0xF4 ∧ 0x80 ≤ c.toNat ∧ c.toNat ≤ 0xBF ∧ (a.toNat = 0xE0 → 0xA0 ≤ c.toNat) ∧
      (a.toNat = 0xED → c.toNat ≤ 0x9F) ∧ (a.toNat = 0xF0 → 0x90 ≤ c.toNat) ∧ (a.toNat = 0xF4 → c.toNat ≤ 0x8F) := by
  unfold secondOk isCont
  simp only [Bool.and_eq_true, decide_eq_true_eq, UInt8.le_iff_toNat_le, ← UInt8.toNat_inj]
  simp only [UInt8.reduceToNat]
  repeat' split
  all_goals simp only [Bool.and_eq_true, decide_eq_true_eq, Bool.false_eq_true, false_iff]
  all_goals omega

theorem ofNat_toNat_eq {b : UInt8} {n : Nat} (h : n = b.toNat) : UInt8.ofNat n = b := by
  rw [h, UInt8.ofNat_toNat]

/-- A piece that is taken is one code point. -/
theorem next_scalar {b : UInt8} {rest : Bytes} {n : Nat} (h : utf8Next b rest = .inl n) :
    ∃ c, IsScalar c ∧ (b :: rest).take n = encodeScalar c ∧ 1 ≤ n ∧ n ≤ (b :: rest).length := by
  unfold utf8Next at h
  unfold IsScalar encodeScalar
  rcases seqLen_cases b with ⟨h1, e⟩ | ⟨h1, h2, e⟩ | ⟨h1, h2, e⟩ | ⟨h1, h2, e⟩ | ⟨h1, e⟩
  · rw [e] at h
    cases h
    exact ⟨b.toNat, by omega, by rw [if_pos h1, UInt8.ofNat_toNat]; rfl, by omega, by simp⟩
  · rw [e] at h
    cases rest with
    | nil => cases h
    | cons c r =>
      simp only at h
      split at h
      · rename_i hs
        cases h
        obtain ⟨-, -, s1, s2, -⟩ := (secondOk_toNat b c).mp hs
        refine ⟨(b.toNat - 0xC0) * 64 + (c.toNat - 0x80), by omega, ?_, by omega, by simp⟩
        rw [if_neg (by omega), if_pos (by omega), ofNat_toNat_eq (b := b) (by omega), ofNat_toNat_eq (b := c) (by omega)]
        rfl
      · cases h
  · rw [e] at h
    match rest with
    | [] => cases h
    | [c] =>
      simp only at h
      split at h <;> cases h
    | c :: d :: r =>
      simp only at h
      split at h
      · rename_i hs
        split at h
        · rename_i hd
          cases h
          obtain ⟨-, -, s1, s2, s3, s4, -⟩ := (secondOk_toNat b c).mp hs
          obtain ⟨d1, d2⟩ := (isCont_toNat d).mp hd
          refine ⟨(b.toNat - 0xE0) * 4096 + (c.toNat - 0x80) * 64 + (d.toNat - 0x80), by omega, ?_, by omega, by simp⟩
          rw [if_neg (by omega), if_neg (by omega), if_pos (by omega), ofNat_toNat_eq (b := b) (by omega),
            ofNat_toNat_eq (b := c) (by omega), ofNat_toNat_eq (b := d) (by omega)]
          rfl
        · cases h
      · cases h
  · rw [e] at h
    match rest with
    | [] => cases h
    | [c] =>
      simp only at h
      split at h <;> cases h
    | [c, d] =>
      simp only at h
      split at h
      · split at h <;> cases h
      · cases h
    | c :: d :: f :: r =>
      simp only at h
      split at h
      · rename_i hs
        split at h
        · rename_i hd
          split at h
          · rename_i hf
            cases h
            obtain ⟨-, -, s1, s2, -, -, s5, s6⟩ := (secondOk_toNat b c).mp hs
            obtain ⟨d1, d2⟩ := (isCont_toNat d).mp hd
            obtain ⟨f1, f2⟩ := (isCont_toNat f).mp hf
            refine ⟨(b.toNat - 0xF0) * 262144 + (c.toNat - 0x80) * 4096 + (d.toNat - 0x80) * 64 + (f.toNat - 0x80), by omega, ?_, by omega, by simp⟩
            rw [if_neg (by omega), if_neg (by omega), if_neg (by omega), ofNat_toNat_eq (b := b) (by omega),
              ofNat_toNat_eq (b := c) (by omega), ofNat_toNat_eq (b := d) (by omega), ofNat_toNat_eq (b := f) (by omega)]
            rfl
          · cases h
        · cases h
      · cases h
  · rw [e] at h
    cases h

theorem toNat_ofNat_lt {n : Nat} (h : n < 256) : (UInt8.ofNat n).toNat = n := by
  rw [UInt8.toNat_ofNat']
  exact Nat.mod_eq_of_lt h

/-- A code point is taken as one piece, whatever follows. -/
theorem scalar_next {c : Nat} (hc : IsScalar c) (t : Bytes) :
    ∃ b r, encodeScalar c = b :: r ∧ utf8Next b (r ++ t) = .inl (r.length + 1) := by
  unfold IsScalar at hc
  unfold encodeScalar
  split
  · rename_i h
    refine ⟨_, _, rfl, ?_⟩
    have e := toNat_ofNat_lt (n := c) (by omega)
    unfold utf8Next
    rcases seqLen_cases (UInt8.ofNat c) with ⟨h1, e⟩ | ⟨h1, h2, e⟩ | ⟨h1, h2, e⟩ | ⟨h1, h2, e⟩ | ⟨h1, e⟩
    · rw [e]; rfl
    all_goals omega
  · split
    · rename_i h1 h2
      refine ⟨_, _, rfl, ?_⟩
      have e1 := toNat_ofNat_lt (n := 0xC0 + c / 64) (by omega)
      have e2 := toNat_ofNat_lt (n := 0x80 + c % 64) (by omega)
      unfold utf8Next
      rcases seqLen_cases (UInt8.ofNat (0xC0 + c / 64)) with ⟨h1, e⟩ | ⟨h1, h2, e⟩ | ⟨h1, h2, e⟩ | ⟨h1, h2, e⟩ | ⟨h1, e⟩
      · omega
      · rw [e]
        simp only [List.cons_append, List.nil_append]
        rw [if_pos ((secondOk_toNat _ _).mpr (by omega))]
        rfl
      all_goals omega
    · split
      · rename_i h1 h2 h3
        refine ⟨_, _, rfl, ?_⟩
        have e1 := toNat_ofNat_lt (n := 0xE0 + c / 4096) (by omega)
        have e2 := toNat_ofNat_lt (n := 0x80 + c / 64 % 64) (by omega)
        have e3 := toNat_ofNat_lt (n := 0x80 + c % 64) (by omega)
        unfold utf8Next
        rcases seqLen_cases (UInt8.ofNat (0xE0 + c / 4096)) with ⟨h1, e⟩ | ⟨h1, h2, e⟩ | ⟨h1, h2, e⟩ | ⟨h1, h2, e⟩ | ⟨h1, e⟩
        · omega
        · omega
        · rw [e]
          simp only [List.cons_append, List.nil_append]
          rw [if_pos ((secondOk_toNat _ _).mpr (by omega)), if_pos ((isCont_toNat _).mpr (by omega))]
          rfl
        all_goals omega
      · rename_i h1 h2 h3
        refine ⟨_, _, rfl, ?_⟩
        have e1 := toNat_ofNat_lt (n := 0xF0 + c / 262144) (by omega)
        have e2 := toNat_ofNat_lt (n := 0x80 + c / 4096 % 64) (by omega)
        have e3 := toNat_ofNat_lt (n := 0x80 + c / 64 % 64) (by omega)
        have e4 := toNat_ofNat_lt (n := 0x80 + c % 64) (by omega)
        unfold utf8Next
        rcases seqLen_cases (UInt8.ofNat (0xF0 + c / 262144)) with ⟨h1, e⟩ | ⟨h1, h2, e⟩ | ⟨h1, h2, e⟩ | ⟨h1, h2, e⟩ | ⟨h1, e⟩
        · omega
        · omega
        · omega
        · rw [e]
          simp only [List.cons_append, List.nil_append]
          rw [if_pos ((secondOk_toNat _ _).mpr (by omega)), if_pos ((isCont_toNat _).mpr (by omega)),
            if_pos ((isCont_toNat _).mpr (by omega))]
          rfl
        · omega

theorem isUtf8_nil : IsUtf8 [] := ⟨[], by simp, rfl⟩

theorem isUtf8_append {a b : Bytes} (ha : IsUtf8 a) (hb : IsUtf8 b) : IsUtf8 (a ++ b) := by
  obtain ⟨cs, h1, rfl⟩ := ha
  obtain ⟨ds, h2, rfl⟩ := hb
  refine ⟨cs ++ ds, ?_, by rw [List.flatMap_append]⟩
  intro c hc
  rcases List.mem_append.mp hc with hc | hc
  · exact h1 c hc
  · exact h2 c hc

theorem isUtf8_scalar {c : Nat} (hc : IsScalar c) : IsUtf8 (encodeScalar c) :=
  ⟨[c], by simpa using hc, by simp⟩

theorem validAux_isUtf8 (fuel : Nat) : ∀ b, utf8ValidAux fuel b = true → IsUtf8 b := by
  induction fuel with
  | zero =>
    intro b h
    cases b with
    | nil => exact isUtf8_nil
    | cons x r => cases h
  | succ fuel ih =>
    intro b h
    cases b with
    | nil => exact isUtf8_nil
    | cons x r =>
      simp only [utf8ValidAux] at h
      split at h
      · rename_i n hn
        obtain ⟨c, h1, h2, -⟩ := next_scalar hn
        rw [← List.take_append_drop n (x :: r), h2]
        exact isUtf8_append (isUtf8_scalar h1) (ih _ h)
      · cases h

theorem isUtf8_validAux (cs : List Nat) : (∀ c ∈ cs, IsScalar c) → ∀ fuel, (cs.flatMap encodeScalar).length ≤ fuel →
    utf8ValidAux fuel (cs.flatMap encodeScalar) = true := by
  induction cs with
  | nil =>
    intro _ fuel _
    cases fuel <;> rfl
  | cons c cs ih =>
    intro h fuel hf
    obtain ⟨b, r, h1, h2⟩ := scalar_next (h c (by simp)) (cs.flatMap encodeScalar)
    rw [List.flatMap_cons, h1] at hf ⊢
    cases fuel with
    | zero => simp at hf
    | succ fuel =>
      rw [List.cons_append]
      simp only [utf8ValidAux]
      rw [h2]
      simp only
      rw [List.drop_succ_cons, List.drop_left]
      refine ih (fun d hd => h d (List.mem_cons_of_mem _ hd)) fuel ?_
      simp only [List.cons_append, List.length_cons, List.length_append] at hf
      omega

/-- The model of `from_utf8` accepts exactly UTF-8. -/
theorem utf8Valid_iff (b : Bytes) : utf8Valid b = true ↔ IsUtf8 b := by
  constructor
  · exact validAux_isUtf8 _ b
  · rintro ⟨cs, h, rfl⟩
    exact isUtf8_validAux cs h _ (Nat.le_refl _)

theorem lossyAux_isUtf8 (fuel : Nat) : ∀ b, IsUtf8 (utf8LossyAux fuel b) := by
  induction fuel with
  | zero => intro b; cases b <;> exact isUtf8_nil
  | succ fuel ih =>
    intro b
    cases b with
    | nil => exact isUtf8_nil
    | cons x r =>
      simp only [utf8LossyAux]
      split
      · rename_i n hn
        obtain ⟨c, h1, h2, -⟩ := next_scalar hn
        rw [h2]
        exact isUtf8_append (isUtf8_scalar h1) (ih _)
      · exact isUtf8_append (isUtf8_scalar (c := 0xFFFD) (by unfold IsScalar; omega)) (ih _)

/-- What `from_utf8_lossy` makes is UTF-8. -/
theorem lossy_isUtf8 (b : Bytes) : IsUtf8 (utf8Lossy b) := lossyAux_isUtf8 _ b

/-- `from_utf8_lossy` changes exactly what is not UTF-8. -/
theorem lossy_eq_iff (b : Bytes) : utf8Lossy b = b ↔ IsUtf8 b := by
  constructor
  · intro h; rw [← h]; exact lossy_isUtf8 b
  · intro h; exact utf8Lossy_valid ((utf8Valid_iff b).mpr h)

/-- The replacement is never shorter. -/
theorem lossyAux_length (fuel : Nat) : ∀ b : Bytes, b.length ≤ fuel → b.length ≤ (utf8LossyAux fuel b).length := by
  induction fuel with
  | zero => intro b h; cases b <;> simp_all
  | succ fuel ih =>
    intro b h
    cases b with
    | nil => simp
    | cons x r =>
      simp only [utf8LossyAux]
      have key : ∀ n, utf8Next x r = .inr n → 1 ≤ n ∧ n ≤ 3 := by
        intro n
        unfold utf8Next
        split
        · intro h; cases h
        · split
          · split
            · intro h; cases h
            · intro h; cases h; omega
          · intro h; cases h; omega
        · split
          · split
            · split
              · split
                · intro h; cases h
                · intro h; cases h; omega
              · intro h; cases h; omega
            · intro h; cases h; omega
          · intro h; cases h; omega
        · split
          · split
            · split
              · split
                · split
                  · split
                    · intro h; cases h
                    · intro h; cases h; omega
                  · intro h; cases h; omega
                · intro h; cases h; omega
              · intro h; cases h; omega
            · intro h; cases h; omega
          · intro h; cases h; omega
        · intro h; cases h; omega
      simp only [List.length_cons] at h
      split
      · rename_i n hn
        obtain ⟨c, -, -, h3, h4⟩ := next_scalar hn
        have := ih ((x :: r).drop n) (by simp only [List.length_drop, List.length_cons] at *; omega)
        simp only [List.length_append, List.length_take, List.length_drop, List.length_cons] at *
        omega
      · rename_i n hn
        obtain ⟨k1, k2⟩ := key n hn
        have := ih ((x :: r).drop n) (by simp only [List.length_drop, List.length_cons] at *; omega)
        simp only [List.length_append, List.length_drop, List.length_cons, List.length_nil] at *
        omega

theorem lossy_length (b : Bytes) : b.length ≤ (utf8Lossy b).length := lossyAux_length _ b (Nat.le_refl _)

end Webparse
