import Verif.Model.HexText
import Verif.Spec.HexText
import Verif.Proofs.Numbers

/-! C86: hexadecimal text. -/

namespace Webparse
open Spec

/-- C86, the full claim: exactly the hexadecimal texts are converted, to their bytes. -/
def C86_statement : Prop := ∀ s v : Bytes, hexToVec s = .ok v ↔ HexText s v

theorem hexNibble_eq (b : UInt8) : hexNibble b = match hexDigit? b with | some x => .ok x | none => .panic := by
  have : ∀ b : UInt8, hexNibble b = match hexDigit? b with | some x => Res.ok x | none => .panic := by decide +kernel
  exact this b

theorem hexDigit_lt (b : UInt8) (x : Nat) (h : hexDigit? b = some x) : x < 16 := by
  have : ∀ b : UInt8, (hexDigit? b).all (· < 16) = true := by decide +kernel
  have := this b
  rw [h] at this
  simpa using this

theorem hexDigit_blank : hexDigit? 32 = none := by decide

theorem loop_blanks (first : Bool) (val k : Nat) (s : Bytes) :
    hexToVecLoop first val (List.replicate k 32 ++ s) = hexToVecLoop first val s := by
  induction k with
  | zero => rfl
  | succ k ih =>
    rw [List.replicate_succ, List.cons_append]
    simp only [hexToVecLoop, ne_eq, not_true_eq_false, if_false]
    exact ih

/-- C86: every hexadecimal text is converted. -/
theorem C86_converts_partial (s v : Bytes) (h : HexText s v) : hexToVec s = .ok v := by
  unfold hexToVec
  induction h with
  | nil => rfl
  | blank _ ih =>
    simp only [hexToVecLoop, ne_eq, not_true_eq_false, if_false]
    exact ih
  | @byte a b x y k s v ha hb _ ih =>
    have na : a ≠ 32 := by rintro rfl; rw [hexDigit_blank] at ha; cases ha
    have nb : b ≠ 32 := by rintro rfl; rw [hexDigit_blank] at hb; cases hb
    have lx := hexDigit_lt a x ha
    have ly := hexDigit_lt b y hb
    simp only [hexToVecLoop, na, ne_eq, not_false_eq_true, if_true, hexNibble_eq, ha, Res.bind_ok]
    rw [loop_blanks]
    simp only [hexToVecLoop, nb, ne_eq, not_false_eq_true, if_true, hexNibble_eq, hb, Res.bind_ok,
      Bool.false_eq_true, if_false]
    rw [if_neg (by omega), ih]
    simp only [Res.bind_ok, Nat.mul_comm x 16]

/-- The two states of the loop. -/
theorem loop_inv (s : Bytes) : ∀ v,
    (hexToVecLoop true 0 s = .ok v → HexText s v ∨
      ∃ t a k, s = t ++ a :: List.replicate k 32 ∧ (hexDigit? a).isSome ∧ HexText t v) ∧
    ∀ x, x < 16 → hexToVecLoop false x s = .ok v → (v = [] ∧ ∃ k, s = List.replicate k 32) ∨
      ∃ k b y t w, s = List.replicate k 32 ++ b :: t ∧ hexDigit? b = some y ∧ v = UInt8.ofNat (16 * x + y) :: w ∧
        hexToVecLoop true 0 t = .ok w ∧ (HexText t w ∨
          ∃ t' a k, t = t' ++ a :: List.replicate k 32 ∧ (hexDigit? a).isSome ∧ HexText t' w) := by
  induction s with
  | nil =>
    intro v
    constructor
    · intro h
      simp only [hexToVecLoop, Res.ok.injEq] at h
      subst h
      exact .inl .nil
    · intro x _ h
      simp only [hexToVecLoop, Res.ok.injEq] at h
      exact .inl ⟨h.symm, 0, rfl⟩
  | cons b s ih =>
    intro v
    by_cases hb : b = 32
    · subst hb
      simp only [hexToVecLoop, ne_eq, not_true_eq_false, if_false]
      obtain ⟨i1, i2⟩ := ih v
      constructor
      · intro h
        rcases i1 h with h | ⟨t, a, k, rfl, h2, h3⟩
        · exact .inl (.blank h)
        · exact .inr ⟨32 :: t, a, k, rfl, h2, .blank h3⟩
      · intro x hx h
        rcases i2 x hx h with ⟨h1, k, rfl⟩ | ⟨k, b, y, t, w, rfl, h2, h3, h4⟩
        · exact .inl ⟨h1, k + 1, rfl⟩
        · exact .inr ⟨k + 1, b, y, t, w, rfl, h2, h3, h4⟩
    · simp only [hexToVecLoop, hb, ne_eq, not_false_eq_true, if_true, hexNibble_eq, Bool.false_eq_true, if_false]
      cases hd : hexDigit? b with
      | none => exact ⟨fun h => (by cases h), fun x _ h => (by cases h)⟩
      | some d =>
        simp only [Res.bind_ok]
        have ld := hexDigit_lt b d hd
        constructor
        · intro h
          rcases (ih v).2 d ld h with ⟨rfl, k, rfl⟩ | ⟨k, c, y, t, w, rfl, h2, rfl, -, h4⟩
          · exact .inr ⟨[], b, k, rfl, by rw [hd]; rfl, .nil⟩
          · rcases h4 with h4 | ⟨t', a, k', rfl, h5, h6⟩
            · exact .inl (.byte hd h2 h4)
            · exact .inr ⟨b :: (List.replicate k 32 ++ c :: t'), a, k', by simp, h5, .byte hd h2 h6⟩
        · intro x hx h
          rw [if_neg (by omega)] at h
          rw [Res.bind_eq_ok] at h
          obtain ⟨w, hw, h⟩ := h
          simp only [Res.ok.injEq] at h
          exact .inr ⟨0, b, d, s, w, rfl, hd, by rw [← h, Nat.mul_comm x 16], hw, (ih w).1 hw⟩

/-- C86, exact: what is converted is hexadecimal text, or such a text followed by one digit more, which is
dropped. -/
theorem C86_exact_partial (s v : Bytes) : hexToVec s = .ok v ↔
    HexText s v ∨ ∃ t a k, s = t ++ a :: List.replicate k 32 ∧ (hexDigit? a).isSome ∧ HexText t v := by
  constructor
  · exact (loop_inv s v).1
  · rintro (h | ⟨t, a, k, rfl, ha, h⟩)
    · exact C86_converts_partial s v h
    · unfold hexToVec
      induction h with
      | nil =>
        obtain ⟨x, hx⟩ := Option.isSome_iff_exists.mp ha
        have na : a ≠ 32 := by rintro rfl; rw [hexDigit_blank] at hx; cases hx
        simp only [List.nil_append, hexToVecLoop, na, ne_eq, not_false_eq_true, if_true, hexNibble_eq, hx, Res.bind_ok]
        have := loop_blanks false x k []
        rw [List.append_nil] at this
        rw [this]
        rfl
      | blank _ ih =>
        simp only [List.cons_append, hexToVecLoop, ne_eq, not_true_eq_false, if_false]
        exact ih
      | @byte c b x y j s v hc hb _ ih =>
        have nc : c ≠ 32 := by rintro rfl; rw [hexDigit_blank] at hc; cases hc
        have nb : b ≠ 32 := by rintro rfl; rw [hexDigit_blank] at hb; cases hb
        have lx := hexDigit_lt c x hc
        have ly := hexDigit_lt b y hb
        simp only [List.cons_append, List.append_assoc, hexToVecLoop, nc, ne_eq, not_false_eq_true, if_true,
          hexNibble_eq, hc, Res.bind_ok]
        rw [loop_blanks]
        simp only [hexToVecLoop, nb, ne_eq, not_false_eq_true, if_true, hexNibble_eq, hb, Res.bind_ok,
          Bool.false_eq_true, if_false]
        rw [if_neg (by omega), ih]
        simp only [Res.bind_ok, Nat.mul_comm x 16]

theorem loop_panics (s : Bytes) : ∀ (first : Bool) (x : Nat), x < 16 →
    ((∃ v, hexToVecLoop first x s = .ok v) ∨ hexToVecLoop first x s = .panic) ∧
    (hexToVecLoop first x s = .panic ↔ ∃ b ∈ s, b ≠ 32 ∧ hexDigit? b = none) := by
  induction s with
  | nil =>
    intro first x hx
    exact ⟨.inl ⟨[], by simp [hexToVecLoop]⟩, by simp [hexToVecLoop]⟩
  | cons b s ih =>
    intro first x hx
    by_cases hb : b = 32
    · subst hb
      simp only [hexToVecLoop, ne_eq, not_true_eq_false, if_false]
      refine ⟨(ih first x hx).1, (ih first x hx).2.trans ?_⟩
      simp
    · simp only [hexToVecLoop, hb, ne_eq, not_false_eq_true, if_true, hexNibble_eq]
      cases hd : hexDigit? b with
      | none =>
        have : ∃ c ∈ b :: s, ¬ c = 32 ∧ hexDigit? c = none := ⟨b, by simp, hb, hd⟩
        cases first
        · exact ⟨.inr rfl, ⟨fun _ => this, fun _ => rfl⟩⟩
        · exact ⟨.inr rfl, ⟨fun _ => this, fun _ => rfl⟩⟩
      | some d =>
        have ld := hexDigit_lt b d hd
        have he : (∃ c ∈ b :: s, ¬ c = 32 ∧ hexDigit? c = none) ↔ ∃ c ∈ s, c ≠ 32 ∧ hexDigit? c = none := by
          constructor
          · rintro ⟨c, hc, h1, h2⟩
            rcases List.mem_cons.mp hc with rfl | hc
            · rw [hd] at h2; cases h2
            · exact ⟨c, hc, h1, h2⟩
          · rintro ⟨c, hc, h⟩
            exact ⟨c, by simp [hc], h⟩
        rw [he]
        cases first
        · simp only [Res.bind_ok, Bool.false_eq_true, if_false]
          rw [if_neg (by omega), ← (ih true 0 (by omega)).2]
          rcases (ih true 0 (by omega)).1 with ⟨v, hv⟩ | hv
          · rw [hv]
            exact ⟨.inl ⟨_, rfl⟩, ⟨fun h => (by cases h), fun h => (by cases h)⟩⟩
          · rw [hv]
            exact ⟨.inr rfl, ⟨fun _ => rfl, fun _ => rfl⟩⟩
        · simp only [Res.bind_ok, if_true]
          exact ih false d ld

/-- C86: a character that is neither a digit nor a blank is a panic, and nothing else is; there is no error. -/
theorem C86_panics (s : Bytes) : (hexToVec s = .panic ↔ ∃ b ∈ s, b ≠ 32 ∧ hexDigit? b = none) ∧
    ∀ e, hexToVec s ≠ .err e := by
  obtain ⟨h1, h2⟩ := loop_panics s true 0 (by omega)
  refine ⟨h2, fun e h => ?_⟩
  unfold hexToVec at h
  rcases h1 with ⟨v, hv⟩ | hp
  · rw [hv] at h; cases h
  · rw [hp] at h; cases h

example : HexText (asciiBytes "8286 8441 0F") [0x82, 0x86, 0x84, 0x41, 0x0f] := by
  have e : asciiBytes "8286 8441 0F" = [56, 50, 56, 54, 32, 56, 52, 52, 49, 32, 48, 70] := by decide +kernel
  rw [e]
  exact .byte (k := 0) (x := 8) (y := 2) rfl rfl (.byte (k := 0) (x := 8) (y := 6) rfl rfl (.blank
    (.byte (k := 0) (x := 8) (y := 4) rfl rfl (.byte (k := 0) (x := 4) (y := 1) rfl rfl (.blank
    (.byte (k := 0) (x := 0) (y := 15) rfl rfl .nil))))))

/-- C86, violated: a digit too many is dropped without a word. -/
theorem C86_violated : ¬ C86_statement := by
  intro h
  have h1 := (h [56] []).mp (by decide)
  generalize hs : ([56] : Bytes) = s at h1
  generalize hv : ([] : Bytes) = v at h1
  cases h1 with
  | nil => cases hs
  | blank => cases hs
  | byte => cases hv

end Webparse
