import Verif.Model.Name
import Verif.Spec.Ascii
import Verif.Proofs.Basic

/-! Lemmas about header names. -/

namespace Webparse

theorem nameHashInput_eq_lower (s : Bytes) : nameHashInput s = Spec.lower s := by
  simp only [nameHashInput, Spec.lower]
  congr 1
  funext b
  revert b
  decide +kernel

/-- Names compare equal byte by byte: equal, or 32 apart in either direction. -/
theorem nameEq_iff (a b : Bytes) : nameEq a b = true ↔
    a.length = b.length ∧ ∀ i (h1 : i < a.length) (h2 : i < b.length),
      a[i] = b[i] ∨ a[i] - b[i] = 32 ∨ a[i] - b[i] = 224 := by
  unfold nameEq
  by_cases hl : a.length = b.length
  · rw [if_neg (by simp [hl])]
    simp only [hl, true_and]
    induction a generalizing b with
    | nil =>
      cases b with
      | nil => simp [eqIgnoreCaseLoop]
      | cons y b => simp at hl
    | cons x a ih =>
      cases b with
      | nil => simp at hl
      | cons y b =>
        simp only [eqIgnoreCaseLoop]
        have hl' : a.length = b.length := by simpa using hl
        have ih' := ih b hl'
        constructor
        · intro h i h1 h2
          by_cases hxy : x = y
          · rw [if_pos hxy] at h
            cases i with
            | zero => left; simpa using hxy
            | succ i => simpa using ih'.mp h i (by simpa [hl'] using h1) (by simpa using h2)
          · rw [if_neg hxy] at h
            split at h
            · simp at h
            · rename_i hc
              cases i with
              | zero =>
                right
                simp only [ne_eq, not_and, Decidable.not_not] at hc
                simp only [List.getElem_cons_zero]
                by_cases h32 : x - y = 32
                · exact Or.inl h32
                · exact Or.inr (hc h32)
              | succ i => simpa using ih'.mp h i (by simpa [hl'] using h1) (by simpa using h2)
        · intro h
          have htail : eqIgnoreCaseLoop a b = true := by
            apply ih'.mpr
            intro i h1 h2
            have := h (i + 1) (by simpa using h1) (by simpa using h2)
            rw [List.getElem_cons_succ, List.getElem_cons_succ] at this
            exact this
          have h0 := h 0 (by simp) (by simp)
          simp only [List.getElem_cons_zero] at h0
          split
          · exact htail
          · rename_i hne
            rw [if_neg]
            · exact htail
            · rintro ⟨h3, h4⟩
              rcases h0 with h0 | h0 | h0
              · exact hne h0
              · exact h3 h0
              · exact h4 h0
  · rw [if_pos hl]; simp [hl]

open Spec in
/-- Lower-case names of ordinary characters are only equal to themselves. -/
theorem nameEq_plain {a b : Bytes} (ha : IsPlainName a) (hb : IsPlainName b)
    (h : nameEq a b = true) : lower a = lower b := by
  obtain ⟨hl, h⟩ := (nameEq_iff a b).mp h
  have key : ∀ x y : UInt8, isPlainNameByte x = true → isPlainNameByte y = true →
      (x = y ∨ x - y = 32 ∨ x - y = 224) → x = y := by
    have k1 : ∀ x : UInt8, isPlainNameByte x = true →
        isPlainNameByte (x - 32) = false ∧ isPlainNameByte (x - 224) = false := by
      decide +kernel
    intro x y hx hy hor
    rcases hor with h | h | h
    · exact h
    · have e : y = x - 32 := by rw [← h]; grind
      rw [e, (k1 x hx).1] at hy; simp at hy
    · have e : y = x - 224 := by rw [← h]; grind
      rw [e, (k1 x hx).2] at hy; simp at hy
  have : a = b := by
    apply List.ext_getElem hl
    intro i h1 h2
    exact key _ _ (ha _ (List.getElem_mem h1)) (hb _ (List.getElem_mem h2)) (h i h1 h2)
  rw [this]

end Webparse
