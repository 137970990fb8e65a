import Verif.Model.Utf8
import Verif.Spec.Ascii
import Verif.Proofs.Basic

/-! Lemmas about UTF-8 validity. -/

namespace Webparse
open Spec

theorem utf8LossyAux_valid (fuel : Nat) (b : Bytes) (h : utf8ValidAux fuel b = true) :
    utf8LossyAux fuel b = b := by
  induction fuel generalizing b with
  | zero => cases b <;> simp [utf8ValidAux, utf8LossyAux] at *
  | succ fuel ih =>
    cases b with
    | nil => rfl
    | cons x rest =>
      simp only [utf8ValidAux, utf8LossyAux] at *
      split at h
      · rw [ih _ h, List.take_append_drop]
      · simp at h

theorem utf8Lossy_valid {b : Bytes} (h : utf8Valid b = true) : utf8Lossy b = b :=
  utf8LossyAux_valid _ _ h

theorem lowerByte_high (b : UInt8) (h : 0x80 ≤ b) : lowerByte b = b := by
  revert b; decide +kernel

theorem seqLen_lower (b : UInt8) : seqLen (lowerByte b) = seqLen b := by
  revert b; decide +kernel

theorem isCont_lower (b : UInt8) : isCont (lowerByte b) = isCont b := by
  revert b; decide +kernel

theorem secondOk_low (a c : UInt8) (h : ¬ 0x80 ≤ c) : secondOk a c = false := by
  have h1 : isCont c = false := by revert c; decide +kernel
  have h2 : (0xA0 ≤ c) = False ∧ (0x90 ≤ c) = False ∧ (0x80 ≤ c) = False := by
    refine ⟨?_, ?_, by simp [h]⟩ <;> simp only [UInt8.le_iff_toNat_le, eq_iff_iff, iff_false] at * <;>
      simp at * <;> omega
  unfold secondOk
  simp only [h1, h2.1, h2.2.1, h2.2.2]
  split <;> simp

theorem lowerByte_low (c : UInt8) (h : ¬ 0x80 ≤ c) : ¬ 0x80 ≤ lowerByte c := by
  revert c; decide +kernel

theorem secondOk_lower (a c : UInt8) : secondOk a (lowerByte c) = secondOk a c := by
  by_cases h : 0x80 ≤ c
  · rw [lowerByte_high c h]
  · rw [secondOk_low a c h, secondOk_low a _ (lowerByte_low c h)]

theorem seqLen_low (b : UInt8) (h : ¬ 0x80 ≤ b) : seqLen b = 1 := by
  revert b; decide +kernel

theorem utf8Next_lower (b : UInt8) (rest : Bytes) :
    utf8Next (lowerByte b) (lower rest) = utf8Next b rest := by
  by_cases h : 0x80 ≤ b
  · rw [lowerByte_high b h]
    rcases rest with _ | ⟨c, _ | ⟨d, _ | ⟨e, rest⟩⟩⟩ <;>
      simp [utf8Next, lower, secondOk_lower, isCont_lower]
  · simp only [utf8Next, seqLen_lower, seqLen_low b h]

theorem utf8ValidAux_lower (fuel : Nat) (b : Bytes) :
    utf8ValidAux fuel (lower b) = utf8ValidAux fuel b := by
  induction fuel generalizing b with
  | zero => cases b <;> rfl
  | succ fuel ih =>
    cases b with
    | nil => rfl
    | cons x rest =>
      have e : lower (x :: rest) = lowerByte x :: lower rest := rfl
      rw [e]
      simp only [utf8ValidAux, utf8Next_lower]
      split
      · rename_i n _
        rw [← e, ← ih ((x :: rest).drop n)]
        congr 1
        simp only [lower, List.map_drop]
      · rfl

theorem utf8Valid_lower (b : Bytes) : utf8Valid (lower b) = utf8Valid b := by
  unfold utf8Valid
  rw [show (lower b).length = b.length by simp [lower], utf8ValidAux_lower]

/-- ASCII is valid UTF-8. -/
theorem utf8Valid_ascii (b : Bytes) (h : ∀ x ∈ b, x < 0x80) : utf8Valid b = true := by
  suffices ∀ fuel, b.length ≤ fuel → utf8ValidAux fuel b = true from this _ (Nat.le_refl _)
  intro fuel
  induction fuel generalizing b with
  | zero => intro hl; cases b <;> simp [utf8ValidAux] at *
  | succ fuel ih =>
    intro hl
    cases b with
    | nil => rfl
    | cons x rest =>
      have hx : ¬ 0x80 ≤ x := by have := h x (by simp); simpa [UInt8.not_le] using this
      simp only [utf8ValidAux, utf8Next, seqLen_low x hx]
      simpa using ih rest (fun y hy => h y (by simp [hy])) (by simpa using hl)

end Webparse
