import Verif.Model.Status
import Verif.Spec.FrameHeaders
import Verif.Proofs.Basic

/-! Lemmas about status codes. -/

namespace Webparse
open Spec

theorem codeDigits_rows : codeDigits.map asciiBytes =
    (List.range 30).map fun r => (List.range' (100 + 30 * r) 30).flatMap threeDigits := by
  decide +kernel

theorem range_rows : (List.range 30).flatMap (fun r => List.range' (100 + 30 * r) 30) = List.range' 100 900 := by
  decide +kernel

theorem codeDigits_eq : codeDigitsBytes = (List.range' 100 900).flatMap threeDigits := by
  unfold codeDigitsBytes
  rw [List.flatMap_def, codeDigits_rows, ← List.flatMap_def, ← range_rows, List.flatMap_assoc]

theorem slice_flatMap {α : Type} (f : α → Bytes) (k : Nat) (hf : ∀ a, (f a).length = k) (l : List α) :
    ∀ (i : Nat) (h : i < l.length), ((l.flatMap f).drop (i * k)).take k = f l[i] := by
  induction l with
  | nil => intro i h; simp at h
  | cons a l ih =>
    intro i h
    rw [List.flatMap_cons]
    cases i with
    | zero =>
      rw [Nat.zero_mul, List.drop_zero, List.take_left' (hf a)]
      rfl
    | succ i =>
      rw [Nat.succ_mul, Nat.add_comm, ← List.drop_drop, List.drop_left' (hf a), ih i (by simpa using h)]
      rfl

theorem flatMap_length {α : Type} (f : α → Bytes) (k : Nat) (hf : ∀ a, (f a).length = k) (l : List α) :
    (l.flatMap f).length = l.length * k := by
  induction l with
  | nil => simp
  | cons a l ih => rw [List.flatMap_cons, List.length_append, ih, hf, List.length_cons, Nat.succ_mul, Nat.add_comm]

/-- `as_str` gives the three digits of any code from 100 to 999 and panics beyond. -/
theorem statusAsStr_eq (c : Nat) :
    statusAsStr c = if 100 ≤ c ∧ c ≤ 999 then .ok (threeDigits c) else .panic := by
  unfold statusAsStr
  by_cases h1 : c < 100
  · rw [if_pos h1, if_neg (by omega)]
  · rw [if_neg h1]
    simp only
    rw [codeDigits_eq, flatMap_length threeDigits 3 (fun _ => rfl), List.length_range']
    by_cases h2 : c ≤ 999
    · rw [if_pos (by omega), if_pos (by omega),
        slice_flatMap threeDigits 3 (fun _ => rfl) _ (c - 100) (by simp; omega)]
      rw [List.getElem_range']
      congr 2
      omega
    · rw [if_neg (by omega), if_neg (by omega)]

theorem statusFromBytes_digits (c : Nat) (h : 100 ≤ c ∧ c ≤ 999) :
    statusFromBytes (threeDigits c) = .ok c := by
  have key : ∀ i : Fin 900, statusFromBytes (threeDigits (i.val + 100)) = .ok (i.val + 100) := by
    decide +kernel
  have := key ⟨c - 100, by omega⟩
  simp only at this
  rwa [show c - 100 + 100 = c by omega] at this

theorem threeDigits_ascii (c : Nat) : ∀ b ∈ threeDigits c, b < 0x80 := by
  have key : ∀ d : Fin 10, UInt8.ofNat (48 + d.val) < 0x80 := by decide
  intro b hb
  simp only [threeDigits, List.mem_cons, List.not_mem_nil, or_false] at hb
  rcases hb with rfl | rfl | rfl
  · exact key ⟨c / 100 % 10, Nat.mod_lt _ (by decide)⟩
  · exact key ⟨c / 10 % 10, Nat.mod_lt _ (by decide)⟩
  · exact key ⟨c % 10, Nat.mod_lt _ (by decide)⟩

end Webparse
