import Verif.Spec.Reason
import Verif.Proofs.Numbers
import Verif.Proofs.Basic

/-!
# C110, C111: texts of error codes and errors, the order of frames by priority

The full claims.  C110: error codes have the numbers and names of RFC 9113, and different codes, and different errors, are printed
differently.  C111: frames put in a queue by priority are compared by a total order that agrees with equality, only equal frames are
equal, and they leave the queue by falling weight, those of one weight in the order in which they were put in.
-/

namespace Webparse
open Spec

/-! ### Error codes -/

/-- C110 for `Display` of error codes. -/
def C110_display_statement : Prop := ∀ r r' : Reason, r.description = r'.description → r = r'

/-- C110 for `Display` of errors. -/
def C110_errors_statement : Prop := ∀ e e' : Error, e.text = e'.text → e = e'

/-- The codes and names of RFC 9113, no more and no fewer, and `Debug` prints the name. -/
theorem C110_names : Reason.constants = rfcErrorCodes.map (fun e => (e.2, ⟨e.1⟩)) ∧
    ∀ e ∈ rfcErrorCodes, (Reason.mk e.1).debug = asciiBytes e.2 := by
  constructor
  · rfl
  · decide +kernel

theorem reason_code {r : Reason} (h : r.code.toNat < 14) : ∃ i : Fin 14, r = ⟨UInt32.ofNat i.val⟩ := by
  refine ⟨⟨r.code.toNat, h⟩, ?_⟩
  cases r with
  | mk c => simp

theorem debug_unknown {r : Reason} (h : 14 ≤ r.code.toNat) : r.debug = asciiBytes "Reason(" ++ hexLower r.code.toNat ++ asciiBytes ")" := by
  unfold Reason.debug
  split <;> first | omega | rfl

theorem description_unknown {r : Reason} (h : 14 ≤ r.code.toNat) : r.description = asciiBytes "unknown reason" := by
  unfold Reason.description
  split <;> first | omega | rfl

/-- Different codes are printed differently by `Debug`, for all 2^32 of them. -/
theorem C110_debug (r r' : Reason) (h : r.debug = r'.debug) : r = r' := by
  have known : ∀ i j : Fin 14, (Reason.mk (UInt32.ofNat i.val)).debug = (Reason.mk (UInt32.ofNat j.val)).debug → i = j := by decide +kernel
  have paren : ∀ i : Fin 14, (40 : UInt8) ∉ (Reason.mk (UInt32.ofNat i.val)).debug := by decide +kernel
  have mem : ∀ n : Nat, (40 : UInt8) ∈ asciiBytes "Reason(" ++ hexLower n ++ asciiBytes ")" := fun n => by
    rw [List.append_assoc, List.mem_append]; exact .inl (by decide)
  by_cases h1 : r.code.toNat < 14 <;> by_cases h2 : r'.code.toNat < 14
  · obtain ⟨i, rfl⟩ := reason_code h1
    obtain ⟨j, rfl⟩ := reason_code h2
    rw [known i j h]
  · obtain ⟨i, rfl⟩ := reason_code h1
    rw [debug_unknown (Nat.le_of_not_lt h2)] at h
    exact absurd (h ▸ mem _) (paren i)
  · obtain ⟨j, rfl⟩ := reason_code h2
    rw [debug_unknown (Nat.le_of_not_lt h1)] at h
    exact absurd (h ▸ mem _) (paren j)
  · rw [debug_unknown (Nat.le_of_not_lt h1), debug_unknown (Nat.le_of_not_lt h2), List.append_assoc, List.append_assoc] at h
    have e := List.append_cancel_right (List.append_cancel_left h)
    have e2 := congrArg (digitsVal 16) e
    rw [(hexLower_spec _).2.2, (hexLower_spec _).2.2] at e2
    cases r; cases r'
    simp only [UInt32.toNat_inj] at e2
    rw [e2]

/-- `Display` prints codes alike exactly if they are the same or both are unknown. -/
theorem C110_display_iff_partial (r r' : Reason) :
    r.description = r'.description ↔ r = r' ∨ (14 ≤ r.code.toNat ∧ 14 ≤ r'.code.toNat) := by
  have known : ∀ i j : Fin 14, (Reason.mk (UInt32.ofNat i.val)).description = (Reason.mk (UInt32.ofNat j.val)).description → i = j := by
    decide +kernel
  have other : ∀ i : Fin 14, (Reason.mk (UInt32.ofNat i.val)).description ≠ asciiBytes "unknown reason" := by decide +kernel
  constructor
  · intro h
    by_cases h1 : r.code.toNat < 14 <;> by_cases h2 : r'.code.toNat < 14
    · obtain ⟨i, rfl⟩ := reason_code h1
      obtain ⟨j, rfl⟩ := reason_code h2
      exact .inl (by rw [known i j h])
    · obtain ⟨i, rfl⟩ := reason_code h1
      rw [description_unknown (Nat.le_of_not_lt h2)] at h
      exact absurd h (other i)
    · obtain ⟨j, rfl⟩ := reason_code h2
      rw [description_unknown (Nat.le_of_not_lt h1)] at h
      exact absurd h.symm (other j)
    · exact .inr ⟨Nat.le_of_not_lt h1, Nat.le_of_not_lt h2⟩
  · rintro (rfl | ⟨h1, h2⟩)
    · rfl
    · rw [description_unknown h1, description_unknown h2]

/-- C110, violated: all unknown codes are printed alike. -/
theorem C110_violated_display : ¬ C110_display_statement := by
  intro h
  exact absurd (h ⟨14⟩ ⟨15⟩ (by decide +kernel)) (by decide)

/-- C110, violated: every HTTP/2 error and every error of a WebSocket message is printed as nothing; errors are printed alike exactly if
they are the same or both are such. -/
theorem C110_errors_iff_partial (e e' : Error) : e.text = e'.text ↔
    e = e' ∨ (¬ SpokenError e ∧ e ≠ .wsDataFrame ∧ ¬ SpokenError e' ∧ e' ≠ .wsDataFrame) := by
  unfold SpokenError
  cases e <;> cases e' <;> decide +kernel

theorem C110_violated_errors : ¬ C110_errors_statement := by
  intro h
  exact absurd (h .short .badFrameSize (by decide)) (by decide)

/-! ### The order of frames -/

/-- C111 for the order in which frames leave a queue: the queue first in, the frames of one weight in the same order. -/
def C111_order_statement : Prop :=
  ∀ (F : Type) (queue out : List (PriorityFrame F)), Emptied PriorityFrame.cmp queue out →
    ∀ w : UInt8, (out.filter (·.weight = w)) = queue.filter (·.weight = w)

/-- C111 for equality. -/
def C111_eq_statement : Prop := ∀ (F : Type) (a b : PriorityFrame F), a.eq b = true → a = b

/-- The comparison is a total order on weights that agrees with equality: reflexive, antisymmetric in this sense, transitive, total. -/
theorem C111_total {F : Type} (a b c : PriorityFrame F) :
    (a.cmp b = .eq ↔ a.eq b = true) ∧ a.cmp b = (b.cmp a).swap ∧ a.cmp a = .eq ∧
    (a.cmp b ≠ .lt → b.cmp c ≠ .lt → a.cmp c ≠ .lt) := by
  unfold PriorityFrame.cmp PriorityFrame.eq
  refine ⟨?_, ?_, ?_, ?_⟩
  · rw [Nat.compare_eq_eq, beq_iff_eq, UInt8.toNat_inj]
  · exact (Nat.compare_swap _ _).symm
  · rw [Nat.compare_eq_eq]
  · rw [ne_eq, Nat.compare_eq_lt, ne_eq, Nat.compare_eq_lt, ne_eq, Nat.compare_eq_lt]; omega

theorem weight_inj {F : Type} : ∀ {l : List (PriorityFrame F)}, (l.map (·.weight)).Nodup → ∀ a ∈ l, ∀ b ∈ l, a.weight = b.weight → a = b
  | [], _, _, ha, _, _, _ => absurd ha List.not_mem_nil
  | x :: l, hn, a, ha, b, hb, e => by
    rw [List.map_cons, List.nodup_cons] at hn
    rcases List.mem_cons.mp ha with rfl | ha' <;> rcases List.mem_cons.mp hb with rfl | hb'
    · rfl
    · exact absurd (List.mem_map.mpr ⟨b, hb', e.symm⟩) hn.1
    · exact absurd (List.mem_map.mpr ⟨a, ha', e⟩) hn.1
    · exact weight_inj hn.2 a ha' b hb' e

/-- Frames leave a queue by falling weight, and with weights that differ in one order only. -/
theorem C111_order_partial {F : Type} (queue out : List (PriorityFrame F)) (h : Emptied PriorityFrame.cmp queue out) :
    out.Pairwise (fun a b => b.weight.toNat ≤ a.weight.toNat) ∧
    ((queue.map (·.weight)).Nodup → ∀ out', Emptied PriorityFrame.cmp queue out' → out' = out) := by
  have falling : ∀ {o : List (PriorityFrame F)}, Emptied PriorityFrame.cmp queue o → o.Pairwise (fun a b => b.weight.toNat ≤ a.weight.toNat) := by
    intro o ho
    refine ho.2.imp fun {a b} hab => ?_
    unfold PriorityFrame.cmp at hab
    rw [ne_eq, Nat.compare_eq_lt] at hab
    omega
  refine ⟨falling h, fun hn out' h' => ?_⟩
  have hinj : ∀ a ∈ queue, ∀ b ∈ queue, a.weight = b.weight → a = b := fun a ha b hb e => weight_inj hn a ha b hb e
  refine List.Perm.eq_of_pairwise ?_ (falling h') (falling h) (h'.1.trans h.1.symm)
  intro a b ha hb h1 h2
  exact hinj a (h'.1.subset ha) b (h.1.subset hb) (UInt8.toNat_inj.mp (by omega))

/-- C111, violated for any two frames of one weight: they are equal, and either may leave the queue first. -/
theorem C111_violated_equal {F : Type} (f g : F) (w : UInt8) :
    (PriorityFrame.mk f w).eq ⟨g, w⟩ = true ∧ Emptied PriorityFrame.cmp [⟨f, w⟩, ⟨g, w⟩] [⟨f, w⟩, ⟨g, w⟩] ∧
    Emptied PriorityFrame.cmp [⟨f, w⟩, ⟨g, w⟩] [⟨g, w⟩, ⟨f, w⟩] := by
  refine ⟨by simp [PriorityFrame.eq], ⟨.refl _, ?_⟩, ⟨.swap .., ?_⟩⟩ <;> simp [PriorityFrame.cmp, Nat.compare_eq_lt]

theorem C111_violated_eq : ¬ C111_eq_statement := by
  intro h
  have := h Bool ⟨true, 1⟩ ⟨false, 1⟩ (by decide)
  simp at this

theorem C111_violated_order : ¬ C111_order_statement := by
  intro h
  have := h Bool _ _ (C111_violated_equal true false 1).2.2 1
  simp at this

/-- Two frames of different weights in a queue. -/
example : Emptied PriorityFrame.cmp [PriorityFrame.mk "DATA" 1, ⟨"HEADERS", 2⟩] [⟨"HEADERS", 2⟩, ⟨"DATA", 1⟩] ∧
    ([PriorityFrame.mk "DATA" 1, ⟨"HEADERS", 2⟩].map (·.weight)).Nodup := by
  refine ⟨⟨.swap .., ?_⟩, by decide⟩
  simp only [List.pairwise_cons, List.mem_singleton, forall_eq, List.not_mem_nil, false_implies, implies_true, List.Pairwise.nil, and_true]
  decide

end Webparse
