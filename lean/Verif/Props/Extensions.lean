import Verif.Proofs.Extensions

/-! # C52: extensions behave as a map keyed by type -/

namespace Webparse
open Spec

variable {ι : Type} [DecidableEq ι] {V : ι → Type}

/-- After any history `get` gives the value stored last for the type, or nothing. -/
theorem C52_get (h : History V) (i : ι) : h.run.get i = h.contents i := (ext_run_spec h).2 i

/-- `insert` returns the value stored before. -/
theorem C52_insert_returns (h : History V) (i : ι) (v : V i) : (h.run.insert i v).1 = h.contents i := by
  rw [← C52_get, ext_get_eq]; rfl

/-- `remove` returns the value stored before. -/
theorem C52_remove_returns (h : History V) (i : ι) : (h.run.remove i).1 = h.contents i := by
  rw [← C52_get, ext_get_eq]
  unfold Extensions.remove
  split <;> rename_i hm <;> rw [hm] <;> rfl

/-- `len` is the number of types present. -/
theorem C52_len (h : History V) : HasCount h.contents h.run.len := by
  refine ⟨(h.run.map.getD []).map (·.1), (ext_run_spec h).1.2, fun i => ?_, ?_⟩
  · rw [ext_val_isSome (ext_run_spec h).1, ← ext_get_eq, C52_get]
  · unfold Extensions.len
    cases h.run.map <;> simp

/-- `is_empty` holds if no type is present. -/
theorem C52_is_empty (h : History V) : h.run.isEmpty = true ↔ ∀ i, h.contents i = none := by
  have e : h.run.isEmpty = (h.run.map.getD []).isEmpty := by
    unfold Extensions.isEmpty
    cases h.run.map <;> simp
  rw [e, List.isEmpty_iff]
  constructor
  · intro hn i
    rw [← C52_get, ext_get_eq, hn]; rfl
  · intro hn
    cases hm : h.run.map.getD [] with
    | nil => rfl
    | cons x r =>
      have := (ext_val_isSome (ext_run_spec h).1 x.1).mp (by rw [hm]; simp)
      rw [← ext_get_eq, C52_get, hn] at this
      simp at this

/-- The first example of the documentation of `extend`, with `u8` and `u16` as `false` and `true`. -/
def extendExample : History (fun _ : Bool => Nat) :=
  .extend (.insert (.insert .new false 8) true 16) (.insert (.insert .new false 5) false 4)

example : extendExample.run.get false = some 4 ∧ extendExample.run.get true = some 16 ∧ extendExample.run.len = 2 := by
  decide

end Webparse
