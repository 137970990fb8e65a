import Verif.Spec.Copies
import Verif.Proofs.Extensions

/-! # C100: copies of messages -/

namespace Webparse
open Spec

variable {ι : Type} [DecidableEq ι] {V : ι → Type} {β γ : Type}

/-- C100, the claim: `replace_clone` hands out a copy of the message, and leaves the message with the new body. -/
def C100_clone_statement : Prop :=
  ∀ (ι : Type) (_ : DecidableEq ι) (V : ι → Type) (β : Type) (table : ι) (body : β),
    (∀ r : FullRequest V β, SameFullRequest (r.replaceClone table body).1 r ∧
      SameFullRequest (r.replaceClone table body).2 { r with body := body }) ∧
    ∀ r : FullResponse V β, SameFullResponse (r.replaceClone table body).1 r ∧
      SameFullResponse (r.replaceClone table body).2 { r with body := body }

/-- What is left of the extensions: the header table, and nothing else. -/
theorem cloneFor_get (table : ι) (e : Extensions V) (i : ι) :
    (e.cloneFor table).get i = if i = table then e.get i else none := by
  unfold Extensions.cloneFor
  cases h : e.get table with
  | none =>
    by_cases hi : i = table
    · subst hi; rw [if_pos rfl, h]; rfl
    · simp [hi, Extensions.new, Extensions.get]
  | some v =>
    by_cases hi : i = table
    · subst hi
      rw [if_pos rfl, h]
      simp [Extensions.new, Extensions.get, Extensions.insert, AnyMap.insert, AnyMap.get, AnyBox.downcast]
    · simp [hi, Extensions.new, Extensions.get, Extensions.insert, AnyMap.insert, AnyMap.get, Ne.symm hi]

/-- C100, partial: the copy of a request is the request exactly if there is no extension but the header table; the
original keeps everything, with the new body. -/
theorem C100_request_iff_partial (table : ι) (r : FullRequest V β) (body : β) :
    (SameFullRequest (r.replaceClone table body).1 r ↔ ∀ i, i ≠ table → r.ext.get i = none) ∧
    SameFullRequest (r.replaceClone table body).2 { r with body := body } := by
  refine ⟨⟨fun h i hi => ?_, fun h => ⟨rfl, rfl, rfl, fun i => ?_⟩⟩, rfl, rfl, rfl, fun _ => rfl⟩
  · have := h.2.2.2 i
    simp only [FullRequest.replaceClone, cloneFor_get, if_neg hi] at this
    exact this.symm
  · simp only [FullRequest.replaceClone, cloneFor_get]
    split
    · rfl
    · rename_i hi; rw [h i hi]

/-- C100, partial: the same for responses. -/
theorem C100_response_iff_partial (table : ι) (r : FullResponse V β) (body : β) :
    (SameFullResponse (r.replaceClone table body).1 r ↔ ∀ i, i ≠ table → r.ext.get i = none) ∧
    SameFullResponse (r.replaceClone table body).2 { r with body := body } := by
  refine ⟨⟨fun h i hi => ?_, fun h => ⟨rfl, rfl, rfl, fun i => ?_⟩⟩, rfl, rfl, rfl, fun _ => rfl⟩
  · have := h.2.2.2 i
    simp only [FullResponse.replaceClone, cloneFor_get, if_neg hi] at this
    exact this.symm
  · simp only [FullResponse.replaceClone, cloneFor_get]
    split
    · rfl
    · rename_i hi; rw [h i hi]

/-- C100, violated: every other extension is missing in the copy, whatever else the message has. -/
theorem C100_violated_extension (table i : ι) (hi : i ≠ table) (r : FullRequest V β) (q : FullResponse V β) (body : β) :
    (r.replaceClone table body).1.ext.get i = none ∧ (q.replaceClone table body).1.ext.get i = none := by
  constructor <;> simp only [FullRequest.replaceClone, FullResponse.replaceClone, cloneFor_get, if_neg hi]

/-- A request with an extension of type 1, where 0 is the type of the header table. -/
example : (⟨{}, [], (Extensions.new.insert 1 true).2, asciiBytes "a"⟩ : FullRequest (fun _ : Nat => Bool) Bytes).ext.get 1 =
    some true ∧ (1 : Nat) ≠ 0 := by
  constructor
  · rfl
  · decide

theorem C100_violated_clone : ¬ C100_clone_statement := by
  intro h
  have h1 := (((h Nat inferInstance (fun _ => Bool) Unit 0 ()).1
    ⟨{}, [], (Extensions.new.insert 1 true).2, ()⟩).1.2.2.2 1)
  rw [(C100_violated_extension (V := fun _ : Nat => Bool) 0 1 (by decide) _ ⟨{}, [], Extensions.new, ()⟩ ()).1] at h1
  cases h1

/-- C100: `into` exchanges the body and nothing else: putting the old body back gives the message back, whatever the types
of the two bodies are. -/
theorem C100_into (r : FullRequest V β) (q : FullResponse V β) (b : γ) :
    SameFullRequest ((r.into b).1.into (r.into b).2).1 r ∧ ((r.into b).1.into (r.into b).2).2 = b ∧
    SameFullResponse ((q.into b).1.into (q.into b).2).1 q ∧ ((q.into b).1.into (q.into b).2).2 = b :=
  ⟨⟨rfl, rfl, rfl, fun _ => rfl⟩, rfl, ⟨rfl, rfl, rfl, fun _ => rfl⟩, rfl⟩

/-- C100, the claim about taking a response apart: `from_parts` of `into_parts` is the response. -/
def C100_parts_statement : Prop :=
  ∀ (ι : Type) (_ : DecidableEq ι) (V : ι → Type) (β : Type) (r : FullResponse V β), SameFullResponse r.throughParts r

/-- C100, partial: it is exactly for complete responses; an incomplete one is complete afterwards. -/
theorem C100_parts_iff_partial (r : FullResponse V β) :
    (SameFullResponse r.throughParts r ↔ r.head.isPartial = false) ∧ r.throughParts.head.isPartial = false := by
  refine ⟨⟨fun h => ?_, fun h => ⟨?_, rfl, rfl, fun _ => rfl⟩⟩, rfl⟩
  · have := congrArg Response.isPartial h.1
    simpa [FullResponse.throughParts] using this.symm
  · simp only [FullResponse.throughParts, ← h]

theorem C100_violated_parts : ¬ C100_parts_statement := by
  intro h
  have h1 := ((C100_parts_iff_partial (V := fun _ : Nat => Bool) ⟨{ isPartial := true }, [], Extensions.new, ()⟩).1).mp
    (h Nat inferInstance (fun _ => Bool) Unit _)
  cases h1

/-- C100, the claim about `into_binary`: what is sent of the response is the same, or not sent with the same error. -/
def C100_binary_statement : Prop :=
  ∀ (ι : Type) (_ : DecidableEq ι) (V : ι → Type) (β : Type) (ser : β → Bytes × Res Nat) (r : FullResponse V β),
    (∀ b n, (ser b).2 = .ok n → n = (ser b).1.length) →
    (r.intoBinary ser).serialize binarySerialize = r.serialize ser

/-- C100, partial: it is if the body can be serialized. -/
theorem C100_binary_partial (ser : β → Bytes × Res Nat) (r : FullResponse V β)
    (hb : (ser r.body).2 = .ok (ser r.body).1.length) :
    (r.intoBinary ser).serialize binarySerialize = r.serialize ser := by
  unfold FullResponse.serialize FullResponse.intoBinary
  cases h : r.head.encodeHeader with
  | err e => rfl
  | panic => rfl
  | ok p => simp only [Res.bind_ok, binarySerialize, hb]

example : binarySerialize (asciiBytes "abc") = (asciiBytes "abc", .ok 3) := rfl

/-- C100, violated: if it cannot, the error is lost, and a response with what was written of the body until then is sent. -/
theorem C100_violated_error (ser : β → Bytes × Res Nat) (r : FullResponse V β) (e : Error) (hb : (ser r.body).2 = .err e)
    (h : Bytes) (n : Nat) (hh : r.head.encodeHeader = .ok (h, n)) :
    r.serialize ser = .err e ∧
    (r.intoBinary ser).serialize binarySerialize = .ok (h ++ (ser r.body).1, n + (ser r.body).1.length) := by
  unfold FullResponse.serialize FullResponse.intoBinary
  rw [hh]
  simp only [Res.bind_ok, binarySerialize, hb, Res.bind_err]
  exact ⟨trivial, trivial⟩

end Webparse
