import Verif.Model.FullParse
import Verif.Spec.Copies
import Verif.Props.Reuse
import Verif.Proofs.Extensions

/-! # C129: what a message object keeps when the next message is read into it -/

namespace Webparse
open Spec

variable {ι : Type} [DecidableEq ι] {V : ι → Type} {β : Type}

/-- C129: reading a message into an object leaves nothing of what the object had before; afterwards it is what a new
object would be. -/
def C129_statement : Prop :=
  ∀ (ι : Type) (_ : DecidableEq ι) (V : ι → Type) (β : Type) (body : β) (buf : Bytes) (n : Nat),
    (∀ r : FullRequest V β, (r.parseBuffer buf).1 = .ok n →
      SameFullRequest (r.parseBuffer buf).2.1 ((FullRequest.fresh (V := V) body).parseBuffer buf).2.1) ∧
    ∀ r : FullResponse V β, (r.parseBuffer buf).1 = .ok n →
      SameFullResponse (r.parseBuffer buf).2.1 ((FullResponse.fresh (V := V) body).parseBuffer buf).2.1

/-- A request object after the given inputs were read into it one after the other, whatever the results were. -/
def FullRequest.after (r : FullRequest V β) (bufs : List Bytes) : FullRequest V β := bufs.foldl (fun r b => (r.parseBuffer b).2.1) r

/-- The same for a response object. -/
def FullResponse.after (r : FullResponse V β) (bufs : List Bytes) : FullResponse V β := bufs.foldl (fun r b => (r.parseBuffer b).2.1) r

/-- However many messages are read, and whether or not they can be, the system values, every extension and the body stay
those that the object had at the start. -/
theorem C129_violated_always (bufs : List Bytes) :
    (∀ r : FullRequest V β, (r.after bufs).systems = r.systems ∧ (r.after bufs).body = r.body ∧
      ∀ i, (r.after bufs).ext.get i = r.ext.get i) ∧
    ∀ r : FullResponse V β, (r.after bufs).systems = r.systems ∧ (r.after bufs).body = r.body ∧
      ∀ i, (r.after bufs).ext.get i = r.ext.get i := by
  unfold FullRequest.after FullResponse.after
  induction bufs with
  | nil => exact ⟨fun _ => ⟨rfl, rfl, fun _ => rfl⟩, fun _ => ⟨rfl, rfl, fun _ => rfl⟩⟩
  | cons b bufs ih => exact ⟨fun r => ih.1 (r.parseBuffer b).2.1, fun r => ih.2 (r.parseBuffer b).2.1⟩

theorem fresh_ext (i : ι) : (Extensions.new : Extensions V).get i = none := rfl

/-- The object is as if new exactly if the system values were empty, there were no extensions and the body was the one of
a new object; missing for C129: objects of which the user has used any of these. -/
theorem C129_request_iff_partial (r : FullRequest V β) (body : β) (buf : Bytes) (n : Nat) (h : (r.parseBuffer buf).1 = .ok n) :
    SameFullRequest (r.parseBuffer buf).2.1 ((FullRequest.fresh (V := V) body).parseBuffer buf).2.1 ↔
      r.systems = [] ∧ r.body = body ∧ ∀ i, r.ext.get i = none := by
  have hh := (request_sameOutcome r.head {} buf).2.2 n h
  constructor
  · rintro ⟨-, h2, h3, h4⟩
    exact ⟨h2, h3, h4⟩
  · rintro ⟨h2, h3, h4⟩
    exact ⟨hh, h2, h3, h4⟩

/-- The same for responses. -/
theorem C129_response_iff_partial (r : FullResponse V β) (body : β) (buf : Bytes) (n : Nat) (h : (r.parseBuffer buf).1 = .ok n) :
    SameFullResponse (r.parseBuffer buf).2.1 ((FullResponse.fresh (V := V) body).parseBuffer buf).2.1 ↔
      r.systems = [] ∧ r.body = body ∧ ∀ i, r.ext.get i = none := by
  have hh := (response_sameOutcome r.head {} buf).2.2 n h
  constructor
  · rintro ⟨-, h2, h3, h4⟩
    exact ⟨h2, h3, h4⟩
  · rintro ⟨h2, h3, h4⟩
    exact ⟨hh, h2, h3, h4⟩

/-- An object into which messages were only read, any number of them with any outcome, is as good as new. -/
theorem C129_read_only_partial (body : β) (bufs : List Bytes) (buf : Bytes) (n : Nat) :
    ((((FullRequest.fresh (V := V) body).after bufs).parseBuffer buf).1 = .ok n →
      SameFullRequest (((FullRequest.fresh (V := V) body).after bufs).parseBuffer buf).2.1
        ((FullRequest.fresh (V := V) body).parseBuffer buf).2.1) ∧
    ((((FullResponse.fresh (V := V) body).after bufs).parseBuffer buf).1 = .ok n →
      SameFullResponse (((FullResponse.fresh (V := V) body).after bufs).parseBuffer buf).2.1
        ((FullResponse.fresh (V := V) body).parseBuffer buf).2.1) := by
  have h1 := (C129_violated_always (V := V) (β := β) bufs).1 (.fresh body)
  have h2 := (C129_violated_always (V := V) (β := β) bufs).2 (.fresh body)
  exact ⟨fun h => (C129_request_iff_partial _ body buf n h).mpr ⟨h1.1, h1.2.1, fun i => (h1.2.2 i).trans (fresh_ext i)⟩,
    fun h => (C129_response_iff_partial _ body buf n h).mpr ⟨h2.1, h2.2.1, fun i => (h2.2.2 i).trans (fresh_ext i)⟩⟩

/-- A request that belongs to a user, who is kept as an extension, and the next request that is read into it. -/
def usedRequest : FullRequest (fun _ : Unit => Nat) Bytes :=
  { head := {}, systems := [], ext := (Extensions.new.insert () 7).2, body := [] }

/-- The next request belongs to the same user. -/
theorem C129_violated : ¬ C129_statement ∧
    (usedRequest.parseBuffer (asciiBytes "GET / HTTP/1.1\r\n\r\n")).1 = .ok 18 ∧
    (usedRequest.parseBuffer (asciiBytes "GET / HTTP/1.1\r\n\r\n")).2.1.ext.get () = some 7 := by
  have h1 : (usedRequest.parseBuffer (asciiBytes "GET / HTTP/1.1\r\n\r\n")).1 = .ok 18 := by
    show (({} : Request).parseBuffer (asciiBytes "GET / HTTP/1.1\r\n\r\n")).1 = .ok 18
    decide +kernel
  have h2 : (usedRequest.parseBuffer (asciiBytes "GET / HTTP/1.1\r\n\r\n")).2.1.ext.get () = some 7 := rfl
  refine ⟨fun h => ?_, h1, h2⟩
  have := (((h Unit _ (fun _ => Nat) Bytes [] _ _).1 _ h1).2.2.2 ()).symm.trans h2
  cases this

example : (FullRequest.fresh (V := fun _ : Unit => Nat) ([] : Bytes)).parseBuffer (asciiBytes "GET / HTTP/1.1\r\n\r\n") =
    (.ok 18, { FullRequest.fresh [] with head := { method := .get, url := { Url.new with scheme := .http, port := some 0 } } }, []) := by
  have h : ({} : Request).parseBuffer (asciiBytes "GET / HTTP/1.1\r\n\r\n") =
      (.ok 18, { method := .get, url := { Url.new with scheme := .http, port := some 0 } }, []) := by decide +kernel
  simp only [FullRequest.parseBuffer, FullRequest.fresh, h]

end Webparse
