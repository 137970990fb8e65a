import Verif.Props.Hpack

/-! C09: the witness with a table of more than 65 entries. -/

namespace Webparse
open Spec

/-- A hundred distinct two-letter values. -/
def shortValues : List Bytes :=
  (asciiBytes "012aceiost").flatMap fun x => (asciiBytes "012aceiost").map fun y => [x, y]

/-- 65 headers named `a` with distinct values. -/
def firstHeaders : List Header := (shortValues.take 65).map fun v => (asciiBytes "a", v)

/-- One more of these, and the first of them again. -/
def lastHeaders : List Header := [(asciiBytes "a", asciiBytes "tt"), (asciiBytes "a", asciiBytes "00")]

/-- After `firstHeaders`, encoding and decoding `lastHeaders` fails. -/
def lastFails : Bool :=
  match encodeHeaders {} firstHeaders with
  | .ok (_, te) =>
    match encodeHeaders te lastHeaders with
    | .ok (b, _) =>
      match decode { table := te.table.map lowerHeader, size := te.size, maxSize := te.maxSize } b with
      | some (.ok _) => false
      | _ => true
    | _ => true
  | _ => true

theorem lastFails_eq : lastFails = true := by decide +kernel

theorem firstHeaders_ok : (firstHeaders ++ lastHeaders).all
    (fun h => h.1 == asciiBytes "a" && h.2.length == 2) = true := by decide +kernel

theorem firstHeaders_length : firstHeaders.length = 65 := by decide +kernel

/-- C09 is false, second reason: an index that does not fit seven bits is written with continuation
octets which the decoder does not read.  Witness: 66 headers, then the first of them again. -/
theorem C09_violated_by_large_index : ¬ C09_statement := by
  intro h
  have hf := lastFails_eq
  have hw := firstHeaders_ok
  have hlen := firstHeaders_length
  unfold lastFails at hf
  generalize firstHeaders = w1 at hf hw hlen
  generalize lastHeaders = w2 at hf hw
  have hall : ∀ h ∈ w1 ++ w2, h.1 = asciiBytes "a" ∧ h.2.length = 2 := by
    intro h hh
    have := List.all_eq_true.mp hw h hh
    simpa only [Bool.and_eq_true, beq_iff_eq] using this
  have hok : ∀ h ∈ w1 ++ w2, utf8Valid h.1 = true ∧ h.1.length < 2 ^ 26 ∧ h.2.length < 2 ^ 26 := by
    intro h hh
    rw [(hall h hh).1, (hall h hh).2]
    decide +kernel
  obtain ⟨bs, te, td, he, hd⟩ := h [w1, w2] (by
      intro hs hm h hh
      apply hok h
      simp only [List.mem_cons, List.not_mem_nil, or_false] at hm
      rcases hm with rfl | rfl
      · exact List.mem_append_left _ hh
      · exact List.mem_append_right _ hh)
  obtain ⟨b1, te1, td1, he1, hd1, hsync, -⟩ := encodeHeaders_sync (fun n => n = asciiBytes "a")
    (fun a b ha hb _ => by rw [ha, hb]) w1 (te := {}) (td := {}) 0 ⟨rfl, rfl, rfl⟩ ⟨rfl, by simp⟩
    (by simp) (fun h hh => by
      have hh := List.mem_append_left w2 hh
      obtain ⟨a, b, c⟩ := hok h hh
      exact ⟨(hall h hh).1, a, b, c⟩)
    (Or.inr (by simp [hlen]))
  have htd : td1 = { table := te1.table.map lowerHeader, size := te1.size, maxSize := te1.maxSize } := by
    cases td1
    simp only [HeaderIndex.mk.injEq]
    exact ⟨hsync.table, hsync.size, hsync.max⟩
  rw [he1] at hf
  simp only at hf
  rw [← htd] at hf
  simp only [encodeBlocks, he1, bind, Res.bind] at he
  cases he2 : encodeHeaders te1 w2 with
  | err e => rw [he2] at he; simp at he
  | panic => rw [he2] at he; simp at he
  | ok x =>
    obtain ⟨b2, te2⟩ := x
    rw [he2] at he hf
    simp only [Res.ok.injEq, Prod.mk.injEq] at he
    obtain ⟨rfl, rfl⟩ := he
    simp only at hf
    simp only [decodeBlocks, hd1] at hd
    cases hd2 : decode td1 b2 with
    | none => rw [hd2] at hd; simp at hd
    | some r =>
      cases r with
      | err e => rw [hd2] at hd; simp at hd
      | panic => rw [hd2] at hd; simp at hd
      | ok y => rw [hd2] at hf; simp at hf

end Webparse
