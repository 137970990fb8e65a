import Verif.Spec.Repeats
import Verif.Proofs.HpackReach
import Verif.Props.SharedIndex

/-!
# C125: a field that was just sent is sent again as an index
-/

namespace Webparse
open Spec Spec.Rfc

/-- C125: whatever the table, a field that fits in it and was just sent is sent again as an index, and the table stays as it is. -/
def C125_statement : Prop := ∀ (t t' : HeaderIndex) (h : Header) (b : Bytes), TableInv t → h.1.length + h.2.length + 32 ≤ t.maxSize →
  encodeHeaders t [h] = .ok (b, t') → ∃ b', encodeHeaders t' [h] = .ok (b', t') ∧ JustAnIndex b'

/-! ## What the lookup gives -/

theorem find_static_field {h : Header} (hs : StaticField h) : ∃ i, ∀ t, findHeader t h = some (i, true) := by
  obtain ⟨i, hi, he⟩ := List.getElem_of_mem hs
  have hm : (h.2, i + 1) ∈ staticHash h.1 := by
    unfold staticHash
    refine List.mem_map.mpr ⟨(staticTable[i], i), List.mem_filter.mpr ⟨?_, ?_⟩, ?_⟩
    · rw [List.mk_mem_zipIdx_iff_getElem?]
      exact List.getElem?_eq_getElem hi
    · rw [he]
      have h1 : lower (lower h.1) = lower h.1 := staticTable_lower _ hs
      simp only [Bool.and_eq_true, beq_iff_eq]
      exact ⟨by rw [nameHashInput_eq_lower, nameHashInput_eq_lower, h1], nameEq_of_lower h1⟩
    · rw [he]
  have hne : staticHash h.1 ≠ [] := by intro h0; rw [h0] at hm; simp at hm
  cases hf : staticHashFind (staticHash h.1) h.2 with
  | none =>
    exfalso
    unfold staticHashFind at hf
    rw [Option.map_eq_none_iff, List.find?_eq_none] at hf
    have := hf (h.2, i + 1) (List.mem_reverse.mpr hm)
    simp at this
  | some j =>
    refine ⟨j, fun t => ?_⟩
    unfold findHeader
    simp only [hne, ne_eq, not_false_eq_true, if_true, hf]

theorem find_static_name {h : Header} (hn : StaticName h.1) (hs : ¬ StaticField h) :
    (∀ t, findHeader t h = none) ∨ ∃ i, i ≠ 0 ∧ ∀ t, findHeader t h = some (i, false) := by
  have hne : staticHash h.1 ≠ [] := fun h0 => (staticHash_nil_iff h.1).mp h0 hn
  have h1 : staticHashFind (staticHash h.1) h.2 = none := by
    cases hf : staticHashFind (staticHash h.1) h.2 with
    | none => rfl
    | some j => exact absurd (List.mem_of_getElem? (staticHash_mem (staticHashFind_mem hf)).2.2) hs
  cases h2 : staticHashFind (staticHash h.1) [] with
  | none =>
    left
    intro t
    unfold findHeader
    simp only [hne, ne_eq, not_false_eq_true, if_true, h1, h2]
  | some i =>
    right
    refine ⟨i, ?_, fun t => ?_⟩
    · have := (staticHash_mem (staticHashFind_mem h2)).1
      omega
    · unfold findHeader
      simp only [hne, ne_eq, not_false_eq_true, if_true, h1, h2]

theorem find_dynamic {h : Header} (hn : ¬ StaticName h.1) (n m : Nat) (l : List Header) : findHeader ⟨h :: l, n, m⟩ h = some (62, true) := by
  have h0 := (staticHash_nil_iff h.1).mpr hn
  unfold findHeader
  simp only [h0]
  have : nameEq h.1 h.1 = true := nameEq_refl _
  simp [List.findIdx?_cons, this, staticTable_length]

theorem index_is_block (i : Nat) : IsBlock anyLength [.indexed i] (encodeIndexed i) := by
  have := IsBlock.cons (ok := anyLength) (r := .indexed i) (bs := encodeIndexed i) (cs := []) (rs := [])
    (encode_integer i 7 (by decide) (by decide) 0x80 1 (by decide)) .nil
  rwa [List.append_nil] at this

/-- The representation that the encoder uses for a field of a static name whose value is not there. -/
theorem static_name_literal {h : Header} (hn : StaticName h.1) (hs : ¬ StaticField h) : ∃ name b, IsRep anyLength (.literal .incremental name h.2) b ∧
    ∀ t t', addHeader t h = .ok t' → encodeHeader t h = .ok (b, t') := by
  rcases find_static_name hn hs with hf | ⟨i, hi, hf⟩
  · refine ⟨.text (lower h.1), encodeLiteral h true, ⟨[0x40], encodeStringLiteralLower h.1, encodeStringLiteral h.2, by simp [encodeLiteral],
      ⟨trivial, by decide, by decide⟩, by rw [encodeStringLiteralLower_eq]; exact encode_string _, encode_string _⟩, fun t t' ha => ?_⟩
    unfold encodeHeader
    rw [hf t]
    simp only [ha, Res.bind_ok]
  · refine ⟨.index i, encodeIndexedName i h.2 true, ⟨hi, encodeInteger i 6 0x40, encodeStringLiteral h.2, rfl,
      encode_integer i 6 (by decide) (by decide) _ _ (by decide), encode_string _⟩, fun t t' ha => ?_⟩
    unfold encodeHeader
    rw [hf t]
    simp only [ha, Res.bind_ok]

/-- C125: exactly the fields that are sent again as an index: those whose name is not in the static table, and those that are there with their value. -/
theorem C125_iff_partial (t t' : HeaderIndex) (h : Header) (b : Bytes) (ht : TableInv t) (hfit : h.1.length + h.2.length + 32 ≤ t.maxSize)
    (he : encodeHeaders t [h] = .ok (b, t')) :
    (∃ b', encodeHeaders t' [h] = .ok (b', t') ∧ JustAnIndex b') ↔ ¬ StaticName h.1 ∨ StaticField h := by
  obtain ⟨t1, ha, hi, hx, k, hk, hkt, -, hmax⟩ := addHeader_spec t h ht.1
  constructor
  · rintro ⟨b', he', i, hb⟩
    by_cases hs : StaticField h
    · exact .inr hs
    left
    intro hn
    obtain ⟨name, c, hr, henc⟩ := static_name_literal hn hs
    have e1 := send_one (henc t t1 ha)
    rw [he] at e1
    simp only [Res.ok.injEq, Prod.mk.injEq] at e1
    obtain ⟨rfl, rfl⟩ := e1
    obtain ⟨t2, ha2, -⟩ := addHeader_spec t' h hi.1
    have e2 := send_one (henc t' t2 ha2)
    rw [he'] at e2
    simp only [Res.ok.injEq, Prod.mk.injEq] at e2
    obtain ⟨rfl, -⟩ := e2
    have hb2 := IsBlock.cons hr .nil
    rw [List.append_nil] at hb2
    have := block_unique hb hb2
    simp at this
  · intro hor
    by_cases hs : StaticField h
    · obtain ⟨i, hf⟩ := find_static_field hs
      exact ⟨_, send_found (hf t'), i, index_is_block i⟩
    have hn : ¬ StaticName h.1 := by rcases hor with h1 | h1; exact h1; exact absurd h1 hs
    cases hf : findHeader t h with
    | none =>
      have e1 := send_new hf ha
      rw [he] at e1
      simp only [Res.ok.injEq, Prod.mk.injEq] at e1
      obtain ⟨-, rfl⟩ := e1
      have hf' : findHeader t' h = some (62, true) := by
        obtain ⟨l, n, m⟩ := t'
        simp only at hkt
        cases k with
        | zero =>
          have := hmax 1 (by omega) (by simp)
          simp [tableSize] at this
          omega
        | succ k =>
          rw [hkt, List.take_succ_cons]
          exact find_dynamic hn _ _ _
      exact ⟨_, send_found hf', 62, index_is_block 62⟩
    | some x =>
      obtain ⟨i, c⟩ := x
      cases c with
      | true =>
        have e1 := send_found hf
        rw [he] at e1
        simp only [Res.ok.injEq, Prod.mk.injEq] at e1
        obtain ⟨-, rfl⟩ := e1
        exact ⟨_, send_found hf, i, index_is_block i⟩
      | false =>
        exfalso
        have h0 := (staticHash_nil_iff h.1).mpr hn
        unfold findHeader at hf
        simp only [h0] at hf
        cases h1 : t.table.findIdx? (fun e => nameEq e.1 h.1 && e.2 == h.2) with
        | none => simp [h1] at hf
        | some j => simp [h1] at hf

/-! ## How often it is written and stored -/

theorem copies (h : Header) (hn : StaticName h.1) (hs : ¬ StaticField h) : ∃ name, ∀ (k : Nat) (l : List Header) (n m : Nat),
    n + k * entrySize h ≤ m → ∃ b, encodeHeaders ⟨l, n, m⟩ (List.replicate k h) = .ok (b, ⟨List.replicate k h ++ l, n + k * entrySize h, m⟩) ∧
      IsBlock anyLength (List.replicate k (.literal .incremental name h.2)) b := by
  obtain ⟨name, c, hr, henc⟩ := static_name_literal hn hs
  refine ⟨name, fun k => ?_⟩
  induction k with
  | zero => intro l n m _; exact ⟨[], by simp [encodeHeaders], .nil⟩
  | succ k ih =>
    intro l n m hm
    rw [Nat.succ_mul] at hm
    have ha : addHeader ⟨l, n, m⟩ h = .ok ⟨h :: l, n + entrySize h, m⟩ := addHeader_fits (by simp only; omega)
    obtain ⟨b, hb, hblk⟩ := ih (h :: l) (n + entrySize h) m (by omega)
    refine ⟨c ++ b, ?_, .cons hr hblk⟩
    rw [List.replicate_succ, encodeHeaders, henc _ _ ha]
    simp only [Res.bind_ok, hb, Res.ok.injEq, Prod.mk.injEq, HeaderIndex.mk.injEq, true_and, and_true]
    refine ⟨?_, by rw [Nat.succ_mul]; omega⟩
    rw [← List.replicate_succ, List.replicate_succ', List.append_assoc]
    rfl

/-- C125 is false for every field of a static name whose value is not in the static table (`cookie`, `user-agent`, `:authority` and so on): sent `k` times it
is written `k` times as a literal and stored `k` times, as long as the copies fit. -/
theorem C125_violated_copies (h : Header) (hn : StaticName h.1) (hs : ¬ StaticField h) (limit k : Nat)
    (hk : k * (h.1.length + h.2.length + 32) ≤ limit) : ∃ name b t, encodeHeaders { maxSize := limit } (List.replicate k h) = .ok (b, t) ∧
      t.table = List.replicate k h ∧ IsBlock anyLength (List.replicate k (.literal .incremental name h.2)) b := by
  obtain ⟨name, hc⟩ := copies h hn hs
  obtain ⟨b, hb, hblk⟩ := hc k [] 0 limit (by unfold entrySize; omega)
  exact ⟨name, b, _, hb, by simp, hblk⟩

theorem C125_violated : ¬ C125_statement := by
  intro hst
  let h : Header := (asciiBytes "cookie", asciiBytes "id=7")
  have hn : StaticName h.1 := by decide +kernel
  have hs : ¬ StaticField h := by decide +kernel
  obtain ⟨t1, ha, -⟩ := addHeader_spec {} h rfl
  obtain ⟨name, c, -, henc⟩ := static_name_literal hn hs
  have e := send_one (henc _ _ ha)
  have hi : TableInv ({} : HeaderIndex) := ⟨rfl, by decide⟩
  rcases (C125_iff_partial {} t1 h c hi (by decide +kernel) e).mp (hst {} t1 h c hi (by decide +kernel) e) with h1 | h1
  · exact h1 hn
  · exact hs h1

/-- A field of a new name, and one that the static table has. -/
example : (¬ StaticName (asciiBytes "x-request-id")) ∧ StaticField (asciiBytes "Accept-Encoding", asciiBytes "gzip, deflate") ∧
    (∃ b t, encodeHeaders {} [(asciiBytes "x-request-id", asciiBytes "7")] = .ok (b, t) ∧
      ∃ b', encodeHeaders t [(asciiBytes "x-request-id", asciiBytes "7")] = .ok (b', t) ∧ JustAnIndex b') := by
  refine ⟨by decide +kernel, by decide +kernel, ?_⟩
  obtain ⟨t1, ha, -⟩ := addHeader_spec {} (asciiBytes "x-request-id", asciiBytes "7") rfl
  have e := send_new (t := {}) (h := (asciiBytes "x-request-id", asciiBytes "7")) (by decide +kernel) ha
  exact ⟨_, _, e, (C125_iff_partial {} _ _ _ ⟨rfl, by decide⟩ (by decide +kernel) e).mpr (.inl (by decide +kernel))⟩

/-- A cookie fits 97 times. -/
example : 97 * ((asciiBytes "cookie").length + (asciiBytes "id=7").length + 32) ≤ 4096 := by decide +kernel

end Webparse
