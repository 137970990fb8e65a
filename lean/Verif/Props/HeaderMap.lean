import Verif.Proofs.HeaderMap

/-! C35, C36 and C53: header maps, header names, searches in header values. -/

namespace Webparse
open Spec

/-! ## C35 -/

/-- C35, full claim: lookups, membership and the value returned by `remove` agree with the abstract
map, and no two entries have names equal up to case. -/
def C35_statement : Prop :=
  ∀ (ops : List HeaderOp) (n : Bytes),
    (runOps ops).get? n = absOps ops (lower n) ∧
    (runOps ops).contains n = (absOps ops (lower n)).isSome ∧
    ((runOps ops).remove n).1 = absOps ops (lower n) ∧
    (runOps ops).Pairwise fun a b => lower a.1 ≠ lower b.1

/-- C35 is false: the code takes `x-` and `xM` to be the same name. -/
theorem C35_violated : ¬ C35_statement := by
  intro h
  have := (h [.insert (asciiBytes "x-") (asciiBytes "1"), .insert (asciiBytes "xM") (asciiBytes "2")]
    (asciiBytes "x-")).1
  revert this
  decide +kernel

/-- C35 for histories and a name asked for that are pairwise unambiguous. -/
theorem C35_map_partial (ops : List HeaderOp) (n : Bytes)
    (hu : ∀ a ∈ n :: opNames ops, ∀ b ∈ n :: opNames ops, Unambiguous a b) :
    (runOps ops).get? n = absOps ops (lower n) ∧
    (runOps ops).contains n = (absOps ops (lower n)).isSome ∧
    ((runOps ops).remove n).1 = absOps ops (lower n) := by
  have hN : Clear (· ∈ n :: opNames ops) := fun a b ha hb => hu a ha b hb
  have h := refines_ops hN ops [] (fun _ => none) ⟨by simp, List.Pairwise.nil, fun _ _ => rfl⟩ (by
    intro op hop
    have := opIn_opNames ops op hop
    revert this
    cases op <;> simp only [OpIn, List.mem_cons] <;> intro h
    · exact Or.inr h
    · exact Or.inr h
    · exact Or.inr h
    · trivial)
  have hg : (runOps ops).get? n = absOps ops (lower n) := h.2.2 n (by simp)
  refine ⟨hg, ?_, (remove_value _ _).trans hg⟩
  rw [← hg, HeaderMap.get?, Option.isSome_map, HeaderMap.contains, Bool.eq_iff_iff, List.find?_isSome, List.any_eq_true]

/-- C35, exactly: maps with names from a set behave as maps whatever is done to them if and only if no two names of
the set are ambiguous. -/
theorem C35_names_iff_partial (N : Bytes → Prop) :
    (∀ (ops : List HeaderOp) (n : Bytes), N n → (∀ a ∈ opNames ops, N a) →
      (runOps ops).get? n = absOps ops (lower n) ∧
      (runOps ops).contains n = (absOps ops (lower n)).isSome ∧
      ((runOps ops).remove n).1 = absOps ops (lower n)) ↔
    ∀ a b, N a → N b → Unambiguous a b := by
  constructor
  · intro h a b ha hb
    rw [unambiguous_iff]
    intro he
    have := (h [.insert a [1]] b hb (by simpa [opNames] using ha)).1
    have e1 : (runOps [.insert a [1]]).get? b = some [1] := by
      show HeaderMap.get? (HeaderMap.insert [] a [1]) b = some [1]
      rw [HeaderMap.insert, get?_cons, if_pos he]
    have e2 : absOps [.insert a [1]] (lower b) = if lower b = lower a then some [1] else none := rfl
    rw [e1, e2] at this
    by_cases hl : lower b = lower a
    · exact hl.symm
    · rw [if_neg hl] at this
      simp at this
  · intro h ops n hn ho
    refine C35_map_partial ops n fun a ha b hb => h a b ?_ ?_
    · rcases List.mem_cons.mp ha with rfl | ha
      · exact hn
      · exact ho a ha
    · rcases List.mem_cons.mp hb with rfl | hb
      · exact hn
      · exact ho b hb

/-- C35 for lower-case names (`~` excepted), whatever they are. -/
theorem C35_lower_case_partial (ops : List HeaderOp) (n : Bytes)
    (hn : ∀ a ∈ n :: opNames ops, IsPlainName a) :
    (runOps ops).get? n = absOps ops (lower n) ∧
    (runOps ops).contains n = (absOps ops (lower n)).isSome ∧
    ((runOps ops).remove n).1 = absOps ops (lower n) :=
  C35_map_partial ops n fun a ha b hb => unambiguous_plain (hn a ha) (hn b hb)

/-- C35 for names of letters only, in any mixture of cases. -/
theorem C35_letters_partial (ops : List HeaderOp) (n : Bytes)
    (hn : ∀ a ∈ n :: opNames ops, ∀ x ∈ a, isLetter x = true) :
    (runOps ops).get? n = absOps ops (lower n) ∧
    (runOps ops).contains n = (absOps ops (lower n)).isSome ∧
    ((runOps ops).remove n).1 = absOps ops (lower n) :=
  C35_map_partial ops n fun a ha b hb => unambiguous_letters (hn a ha) (hn b hb)

/-- No history, whatever its names, makes two entries whose names are equal up to case. -/
theorem C35_no_duplicates (ops : List HeaderOp) :
    (runOps ops).Pairwise fun a b => lower a.1 ≠ lower b.1 := by
  refine (distinct_runOps ops).imp ?_
  intro a b h he
  rw [nameEq_of_lower he] at h
  exact absurd h (by simp)

example : (∀ a ∈ asciiBytes "Via" :: opNames [.insert (asciiBytes "VIA") [49], .push (asciiBytes "via") [50],
      .insert (asciiBytes "Host") [51], .remove (asciiBytes "hOST")], ∀ x ∈ a, isLetter x = true) ∧
    (runOps [.insert (asciiBytes "VIA") [49], .push (asciiBytes "via") [50],
      .insert (asciiBytes "Host") [51], .remove (asciiBytes "hOST")]) = [(asciiBytes "VIA", asciiBytes "1;2")] := by
  decide +kernel

/-! ## C36 -/

/-- C36, full claim. -/
def C36_statement : Prop :=
  (∀ a b, nameEq a b = true ↔ lower a = lower b) ∧
  (∀ a, nameEq a a = true) ∧ (∀ a b, nameEq a b = nameEq b a) ∧
  (∀ a b c, nameEq a b = true → nameEq b c = true → nameEq a c = true) ∧
  (∀ a b, nameEq a b = true → nameHashInput a = nameHashInput b)

/-- C36 is false: `-` and `M` count as equal. -/
theorem C36_violated : ¬ C36_statement := by
  intro h
  have := (h.1 (asciiBytes "-") (asciiBytes "M")).mp (by decide +kernel)
  revert this
  decide +kernel

/-- The equality is not transitive either: `-`, `M`, `m`. -/
theorem C36_violated_transitivity :
    ¬ ∀ a b c : Bytes, nameEq a b = true → nameEq b c = true → nameEq a c = true := by
  intro h
  have := h (asciiBytes "-") (asciiBytes "M") (asciiBytes "m") (by decide +kernel) (by decide +kernel)
  revert this
  decide +kernel

/-- And equal names may hash differently. -/
theorem C36_violated_hash : ¬ ∀ a b : Bytes, nameEq a b = true → nameHashInput a = nameHashInput b := by
  intro h
  have := h (asciiBytes "-") (asciiBytes "M") (by decide +kernel)
  revert this
  decide +kernel

/-- Names equal up to case are equal, and the equality is reflexive and symmetric, on all byte strings. -/
theorem C36_complete_partial (a b : Bytes) :
    (lower a = lower b → nameEq a b = true) ∧ nameEq a a = true ∧ nameEq a b = nameEq b a :=
  ⟨nameEq_of_lower, nameEq_refl a, nameEq_symm a b⟩

/-- The hash is exactly that of the lower-cased name, on all byte strings. -/
theorem C36_hash (a b : Bytes) : nameHashInput a = nameHashInput b ↔ lower a = lower b := by
  rw [nameHashInput_eq_lower, nameHashInput_eq_lower]

/-- What the equality is, on all byte strings: same length, and bytes equal or 32 apart modulo 256. -/
theorem C36_exact (a b : Bytes) : nameEq a b = true ↔
    a.length = b.length ∧ ∀ (i : Nat) (x y : UInt8), a[i]? = some x → b[i]? = some y →
      x = y ∨ x - y = 32 ∨ y - x = 32 := nameEq_exact a b

/-- C36 on unambiguous names: equality is case-insensitivity and agrees with the hash. -/
theorem C36_sound_partial (a b : Bytes) (h : Unambiguous a b) :
    (nameEq a b = true ↔ lower a = lower b) ∧ (nameEq a b = true ↔ nameHashInput a = nameHashInput b) := by
  rw [C36_hash]
  exact ⟨nameEq_iff_lower h, nameEq_iff_lower h⟩

/-- C36, exactly: two names are compared as they should be if and only if they are unambiguous, and then the
hash agrees with the comparison. -/
theorem C36_iff_partial (a b : Bytes) :
    ((nameEq a b = true ↔ lower a = lower b) ↔ Unambiguous a b) ∧
    ((nameEq a b = true → nameHashInput a = nameHashInput b) ↔ Unambiguous a b) := by
  rw [C36_hash, unambiguous_iff]
  exact ⟨⟨fun h => h.mp, fun h => ⟨h, nameEq_of_lower⟩⟩, Iff.rfl⟩

/-- C36 in full on lower-case names without `~`, and on names of letters only. -/
theorem C36_on_classes_partial (a b : Bytes)
    (h : (IsPlainName a ∧ IsPlainName b) ∨ ((∀ x ∈ a, isLetter x = true) ∧ ∀ x ∈ b, isLetter x = true)) :
    (nameEq a b = true ↔ lower a = lower b) ∧ (nameEq a b = true ↔ nameHashInput a = nameHashInput b) := by
  rcases h with h | h
  · exact C36_sound_partial a b (unambiguous_plain h.1 h.2)
  · exact C36_sound_partial a b (unambiguous_letters h.1 h.2)

/-- `M` and `-` at the same place do no harm in names that differ elsewhere. -/
example : Unambiguous (asciiBytes "X-A") (asciiBytes "XMB") ∧ ¬ Unambiguous (asciiBytes "X-A") (asciiBytes "XMa") := by
  rw [unambiguous_iff, unambiguous_iff]
  decide +kernel

example : ((∀ x ∈ asciiBytes "Host", isLetter x = true) ∧ (∀ x ∈ asciiBytes "hOST", isLetter x = true)) ∧
    nameEq (asciiBytes "Host") (asciiBytes "hOST") = true ∧ nameEq (asciiBytes "Host") (asciiBytes "Most") = false := by
  decide +kernel

/-! ## C53 -/

/-- The search is exact: the needle is a contiguous run of the haystack. -/
theorem C53_contains (v w : Bytes) : containsBytes v w = true ↔ ∃ p s, v = p ++ w ++ s := by
  rw [containsBytes_iff]
  constructor
  · rintro ⟨p, s, h⟩; exact ⟨p, s, h.symm⟩
  · rintro ⟨p, s, h⟩; exact ⟨p, s, h.symm⟩

/-- The lookup searched in. -/
theorem search_iff (o : Option Bytes) (w : Bytes) :
    (match o with | some v => containsBytes v w | none => false) = true ↔ ∃ v p s, o = some v ∧ v = p ++ w ++ s := by
  cases o with
  | none => simp
  | some v =>
    simp only [C53_contains, Option.some.injEq]
    constructor
    · rintro ⟨p, s, h⟩; exact ⟨v, p, s, rfl, h⟩
    · rintro ⟨v', p, s, rfl, h⟩; exact ⟨p, s, h⟩

/-- The detections on a header map are that search on the right header. -/
theorem C53_detection (m : HeaderMap) (n w : Bytes) :
    (m.isContains n w = true ↔ ∃ v p s, m.get? n = some v ∧ v = p ++ w ++ s) ∧
    (m.isKeepAlive = true ↔
      ∃ v p s, m.get? (asciiBytes "connection") = some v ∧ v = p ++ asciiBytes "Keep-Alive" ++ s) ∧
    (m.isChunked = true ↔
      ∃ v p s, m.get? (asciiBytes "transfer-encoding") = some v ∧ v = p ++ asciiBytes "chunked" ++ s) :=
  ⟨search_iff _ _, search_iff _ _, search_iff _ _⟩

/-- An upgrade is detected exactly if `connection` contains `Upgrade` and `upgrade` is a string; that
string is the protocol. -/
theorem C53_upgrade (m : HeaderMap) (u : Bytes) : m.upgradeProtocol = some u ↔
    (∃ v p s, m.get? (asciiBytes "connection") = some v ∧ v = p ++ asciiBytes "Upgrade" ++ s) ∧
    m.get? (asciiBytes "upgrade") = some u ∧ utf8Valid u = true := by
  rw [← search_iff, HeaderMap.upgradeProtocol]
  cases h : m.get? (asciiBytes "connection") with
  | none => simp
  | some v =>
    simp only
    by_cases hc : containsBytes v (asciiBytes "Upgrade") = true
    · rw [if_pos hc]
      cases hu : m.get? (asciiBytes "upgrade") with
      | none => simp
      | some w =>
        simp only [hc, valueAsString, Option.some.injEq, true_and]
        constructor
        · intro h
          split at h
          · rename_i hv
            rw [Option.some.injEq] at h
            exact ⟨h, h ▸ hv⟩
          · exact absurd h (by simp)
        · rintro ⟨rfl, hv⟩
          rw [if_pos hv]
    · rw [if_neg hc]
      simp [hc]

example : HeaderMap.isChunked [(asciiBytes "Host", [97]), (asciiBytes "Transfer-Encoding", asciiBytes "gzip, chunked")] = true ∧
    HeaderMap.isChunked [(asciiBytes "Transfer-Encoding", asciiBytes "gzip, chunke")] = false ∧
    HeaderMap.upgradeProtocol [(asciiBytes "Connection", asciiBytes "Upgrade"),
      (asciiBytes "Upgrade", asciiBytes "websocket")] = some (asciiBytes "websocket") ∧
    containsBytes [1] [] = true := by
  decide +kernel

end Webparse
