import Verif.Proofs.HpackTable

/-! C06, C07, C08: the HPACK tables. -/

namespace Webparse
open Spec

/-- C06: after any history from a new table the eviction loop has not panicked, the reported size
is the sum over the entries of name + value + 32 and at most the limit in force. -/
theorem C06_size_invariant (ops : List TableOp) :
    ∃ t, applyOps {} ops = .ok t ∧ t.size = tableSize t.table ∧ t.size ≤ t.maxSize ∧
      t.maxSize = limitAfter 4096 ops := by
  obtain ⟨t, n, h, ⟨h1, h2⟩, h3, _⟩ := applyOps_spec ops {} ⟨rfl, by decide⟩
  exact ⟨t, h, h1, h2, h3⟩

example : applyOps {} [.add (asciiBytes "a") (asciiBytes "b"), .setMax 40,
    .add (asciiBytes "c") (asciiBytes "dd")] =
    .ok { table := [(asciiBytes "c", asciiBytes "dd")], size := 35, maxSize := 40 } := by
  decide +kernel

/-- C07: an insertion keeps the longest run of newest entries, the new one included, that fits. -/
theorem C07_insert_evicts (t : HeaderIndex) (n v : Bytes) (hs : t.size = tableSize t.table) :
    ∃ t', addHeader t (n, v) = .ok t' ∧ IsEviction ((n, v) :: t.table) t'.table t.maxSize ∧
      t'.maxSize = t.maxSize := by
  obtain ⟨t', h, _, hm, he⟩ := addHeader_spec t (n, v) hs
  exact ⟨t', h, he, hm⟩

/-- C07: a limit change keeps the longest run of newest entries that fits the new limit. -/
theorem C07_limit_evicts (t : HeaderIndex) (limit : Nat) (hs : t.size = tableSize t.table) :
    ∃ t', setMaxTableSize t limit = .ok t' ∧ IsEviction t.table t'.table limit ∧
      t'.maxSize = limit := by
  obtain ⟨t', h, _, hm, he⟩ := setMax_spec t limit hs
  exact ⟨t', h, he, hm⟩

example : ∃ t : HeaderIndex, t.table.length = 2 ∧ t.size = tableSize t.table :=
  ⟨{ table := [([1], []), ([2], [3])], size := 67 }, rfl, by decide⟩

/-- C08, full claim for the static part: indices 1..61 give the RFC entry. -/
def C08_static_statement : Prop := ∀ (t : HeaderIndex) (i : Nat), 1 ≤ i → i ≤ 61 →
  getFromIndex t i = (rfcStaticTable[i - 1]?).map fun e => (asciiBytes e.1, asciiBytes e.2)

/-- C08 is false at index 15: the code has `accept-` where the RFC has `accept-charset`. -/
theorem C08_static_violated : ¬ C08_static_statement := by
  intro h
  have := h {} 15 (by decide) (by decide)
  revert this
  decide +kernel

/-- C08: every other static index gives the RFC entry (missing: index 15). -/
theorem C08_static_partial (t : HeaderIndex) (i : Nat) (h1 : 1 ≤ i) (h2 : i ≤ 61) (h15 : i ≠ 15) :
    getFromIndex t i = (rfcStaticTable[i - 1]?).map fun e => (asciiBytes e.1, asciiBytes e.2) := by
  have h : ∀ i : Fin 62, (1 ≤ i.val ∧ i.val ≠ 15) →
      staticTable[i.val - 1]? = (rfcStaticTable[i.val - 1]?).map fun e => (asciiBytes e.1, asciiBytes e.2) := by
    decide +kernel
  unfold getFromIndex
  rw [if_neg (by omega)]
  simp only [staticTable_length]
  rw [if_pos (by omega)]
  exact h ⟨i, by omega⟩ ⟨h1, h15⟩

/-- C08: index 0 is rejected; `61 + k` gives the `k`-th newest entry; past the end is rejected. -/
theorem C08_dynamic (t : HeaderIndex) (k : Nat) (hk : 1 ≤ k) :
    getFromIndex t 0 = none ∧ getFromIndex t (61 + k) = t.table[k - 1]? := by
  refine ⟨by simp [getFromIndex], ?_⟩
  unfold getFromIndex
  rw [if_neg (by omega)]
  simp only [staticTable_length]
  rw [if_neg (by omega)]
  have : 61 + k - 1 - 61 = k - 1 := by omega
  rw [this]
  split
  · rfl
  · rename_i h
    rw [List.getElem?_eq_none (by omega)]

/-- C08: over a whole history, `61 + k` is the `k`-th most recently added header as long as it has
not been evicted, and nothing otherwise. -/
theorem C08_dynamic_history (ops : List TableOp) (t : HeaderIndex) (h : applyOps {} ops = .ok t)
    (k : Nat) (hk : 1 ≤ k) :
    getFromIndex t (61 + k) = if k ≤ t.table.length then (added ops)[k - 1]? else none := by
  rw [(C08_dynamic t k hk).2]
  obtain ⟨t', n, h', _, _, ht⟩ := applyOps_spec ops {} ⟨rfl, by decide⟩
  rw [h] at h'
  cases h'
  simp only [List.append_nil] at ht
  split
  · rename_i hlen
    rw [ht, List.getElem?_take]
    rw [ht] at hlen
    simp at hlen
    rw [if_pos (by omega)]
  · rw [List.getElem?_eq_none (by omega)]

example : (getFromIndex { table := [(asciiBytes "c", asciiBytes "d")], size := 34 } 62)
    = some (asciiBytes "c", asciiBytes "d") := by decide +kernel

end Webparse
