import Verif.Spec.HpackState
import Verif.Model.Hpack
import Verif.Spec.HpackTable
import Verif.Proofs.Basic
import Mathlib.Data.List.Induction

/-! Lemmas about the dynamic table. -/

namespace Webparse
open Spec

@[simp] theorem tableSize_nil : tableSize [] = 0 := rfl
@[simp] theorem tableSize_cons (h : Header) (l : List Header) :
    tableSize (h :: l) = entrySize h + tableSize l := by
  simp [tableSize, entrySize]
@[simp] theorem tableSize_append (a b : List Header) :
    tableSize (a ++ b) = tableSize a + tableSize b := by
  simp [tableSize]

theorem entrySize_pos (h : Header) : 32 ≤ entrySize h := by simp [entrySize]

theorem consolidate_nil (size limit : Nat) :
    consolidate { table := [], size := size, maxSize := limit }
      = if size > limit then .panic else .ok { table := [], size := size, maxSize := limit } := by
  rw [consolidate]
  simp only
  split
  · split
    · rfl
    · rename_i h; simp at h
  · rfl

theorem consolidate_snoc (l : List Header) (x : Header) (size limit : Nat) :
    consolidate { table := l ++ [x], size := size, maxSize := limit }
      = if size > limit then
          if size < entrySize x then .panic
          else consolidate { table := l, size := size - entrySize x, maxSize := limit }
        else .ok { table := l ++ [x], size := size, maxSize := limit } := by
  rw [consolidate]
  simp only
  split
  · split
    · rename_i h; simp at h
    · rename_i last h
      simp at h
      subst h
      simp
  · rfl

/-- Eviction in the code is eviction in the RFC. -/
theorem consolidate_spec (l : List Header) : ∀ (size limit : Nat), size = tableSize l →
    ∃ kept, consolidate { table := l, size := size, maxSize := limit }
        = .ok { table := kept, size := tableSize kept, maxSize := limit } ∧
      IsEviction l kept limit := by
  induction l using List.reverseRecOn with
  | nil =>
    intro size limit hs
    subst hs
    refine ⟨[], ?_, 0, by simp, rfl, by simp, ?_⟩
    · rw [consolidate]; simp
    · intro j h1 h2; simp at h2; omega
  | append_singleton l x ih =>
    intro size limit hs
    rw [consolidate]
    by_cases hgt : size > limit
    · rw [if_pos hgt]
      simp only [List.dropLast_concat]
      split
      · rename_i hnone; simp at hnone
      rename_i last hlast
      simp at hlast
      subst hlast
      rw [if_neg (by rw [hs]; simp)]
      have h2 : size - entrySize x = tableSize l := by rw [hs]; simp
      obtain ⟨kept, hk, k, hkl, rfl, hfit, hmax⟩ := ih (size - entrySize x) limit h2
      refine ⟨_, hk, k, by simp; omega, ?_, ?_, ?_⟩
      · rw [List.take_append_of_le_length hkl]
      · rw [List.take_append_of_le_length hkl]; exact hfit
      · intro j hj1 hj2
        by_cases hj : j ≤ l.length
        · rw [List.take_append_of_le_length hj]; exact hmax j hj1 hj
        · have : j = (l ++ [x]).length := by simp at hj2 ⊢; omega
          rw [this, List.take_length]; omega
    · rw [if_neg hgt]
      refine ⟨l ++ [x], by rw [hs], (l ++ [x]).length, Nat.le_refl _, by rw [List.take_length], ?_, ?_⟩
      · rw [List.take_length]; omega
      · intro j h1 h2; omega

theorem addHeader_spec (t : HeaderIndex) (h : Header) (hs : SizeOk t) :
    ∃ t', addHeader t h = .ok t' ∧ TableInv t' ∧ t'.maxSize = t.maxSize ∧
      IsEviction (h :: t.table) t'.table t.maxSize := by
  obtain ⟨kept, hk, he⟩ := consolidate_spec (h :: t.table) (t.size + entrySize h) t.maxSize
    (by rw [hs]; simp; omega)
  refine ⟨_, hk, ⟨rfl, ?_⟩, rfl, he⟩
  obtain ⟨k, _, rfl, hf, _⟩ := he
  exact hf

theorem setMax_spec (t : HeaderIndex) (m : Nat) (hs : SizeOk t) :
    ∃ t', setMaxTableSize t m = .ok t' ∧ TableInv t' ∧ t'.maxSize = m ∧
      IsEviction t.table t'.table m := by
  obtain ⟨kept, hk, he⟩ := consolidate_spec t.table t.size m hs
  refine ⟨_, hk, ⟨rfl, ?_⟩, rfl, he⟩
  obtain ⟨k, _, rfl, hf, _⟩ := he
  exact hf

theorem applyOps_spec (ops : List TableOp) : ∀ t, TableInv t →
    ∃ t' n, applyOps t ops = .ok t' ∧ TableInv t' ∧ t'.maxSize = limitAfter t.maxSize ops ∧
      t'.table = (added ops ++ t.table).take n := by
  induction ops with
  | nil => intro t h; exact ⟨t, t.table.length, rfl, h, rfl, by simp [added]⟩
  | cons op ops ih =>
    intro t h
    cases op with
    | add n v =>
      obtain ⟨t1, h1, hi, hm, k, hk, htab, _⟩ := addHeader_spec t (n, v) h.1
      obtain ⟨t', j, h2, hi2, hm2, htab2⟩ := ih t1 hi
      rw [htab] at htab2
      have key : added ops ++ List.take k ((n, v) :: t.table)
          = List.take ((added ops).length + k) (added ops ++ (n, v) :: t.table) := by
        rw [List.take_append, List.take_of_length_le (l := added ops) (by omega)]; simp
      refine ⟨t', min j ((added ops).length + k), ?_, hi2, ?_, ?_⟩
      · simp [applyOps, applyOp, h1, h2]
      · rw [hm2, hm]; rfl
      · rw [htab2, key, List.take_take]
        simp [added]
    | setMax l =>
      obtain ⟨t1, h1, hi, hm, k, hk, htab, _⟩ := setMax_spec t l h.1
      obtain ⟨t', j, h2, hi2, hm2, htab2⟩ := ih t1 hi
      rw [htab] at htab2
      have key : added ops ++ List.take k t.table
          = List.take ((added ops).length + k) (added ops ++ t.table) := by
        rw [List.take_append, List.take_of_length_le (l := added ops) (by omega)]; simp
      refine ⟨t', min j ((added ops).length + k), ?_, hi2, ?_, ?_⟩
      · simp [applyOps, applyOp, h1, h2]
      · rw [hm2, hm]; rfl
      · rw [htab2, key, List.take_take]
        simp [added]

theorem staticTable_length : staticTable.length = 61 := by decide +kernel

end Webparse
