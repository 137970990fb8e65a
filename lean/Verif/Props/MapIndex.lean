import Verif.Model.MapIndex
import Verif.Proofs.HeaderMap

/-! # C101: headers by index -/

namespace Webparse

theorem getMutValue_insert (m : HeaderMap) (n : Bytes) (f : Bytes → Bytes) :
    ∀ v, (m.insert n v).getMutValue n f = .ok (m.insert n (f v)) := by
  intro v
  induction m with
  | nil => simp [HeaderMap.insert, HeaderMap.getMutValue, nameEq_refl]
  | cons e m ih =>
    unfold HeaderMap.insert
    by_cases h : nameEq e.1 n = true
    · simp [h, HeaderMap.getMutValue]
    · simp [h, HeaderMap.getMutValue, ih]

theorem getMutValue_found (n : Bytes) (f : Bytes → Bytes) (e : Header) (b : HeaderMap) (he : nameEq e.1 n = true) :
    ∀ a : HeaderMap, (∀ x ∈ a, nameEq x.1 n = false) →
      (a ++ e :: b).getMutValue n f = .ok (a ++ (e.1, f e.2) :: b) := by
  intro a
  induction a with
  | nil => intro _; simp [HeaderMap.getMutValue, he]
  | cons x a ih =>
    intro ha
    simp only [List.cons_append, HeaderMap.getMutValue, ha x (List.mem_cons_self ..), Bool.false_eq_true, if_false,
      ih (fun y hy => ha y (List.mem_cons_of_mem _ hy)), Res.bind_ok]

theorem insert_absent (n v : Bytes) : ∀ m : HeaderMap, (∀ x ∈ m, nameEq x.1 n = false) → m.insert n v = m ++ [(n, v)] := by
  intro m
  induction m with
  | nil => intro _; rfl
  | cons x a ih =>
    intro ha
    simp only [List.cons_append, HeaderMap.insert, ha x (List.mem_cons_self ..), Bool.false_eq_true, if_false,
      ih (fun y hy => ha y (List.mem_cons_of_mem _ hy))]

/-- C101: changing `map[n]` when there is a header of that name: the first one is changed, everything else stays as and
where it is. -/
theorem C101_present (a b : HeaderMap) (e : Header) (n : Bytes) (f : Bytes → Bytes) (ha : ∀ x ∈ a, nameEq x.1 n = false)
    (he : nameEq e.1 n = true) :
    (a ++ e :: b).indexMut n f = .ok (a ++ (e.1, f e.2) :: b) ∧ (a ++ e :: b).index n = .ok e.2 := by
  constructor
  · unfold HeaderMap.indexMut
    rw [if_pos (by simp [HeaderMap.contains, he])]
    exact getMutValue_found n f e b he a ha
  · unfold HeaderMap.index HeaderMap.getValue HeaderMap.get?
    rw [List.find?_append, List.find?_eq_none.mpr (by intro x hx; simp [ha x hx])]
    simp [he]

example : (∀ x ∈ [(asciiBytes "Host", asciiBytes "a")], nameEq x.1 (asciiBytes "accept") = false) ∧
    nameEq (asciiBytes "Accept", asciiBytes "b").1 (asciiBytes "accept") = true := by decide +kernel

/-- C101: when there is none: a header of that name, with what becomes of the empty value, goes to the end.  Reading panics. -/
theorem C101_absent (m : HeaderMap) (n : Bytes) (f : Bytes → Bytes) (h : ∀ x ∈ m, nameEq x.1 n = false) :
    m.indexMut n f = .ok (m ++ [(n, f [])]) ∧ m.index n = .panic := by
  constructor
  · unfold HeaderMap.indexMut
    rw [if_neg (by simp only [HeaderMap.contains, List.any_eq_true]; rintro ⟨x, hx, h1⟩; rw [h x hx] at h1; cases h1),
      insert_absent n [] m h]
    exact getMutValue_found n f (n, []) [] (nameEq_refl n) m h
  · unfold HeaderMap.index HeaderMap.getValue
    rw [get?_none_of h]

example : ∀ x ∈ [(asciiBytes "Host", asciiBytes "a")], nameEq x.1 (asciiBytes "accept") = false := by decide +kernel

/-- One of the two is always the case. -/
theorem first_or_absent (n : Bytes) (m : HeaderMap) : (∀ x ∈ m, nameEq x.1 n = false) ∨
    ∃ a e b, m = a ++ e :: b ∧ (∀ x ∈ a, nameEq x.1 n = false) ∧ nameEq e.1 n = true := by
  induction m with
  | nil => left; intro x hx; cases hx
  | cons y m ih =>
    by_cases hy : nameEq y.1 n = true
    · exact .inr ⟨[], y, m, rfl, (fun x hx => by cases hx), hy⟩
    · have hy' : nameEq y.1 n = false := by simpa using hy
      rcases ih with h | ⟨a, e, b, h1, h2, h3⟩
      · left
        intro x hx
        rcases List.mem_cons.mp hx with h4 | h4
        · rw [h4]; exact hy'
        · exact h x h4
      · refine .inr ⟨y :: a, e, b, by rw [h1]; rfl, ?_, h3⟩
        intro x hx
        rcases List.mem_cons.mp hx with h4 | h4
        · rw [h4]; exact hy'
        · exact h2 x h4

theorem insert_found (n v : Bytes) (e : Header) (b : HeaderMap) (he : nameEq e.1 n = true) :
    ∀ a : HeaderMap, (∀ x ∈ a, nameEq x.1 n = false) →
      HeaderMap.insert (a ++ e :: b) n v = a ++ (e.1, v) :: b := by
  intro a
  induction a with
  | nil => intro _; simp [HeaderMap.insert, he]
  | cons y a ih =>
    intro h1
    simp only [List.cons_append, HeaderMap.insert, h1 y (List.mem_cons_self ..), Bool.false_eq_true, if_false,
      ih (fun z hz => h1 z (List.mem_cons_of_mem _ hz))]

/-- C101: `map[n] = v` never panics, is the same as `insert(n, v)`, and `map[n]` is `v` then.  Reading `map[n]` panics
exactly if the map has no such header. -/
theorem C101_assign (m : HeaderMap) (n v : Bytes) :
    m.indexMut n (fun _ => v) = .ok (m.insert n v) ∧ (m.insert n v).index n = .ok v ∧
    (m.index n = .panic ↔ m.contains n = false) ∧ ∀ e, m.index n ≠ .err e := by
  refine ⟨?_, ?_, ?_, ?_⟩
  · rcases first_or_absent n m with h | ⟨a, e, b, rfl, h1, h2⟩
    · rw [(C101_absent m n _ h).1, insert_absent n v m h]
    · exact (C101_present a b e n _ h1 h2).1.trans (congrArg Res.ok (insert_found n v e b h2 a h1).symm)
  · rcases first_or_absent n m with h | ⟨a, e, b, rfl, h1, h2⟩
    · rw [insert_absent n v m h]
      exact (C101_present m [] (n, v) n id h (nameEq_refl n)).2
    · exact (congrArg (fun x => HeaderMap.index x n) (insert_found n v e b h2 a h1)).trans
        (C101_present a b (e.1, v) n id h1 h2).2
  · rcases first_or_absent n m with h | ⟨a, e, b, rfl, h1, h2⟩
    · rw [(C101_absent m n id h).2]
      simp only [HeaderMap.contains, true_iff, List.any_eq_false]
      intro x hx; simp [h x hx]
    · rw [(C101_present a b e n id h1 h2).2]
      simp [HeaderMap.contains, h2]
  · intro e
    unfold HeaderMap.index HeaderMap.getValue
    split <;> simp

end Webparse
