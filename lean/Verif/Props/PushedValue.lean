import Verif.Spec.PushedValue
import Verif.Proofs.Basic
import Verif.Proofs.HeaderMap

/-! # What becomes of a value that is pushed to a field (C126) -/

namespace Webparse
open Spec

/-- C126: a field to which values are pushed has, read as RFC 9110 5.3 reads a field with several lines or a list, the elements
of what it had before and of each value pushed. -/
def C126_statement : Prop :=
  ∀ (m : HeaderMap) (n a : Bytes) (vs : List Bytes) (v : Bytes), m.get? n = some a → (pushAll m n vs).get? n = some v →
    elementsOf [v] = elementsOf (a :: vs)

theorem push_get {m : HeaderMap} {n a : Bytes} (h : m.get? n = some a) (b : Bytes) :
    (m.push n b).get? n = some (a ++ 59 :: b) := by
  induction m with
  | nil => simp [HeaderMap.get?] at h
  | cons e m ih =>
    unfold HeaderMap.get? at h ih ⊢
    unfold HeaderMap.push
    by_cases he : nameEq e.1 n = true
    · simp only [he, if_true, List.find?_cons, Option.map_some, Option.some.injEq] at h ⊢
      rw [h]
      simp [valuePush]
    · simp only [he, List.find?_cons, if_false, Bool.false_eq_true] at h ⊢
      exact ih h

theorem push_new_get {m : HeaderMap} {n : Bytes} (h : m.get? n = none) (b : Bytes) :
    (m.push n b).get? n = some b := by
  induction m with
  | nil => simp [HeaderMap.get?, HeaderMap.push, nameEq_refl]
  | cons e m ih =>
    unfold HeaderMap.get? at h ih ⊢
    unfold HeaderMap.push
    by_cases he : nameEq e.1 n = true
    · simp [he] at h
    · simp only [he, List.find?_cons, if_false, Bool.false_eq_true] at h ⊢
      exact ih h

/-- The value after any number of pushes. -/
theorem pushAll_get {m : HeaderMap} {n a : Bytes} (h : m.get? n = some a) (vs : List Bytes) :
    (pushAll m n vs).get? n = some (a ++ vs.flatMap fun v => 59 :: v) := by
  induction vs generalizing m a with
  | nil => simpa [pushAll] using h
  | cons b vs ih =>
    have := ih (push_get h b)
    simpa [pushAll, List.append_assoc] using this

theorem count_splitComma (v : Bytes) : ((splitComma v).flatten).count 59 = v.count 59 := by
  induction v with
  | nil => rfl
  | cons b r ih =>
    unfold splitComma
    split
    next h => subst h; simpa using ih
    next h =>
      split
      next h0 =>
        rw [h0] at ih
        simp only [List.flatten_nil, List.count_nil] at ih
        simp only [List.flatten_cons, List.flatten_nil, List.append_nil, List.count_cons, List.count_nil, ← ih]
      next p ps h0 =>
        rw [h0] at ih
        simp only [List.flatten_cons, List.cons_append, List.count_cons] at ih ⊢
        rw [ih]

theorem count_dropOws (v : Bytes) : (v.dropWhile isOws).count 59 = v.count 59 := by
  induction v with
  | nil => rfl
  | cons b r ih =>
    rw [List.dropWhile_cons]
    split
    next h =>
      rw [ih, List.count_cons]
      have : (b == 59) = false := by revert b; decide +kernel
      simp [this]
    next => rfl

theorem count_trimOws (v : Bytes) : (trimOws v).count 59 = v.count 59 := by
  unfold trimOws
  rw [List.count_reverse, count_dropOws, List.count_reverse, count_dropOws]

theorem count_elements (vs : List Bytes) : ((elementsOf vs).flatten).count 59 = (vs.flatten).count 59 := by
  have hf : ∀ l : List Bytes, ((l.filter (· ≠ [])).flatten).count 59 = (l.flatten).count 59 := by
    intro l
    induction l with
    | nil => rfl
    | cons x l ih =>
      rw [List.filter_cons]
      split
      next => simp only [List.flatten_cons, List.count_append, ih]
      next h =>
        have : x = [] := by simpa using h
        simp only [this, List.flatten_cons, List.nil_append, ih]
  have hm : ∀ l : List Bytes, ((l.map trimOws).flatten).count 59 = (l.flatten).count 59 := by
    intro l
    induction l with
    | nil => rfl
    | cons x l ih => simp only [List.map_cons, List.flatten_cons, List.count_append, ih, count_trimOws]
  unfold elementsOf
  rw [hf]
  induction vs with
  | nil => rfl
  | cons v vs ih =>
    rw [List.flatMap_cons, List.flatten_append, List.count_append, ih, List.flatten_cons, List.count_append]
    unfold listElements
    rw [hm, count_splitComma]

/-- C126 does not hold for any field, any value it has and any values pushed to it, as soon as there is one: they are never the
elements of the list. -/
theorem C126_violated_always (m : HeaderMap) (n a : Bytes) (vs : List Bytes) (v : Bytes) (h : m.get? n = some a)
    (hv : (pushAll m n vs).get? n = some v) (hne : vs ≠ []) : elementsOf [v] ≠ elementsOf (a :: vs) := by
  rw [pushAll_get h] at hv
  cases hv
  intro he
  have hc := congrArg (fun l => l.flatten.count 59) he
  simp only [count_elements] at hc
  have hk : ∀ vs : List Bytes, (vs.flatMap fun v => 59 :: v).count 59 = vs.flatten.count 59 + vs.length := by
    intro vs
    induction vs with
    | nil => rfl
    | cons b vs ih =>
      simp only [List.flatMap_cons, List.count_append, ih, List.count_cons_self, List.flatten_cons, List.length_cons]
      omega
  simp only [List.flatten_cons, List.flatten_nil, List.append_nil, List.count_append, hk] at hc
  have : vs.length ≠ 0 := by simpa using hne
  omega

/-- The values of a list without commas become one element, whatever number is pushed: nothing of what was sent is an element
of what is read. -/
theorem C126_violated_one (m : HeaderMap) (n a : Bytes) (vs : List Bytes) (h : m.get? n = some a) (ha : (44 : UInt8) ∉ a)
    (hvs : ∀ v ∈ vs, (44 : UInt8) ∉ v) :
    ∃ v, (pushAll m n vs).get? n = some v ∧ listElements v = [trimOws (a ++ vs.flatMap fun v => 59 :: v)] := by
  refine ⟨_, pushAll_get h vs, ?_⟩
  have hs : ∀ v : Bytes, (44 : UInt8) ∉ v → splitComma v = [v] := by
    intro v
    induction v with
    | nil => intro _; rfl
    | cons b r ih =>
      intro hb
      simp only [List.mem_cons, not_or] at hb
      unfold splitComma
      rw [if_neg (fun h => hb.1 h.symm), ih hb.2]
  unfold listElements
  rw [hs]
  · rfl
  · simp only [List.mem_append, List.mem_flatMap, not_or, not_exists, not_and, List.mem_cons]
    exact ⟨ha, fun v hv => ⟨by decide, hvs v hv⟩⟩

theorem C126_violated : ¬ C126_statement := by
  intro h
  have h0 : HeaderMap.get? [(asciiBytes "accept", asciiBytes "text/html")] (asciiBytes "accept") = some (asciiBytes "text/html") := by
    decide +kernel
  have h1 := pushAll_get h0 [asciiBytes "text/plain"]
  exact C126_violated_always _ _ _ _ _ h0 h1 (by simp) (h _ _ _ _ _ h0 h1)

/-- A field that was not there has the elements of the value pushed. -/
theorem C126_new_partial (m : HeaderMap) (n b : Bytes) (h : m.get? n = none) :
    ∃ v, (m.push n b).get? n = some v ∧ elementsOf [v] = elementsOf [b] := ⟨b, push_new_get h b, rfl⟩

theorem splitSemicolon_append (a b : Bytes) : splitSemicolon (a ++ 59 :: b) = splitSemicolon a ++ splitSemicolon b := by
  induction a with
  | nil => simp [splitSemicolon]
  | cons x a ih =>
    have hne : splitSemicolon a ≠ [] := by
      cases a with
      | nil => simp [splitSemicolon]
      | cons y a =>
        unfold splitSemicolon
        split
        · simp
        · split <;> simp
    rw [List.cons_append, splitSemicolon, splitSemicolon, ih]
    split
    · simp
    · cases hs : splitSemicolon a with
      | nil => exact absurd hs hne
      | cons p ps => simp

/-- What holds instead: a field of which the parts are separated by semicolons, as `Cookie` is, has the parts it had and those of
each value pushed, in order. -/
theorem C126_parts_partial (m : HeaderMap) (n a : Bytes) (vs : List Bytes) (v : Bytes) (h : m.get? n = some a)
    (hv : (pushAll m n vs).get? n = some v) : semicolonParts v = (a :: vs).flatMap semicolonParts := by
  rw [pushAll_get h] at hv
  cases hv
  induction vs generalizing a m with
  | nil => simp
  | cons b vs ih =>
    have := ih (m.push n b) (a ++ 59 :: b) (push_get h b)
    rw [show a ++ (b :: vs).flatMap (fun v => 59 :: v) = (a ++ 59 :: b) ++ vs.flatMap (fun v => 59 :: v) by simp, this]
    simp only [List.flatMap_cons, semicolonParts, splitSemicolon_append, List.map_append, List.append_assoc]

/-- Two cookies. -/
example : ∃ v, (pushAll [(asciiBytes "Cookie", asciiBytes "a=1")] (asciiBytes "Cookie") [asciiBytes "b=2"]).get? (asciiBytes "Cookie") = some v ∧
    semicolonParts v = [asciiBytes "a=1", asciiBytes "b=2"] :=
  ⟨asciiBytes "a=1;b=2", by decide +kernel, by decide +kernel⟩

/-- Two codings that become one no one knows. -/
example : ∃ v, (pushAll [(asciiBytes "Accept-Encoding", asciiBytes "gzip")] (asciiBytes "Accept-Encoding") [asciiBytes "br"]).get? (asciiBytes "Accept-Encoding") = some v ∧
    elementsOf [v] = [asciiBytes "gzip;br"] ∧ elementsOf [asciiBytes "gzip", asciiBytes "br"] = [asciiBytes "gzip", asciiBytes "br"] :=
  ⟨asciiBytes "gzip;br", by decide +kernel, by decide +kernel, by decide +kernel⟩

end Webparse
