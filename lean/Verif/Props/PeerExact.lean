import Verif.Props.Rfc9113Peer

/-!
# C93, exactly: which plain conversations are read as they are meant
-/

namespace Webparse
open Spec Spec.Rfc

theorem zip_both {α β : Type} {R S : α → β → Prop} {as : List α} {bs : List β} (h : Zip R as bs) (k : Zip S as bs) :
    ∀ a ∈ as, ∃ b, R a b ∧ S a b := by
  induction h with
  | nil => simp
  | @cons a b as bs r _ ih =>
    cases k with
    | cons s k =>
      intro x hx
      rcases List.mem_cons.mp hx with rfl | hx
      · exact ⟨b, r, s⟩
      · exact ih k x hx

theorem hearsPlain_taken {maxFrame maxList : Nat} {t t' : Table} {frames : List RawFrame} {heard : List Heard}
    (h : HearsPlain maxFrame maxList t frames t' heard) :
    ∀ id e fields, .headers id e fields ∈ heard → ∀ x ∈ fields, PseudoTaken x := by
  induction h with
  | nil => simp
  | frame _ _ _ _ _ ih =>
    intro id e fields hm
    simp only [List.mem_cons, reduceCtorEq, false_or] at hm
    exact ih _ _ _ hm
  | headers _ _ _ _ _ _ _ _ htk _ _ ih =>
    intro id e fields hm
    simp only [List.mem_cons, Heard.headers.injEq] at hm
    rcases hm with ⟨-, -, rfl⟩ | hm
    · exact htk
    · exact ih _ _ _ hm

theorem joinSemicolon_longer (v w : Bytes) (ws : List Bytes) : ∀ x ∈ (w :: ws), x.length < (joinSemicolon (v :: w :: ws)).length := by
  induction ws generalizing v w with
  | nil => simp [joinSemicolon]; omega
  | cons a ws ih =>
    intro x hx
    rw [joinSemicolon, List.length_append, List.length_append]
    rcases List.mem_cons.mp hx with rfl | hx
    · have : x.length ≤ (joinSemicolon (x :: a :: ws)).length := by simp [joinSemicolon]
      have : ([59, 32] : Bytes).length = 2 := rfl
      omega
    · have := ih w a x hx
      omega

theorem joinComma_longer (v w : Bytes) (ws : List Bytes) : ∀ x ∈ (w :: ws), x.length < (joinComma (v :: w :: ws)).length := by
  induction ws generalizing v w with
  | nil => simp [joinComma]; omega
  | cons a ws ih =>
    intro x hx
    rw [joinComma, List.length_append, List.length_append]
    rcases List.mem_cons.mp hx with rfl | hx
    · have : x.length ≤ (joinComma (x :: a :: ws)).length := by simp [joinComma]
      have : ([44, 32] : Bytes).length = 2 := rfl
      omega
    · have := ih w a x hx
      omega

theorem lastField_eq (fields : List Header) (n : Bytes) : lastField fields n = (allFields fields n).getLast? := by
  induction fields with
  | nil => rfl
  | cons h hs ih =>
    rw [lastField_cons, allFields_cons, ih]
    split
    · rw [List.getLast?_append]; rfl
    · simp

/-- The last of several values is not the list of them. -/
theorem last_not_all {fields : List Header} {n : Bytes} (h : lastField fields n = fieldValue fields n) : (allFields fields n).length ≤ 1 := by
  rw [lastField_eq] at h
  unfold fieldValue at h
  match hm : allFields fields n with
  | [] => simp
  | [v] => simp
  | v :: w :: ws =>
    rw [hm, List.getLast?_cons_cons] at h
    simp only at h
    cases hl : (w :: ws).getLast? with
    | none => simp at hl
    | some x =>
      rw [hl] at h
      have hx : x ∈ w :: ws := List.mem_of_getLast? hl
      simp only [Option.some.injEq] at h
      split at h
      · have := joinSemicolon_longer v w ws x hx
        rw [← h] at this
        omega
      · have := joinComma_longer v w ws x hx
        rw [← h] at this
        omega

theorem understood_once {fields : List Header} {x : HeadersFrame} (hok : MessageFields fields) (hq : ∀ h ∈ fields, 126 ∉ h.1)
    (ht : TakenAs fields x) (hu : Understood fields x) : ∀ n, (allFields fields n).length ≤ 1 := by
  intro n
  by_cases hc : n.head? = some 58
  · exact hok.once n hc
  by_cases he : ∃ h ∈ fields, h.1 = n
  · obtain ⟨h, hh, rfl⟩ := he
    have names := message_plain_names hok hq
    obtain ⟨k1, k2⟩ := hok.names h hh hc
    refine last_not_all ?_
    rw [← ht.fields names h.1 (names h hh) hc, hu.fields h.1 k1 k2]
  · have : allFields fields n = [] := by
      unfold allFields
      rw [List.filter_eq_nil_iff.mpr]
      · rfl
      · intro h hh e
        exact he ⟨h, hh, by simpa using e⟩
    simp [this]

/-- C93, partial and exact: what is said plainly, with no `~` or `^` in a name, is read, and it is read as it is meant if and only if no name
occurs twice in a header list.  Missing: the rest of the conversations, see the violations. -/
theorem C93_iff_partial (maxFrame maxList limit : Nat) (hmax : maxFrame < 2 ^ 24) (frames : List RawFrame) (T : Table)
    (heard : List Heard) (hid : ∀ f ∈ frames, f.2.2.1 < 2 ^ 31) (h : HearsPlain maxFrame maxList ⟨[], limit⟩ frames T heard)
    (hq : ∀ id e fields, .headers id e fields ∈ heard → ∀ x ∈ fields, 126 ∉ x.1 ∧ 94 ∉ x.1) :
    ∃ received, readFrames maxList (wireFrames frames).length { maxSize := limit } (wireFrames frames) = some (.ok received) ∧
      (Zip HeardBy heard received ↔ ∀ id e fields, .headers id e fields ∈ heard → ∀ n, (allFields fields n).length ≤ 1) := by
  obtain ⟨r, h1, h2⟩ := C93_reported_partial maxFrame maxList limit hmax frames T heard hid h
  have hok := (C93_plain_is_heard _ _ _ _ _ _ h).2.1
  refine ⟨r, h1, ?_, ?_⟩
  · intro hz id e fields hm
    obtain ⟨b, hb1, hb2⟩ := zip_both h2 hz _ hm
    obtain ⟨x, rfl, -, -, ht⟩ := hb1
    obtain ⟨y, hy, -, -, hu⟩ := hb2
    simp only [Frame.headers.injEq] at hy
    subst hy
    exact understood_once (hok _ _ _ hm).1 (fun h hh => (hq _ _ _ hm h hh).1) ht hu
  · intro ho
    have hp : ∀ id e fields, .headers id e fields ∈ heard → PlainMessage fields := by
      intro id e fields hm
      have hpt := hearsPlain_taken h id e fields hm
      refine ⟨ho _ _ _ hm, hq _ _ _ hm, fun v hv => (hpt _ hv).method rfl, fun v hv => ?_⟩
      obtain ⟨t, ht, this⟩ := (hpt _ hv).scheme rfl
      rw [(textOf_iff _ _).mp ht, visible_lossy ((hok _ _ _ hm).1.uri _ hv (.inl rfl))] at this
      exact this
    obtain ⟨r', h1', h2'⟩ := C93_understood_partial maxFrame maxList limit hmax frames T heard hid h hp
    rw [h1] at h1'
    simp only [Option.some.injEq, Res.ok.injEq] at h1'
    rw [h1']
    exact h2'

/-! ## Concrete cases -/

/-- The request of `sampleGet_heard` meets the hypotheses. -/
example : ∃ received, readFrames 16384 (wireFrames [(4, 0, 0, []), (1, 5, 1, sampleGetBlock)]).length { maxSize := 4096 }
      (wireFrames [(4, 0, 0, []), (1, 5, 1, sampleGetBlock)]) = some (.ok received) ∧
    (Zip HeardBy [.frame (.settings {}), .headers 1 true sampleGet] received ↔
      ∀ id e fields, .headers id e fields ∈ [Heard.frame (.settings {}), .headers 1 true sampleGet] → ∀ n, (allFields fields n).length ≤ 1) :=
  C93_iff_partial 16384 16384 4096 (by decide) _ _ _ (by decide +kernel) sampleGet_heard (by
    intro id e fields hm
    simp only [List.mem_cons, Heard.headers.injEq, List.not_mem_nil, or_false, reduceCtorEq, false_or] at hm
    obtain ⟨-, -, rfl⟩ := hm
    decide +kernel)

/-- A list that says a name twice has a name with two values. -/
example : ¬ ∀ n, (allFields [(asciiBytes "accept", asciiBytes "a"), (asciiBytes "accept", asciiBytes "b")] n).length ≤ 1 :=
  fun h => absurd (h (asciiBytes "accept")) (by decide +kernel)

end Webparse
