import Verif.Spec.Stuck
import Verif.Props.Pieces
import Verif.Proofs.Grammar
import Verif.Props.Safety

/-! # When a reader never gives a verdict (C70) -/

namespace Webparse
open Spec

/-- One step of a reader: either that step is stuck, or it is over and the next ones are.  Provided that a step that has merely run
out of input can be brought to a verdict. -/
theorem hopeless_stage {α β : Type} {p : Bytes → Res α × Bytes} {f : α → Bytes → Res β × Bytes} {P : Bytes → Prop} (hp : Streams p)
    (part : ∀ buf, (p buf).1 = .err .partialData → P buf ∨ ∃ x, (thenRead (p (buf ++ x)) f).1 ≠ .err .partialData)
    (stuck : ∀ buf, P buf → Hopeless p buf) (buf : Bytes) :
    Hopeless (fun b => thenRead (p b) f) buf ↔ P buf ∨ ∃ a r, p buf = (.ok a, r) ∧ Hopeless (f a) r := by
  constructor
  · intro h
    have h0 := h []
    rw [List.append_nil] at h0
    rcases hb : p buf with ⟨a | e | _, r⟩
    · right
      refine ⟨a, r, rfl, fun x => ?_⟩
      have := h x
      simp only [(hp.ext _ _ _ hb).2 x] at this
      exact this
    · left
      simp only [hb, thenRead, Res.err.injEq] at h0
      rcases part buf (by rw [hb, h0]) with h1 | ⟨x, hx⟩
      · exact h1
      · exact absurd (h x) hx
    · simp only [hb, thenRead] at h0
      exact absurd h0 (by simp)
  · rintro (h | ⟨a, r, h, hf⟩)
    · intro x
      have := stuck buf h x
      rcases hb : p (buf ++ x) with ⟨a | e | _, r⟩
      · rw [hb] at this; simp at this
      · rw [hb] at this
        simp only [hb, thenRead, Res.err.injEq] at this ⊢
        exact this
      · rw [hb] at this; simp at this
    · exact hopeless_then hp h hf

/-- The same for a step that is never stuck. -/
theorem hopeless_step {α β : Type} {p : Bytes → Res α × Bytes} {f : α → Bytes → Res β × Bytes} (hp : Streams p)
    (part : ∀ buf, (p buf).1 = .err .partialData → ∃ x, (thenRead (p (buf ++ x)) f).1 ≠ .err .partialData) (buf : Bytes) :
    Hopeless (fun b => thenRead (p b) f) buf ↔ ∃ a r, p buf = (.ok a, r) ∧ Hopeless (f a) r := by
  rw [hopeless_stage (P := fun _ => False) hp (fun b h => Or.inr (part b h)) (fun _ h => h.elim) buf]
  simp

/-! ## The steps -/

theorem token_exhausted {f : UInt8 → Bool} {e : Error} {empty : Bool} (he : e ≠ .partialData) {buf : Bytes}
    (h : (parseTokenEmpty f e empty buf).1 = .err .partialData) : buf.all f = true := by
  by_cases hb : buf.all f = true
  · exact hb
  · exfalso
    unfold parseTokenEmpty at h
    rw [if_neg hb] at h
    cases buf with
    | nil => simp at hb
    | cons c buf =>
      simp only [] at h
      split at h
      · cases empty
        · simp only [Bool.false_eq_true, if_false, Res.err.injEq] at h; exact he h
        · simp [thenRead, nextByte] at h
      · simp at h

theorem token_feed {β : Type} {f : UInt8 → Bool} {e : Error} (he : e ≠ .partialData) {buf : Bytes} (hb : buf.all f = true) {c : UInt8}
    (hc : f c = false) {y : Bytes} {G : Bytes → Bytes → Res β × Bytes} (hG : ∀ t, (G t (c :: y)).1 ≠ .err .partialData) :
    (thenRead (parseTokenBy f e (buf ++ c :: y)) G).1 ≠ .err .partialData := by
  unfold parseTokenBy
  rw [parseTokenEmpty_eq e false hb hc]
  by_cases h : buf = []
  · rw [if_pos h]; simpa [thenRead] using he
  · rw [if_neg h]; exact hG buf

theorem onToken_exhausted {α : Type} {f : Bytes → Res α} (hf : ∀ t, f t ≠ .err .partialData) {buf : Bytes}
    (h : (onToken (parseToken buf) f).1 = .err .partialData) : buf.all isToken = true := by
  unfold onToken parseToken parseTokenBy at h
  rcases hb : parseTokenEmpty isToken .token false buf with ⟨a | e | _, r⟩
  · rw [hb] at h; exact absurd h (hf a)
  · rw [hb] at h
    simp only [thenRead, Res.err.injEq] at h
    exact token_exhausted (e := .token) (by decide) (by rw [hb, h])
  · rw [hb] at h; simp [thenRead] at h

theorem onToken_feed {α β : Type} {f : Bytes → Res α} (hf : ∀ t, f t ≠ .err .partialData) {buf : Bytes} (hb : buf.all isToken = true)
    {c : UInt8} (hc : isToken c = false) {y : Bytes} {G : α → Bytes → Res β × Bytes} (hG : ∀ a, (G a (c :: y)).1 ≠ .err .partialData) :
    (thenRead (onToken (parseToken (buf ++ c :: y)) f) G).1 ≠ .err .partialData := by
  unfold onToken
  rw [thenRead_then]
  refine token_feed (by decide) hb hc fun t => ?_
  rcases ht : f t with a | e | _
  · exact hG a
  · simp only [thenRead]
    intro h
    rw [Res.err.injEq] at h
    exact hf t (by rw [ht, h])
  · simp [thenRead]

theorem spaces_exhausted {buf : Bytes} (h : (skipSpaces buf).1 = .err .partialData) : Spaces buf := by
  induction buf with
  | nil => intro x hx; simp at hx
  | cons b buf ih =>
    rw [skipSpaces] at h
    by_cases hb : b = 32
    · rw [if_pos hb] at h
      intro x hx
      rcases List.mem_cons.mp hx with rfl | hx
      · exact hb
      · exact ih h x hx
    · rw [if_neg hb] at h; simp at h

theorem spaces_feed {β : Type} {buf : Bytes} (hb : Spaces buf) {c : UInt8} (hc : c ≠ 32) {y : Bytes} {G : Unit → Bytes → Res β × Bytes}
    (hG : (G () (c :: y)).1 ≠ .err .partialData) : (thenRead (skipSpaces (buf ++ c :: y)) G).1 ≠ .err .partialData := by
  rw [(skipSpaces_iff _ _).mpr ⟨buf, hb, rfl, (starts_cons _ _ _).mpr hc⟩]
  exact hG

theorem emptyLines_feed {β : Type} {buf : Bytes} {G : Unit → Bytes → Res β × Bytes}
    (hG : (G () [0]).1 ≠ .err .partialData) (h : (skipEmptyLines buf).1 = .err .partialData) :
    (thenRead (skipEmptyLines (buf ++ [0])) G).1 ≠ .err .partialData := by
  suffices ∀ n (buf : Bytes), buf.length ≤ n → (skipEmptyLines buf).1 = .err .partialData →
      skipEmptyLines (buf ++ [0]) = (.ok (), [0]) ∨ (skipEmptyLines (buf ++ [0])).1 = .err .newLine by
    rcases this _ _ (Nat.le_refl _) h with h | h
    · rw [h]; exact hG
    · rcases hb : skipEmptyLines (buf ++ [0]) with ⟨a | e | _, r⟩
      · rw [hb] at h; simp at h
      · rw [hb] at h
        simp only [Res.err.injEq] at h
        simp [thenRead, h]
      · rw [hb] at h; simp at h
  intro n
  induction n with
  | zero =>
    intro buf hn h
    have : buf = [] := List.length_eq_zero_iff.mp (by omega)
    subst this
    exact Or.inl rfl
  | succ n ih =>
    intro buf hn h
    match buf with
    | [] => exact Or.inl rfl
    | [b] =>
      simp only [skipEmptyLines] at h
      by_cases h1 : b = 13
      · subst h1; exact Or.inr rfl
      · rw [if_neg h1] at h
        by_cases h2 : b = 10
        · subst h2; exact Or.inl rfl
        · rw [if_neg h2] at h; simp at h
    | b :: c :: r' =>
      simp only [List.length_cons] at hn
      simp only [skipEmptyLines] at h
      show skipEmptyLines (b :: c :: (r' ++ [0])) = _ ∨ (skipEmptyLines (b :: c :: (r' ++ [0]))).1 = _
      simp only [skipEmptyLines]
      by_cases h1 : b = 13
      · rw [if_pos h1] at h
        rw [if_pos h1]
        by_cases h3 : c = 10
        · rw [if_pos h3] at h
          rw [if_pos h3]
          exact ih r' (by omega) h
        · rw [if_neg h3] at h; simp at h
      · rw [if_neg h1] at h
        rw [if_neg h1]
        by_cases h2 : b = 10
        · rw [if_pos h2] at h
          rw [if_pos h2]
          exact ih (c :: r') (by simp; omega) h
        · rw [if_neg h2] at h; simp at h

/-- What `skip_new_line` takes for an incomplete line end although it is none. -/
def BadEnd (buf : Bytes) : Prop := ∃ c r, buf = c :: r ∧ c ≠ 13 ∧ c ≠ 10 ∧ c ≠ 32

theorem newLine_stuck (buf : Bytes) (h : BadEnd buf) : Hopeless skipNewLine buf := by
  obtain ⟨c, r, rfl, h1, h2, h3⟩ := h
  intro x
  simp [skipNewLine, thenRead, nextByte, h1, h2, h3]

theorem newLine_part {β : Type} {G : Unit → Bytes → Res β × Bytes} (buf : Bytes) (h : (skipNewLine buf).1 = .err .partialData) :
    BadEnd buf ∨ ∃ x, (thenRead (skipNewLine (buf ++ x)) G).1 ≠ .err .partialData := by
  cases buf with
  | nil => exact Or.inr ⟨[13, 0], by simp [skipNewLine, thenRead, nextByte, expectByte]⟩
  | cons b buf =>
    by_cases h1 : b = 13
    · subst h1
      right
      cases buf with
      | nil => exact ⟨[0], by simp [skipNewLine, thenRead, nextByte, expectByte]⟩
      | cons c buf =>
        simp only [skipNewLine, thenRead, nextByte, expectByte, if_true] at h
        split at h <;> simp at h
    · by_cases h2 : b = 10
      · subst h2; simp [skipNewLine, thenRead, nextByte] at h
      · by_cases h3 : b = 32
        · subst h3; simp [skipNewLine, thenRead, nextByte] at h
        · exact Or.inl ⟨b, buf, rfl, h1, h2, h3⟩

theorem badEnd_of_newLine {G : Unit → Bytes → Res α × Bytes} (buf : Bytes) :
    Hopeless (fun b => thenRead (skipNewLine b) G) buf ↔
      BadEnd buf ∨ ∃ a r, skipNewLine buf = (.ok a, r) ∧ Hopeless (G a) r :=
  hopeless_stage streams_skipNewLine newLine_part newLine_stuck buf

theorem not_hopeless_const {α : Type} {c : Res α} (hc : c ≠ .err .partialData) (buf : Bytes) : ¬ Hopeless (fun b => (c, b)) buf :=
  fun h => hc (h [])

/-! ## Field lines -/

theorem name_exhausted {buf : Bytes} (h : (parseHeaderName buf).1 = .err .partialData) : buf.all isHeaderNameToken = true := by
  unfold parseHeaderName parseTokenBy at h
  rcases hb : parseTokenEmpty isHeaderNameToken .headerName false buf with ⟨a | e | _, r⟩
  · rw [hb] at h; simp [thenRead, headerNameFromBytes] at h
  · rw [hb] at h
    simp only [thenRead, Res.err.injEq] at h
    exact token_exhausted (e := .headerName) (by decide) (by rw [hb, h])
  · rw [hb] at h; simp [thenRead] at h

theorem hopeless_line6 (h : Header) (buf : Bytes) :
    Hopeless (fun b => thenRead (skipNewLine b) fun _ b => ((.ok (some h), b) : Res (Option Header) × Bytes)) buf ↔ BadEnd buf := by
  rw [badEnd_of_newLine]
  constructor
  · rintro (h | ⟨_, _, _, h⟩)
    · exact h
    · exact absurd h (not_hopeless_const (by simp) _)
  · exact Or.inl

theorem hopeless_line5 (n : Bytes) (buf : Bytes) :
    Hopeless (fun b => thenRead (parseHeaderValue b) fun v b =>
      thenRead (skipNewLine b) fun _ b => ((.ok (some (n, v)), b) : Res (Option Header) × Bytes)) buf ↔
    ∃ r, buf = 13 :: r ∧ BadEnd r := by
  refine (hopeless_step streams_parseHeaderValue (fun b hb => ?_) buf).trans ?_
  · have hall := token_exhausted (by decide) hb
    refine ⟨[1, 13, 0], ?_⟩
    have e : b ++ [1, 13, 0] = (b ++ [1]) ++ 13 :: [0] := by simp
    unfold parseHeaderValue
    rw [e, parseTokenEmpty_eq _ _ (by simp [List.all_append, hall]; decide) (by decide), if_neg (by simp)]
    simp [thenRead, skipNewLine, nextByte, expectByte]
  · constructor
    · rintro ⟨v, r, h, hr⟩
      obtain ⟨-, ⟨-, -, b, s, rfl, hb⟩ | ⟨rfl, rfl⟩⟩ := (value_iff _ _ _).mp h
      · obtain ⟨c, r', e, h1, -⟩ := (hopeless_line6 _ _).mp hr
        simp only [List.cons.injEq] at e
        exact absurd (e.1.symm.trans hb) h1
      · exact ⟨r, rfl, (hopeless_line6 _ _).mp hr⟩
    · rintro ⟨r, rfl, hr⟩
      exact ⟨[], r, (value_iff _ _ _).mpr ⟨by simp, Or.inr ⟨rfl, rfl⟩⟩, (hopeless_line6 _ _).mpr hr⟩

theorem hopeless_line4 (n : Bytes) (buf : Bytes) :
    Hopeless (fun b => thenRead (skipSpaces b) fun _ b => thenRead (parseHeaderValue b) fun v b =>
      thenRead (skipNewLine b) fun _ b => ((.ok (some (n, v)), b) : Res (Option Header) × Bytes)) buf ↔
    ∃ u r, Spaces u ∧ buf = u ++ 13 :: r ∧ BadEnd r := by
  refine (hopeless_step streams_skipSpaces (fun b hb => ?_) buf).trans ?_
  · exact ⟨[1, 13, 0], spaces_feed (spaces_exhausted hb) (by decide) (by rw [show parseHeaderValue [1, 13, 0] = (.ok [1], [13, 0]) by decide +kernel]; simp [thenRead, skipNewLine, nextByte, expectByte])⟩
  · constructor
    · rintro ⟨_, r, h, hr⟩
      obtain ⟨u, hu, rfl, -⟩ := (skipSpaces_iff _ _).mp h
      obtain ⟨r, rfl, hr'⟩ := (hopeless_line5 _ _).mp hr
      exact ⟨u, r, hu, rfl, hr'⟩
    · rintro ⟨u, r, hu, rfl, hr⟩
      exact ⟨(), 13 :: r, (skipSpaces_iff _ _).mpr ⟨u, hu, rfl, (starts_cons _ _ _).mpr (by decide)⟩, (hopeless_line5 _ _).mpr ⟨r, rfl, hr⟩⟩

theorem hopeless_line3 (n : Bytes) (buf : Bytes) :
    Hopeless (fun b => thenRead (expectByte 58 .headerName b) fun _ b => thenRead (skipSpaces b) fun _ b =>
      thenRead (parseHeaderValue b) fun v b =>
      thenRead (skipNewLine b) fun _ b => ((.ok (some (n, v)), b) : Res (Option Header) × Bytes)) buf ↔
    ∃ u r, Spaces u ∧ buf = 58 :: (u ++ 13 :: r) ∧ BadEnd r := by
  refine (hopeless_step (streams_expectByte _ _) (fun b hb => ?_) buf).trans ?_
  · refine ⟨[0], ?_⟩
    cases b with
    | nil => simp [expectByte, thenRead]
    | cons c b =>
      simp only [expectByte] at hb
      split at hb <;> simp at hb
  · constructor
    · rintro ⟨_, r, h, hr⟩
      rw [expectByte_iff] at h
      subst h
      obtain ⟨u, r, hu, rfl, hr'⟩ := (hopeless_line4 _ _).mp hr
      exact ⟨u, r, hu, rfl, hr'⟩
    · rintro ⟨u, r, hu, rfl, hr⟩
      exact ⟨(), _, (expectByte_iff _ _ _ _).mpr rfl, (hopeless_line4 _ _).mpr ⟨u, r, hu, rfl, hr⟩⟩

theorem hopeless_line2 (n : Bytes) (buf : Bytes) :
    Hopeless (fun b => thenRead (skipSpaces b) fun _ b => thenRead (expectByte 58 .headerName b) fun _ b =>
      thenRead (skipSpaces b) fun _ b => thenRead (parseHeaderValue b) fun v b =>
      thenRead (skipNewLine b) fun _ b => ((.ok (some (n, v)), b) : Res (Option Header) × Bytes)) buf ↔
    ∃ w u r, Spaces w ∧ Spaces u ∧ buf = w ++ 58 :: (u ++ 13 :: r) ∧ BadEnd r := by
  refine (hopeless_step streams_skipSpaces (fun b hb => ?_) buf).trans ?_
  · exact ⟨[0], spaces_feed (spaces_exhausted hb) (by decide) (by simp [expectByte, thenRead])⟩
  · constructor
    · rintro ⟨_, r, h, hr⟩
      obtain ⟨w, hw, rfl, -⟩ := (skipSpaces_iff _ _).mp h
      obtain ⟨u, r, hu, rfl, hr'⟩ := (hopeless_line3 _ _).mp hr
      exact ⟨w, u, r, hw, hu, rfl, hr'⟩
    · rintro ⟨w, u, r, hw, hu, rfl, hr⟩
      exact ⟨(), _, (skipSpaces_iff _ _).mpr ⟨w, hw, rfl, (starts_cons _ _ _).mpr (by decide)⟩, (hopeless_line3 _ _).mpr ⟨u, r, hu, rfl, hr⟩⟩

theorem starts_colon {w s : Bytes} (hw : Spaces w) : Starts (fun b => isTchar b = false) (w ++ 58 :: s) := by
  cases w with
  | nil => exact ⟨58, s, rfl, by decide⟩
  | cons b w => exact ⟨b, w ++ 58 :: s, rfl, by rw [hw b (by simp)]; decide⟩

theorem hopeless_line1 (buf : Bytes) :
    Hopeless (fun b => thenRead (parseHeaderName b) fun n b => thenRead (skipSpaces b) fun _ b =>
      thenRead (expectByte 58 .headerName b) fun _ b =>
      thenRead (skipSpaces b) fun _ b => thenRead (parseHeaderValue b) fun v b =>
      thenRead (skipNewLine b) fun _ b => ((.ok (some (n, v)), b) : Res (Option Header) × Bytes)) buf ↔
    ∃ n w u r, IsFieldName n ∧ Spaces w ∧ Spaces u ∧ buf = n ++ (w ++ 58 :: (u ++ 13 :: r)) ∧ BadEnd r := by
  refine (hopeless_step streams_parseHeaderName (fun b hb => ?_) buf).trans ?_
  · refine ⟨[0], ?_⟩
    unfold parseHeaderName
    rw [thenRead_then]
    refine token_feed (by decide) (name_exhausted hb) (by decide) fun t => ?_
    simp [headerNameFromBytes, thenRead, skipSpaces, expectByte]
  · constructor
    · rintro ⟨n, r, h, hr⟩
      obtain ⟨hn, rfl, -⟩ := (name_iff _ _ _).mp h
      obtain ⟨w, u, r, hw, hu, rfl, hr'⟩ := (hopeless_line2 _ _).mp hr
      exact ⟨n, w, u, r, hn, hw, hu, rfl, hr'⟩
    · rintro ⟨n, w, u, r, hn, hw, hu, rfl, hr⟩
      exact ⟨n, _, (name_iff _ _ _).mpr ⟨hn, rfl, starts_colon hw⟩, (hopeless_line2 _ _).mpr ⟨w, u, r, hw, hu, rfl, hr⟩⟩

/-- The lines that are stuck. -/
theorem hopeless_line (buf : Bytes) : Hopeless parseHeaderLine buf ↔
    ∃ n w u r, IsFieldName n ∧ Spaces w ∧ Spaces u ∧ buf = n ++ (w ++ 58 :: (u ++ 13 :: r)) ∧ BadEnd r := by
  have hline : ∀ (b : UInt8) (r : Bytes), b ≠ 13 → b ≠ 10 → parseHeaderLine (b :: r) =
      thenRead (parseHeaderName (b :: r)) fun n b => thenRead (skipSpaces b) fun _ b =>
      thenRead (expectByte 58 .headerName b) fun _ b =>
      thenRead (skipSpaces b) fun _ b => thenRead (parseHeaderValue b) fun v b =>
      thenRead (skipNewLine b) fun _ b => (.ok (some (n, v)), b) := by
    intro b r h1 h2
    unfold parseHeaderLine
    simp only [peekByte]
    rw [thenRead]
    simp only [if_neg h1, if_neg h2]
  cases buf with
  | nil =>
    constructor
    · intro h; exact absurd (h [0]) (by decide +kernel)
    · rintro ⟨n, w, u, r, hn, -, -, e, -⟩
      exact absurd (congrArg List.length e) (by simp)
  | cons b buf =>
    by_cases h1 : b = 13
    · subst h1
      constructor
      · intro h
        exfalso
        cases buf with
        | nil => exact absurd (h [0]) (by decide +kernel)
        | cons c buf =>
          have := h []
          simp only [List.append_nil, parseHeaderLine, thenRead, peekByte, nextByte, expectByte, if_true] at this
          by_cases hc : c = 10
          · rw [if_pos hc] at this; simp at this
          · rw [if_neg hc] at this; simp at this
      · rintro ⟨n, w, u, r, hn, -, -, e, -⟩
        obtain ⟨c, n', rfl⟩ := List.exists_cons_of_ne_nil hn.1
        simp only [List.cons_append, List.cons.injEq] at e
        exact absurd e.1.symm (tchar_facts c (hn.2 c (by simp))).1
    · by_cases h2 : b = 10
      · subst h2
        constructor
        · intro h; exact absurd (h []) (by simp [parseHeaderLine, thenRead, peekByte, nextByte])
        · rintro ⟨n, w, u, r, hn, -, -, e, -⟩
          obtain ⟨c, n', rfl⟩ := List.exists_cons_of_ne_nil hn.1
          simp only [List.cons_append, List.cons.injEq] at e
          exact absurd e.1.symm (tchar_facts c (hn.2 c (by simp))).2.1
      · rw [← hopeless_line1]
        unfold Hopeless
        refine forall_congr' fun x => ?_
        rw [List.cons_append, hline b _ h1 h2]

/-- The loop as one line and the rest. -/
theorem headerRun_eq (m : HeaderMap) (buf : Bytes) : headerRun m buf = thenRead (parseHeaderLine buf) fun o r =>
    match o with
    | none => (.ok ((), m), r)
    | some h => headerRun (m.insert h.1 h.2) r := by
  rcases hb : parseHeaderLine buf with ⟨(_ | h) | e | _, r⟩
  · unfold headerRun; rw [forget_loop_succ, hb]; rfl
  · rw [headerRun_some hb]; rfl
  · unfold headerRun; rw [forget_loop_succ, hb]; rfl
  · unfold headerRun; rw [forget_loop_succ, hb]; rfl

theorem headerRun_zero (m : HeaderMap) : (headerRun m [0]).1 ≠ .err .partialData := by
  rw [headerRun_eq, show parseHeaderLine [0] = (.err .headerName, [0]) by decide +kernel]
  simp [thenRead]

theorem hopeless_run (m : HeaderMap) (buf : Bytes) : Hopeless (headerRun m) buf ↔
    Hopeless parseHeaderLine buf ∨ ∃ h r, parseHeaderLine buf = (.ok (some h), r) ∧ Hopeless (headerRun (m.insert h.1 h.2)) r := by
  have e : headerRun m = fun b => thenRead (parseHeaderLine b) fun o r =>
    match o with
    | none => (.ok ((), m), r)
    | some h => headerRun (m.insert h.1 h.2) r := funext (headerRun_eq m)
  rw [e, hopeless_stage (P := Hopeless parseHeaderLine) streams_parseHeaderLine (fun b hb => ?_) (fun _ h => h)]
  · refine or_congr Iff.rfl ?_
    constructor
    · rintro ⟨_ | h, r, h1, h2⟩
      · exact absurd h2 (not_hopeless_const (by simp) _)
      · exact ⟨h, r, h1, h2⟩
    · rintro ⟨h, r, h1, h2⟩
      exact ⟨some h, r, h1, h2⟩
  · by_cases hh : Hopeless parseHeaderLine b
    · exact Or.inl hh
    · right
      unfold Hopeless at hh
      obtain ⟨x, hx⟩ := Classical.not_forall.mp hh
      rcases hp : parseHeaderLine (b ++ x) with ⟨(_ | h) | e | _, r⟩
      · exact ⟨x, by rw [hp]; simp [thenRead]⟩
      · obtain ⟨u, -, hu, hu2⟩ := exact_parseHeaderLine _ _ _ hp
        rcases List.append_eq_append_iff.mp hu with ⟨y, hy, -⟩ | ⟨y, hy, -⟩
        · refine ⟨y ++ [0], ?_⟩
          rw [← List.append_assoc, ← hy, (streams_parseHeaderLine.ext _ _ _ hu2).2 [0]]
          exact headerRun_zero _
        · exfalso
          rw [hy, (streams_parseHeaderLine.ext _ _ _ hu2).2 y] at hb
          simp at hb
      · refine ⟨x, ?_⟩
        rw [hp] at hx ⊢
        simp only [thenRead]
        intro h; rw [Res.err.injEq] at h; exact hx (by rw [h])
      · exact ⟨x, by rw [hp]; simp [thenRead]⟩

/-- The field sections that are stuck. -/
theorem hopeless_fields (m : HeaderMap) (buf : Bytes) : Hopeless (headerRun m) buf ↔ StuckFields buf := by
  suffices ∀ n (m : HeaderMap) (buf : Bytes), buf.length ≤ n → (Hopeless (headerRun m) buf ↔ StuckFields buf) from
    this _ _ _ (Nat.le_refl _)
  intro n
  induction n with
  | zero =>
    intro m buf hn
    have : buf = [] := List.length_eq_zero_iff.mp (by omega)
    subst this
    constructor
    · intro h; exact absurd (h [0]) (headerRun_zero m)
    · intro h
      exfalso
      generalize hs : ([] : Bytes) = s at h
      cases h with
      | here => exact absurd (congrArg List.length hs) (by simp)
      | later hl _ =>
        obtain ⟨hn, a, b, e, -, -, -, -, -, rfl⟩ := hl
        exact absurd (congrArg List.length hs) (by simp)
  | succ n ih =>
    intro m buf hn
    rw [hopeless_run, hopeless_line]
    constructor
    · rintro (⟨n, w, u, r, hn', hw, hu, rfl, c, r', rfl, h1, h2, h3⟩ | ⟨h, r, h1, h2⟩)
      · have := StuckFields.here (rest := r') hn' hw hu h2 h1 h3
        simpa using this
      · have hlt := parseHeaderLine_shrinks h1
        obtain ⟨line, hl, rfl⟩ := (headerLine_some_iff _ _ _).mp h1
        exact .later hl ((ih _ r (by omega)).mp h2)
    · intro h
      cases h with
      | @here name a b c rest hn' ha hb h1 h2 h3 =>
        exact Or.inl ⟨name, a, b, c :: rest, hn', ha, hb, by simp, c, rest, rfl, h2, h1, h3⟩
      | @later h line text hl ht =>
        have h1 := (headerLine_some_iff (line ++ text) text h).mpr ⟨line, hl, rfl⟩
        have hlt := parseHeaderLine_shrinks h1
        exact Or.inr ⟨h, text, h1, (ih _ text (by omega)).mpr ht⟩

theorem run_parseHeader (m : HeaderMap) (buf : Bytes) : forget (parseHeader m buf) = headerRun [] buf := rfl

/-- Field lines that have merely run out of input can be brought to an error. -/
theorem fields_part (m : HeaderMap) (buf : Bytes) (h : (headerRun m buf).1 = .err .partialData) :
    StuckFields buf ∨ ∃ x e, (headerRun m (buf ++ x)).1 = .err e ∧ e ≠ .partialData := by
  suffices ∀ n (m : HeaderMap) (buf : Bytes), buf.length ≤ n → (headerRun m buf).1 = .err .partialData →
      StuckFields buf ∨ ∃ x e, (headerRun m (buf ++ x)).1 = .err e ∧ e ≠ .partialData from this _ _ _ (Nat.le_refl _) h
  clear h m buf
  have zero : ∀ m, (headerRun m [0]).1 = .err .headerName := by
    intro m
    rw [headerRun_eq, show parseHeaderLine [0] = (.err .headerName, [0]) by decide +kernel]
    simp [thenRead]
  intro n
  induction n with
  | zero =>
    intro m buf hn _
    have : buf = [] := List.length_eq_zero_iff.mp (by omega)
    subst this
    exact Or.inr ⟨[0], .headerName, zero m, by decide⟩
  | succ n ih =>
    intro m buf hn h
    rcases hb : parseHeaderLine buf with ⟨(_ | a) | e | _, r⟩
    · rw [headerRun_eq, hb] at h; simp [thenRead] at h
    · rw [headerRun_some hb] at h
      have hlt := parseHeaderLine_shrinks hb
      rcases ih _ r (by omega) h with h1 | ⟨x, e, h1, h2⟩
      · obtain ⟨line, hl, rfl⟩ := (headerLine_some_iff _ _ _).mp hb
        exact Or.inl (.later hl h1)
      · refine Or.inr ⟨x, e, ?_, h2⟩
        rw [headerRun_some ((streams_parseHeaderLine.ext _ _ _ hb).2 x)]
        exact h1
    · rw [headerRun_eq, hb] at h
      simp only [thenRead, Res.err.injEq] at h
      subst h
      by_cases hh : Hopeless parseHeaderLine buf
      · left
        exact (hopeless_fields m buf).mp ((hopeless_run m buf).mpr (Or.inl hh))
      · right
        unfold Hopeless at hh
        obtain ⟨x, hx⟩ := Classical.not_forall.mp hh
        rcases hp : parseHeaderLine (buf ++ x) with ⟨(_ | a) | e | _, r'⟩
        · obtain ⟨e, he, h2⟩ := (headerLine_none_iff _ _).mp hp
          match buf, hb, h2 with
          | [], _, _ => exact ⟨[0], .headerName, zero m, by decide⟩
          | [b], hb, h2 =>
            have hb13 : b = 13 := by
              rcases he with rfl | rfl
              · simp only [List.cons_append, List.cons.injEq] at h2; exact h2.1
              · simp only [List.cons_append, List.cons.injEq] at h2
                rw [h2.1, parseHeaderLine_lf] at hb; simp at hb
            subst hb13
            refine ⟨[0], .newLine, ?_, by decide⟩
            rw [headerRun_eq, show parseHeaderLine ([13] ++ [0]) = (.err .newLine, []) by decide +kernel]
            simp [thenRead]
          | b :: c :: s, hb, h2 =>
            exfalso
            rcases he with rfl | rfl
            · simp only [List.cons_append, List.cons.injEq] at h2
              rw [h2.1, h2.2.1] at hb
              have : parseHeaderLine (13 :: 10 :: s) = (.ok none, s) := parseHeaderLine_end s
              rw [this] at hb; simp at hb
            · simp only [List.cons_append, List.cons.injEq] at h2
              rw [h2.1, parseHeaderLine_lf] at hb; simp at hb
        · obtain ⟨u, -, hu, hu2⟩ := exact_parseHeaderLine _ _ _ hp
          rcases List.append_eq_append_iff.mp hu with ⟨y, hy, -⟩ | ⟨y, hy, -⟩
          · refine ⟨y ++ [0], .headerName, ?_, by decide⟩
            rw [← List.append_assoc, ← hy, headerRun_some ((streams_parseHeaderLine.ext _ _ _ hu2).2 [0])]
            exact zero _
          · exfalso
            rw [hy, (streams_parseHeaderLine.ext _ _ _ hu2).2 y] at hb
            simp at hb
        · refine ⟨x, e, ?_, ?_⟩
          · rw [headerRun_eq, hp]; simp [thenRead]
          · rintro rfl; rw [hp] at hx; exact hx rfl
        · exfalso
          exact parseHeaderLine_safe (buf ++ x) (by rw [hp])
    · rw [headerRun_eq, hb] at h; simp [thenRead] at h

/-- After the field lines something that needs no further input. -/
theorem hopeless_header {α : Type} (m : HeaderMap) (c : Unit × HeaderMap → Res α) (buf : Bytes) :
    Hopeless (fun b => thenRead (forget (parseHeader m b)) fun p b => (c p, b)) buf ↔
      StuckFields buf ∨ ∃ hm r, parseHeader m buf = (.ok (), hm, r) ∧ c ((), hm) = .err .partialData := by
  refine (hopeless_stage (P := StuckFields) (streams_parseHeader m) (fun b hb => ?_) (fun b hb => ?_) buf).trans (or_congr Iff.rfl ?_)
  · rcases fields_part [] b hb with h | ⟨x, e, h1, h2⟩
    · exact Or.inl h
    · refine Or.inr ⟨x, ?_⟩
      rcases hp : headerRun [] (b ++ x) with ⟨a | e' | _, r⟩
      · rw [hp] at h1; simp at h1
      · rw [hp] at h1
        simp only [Res.err.injEq] at h1
        rw [run_parseHeader, hp]
        simp [thenRead, h1, h2]
      · rw [hp] at h1; simp at h1
  · exact (hopeless_fields [] b).mpr hb
  · constructor
    · rintro ⟨⟨⟨⟩, hm⟩, r, h1, h2⟩
      exact ⟨hm, r, forget_ok.mp h1, h2 []⟩
    · rintro ⟨hm, r, h1, h2⟩
      exact ⟨((), hm), r, forget_ok.mpr h1, fun x => h2⟩

end Webparse
