import Verif.Model.Http1

/-! Readers and incomplete input: readers that go on where more input arrives. -/

namespace Webparse

/-- A reader whose success does not depend on what follows (`ext`), which asks for more when its
input is cut (`cut`), and which looks at most one byte ahead (`look`). -/
structure Streams {α : Type} (p : Bytes → Res α × Bytes) : Prop where
  ext : ∀ buf a r, p buf = (.ok a, r) → (∃ u, buf = u ++ r) ∧ ∀ x, p (buf ++ x) = (.ok a, r ++ x)
  cut : ∀ buf x a r, p (buf ++ x) = (.ok a, r) →
    (∃ a' r', p buf = (.ok a', r')) ∨ ∃ r', p buf = (.err .partialData, r')
  look : ∀ u b r a, p (u ++ b :: r) = (.ok a, b :: r) → p (u ++ [b]) = (.ok a, [b])

/-- A reader that consumes something and does not look at what follows. -/
def Exact {α : Type} (p : Bytes → Res α × Bytes) : Prop :=
  ∀ buf a r, p buf = (.ok a, r) → ∃ u, u ≠ [] ∧ buf = u ++ r ∧ p u = (.ok a, [])

theorem Streams.ok_ok {α : Type} {p : Bytes → Res α × Bytes} (h : Streams p) {buf x : Bytes} {a a' : α} {r r' : Bytes}
    (h1 : p (buf ++ x) = (.ok a, r)) (h2 : p buf = (.ok a', r')) : a' = a ∧ r = r' ++ x := by
  have := (h.ext _ _ _ h2).2 x
  rw [h1, Prod.mk.injEq, Res.ok.injEq] at this
  exact ⟨this.1.symm, this.2⟩

theorem thenRead_ok {α β : Type} {x : Res α × Bytes} {f : α → Bytes → Res β × Bytes} {b : β} {r : Bytes}
    (h : thenRead x f = (.ok b, r)) : ∃ a r0, x = (.ok a, r0) ∧ f a r0 = (.ok b, r) := by
  obtain ⟨x1, x2⟩ := x
  cases x1 with
  | ok a => exact ⟨a, x2, rfl, h⟩
  | err e => simp [thenRead] at h
  | panic => simp [thenRead] at h

theorem streams_const {α : Type} (c : Res α) : Streams fun buf => (c, buf) := by
  refine ⟨?_, ?_, ?_⟩
  · intro buf a r h
    simp only [Prod.mk.injEq] at h
    obtain ⟨rfl, rfl⟩ := h
    exact ⟨⟨[], rfl⟩, fun x => rfl⟩
  · intro buf x a r h
    simp only [Prod.mk.injEq] at h
    obtain ⟨rfl, rfl⟩ := h
    exact Or.inl ⟨a, buf, rfl⟩
  · intro u b r a h
    simp only [Prod.mk.injEq] at h
    obtain ⟨rfl, h⟩ := h
    have : u = [] := by simpa using congrArg List.length h
    rw [this]; rfl

theorem streams_then {α β : Type} {p : Bytes → Res α × Bytes} {f : α → Bytes → Res β × Bytes}
    (hp : Streams p) (hf : ∀ a, Streams (f a)) : Streams fun buf => thenRead (p buf) f := by
  refine ⟨?_, ?_, ?_⟩
  · intro buf b r h
    obtain ⟨a, r0, h1, h2⟩ := thenRead_ok h
    obtain ⟨⟨u1, e1⟩, g1⟩ := hp.ext _ _ _ h1
    obtain ⟨⟨u2, e2⟩, g2⟩ := (hf a).ext _ _ _ h2
    refine ⟨⟨u1 ++ u2, by rw [e1, e2, List.append_assoc]⟩, fun x => ?_⟩
    show thenRead (p (buf ++ x)) f = _
    rw [g1 x]
    exact g2 x
  · intro buf x b r h
    obtain ⟨a, r0, h1, h2⟩ := thenRead_ok h
    rcases hp.cut _ _ _ _ h1 with ⟨a', r', h3⟩ | ⟨r', h3⟩
    · obtain ⟨rfl, rfl⟩ := hp.ok_ok h1 h3
      simp only [h3, thenRead]
      exact (hf a').cut _ _ _ _ h2
    · right
      exact ⟨r', by simp only [h3, thenRead]⟩
  · intro u b r c h
    obtain ⟨a, r0, h1, h2⟩ := thenRead_ok h
    obtain ⟨⟨u1, e1⟩, g1⟩ := hp.ext _ _ _ h1
    obtain ⟨⟨u2, e2⟩, g2⟩ := (hf a).ext _ _ _ h2
    subst e2
    have hu : u = u1 ++ u2 := by
      rw [← List.append_assoc] at e1
      exact List.append_cancel_right e1
    subst hu
    have h3 := (hf a).look _ _ _ _ h2
    have h4 : p (u1 ++ u2 ++ [b]) = (.ok a, u2 ++ [b]) := by
      cases u2 with
      | nil =>
        simp only [List.append_nil, List.nil_append] at h1 ⊢
        exact hp.look _ _ _ _ h1
      | cons c u2 =>
        have h1' : p (u1 ++ c :: (u2 ++ b :: r)) = (.ok a, c :: (u2 ++ b :: r)) := by simpa using h1
        have h5 := (hp.ext _ _ _ (hp.look _ _ _ _ h1')).2 (u2 ++ [b])
        simpa using h5
    show thenRead (p (u1 ++ u2 ++ [b])) f = _
    rw [h4]
    exact h3

theorem streams_ite {α : Type} (c : Prop) [Decidable c] {p q : Bytes → Res α × Bytes} (hp : Streams p) (hq : Streams q) :
    Streams fun buf => if c then p buf else q buf := by
  by_cases h : c
  · simp only [if_pos h]; exact hp
  · simp only [if_neg h]; exact hq

theorem streams_fuel {α : Type} {p : Bytes → Res α × Bytes} (F : Nat → Bytes → Res α × Bytes) (hF : ∀ k, Streams (F k))
    (h : ∀ k buf, k > buf.length → F k buf = p buf) : Streams p := by
  refine ⟨?_, ?_, ?_⟩
  · intro buf a r hb
    rw [← h (buf.length + 1) buf (by omega)] at hb
    refine ⟨((hF _).ext _ _ _ hb).1, fun x => ?_⟩
    have hb2 : F ((buf ++ x).length + 1) buf = (.ok a, r) := by
      rw [h _ buf (by simp only [List.length_append]; omega), ← h (buf.length + 1) buf (by omega)]; exact hb
    rw [← h ((buf ++ x).length + 1) (buf ++ x) (by omega)]
    exact ((hF _).ext _ _ _ hb2).2 x
  · intro buf x a r hb
    rw [← h ((buf ++ x).length + 1) _ (by omega)] at hb
    rw [← h ((buf ++ x).length + 1) buf (by simp only [List.length_append]; omega)]
    exact (hF _).cut _ _ _ _ hb
  · intro u b r a hb
    rw [← h ((u ++ b :: r).length + 1) _ (by omega)] at hb
    rw [← h ((u ++ b :: r).length + 1) _ (by simp)]
    exact (hF _).look _ _ _ _ hb

theorem exact_fuel {α : Type} {p : Bytes → Res α × Bytes} (F : Nat → Bytes → Res α × Bytes) (hF : ∀ k, Exact (F k))
    (h : ∀ k buf, k > buf.length → F k buf = p buf) : Exact p := by
  intro buf a r hb
  rw [← h (buf.length + 1) _ (by omega)] at hb
  obtain ⟨u, h1, h2, h3⟩ := hF _ _ _ _ hb
  refine ⟨u, h1, h2, ?_⟩
  rw [h _ u (by rw [h2]; simp; omega)] at h3
  exact h3

/-- `f a` after `p` does not look at what follows if `f a` does not, or does nothing. -/
theorem exact_then {α β : Type} {p : Bytes → Res α × Bytes} {f : α → Bytes → Res β × Bytes}
    (hp : Streams p) (_hf : ∀ a, Streams (f a))
    (h : ∀ a, Exact (f a) ∨ (Exact p ∧ ∃ c, f a = fun buf => (c, buf))) :
    Exact fun buf => thenRead (p buf) f := by
  intro buf b r hb
  obtain ⟨a, r0, h1, h2⟩ := thenRead_ok hb
  rcases h a with h | ⟨h, c, hc⟩
  · obtain ⟨⟨u1, e1⟩, g1⟩ := hp.ext _ _ _ h1
    obtain ⟨u2, hne, e2, h3⟩ := h _ _ _ h2
    subst e2
    refine ⟨u1 ++ u2, by simp [hne], by rw [e1, List.append_assoc], ?_⟩
    have h4 : p (u1 ++ u2) = (.ok a, u2) := by
      cases u2 with
      | nil => exact absurd rfl hne
      | cons c u2 =>
        have h1' : p (u1 ++ c :: (u2 ++ r)) = (.ok a, c :: (u2 ++ r)) := by rw [e1] at h1; simpa using h1
        have h5 := (hp.ext _ _ _ (hp.look _ _ _ _ h1')).2 u2
        simpa using h5
    simp only [h4, thenRead]
    exact h3
  · obtain ⟨u, hne, e, h3⟩ := h _ _ _ h1
    rw [hc] at h2
    simp only [Prod.mk.injEq] at h2
    obtain ⟨rfl, rfl⟩ := h2
    refine ⟨u, hne, e, ?_⟩
    simp only [h3, thenRead, hc]

theorem exact_err {α : Type} (e : Error) : Exact (fun buf => ((.err e : Res α), buf)) := by
  intro buf a r h
  simp at h

theorem exact_ite {α : Type} (c : Prop) [Decidable c] {p q : Bytes → Res α × Bytes} (hp : Exact p) (hq : Exact q) :
    Exact fun buf => if c then p buf else q buf := by
  by_cases h : c
  · simp only [if_pos h]; exact hp
  · simp only [if_neg h]; exact hq

/-! ## The primitive readers -/

theorem streams_nextByte : Streams nextByte := by
  refine ⟨?_, ?_, ?_⟩
  · intro buf a r h
    cases buf with
    | nil => simp [nextByte] at h
    | cons b buf =>
      simp only [nextByte, Prod.mk.injEq, Res.ok.injEq] at h
      obtain ⟨rfl, rfl⟩ := h
      exact ⟨⟨[b], rfl⟩, fun x => rfl⟩
  · intro buf x a r h
    cases buf with
    | nil => right; exact ⟨[], rfl⟩
    | cons b buf => left; exact ⟨b, buf, rfl⟩
  · intro u b r a h
    cases u with
    | nil =>
      simp only [List.nil_append, nextByte, Prod.mk.injEq] at h
      exact absurd (congrArg List.length h.2) (by simp)
    | cons c u =>
      simp only [List.cons_append, nextByte, Prod.mk.injEq] at h ⊢
      refine ⟨h.1, ?_⟩
      have : u = [] := by simpa using congrArg List.length h.2
      rw [this]; rfl

theorem exact_nextByte : Exact nextByte := by
  intro buf a r h
  cases buf with
  | nil => simp [nextByte] at h
  | cons b buf =>
    simp only [nextByte, Prod.mk.injEq, Res.ok.injEq] at h
    obtain ⟨rfl, rfl⟩ := h
    exact ⟨[b], by simp, rfl, rfl⟩

theorem streams_peekByte : Streams peekByte := by
  refine ⟨?_, ?_, ?_⟩
  · intro buf a r h
    cases buf with
    | nil => simp [peekByte] at h
    | cons b buf =>
      simp only [peekByte, Prod.mk.injEq, Res.ok.injEq] at h
      obtain ⟨rfl, rfl⟩ := h
      exact ⟨⟨[], rfl⟩, fun x => rfl⟩
  · intro buf x a r h
    cases buf with
    | nil => right; exact ⟨[], rfl⟩
    | cons b buf => left; exact ⟨b, b :: buf, rfl⟩
  · intro u b r a h
    cases u with
    | nil =>
      simp only [List.nil_append, peekByte, Prod.mk.injEq] at h ⊢
      exact ⟨h.1, trivial⟩
    | cons c u =>
      simp only [List.cons_append, peekByte, Prod.mk.injEq] at h
      exact absurd (congrArg List.length h.2) (by simp; omega)

theorem expectByte_eq (c : UInt8) (e : Error) (buf : Bytes) : expectByte c e buf =
    thenRead (nextByte buf) fun b buf => if b = c then (.ok (), buf) else (.err e, buf) := by
  cases buf <;> rfl

theorem streams_expectByte (c : UInt8) (e : Error) : Streams (expectByte c e) := by
  rw [funext (expectByte_eq c e)]
  exact streams_then streams_nextByte fun b => streams_ite _ (streams_const _) (streams_const _)

theorem exact_expectByte (c : UInt8) (e : Error) : Exact (expectByte c e) := by
  rw [funext (expectByte_eq c e)]
  refine exact_then streams_nextByte (fun b => streams_ite _ (streams_const _) (streams_const _)) fun b => ?_
  right
  refine ⟨exact_nextByte, ?_⟩
  by_cases h : b = c
  · exact ⟨.ok (), by simp [h]⟩
  · exact ⟨.err e, by simp [h]⟩

theorem all_append_of_not {f : UInt8 → Bool} {buf : Bytes} (h : buf.all f ≠ true) (x : Bytes) : (buf ++ x).all f ≠ true := by
  rw [List.all_append]; simp only [Bool.and_eq_true, ne_eq]; exact fun h' => h h'.1

theorem takeWhile_append_of_not {f : UInt8 → Bool} {buf : Bytes} (h : buf.all f ≠ true) (x : Bytes) :
    (buf ++ x).takeWhile f = buf.takeWhile f := by
  induction buf with
  | nil => simp at h
  | cons b buf ih =>
    rw [List.cons_append, List.takeWhile_cons, List.takeWhile_cons]
    by_cases hb : f b = true
    · simp only [hb, if_true]
      rw [ih]
      simpa [hb] using h
    · simp [hb]

/-- Scanning a token: the longest run, which must be followed by another byte. -/
theorem scan_spec {f : UInt8 → Bool} {buf : Bytes} (h : buf.all f ≠ true) :
    ∃ t b r, buf = t ++ b :: r ∧ t.all f = true ∧ f b = false ∧ buf.takeWhile f = t := by
  induction buf with
  | nil => simp at h
  | cons c buf ih =>
    by_cases hc : f c = true
    · obtain ⟨t, b, r, h1, h2, h3, h4⟩ := ih (by simpa [hc] using h)
      refine ⟨c :: t, b, r, by rw [h1]; rfl, by simp [hc, h2], h3, by rw [List.takeWhile_cons, if_pos hc, h4]⟩
    · exact ⟨[], c, buf, rfl, rfl, by simpa using hc, by rw [List.takeWhile_cons, if_neg hc]⟩

theorem not_all_of {f : UInt8 → Bool} {t : Bytes} {b : UInt8} {r : Bytes} (hb : f b = false) :
    (t ++ b :: r).all f ≠ true := by
  simp [hb]

theorem takeWhile_of {f : UInt8 → Bool} {t : Bytes} {b : UInt8} {r : Bytes} (ht : t.all f = true) (hb : f b = false) :
    (t ++ b :: r).takeWhile f = t := by
  rw [List.takeWhile_append_of_pos (by simpa using ht), List.takeWhile_cons, if_neg (by simp [hb])]
  simp

/-- Reading a token. -/
theorem parseTokenEmpty_eq {f : UInt8 → Bool} {t : Bytes} {b : UInt8} {r : Bytes} (e : Error) (empty : Bool)
    (ht : t.all f = true) (hb : f b = false) : parseTokenEmpty f e empty (t ++ b :: r) =
      if t = [] then (if empty then (.ok [], r) else (.err e, b :: r)) else (.ok t, b :: r) := by
  unfold parseTokenEmpty
  rw [if_neg (not_all_of hb), takeWhile_of ht hb]
  cases t with
  | nil => simp [nextByte, thenRead]
  | cons c t => simp

theorem parseTokenEmpty_all {f : UInt8 → Bool} {t : Bytes} (e : Error) (empty : Bool)
    (ht : t.all f = true) : parseTokenEmpty f e empty t = (.err .partialData, t) := by
  unfold parseTokenEmpty
  rw [if_pos ht]

theorem streams_token (f : UInt8 → Bool) (e : Error) (empty : Bool) : Streams (parseTokenEmpty f e empty) := by
  refine ⟨?_, ?_, ?_⟩
  · intro buf a r h
    by_cases ha : buf.all f = true
    · rw [parseTokenEmpty_all _ _ ha] at h; simp at h
    · obtain ⟨t, b, s, rfl, h2, h3, _⟩ := scan_spec ha
      have hx : ∀ x, t ++ b :: s ++ x = t ++ b :: (s ++ x) := by intro x; simp
      simp only [hx]
      rw [parseTokenEmpty_eq _ _ h2 h3] at h
      by_cases ht : t = []
      · subst ht
        cases empty with
        | true =>
          simp only [if_true, Prod.mk.injEq, Res.ok.injEq] at h
          obtain ⟨rfl, rfl⟩ := h
          exact ⟨⟨[b], rfl⟩, fun x => by rw [parseTokenEmpty_eq _ _ h2 h3]; simp⟩
        | false => simp at h
      · rw [if_neg ht] at h
        simp only [Prod.mk.injEq, Res.ok.injEq] at h
        obtain ⟨rfl, rfl⟩ := h
        exact ⟨⟨t, rfl⟩, fun x => by rw [parseTokenEmpty_eq _ _ h2 h3, if_neg ht]; simp⟩
  · intro buf x a r h
    by_cases ha : buf.all f = true
    · right; exact ⟨buf, parseTokenEmpty_all _ _ ha⟩
    · left
      obtain ⟨t, b, s, rfl, h2, h3, _⟩ := scan_spec ha
      have hx : ∀ x, t ++ b :: s ++ x = t ++ b :: (s ++ x) := by intro x; simp
      rw [hx, parseTokenEmpty_eq _ _ h2 h3] at h
      rw [parseTokenEmpty_eq _ _ h2 h3]
      by_cases ht : t = []
      · rw [if_pos ht] at h ⊢
        cases empty with
        | true => exact ⟨[], s, rfl⟩
        | false => simp at h
      · rw [if_neg ht]; exact ⟨_, _, rfl⟩
  · intro u c r a h
    by_cases ha : (u ++ c :: r).all f = true
    · rw [parseTokenEmpty_all _ _ ha] at h; simp at h
    · obtain ⟨t, b, s, h1, h2, h3, _⟩ := scan_spec ha
      rw [h1, parseTokenEmpty_eq _ _ h2 h3] at h
      by_cases ht : t = []
      · subst ht
        cases empty with
        | true =>
          simp only [if_true, Prod.mk.injEq, Res.ok.injEq] at h
          obtain ⟨rfl, rfl⟩ := h
          have : u = [b] := by
            have : u ++ c :: r = [b] ++ c :: r := h1
            exact List.append_cancel_right this
          subst this
          have := parseTokenEmpty_eq (t := []) (b := b) (r := [c]) e true rfl h3
          simpa using this
        | false => simp at h
      · rw [if_neg ht] at h
        simp only [Prod.mk.injEq, Res.ok.injEq, List.cons.injEq] at h
        obtain ⟨rfl, rfl, rfl⟩ := h
        have hu : u = t := List.append_cancel_right h1
        subst hu
        rw [parseTokenEmpty_eq _ _ h2 h3, if_neg ht]

theorem streams_skipNewLine : Streams skipNewLine := by
  unfold skipNewLine
  exact streams_then streams_nextByte fun b =>
    streams_ite _ (streams_expectByte _ _) (streams_ite _ (streams_const _) (streams_ite _ (streams_const _) (streams_const _)))

theorem exact_skipNewLine : Exact skipNewLine := by
  unfold skipNewLine
  refine exact_then streams_nextByte (fun b => streams_ite _ (streams_expectByte _ _)
    (streams_ite _ (streams_const _) (streams_ite _ (streams_const _) (streams_const _)))) fun b => ?_
  by_cases h : b = 13
  · left; simp only [if_pos h]; exact exact_expectByte _ _
  · right
    refine ⟨exact_nextByte, ?_⟩
    simp only [if_neg h]
    by_cases h2 : b = 10
    · exact ⟨.ok (), by simp [h2]⟩
    · by_cases h3 : b = 32
      · exact ⟨.ok (), by simp [h3]⟩
      · exact ⟨.err .partialData, by simp [h2, h3]⟩

/-- `skip_spaces` with a bound on the rounds. -/
def spacesLoop : Nat → Bytes → Res Unit × Bytes
  | 0, buf => (.panic, buf)
  | k + 1, buf => thenRead (peekByte buf) fun b buf =>
    if b = 32 then thenRead (nextByte buf) fun _ buf => spacesLoop k buf else (.ok (), buf)

theorem spacesLoop_eq (k : Nat) (buf : Bytes) (h : k > buf.length) : spacesLoop k buf = skipSpaces buf := by
  induction k generalizing buf with
  | zero => omega
  | succ k ih =>
    cases buf with
    | nil => rfl
    | cons b buf =>
      simp only [spacesLoop, peekByte, thenRead, nextByte, skipSpaces]
      by_cases hb : b = 32
      · rw [if_pos hb, if_pos hb]; exact ih buf (by simpa using h)
      · rw [if_neg hb, if_neg hb]

theorem streams_skipSpaces : Streams skipSpaces := by
  refine streams_fuel spacesLoop ?_ spacesLoop_eq
  intro k
  induction k with
  | zero => exact streams_const _
  | succ k ih =>
    exact streams_then streams_peekByte fun b =>
      streams_ite _ (streams_then streams_nextByte fun _ => ih) (streams_const _)

/-- `skip_empty_lines` with a bound on the rounds. -/
def linesLoop : Nat → Bytes → Res Unit × Bytes
  | 0, buf => (.panic, buf)
  | k + 1, buf => thenRead (peekByte buf) fun b buf =>
    if b = 13 then thenRead (nextByte buf) fun _ buf => thenRead (expectByte 10 .newLine buf) fun _ buf => linesLoop k buf
    else if b = 10 then thenRead (nextByte buf) fun _ buf => linesLoop k buf
    else (.ok (), buf)

theorem linesLoop_eq (k : Nat) (buf : Bytes) (h : k > buf.length) : linesLoop k buf = skipEmptyLines buf := by
  induction k generalizing buf with
  | zero => omega
  | succ k ih =>
    match buf with
    | [] => rfl
    | [b] =>
      simp only [linesLoop, peekByte, thenRead, nextByte, skipEmptyLines]
      by_cases hb : b = 13
      · rw [if_pos hb, if_pos hb]; rfl
      · rw [if_neg hb, if_neg hb]
        by_cases hb : b = 10
        · rw [if_pos hb, if_pos hb, ih [] (by simp at h; simpa using h)]; rfl
        · rw [if_neg hb, if_neg hb]
    | b :: c :: r =>
      simp only [linesLoop, peekByte, thenRead, nextByte, skipEmptyLines]
      simp only [List.length_cons] at h
      by_cases hb : b = 13
      · rw [if_pos hb, if_pos hb]
        by_cases hc : c = 10
        · simp only [expectByte, if_pos hc]
          exact ih r (by omega)
        · simp only [expectByte, if_neg hc]
      · rw [if_neg hb, if_neg hb]
        by_cases hb : b = 10
        · rw [if_pos hb, if_pos hb]; exact ih (c :: r) (by simp; omega)
        · rw [if_neg hb, if_neg hb]

theorem streams_skipEmptyLines : Streams skipEmptyLines := by
  refine streams_fuel linesLoop ?_ linesLoop_eq
  intro k
  induction k with
  | zero => exact streams_const _
  | succ k ih =>
    exact streams_then streams_peekByte fun b =>
      streams_ite _ (streams_then streams_nextByte fun _ => streams_then (streams_expectByte _ _) fun _ => ih)
        (streams_ite _ (streams_then streams_nextByte fun _ => ih) (streams_const _))

/-! ## Header blocks -/

theorem streams_onToken {α : Type} {p : Bytes → Res Bytes × Bytes} (hp : Streams p) (f : Bytes → Res α) :
    Streams fun buf => onToken (p buf) f :=
  streams_then hp fun _ => streams_const _

theorem streams_parseHeaderName : Streams parseHeaderName :=
  streams_then (streams_token _ _ _) fun _ => streams_const _

theorem streams_parseHeaderValue : Streams parseHeaderValue := streams_token _ _ _

theorem streams_parseHeaderLine : Streams parseHeaderLine :=
  streams_then streams_peekByte fun _ =>
    streams_ite _ (streams_then streams_nextByte fun _ => streams_then (streams_expectByte _ _) fun _ => streams_const _)
      (streams_ite _ (streams_then streams_nextByte fun _ => streams_const _)
        (streams_then streams_parseHeaderName fun _ => streams_then streams_skipSpaces fun _ =>
          streams_then (streams_expectByte _ _) fun _ => streams_then streams_skipSpaces fun _ =>
            streams_then streams_parseHeaderValue fun _ => streams_then streams_skipNewLine fun _ => streams_const _))

theorem exact_then_exact {α β : Type} {p : Bytes → Res α × Bytes} {f : α → Bytes → Res β × Bytes}
    (hp : Streams p) (hf : ∀ a, Streams (f a)) (h : ∀ a, Exact (f a)) : Exact fun buf => thenRead (p buf) f :=
  exact_then hp hf fun a => Or.inl (h a)

theorem exact_then_const {α β : Type} {p : Bytes → Res α × Bytes} (c : α → Res β)
    (hp : Streams p) (h : Exact p) : Exact fun buf => thenRead (p buf) fun a buf => (c a, buf) :=
  exact_then hp (fun _ => streams_const _) fun a => Or.inr ⟨h, c a, rfl⟩

theorem exact_parseHeaderLine : Exact parseHeaderLine := by
  unfold parseHeaderLine
  refine exact_then_exact streams_peekByte (fun b => ?_) (fun b => ?_)
  · exact streams_ite _ (streams_then streams_nextByte fun _ => streams_then (streams_expectByte _ _) fun _ => streams_const _)
      (streams_ite _ (streams_then streams_nextByte fun _ => streams_const _)
        (streams_then streams_parseHeaderName fun _ => streams_then streams_skipSpaces fun _ =>
          streams_then (streams_expectByte _ _) fun _ => streams_then streams_skipSpaces fun _ =>
            streams_then streams_parseHeaderValue fun _ => streams_then streams_skipNewLine fun _ => streams_const _))
  · refine exact_ite _ ?_ (exact_ite _ ?_ ?_)
    · exact exact_then_exact streams_nextByte (fun _ => streams_then (streams_expectByte _ _) fun _ => streams_const _)
        fun _ => exact_then_const _ (streams_expectByte _ _) (exact_expectByte _ _)
    · exact exact_then_const _ streams_nextByte exact_nextByte
    · refine exact_then_exact streams_parseHeaderName (fun _ => streams_then streams_skipSpaces fun _ =>
          streams_then (streams_expectByte _ _) fun _ => streams_then streams_skipSpaces fun _ =>
            streams_then streams_parseHeaderValue fun _ => streams_then streams_skipNewLine fun _ => streams_const _) fun _ => ?_
      refine exact_then_exact streams_skipSpaces (fun _ =>
          streams_then (streams_expectByte _ _) fun _ => streams_then streams_skipSpaces fun _ =>
            streams_then streams_parseHeaderValue fun _ => streams_then streams_skipNewLine fun _ => streams_const _) fun _ => ?_
      refine exact_then_exact (streams_expectByte _ _) (fun _ => streams_then streams_skipSpaces fun _ =>
            streams_then streams_parseHeaderValue fun _ => streams_then streams_skipNewLine fun _ => streams_const _) fun _ => ?_
      refine exact_then_exact streams_skipSpaces (fun _ =>
            streams_then streams_parseHeaderValue fun _ => streams_then streams_skipNewLine fun _ => streams_const _) fun _ => ?_
      refine exact_then_exact streams_parseHeaderValue (fun _ => streams_then streams_skipNewLine fun _ => streams_const _) fun _ => ?_
      exact exact_then_const _ streams_skipNewLine exact_skipNewLine

theorem parseHeaderLine_shrinks {buf r : Bytes} {o : Option Header} (h : parseHeaderLine buf = (.ok o, r)) :
    r.length < buf.length := by
  obtain ⟨u, h1, h2, _⟩ := exact_parseHeaderLine _ _ _ h
  rw [h2, List.length_append]
  have := List.length_pos_iff.mpr h1
  omega

/-- State and value as one result; the state of a failed call is dropped. -/
def forget {α σ : Type} (x : Res α × σ × Bytes) : Res (α × σ) × Bytes :=
  match x with
  | (.ok a, s, buf) => (.ok (a, s), buf)
  | (.err e, _, buf) => (.err e, buf)
  | (.panic, _, buf) => (.panic, buf)

theorem forget_thenDo {α β σ : Type} (x : Res α × Bytes) (s : σ) (f : α → Bytes → Res β × σ × Bytes) :
    forget (thenDo x s f) = thenRead x fun a buf => forget (f a buf) := by
  obtain ⟨x, buf⟩ := x
  cases x <;> rfl

theorem parseHeaderLoop_fuel (k k' : Nat) (m : HeaderMap) (buf : Bytes) (h : k > buf.length) (h' : k' > buf.length) :
    parseHeaderLoop k m buf = parseHeaderLoop k' m buf := by
  induction k generalizing k' m buf with
  | zero => omega
  | succ k ih =>
    cases k' with
    | zero => omega
    | succ k' =>
      unfold parseHeaderLoop
      cases hl : parseHeaderLine buf with
      | mk x r =>
        cases x with
        | err e => rfl
        | panic => rfl
        | ok o =>
          cases o with
          | none => rfl
          | some a =>
            have := parseHeaderLine_shrinks hl
            exact ih k' _ r (by omega) (by omega)

theorem forget_loop_succ (k : Nat) (m : HeaderMap) (buf : Bytes) : forget (parseHeaderLoop (k + 1) m buf) =
    thenRead (parseHeaderLine buf) fun o buf => forget (onLine m (parseHeaderLoop k) o buf) := by
  rw [parseHeaderLoop, forget_thenDo]

theorem streams_parseHeaderLoop (k : Nat) (m : HeaderMap) : Streams fun buf => forget (parseHeaderLoop k m buf) := by
  induction k generalizing m with
  | zero => exact streams_const _
  | succ k ih =>
    rw [funext (forget_loop_succ k m)]
    refine streams_then streams_parseHeaderLine fun o => ?_
    cases o with
    | none => exact streams_const (.ok ((), m))
    | some h => exact ih _

theorem exact_parseHeaderLoop (k : Nat) (m : HeaderMap) : Exact fun buf => forget (parseHeaderLoop k m buf) := by
  induction k generalizing m with
  | zero => intro buf a r h; simp [parseHeaderLoop, forget] at h
  | succ k ih =>
    rw [funext (forget_loop_succ k m)]
    refine exact_then streams_parseHeaderLine ?_ ?_
    · intro o
      cases o with
      | none => exact streams_const (.ok ((), m))
      | some h => exact streams_parseHeaderLoop _ _
    · intro o
      cases o with
      | none => exact Or.inr ⟨exact_parseHeaderLine, .ok ((), m), rfl⟩
      | some h => exact Or.inl (ih _)

theorem streams_parseHeader (m : HeaderMap) : Streams fun buf => forget (parseHeader m buf) :=
  streams_fuel (fun k buf => forget (parseHeaderLoop k [] buf)) (fun k => streams_parseHeaderLoop k [])
    fun k buf h => by rw [parseHeader, parseHeaderLoop_fuel k (buf.length + 1) [] buf h (by omega)]

theorem exact_parseHeader (m : HeaderMap) : Exact fun buf => forget (parseHeader m buf) :=
  exact_fuel (fun k buf => forget (parseHeaderLoop k [] buf)) (fun k => exact_parseHeaderLoop k [])
    fun k buf h => by rw [parseHeader, parseHeaderLoop_fuel k (buf.length + 1) [] buf h (by omega)]

theorem thenRead_parseHeader {β : Type} (m : HeaderMap) (buf : Bytes) (g : HeaderMap → Bytes → Res β × Bytes) :
    thenRead ((parseHeader m buf).1, (parseHeader m buf).2.2) (fun _ b => g (parseHeader m buf).2.1 b) =
      thenRead (forget (parseHeader m buf)) fun p b => g p.2 b := by
  obtain ⟨x, s, r⟩ := parseHeader m buf
  cases x <;> rfl

/-! ## Heads -/

theorem forget_response (r : Response) (buf : Bytes) : forget (r.parseHead buf) =
    thenRead (skipEmptyLines buf) fun _ buf =>
    thenRead (parseVersion buf) fun version buf =>
    thenRead (skipSpaces buf) fun _ buf =>
    thenRead (parseStatus buf) fun status buf =>
    thenRead (skipSpaces buf) fun _ buf =>
    thenRead (parseStatusToken buf) fun _ buf =>
    thenRead (skipNewLine buf) fun _ buf =>
    thenRead (forget (parseHeader [] buf)) fun p buf =>
      (.ok ((), ⟨status, version, p.2, false⟩), buf) := by
  unfold Response.parseHead
  simp only [forget_thenDo]
  congr 1; funext _ buf
  congr 1; funext version buf
  congr 1; funext _ buf
  congr 1; funext status buf
  congr 1; funext _ buf
  congr 1; funext _ buf
  congr 1; funext _ buf
  exact thenRead_parseHeader [] buf fun m b => (.ok ((), (⟨status, version, m, false⟩ : Response)), b)

theorem streams_response (r : Response) : Streams fun buf => forget (r.parseHead buf) := by
  rw [funext (forget_response r)]
  exact streams_then streams_skipEmptyLines fun _ => streams_then (streams_onToken (streams_token _ _ _) _) fun _ =>
    streams_then streams_skipSpaces fun _ => streams_then (streams_onToken (streams_token _ _ _) _) fun _ =>
    streams_then streams_skipSpaces fun _ => streams_then (streams_token _ _ _) fun _ =>
    streams_then streams_skipNewLine fun _ => streams_then (streams_parseHeader []) fun _ => streams_const _

theorem exact_response (r : Response) : Exact fun buf => forget (r.parseHead buf) := by
  rw [funext (forget_response r)]
  have s8 : ∀ status version, Streams fun buf => thenRead (forget (parseHeader [] buf)) fun p buf =>
      ((.ok ((), (⟨status, version, p.2, false⟩ : Response)) : Res (Unit × Response)), buf) := fun status version =>
    streams_then (streams_parseHeader []) fun _ => streams_const _
  have e8 : ∀ status version, Exact fun buf => thenRead (forget (parseHeader [] buf)) fun p buf =>
      ((.ok ((), (⟨status, version, p.2, false⟩ : Response)) : Res (Unit × Response)), buf) := fun status version =>
    exact_then_const (fun p => (.ok ((), (⟨status, version, p.2, false⟩ : Response)))) (streams_parseHeader []) (exact_parseHeader [])
  have s7 := fun a b => streams_then streams_skipNewLine fun _ => s8 a b
  have s6 := fun a b => streams_then (streams_token isStatusToken .token false) fun _ => s7 a b
  have s5 := fun a b => streams_then streams_skipSpaces fun _ => s6 a b
  have s4 := fun b => streams_then (streams_onToken (streams_token isToken .token false) statusFromBytes) fun a => s5 a b
  have s3 := fun b => streams_then streams_skipSpaces fun _ => s4 b
  have s2 := streams_then (streams_onToken (streams_token isToken .token false) versionOfToken) fun b => s3 b
  exact exact_then_exact streams_skipEmptyLines (fun _ => s2) fun _ =>
    exact_then_exact (streams_onToken (streams_token _ _ _) _) (fun b => s3 b) fun b =>
    exact_then_exact streams_skipSpaces (fun _ => s4 b) fun _ =>
    exact_then_exact (streams_onToken (streams_token _ _ _) _) (fun a => s5 a b) fun a =>
    exact_then_exact streams_skipSpaces (fun _ => s6 a b) fun _ =>
    exact_then_exact (streams_token _ _ _) (fun _ => s7 a b) fun _ =>
    exact_then_exact streams_skipNewLine (fun _ => s8 a b) fun _ => e8 a b

/-- The last step of a request: the URL. -/
def urlStep (method : Method) (version : Version) (path : Bytes) (m : HeaderMap) : Res (Unit × Request) :=
  match requestUrl method m path with
  | .ok url => .ok ((), ⟨method, m, version, url, false⟩)
  | .err e => .err e
  | .panic => .panic

theorem forget_finishUrl (r : Request) (path buf : Bytes) : forget (r.finishUrl path buf) =
    (match requestUrl r.method r.header path with
      | .ok url => .ok ((), { r with url := url })
      | .err e => .err e
      | .panic => .panic, buf) := by
  unfold Request.finishUrl
  cases requestUrl r.method r.header path <;> rfl

theorem forget_request (r : Request) (buf : Bytes) : forget (r.parseHead buf) =
    thenRead (skipEmptyLines buf) fun _ buf =>
    thenRead (parseMethod buf) fun method buf =>
    thenRead (skipSpaces buf) fun _ buf =>
    thenRead (parseToken buf) fun path buf =>
    thenRead (skipSpaces buf) fun _ buf =>
    thenRead (parseVersion buf) fun version buf =>
    thenRead (skipNewLine buf) fun _ buf =>
    thenRead (forget (parseHeader [] buf)) fun p buf => (urlStep method version path p.2, buf) := by
  unfold Request.parseHead
  simp only [forget_thenDo, forget_finishUrl]
  congr 1; funext _ buf
  congr 1; funext method buf
  congr 1; funext _ buf
  congr 1; funext path buf
  congr 1; funext _ buf
  congr 1; funext version buf
  congr 1; funext _ buf
  exact thenRead_parseHeader [] buf fun m b => (urlStep method version path m, b)

theorem streams_request (r : Request) : Streams fun buf => forget (r.parseHead buf) := by
  rw [funext (forget_request r)]
  exact streams_then streams_skipEmptyLines fun _ => streams_then (streams_onToken (streams_token _ _ _) _) fun _ =>
    streams_then streams_skipSpaces fun _ => streams_then (streams_token _ _ _) fun _ =>
    streams_then streams_skipSpaces fun _ => streams_then (streams_onToken (streams_token _ _ _) _) fun _ =>
    streams_then streams_skipNewLine fun _ => streams_then (streams_parseHeader []) fun _ => streams_const _

theorem exact_request (r : Request) : Exact fun buf => forget (r.parseHead buf) := by
  rw [funext (forget_request r)]
  have s8 : ∀ method version path, Streams fun buf => thenRead (forget (parseHeader [] buf)) fun p buf =>
      (urlStep method version path p.2, buf) := fun _ _ _ =>
    streams_then (streams_parseHeader []) fun _ => streams_const _
  have e8 : ∀ method version path, Exact fun buf => thenRead (forget (parseHeader [] buf)) fun p buf =>
      (urlStep method version path p.2, buf) := fun method version path =>
    exact_then_const (fun p => urlStep method version path p.2) (streams_parseHeader []) (exact_parseHeader [])
  have s7 := fun a b c => streams_then streams_skipNewLine fun _ => s8 a b c
  have s6 := fun a c => streams_then (streams_onToken (streams_token isToken .token false) versionOfToken) fun b => s7 a b c
  have s5 := fun a c => streams_then streams_skipSpaces fun _ => s6 a c
  have s4 := fun a => streams_then (streams_token isToken .token false) fun c => s5 a c
  have s3 := fun a => streams_then streams_skipSpaces fun _ => s4 a
  have s2 := streams_then (streams_onToken (streams_token isToken .token false) Method.tryFrom) fun a => s3 a
  exact exact_then_exact streams_skipEmptyLines (fun _ => s2) fun _ =>
    exact_then_exact (streams_onToken (streams_token _ _ _) _) (fun a => s3 a) fun a =>
    exact_then_exact streams_skipSpaces (fun _ => s4 a) fun _ =>
    exact_then_exact (streams_token _ _ _) (fun c => s5 a c) fun c =>
    exact_then_exact streams_skipSpaces (fun _ => s6 a c) fun _ =>
    exact_then_exact (streams_onToken (streams_token _ _ _) _) (fun b => s7 a b c) fun b =>
    exact_then_exact streams_skipNewLine (fun _ => s8 a b c) fun _ => e8 a b c

end Webparse
