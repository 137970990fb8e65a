import Verif.Spec.Grammar
import Verif.Props.Http1
import Verif.Proofs.Verdict

/-! # The language of the head parsers (C73, C74) -/

namespace Webparse
open Spec

theorem thenRead_iff {α β : Type} {x : Res α × Bytes} {f : α → Bytes → Res β × Bytes} {b : β} {r : Bytes} :
    thenRead x f = (.ok b, r) ↔ ∃ a s, x = (.ok a, s) ∧ f a s = (.ok b, r) := by
  constructor
  · exact thenRead_ok
  · rintro ⟨a, s, rfl, h⟩; exact h

/-- The bytes `r` begin with a byte that `p` holds of. -/
def Starts (p : UInt8 → Prop) (r : Bytes) : Prop := ∃ b s, r = b :: s ∧ p b

theorem starts_cons (p : UInt8 → Prop) (b : UInt8) (s : Bytes) : Starts p (b :: s) ↔ p b := by
  constructor
  · rintro ⟨b', s', e, h⟩; simp only [List.cons.injEq] at e; rw [e.1]; exact h
  · intro h; exact ⟨b, s, rfl, h⟩

theorem starts_append {p : UInt8 → Prop} {u r : Bytes} (h : u ≠ []) : Starts p (u ++ r) ↔ Starts p u := by
  cases u with
  | nil => exact absurd rfl h
  | cons b u => rw [List.cons_append, starts_cons, starts_cons]

theorem blankLines_head {s : Bytes} (h : BlankLines s) : s = [] ∨ Starts (fun b => b = 13 ∨ b = 10) s := by
  cases h with
  | nil => exact Or.inl rfl
  | crlf _ => exact Or.inr ⟨_, _, rfl, Or.inl rfl⟩
  | lf _ => exact Or.inr ⟨_, _, rfl, Or.inr rfl⟩

theorem skipEmptyLines_iff (buf r : Bytes) : skipEmptyLines buf = (.ok (), r) ↔
    ∃ u, BlankLines u ∧ buf = u ++ r ∧ Starts (fun b => b ≠ 13 ∧ b ≠ 10) r := by
  constructor
  · suffices ∀ n (buf : Bytes), buf.length ≤ n → skipEmptyLines buf = (.ok (), r) →
        ∃ u, BlankLines u ∧ buf = u ++ r ∧ Starts (fun b => b ≠ 13 ∧ b ≠ 10) r from this _ _ (Nat.le_refl _)
    intro n
    induction n with
    | zero =>
      intro buf hn h
      have : buf = [] := List.length_eq_zero_iff.mp (by omega)
      subst this; simp [skipEmptyLines] at h
    | succ n ih =>
      intro buf hn h
      match buf with
      | [] => simp [skipEmptyLines] at h
      | [b] =>
        simp only [skipEmptyLines] at h
        by_cases h1 : b = 13
        · rw [if_pos h1] at h; simp at h
        · rw [if_neg h1] at h
          by_cases h2 : b = 10
          · rw [if_pos h2] at h; simp at h
          · rw [if_neg h2] at h
            simp only [Prod.mk.injEq, true_and] at h
            exact ⟨[], .nil, by simp [h], by rw [← h, starts_cons]; exact ⟨h1, h2⟩⟩
      | b :: c :: r' =>
        simp only [List.length_cons] at hn
        simp only [skipEmptyLines] at h
        by_cases h1 : b = 13
        · rw [if_pos h1] at h
          by_cases h3 : c = 10
          · rw [if_pos h3] at h
            obtain ⟨u, hu, e, hs⟩ := ih r' (by omega) h
            exact ⟨13 :: 10 :: u, .crlf hu, by rw [h1, h3, e]; rfl, hs⟩
          · rw [if_neg h3] at h; simp at h
        · rw [if_neg h1] at h
          by_cases h2 : b = 10
          · rw [if_pos h2] at h
            obtain ⟨u, hu, e, hs⟩ := ih (c :: r') (by simp; omega) h
            exact ⟨10 :: u, .lf hu, by rw [h2, e]; rfl, hs⟩
          · rw [if_neg h2] at h
            simp only [Prod.mk.injEq, true_and] at h
            exact ⟨[], .nil, by simp [h], by rw [← h, starts_cons]; exact ⟨h1, h2⟩⟩
  · rintro ⟨u, hu, rfl, b, s, rfl, hb1, hb2⟩
    induction hu with
    | nil => exact skipEmptyLines_start s hb1 hb2
    | crlf _ ih => simpa [skipEmptyLines] using ih
    | @lf v _ ih =>
      obtain ⟨c, t, e⟩ : ∃ c t, v ++ b :: s = c :: t := by
        cases v with
        | nil => exact ⟨_, _, rfl⟩
        | cons c v => exact ⟨_, _, rfl⟩
      rw [List.cons_append, e, skipEmptyLines, if_neg (by decide), if_pos rfl, ← e]
      exact ih

theorem skipSpaces_iff (buf r : Bytes) : skipSpaces buf = (.ok (), r) ↔
    ∃ u, Spaces u ∧ buf = u ++ r ∧ Starts (fun b => b ≠ 32) r := by
  induction buf with
  | nil =>
    simp only [skipSpaces, Prod.mk.injEq, reduceCtorEq, false_and, false_iff]
    rintro ⟨u, -, e, b, s, rfl, -⟩
    simp at e
  | cons b buf ih =>
    rw [skipSpaces]
    by_cases hb : b = 32
    · rw [if_pos hb, ih]
      constructor
      · rintro ⟨u, hu, rfl, hs⟩
        refine ⟨b :: u, ?_, rfl, hs⟩
        intro x hx
        rcases List.mem_cons.mp hx with rfl | hx
        · exact hb
        · exact hu x hx
      · rintro ⟨u, hu, e, hs⟩
        cases u with
        | nil =>
          rw [List.nil_append] at e
          rw [← e, starts_cons] at hs
          exact absurd hb hs
        | cons c u =>
          simp only [List.cons_append, List.cons.injEq] at e
          exact ⟨u, fun x hx => hu x (List.mem_cons_of_mem _ hx), e.2, hs⟩
    · rw [if_neg hb]
      simp only [Prod.mk.injEq, true_and]
      constructor
      · rintro rfl
        exact ⟨[], by intro x hx; simp at hx, rfl, (starts_cons _ _ _).mpr hb⟩
      · rintro ⟨u, hu, e, hs⟩
        cases u with
        | nil => exact e
        | cons c u =>
          simp only [List.cons_append, List.cons.injEq] at e
          exact absurd (e.1.trans (hu c (by simp))) hb

theorem token_iff (f : UInt8 → Bool) (err : Error) (buf t r : Bytes) : parseTokenBy f err buf = (.ok t, r) ↔
    t ≠ [] ∧ t.all f = true ∧ buf = t ++ r ∧ Starts (fun b => f b = false) r := by
  constructor
  · intro h
    obtain ⟨h1, h2, h3, h4, h5⟩ := token_split h
    obtain ⟨c, s, rfl⟩ := List.exists_cons_of_ne_nil h4
    exact ⟨h2, h3, h1, c, s, rfl, h5 c s rfl⟩
  · rintro ⟨h1, h2, rfl, c, s, rfl, h3⟩
    unfold parseTokenBy
    rw [parseTokenEmpty_eq _ _ h2 h3, if_neg h1]

theorem skipNewLine_iff (buf r : Bytes) : skipNewLine buf = (.ok (), r) ↔
    ∃ e, (e = [13, 10] ∨ e = [10] ∨ e = [32]) ∧ buf = e ++ r := by
  constructor
  · intro h
    cases buf with
    | nil => simp [skipNewLine, nextByte, thenRead] at h
    | cons b buf =>
      simp only [skipNewLine, nextByte, thenRead] at h
      by_cases h1 : b = 13
      · rw [if_pos h1] at h
        cases buf with
        | nil => simp [expectByte] at h
        | cons c buf =>
          simp only [expectByte] at h
          by_cases h2 : c = 10
          · rw [if_pos h2] at h
            simp only [Prod.mk.injEq, true_and] at h
            exact ⟨_, Or.inl rfl, by rw [h1, h2, h]; rfl⟩
          · rw [if_neg h2] at h; simp at h
      · rw [if_neg h1] at h
        by_cases h2 : b = 10
        · rw [if_pos h2] at h
          simp only [Prod.mk.injEq, true_and] at h
          exact ⟨_, Or.inr (Or.inl rfl), by rw [h2, h]; rfl⟩
        · rw [if_neg h2] at h
          by_cases h3 : b = 32
          · rw [if_pos h3] at h
            simp only [Prod.mk.injEq, true_and] at h
            exact ⟨_, Or.inr (Or.inr rfl), by rw [h3, h]; rfl⟩
          · rw [if_neg h3] at h; simp at h
  · rintro ⟨e, (rfl | rfl | rfl), rfl⟩ <;> simp [skipNewLine, nextByte, thenRead, expectByte]

theorem expectByte_iff (c : UInt8) (e : Error) (buf r : Bytes) : expectByte c e buf = (.ok (), r) ↔ buf = c :: r := by
  cases buf with
  | nil => simp [expectByte]
  | cons b buf =>
    simp only [expectByte]
    by_cases h : b = c
    · rw [if_pos h, h]; simp
    · rw [if_neg h]; simp [h]

theorem value_iff (buf v r : Bytes) : parseHeaderValue buf = (.ok v, r) ↔
    (13 : UInt8) ∉ v ∧ ((v ≠ [] ∧ buf = v ++ r ∧ Starts (fun b => b = 13) r) ∨ (v = [] ∧ buf = 13 :: r)) := by
  have hall : ∀ t : Bytes, t.all isHeaderValueToken = true ↔ (13 : UInt8) ∉ t := by
    intro t
    rw [List.all_eq_true]
    constructor
    · intro h hm; exact absurd (h 13 hm) (by decide)
    · intro h x hx
      rw [isHeaderValueToken_eq, decide_eq_true_eq]
      rintro rfl; exact h hx
  unfold parseHeaderValue
  constructor
  · intro h
    obtain ⟨h1, h2⟩ := token_ok h
    refine ⟨(hall v).mp h1, ?_⟩
    rcases h2 with ⟨b, s, rfl, hb, hne, e⟩ | ⟨-, rfl, b, e, hb⟩
    · exact Or.inl ⟨hne, e, b, s, rfl, (headerValueToken_iff b).mp hb⟩
    · rw [(headerValueToken_iff b).mp hb] at e; exact Or.inr ⟨rfl, e⟩
  · rintro ⟨h1, ⟨hne, rfl, b, s, rfl, hb⟩ | ⟨rfl, rfl⟩⟩
    · have hb : b = 13 := hb
      subst hb
      rw [parseTokenEmpty_eq _ _ ((hall v).mpr h1) (by decide), if_neg hne]
    · have := parseTokenEmpty_eq (f := isHeaderValueToken) (t := []) (b := 13) (r := r) .headerValue true rfl (by decide)
      rw [List.nil_append] at this
      rw [this, if_pos rfl, if_pos rfl]

theorem name_iff (buf n r : Bytes) : parseHeaderName buf = (.ok n, r) ↔
    IsFieldName n ∧ buf = n ++ r ∧ Starts (fun b => isTchar b = false) r := by
  unfold parseHeaderName
  rw [thenRead_iff]
  have key : ∀ t : Bytes, t.all isHeaderNameToken = true ↔ ∀ b ∈ t, isTchar b = true := by
    intro t
    rw [List.all_eq_true]
    exact forall_congr' fun b => by rw [isHeaderNameToken_eq]
  constructor
  · rintro ⟨t, s, h, e⟩
    obtain ⟨h1, h2, h3, c, s', rfl, h4⟩ := (token_iff _ _ _ _ _).mp h
    rw [key] at h2
    simp only [Prod.mk.injEq, Res.ok.injEq, headerNameFromBytes, utf8Lossy_token h2] at e
    obtain ⟨rfl, rfl⟩ := e
    exact ⟨⟨h1, h2⟩, h3, c, s', rfl, (isHeaderNameToken_eq c).symm.trans h4⟩
  · rintro ⟨⟨h1, h2⟩, h3, c, s', rfl, h4⟩
    refine ⟨n, c :: s', (token_iff _ _ _ _ _).mpr ⟨h1, (key n).mpr h2, h3, c, s', rfl, (isHeaderNameToken_eq c).trans h4⟩, ?_⟩
    simp only [headerNameFromBytes, utf8Lossy_token h2]

theorem headerLine_none_iff (buf r : Bytes) : parseHeaderLine buf = (.ok none, r) ↔
    ∃ e, (e = [13, 10] ∨ e = [10]) ∧ buf = e ++ r := by
  constructor
  · intro h
    unfold parseHeaderLine at h
    cases buf with
    | nil => simp [peekByte, thenRead] at h
    | cons b buf =>
      simp only [peekByte, thenRead] at h
      by_cases h1 : b = 13
      · rw [if_pos h1] at h
        simp only [nextByte] at h
        obtain ⟨_, s, h2, h⟩ := thenRead_ok h
        rw [expectByte_iff] at h2
        simp only [Prod.mk.injEq, true_and] at h
        exact ⟨_, Or.inl rfl, by rw [h1, h2, h]; rfl⟩
      · rw [if_neg h1] at h
        by_cases h2 : b = 10
        · rw [if_pos h2] at h
          simp only [nextByte, Prod.mk.injEq, true_and] at h
          exact ⟨_, Or.inr rfl, by rw [h2, h]; rfl⟩
        · rw [if_neg h2] at h
          obtain ⟨_, _, _, h⟩ := thenRead_ok h
          obtain ⟨_, _, _, h⟩ := thenRead_ok h
          obtain ⟨_, _, _, h⟩ := thenRead_ok h
          obtain ⟨_, _, _, h⟩ := thenRead_ok h
          obtain ⟨_, _, _, h⟩ := thenRead_ok h
          obtain ⟨_, _, _, h⟩ := thenRead_ok h
          simp at h
  · rintro ⟨e, (rfl | rfl), rfl⟩
    · exact parseHeaderLine_end r
    · exact parseHeaderLine_lf r

theorem spaces_head {u : Bytes} (h : Spaces u) (hne : u ≠ []) : Starts (fun b => b = 32) u := by
  obtain ⟨b, s, rfl⟩ := List.exists_cons_of_ne_nil hne
  exact ⟨b, s, rfl, h b (by simp)⟩

theorem headerLine_some_iff (buf r : Bytes) (h : Header) : parseHeaderLine buf = (.ok (some h), r) ↔
    ∃ line, AcceptedLine h line ∧ buf = line ++ r := by
  constructor
  · intro hl
    unfold parseHeaderLine at hl
    obtain ⟨b, r1, h1, hl⟩ := thenRead_ok hl
    by_cases hb : b = 13
    · rw [if_pos hb] at hl
      obtain ⟨_, _, _, hl⟩ := thenRead_ok hl
      obtain ⟨_, _, _, hl⟩ := thenRead_ok hl
      simp at hl
    rw [if_neg hb] at hl
    by_cases hb : b = 10
    · rw [if_pos hb] at hl
      obtain ⟨_, _, _, hl⟩ := thenRead_ok hl
      simp at hl
    rw [if_neg hb] at hl
    have e1 : buf = r1 := by
      cases buf with
      | nil => simp [peekByte] at h1
      | cons c buf => simp only [peekByte, Prod.mk.injEq] at h1; exact h1.2
    subst e1
    obtain ⟨n, r2, hn, hl⟩ := thenRead_ok hl
    obtain ⟨_, r3, h3, hl⟩ := thenRead_ok hl
    obtain ⟨_, r4, h4, hl⟩ := thenRead_ok hl
    obtain ⟨_, r5, h5, hl⟩ := thenRead_ok hl
    obtain ⟨v, r6, hv, hl⟩ := thenRead_ok hl
    obtain ⟨_, r7, h7, hl⟩ := thenRead_ok hl
    simp only [Prod.mk.injEq, Res.ok.injEq, Option.some.injEq] at hl
    obtain ⟨rfl, rfl⟩ := hl
    rw [name_iff] at hn
    rw [skipSpaces_iff] at h3 h5
    rw [expectByte_iff] at h4
    rw [value_iff] at hv
    rw [skipNewLine_iff] at h7
    obtain ⟨hn1, rfl, -⟩ := hn
    obtain ⟨a, ha, rfl, -⟩ := h3
    obtain ⟨b', hb', rfl, hs⟩ := h5
    obtain ⟨e, he, rfl⟩ := h7
    subst h4
    obtain ⟨hv1, ⟨hne, rfl, hs2⟩ | ⟨rfl, rfl⟩⟩ := hv
    · refine ⟨n ++ a ++ [58] ++ b' ++ v ++ e, ⟨hn1, a, b', e, ha, hb', hv1, ?_, ?_, rfl⟩, by simp⟩
      · obtain ⟨x, v, rfl⟩ := List.exists_cons_of_ne_nil hne
        rw [List.cons_append, starts_cons] at hs
        simpa using hs
      · left
        rcases he with rfl | rfl | rfl
        · rfl
        · rw [List.cons_append, starts_cons] at hs2; exact absurd hs2 (by decide)
        · rw [List.cons_append, starts_cons] at hs2; exact absurd hs2 (by decide)
    · refine ⟨n ++ a ++ [58] ++ b' ++ [] ++ 13 :: e, ⟨hn1, a, b', 13 :: e, ha, hb', hv1, by simp, ?_, rfl⟩, by simp⟩
      rcases he with rfl | rfl | rfl
      · exact Or.inr ⟨rfl, Or.inl rfl⟩
      · exact Or.inl rfl
      · exact Or.inr ⟨rfl, Or.inr rfl⟩
  · rintro ⟨line, ⟨hn, a, b, e, ha, hb, hv, hv32, he, rfl⟩, rfl⟩
    obtain ⟨n, v⟩ := h
    simp only at hn hv hv32 he ⊢
    have e0 : n ++ a ++ [58] ++ b ++ v ++ e ++ r = n ++ (a ++ (58 :: (b ++ (v ++ (e ++ r))))) := by simp
    rw [e0]
    obtain ⟨c, n', hc⟩ := List.exists_cons_of_ne_nil hn.1
    obtain ⟨g1, g2, -, -, -⟩ := tchar_facts c (hn.2 c (by simp [hc]))
    unfold parseHeaderLine
    rw [thenRead_iff]
    refine ⟨c, n ++ (a ++ (58 :: (b ++ (v ++ (e ++ r))))), by rw [hc]; rfl, ?_⟩
    rw [if_neg g1, if_neg g2, thenRead_iff]
    refine ⟨n, a ++ (58 :: (b ++ (v ++ (e ++ r)))), (name_iff _ _ _).mpr ⟨hn, rfl, ?_⟩, ?_⟩
    · by_cases hae : a = []
      · subst hae; exact ⟨58, _, rfl, by decide +kernel⟩
      · rw [starts_append hae]
        obtain ⟨x, s, hx, h32⟩ := spaces_head ha hae
        exact ⟨x, s, hx, by rw [h32]; decide +kernel⟩
    rw [thenRead_iff]
    refine ⟨(), 58 :: (b ++ (v ++ (e ++ r))), (skipSpaces_iff _ _).mpr ⟨a, ha, rfl, 58, _, rfl, by decide⟩, ?_⟩
    rw [thenRead_iff]
    refine ⟨(), b ++ (v ++ (e ++ r)), (expectByte_iff _ _ _ _).mpr rfl, ?_⟩
    have he13 : Starts (fun x => x = 13) e := by
      rcases he with rfl | ⟨-, rfl | rfl⟩ <;> exact ⟨_, _, rfl, rfl⟩
    have hene : e ≠ [] := by rintro rfl; obtain ⟨_, _, h, _⟩ := he13; simp at h
    rw [thenRead_iff]
    refine ⟨(), v ++ (e ++ r), (skipSpaces_iff _ _).mpr ⟨b, hb, rfl, ?_⟩, ?_⟩
    · cases v with
      | nil =>
        rw [List.nil_append, starts_append hene]
        obtain ⟨x, s, hx, h13⟩ := he13
        exact ⟨x, s, hx, by rw [h13]; decide⟩
      | cons x v =>
        rw [List.cons_append, starts_cons]
        simpa using hv32
    rw [thenRead_iff]
    cases hve : v with
    | nil =>
      obtain ⟨x, s, hx, h13⟩ := he13
      have h13 : x = 13 := h13
      subst h13 hx
      refine ⟨[], s ++ r, (value_iff _ _ _).mpr ⟨by simp, Or.inr ⟨rfl, rfl⟩⟩, ?_⟩
      rw [thenRead_iff]
      refine ⟨(), r, (skipNewLine_iff _ _).mpr ⟨s, ?_, rfl⟩, rfl⟩
      rcases he with he | ⟨-, he | he⟩ <;> simp only [List.cons.injEq, true_and] at he
      · exact Or.inr (Or.inl he)
      · exact Or.inl he
      · exact Or.inr (Or.inr he)
    | cons x v' =>
      rw [← hve]
      have hvne : v ≠ [] := by rw [hve]; simp
      refine ⟨v, e ++ r, (value_iff _ _ _).mpr ⟨hv, Or.inl ⟨hvne, rfl, (starts_append hene).mpr he13⟩⟩, ?_⟩
      rw [thenRead_iff]
      refine ⟨(), r, (skipNewLine_iff _ _).mpr ⟨e, ?_, rfl⟩, rfl⟩
      rcases he with he | ⟨h0, -⟩
      · exact Or.inl he
      · exact absurd h0 hvne

theorem headerLoop_line {m : HeaderMap} {buf r : Bytes} {o : Option Header} (h : parseHeaderLine buf = (.ok o, r)) (k : Nat) :
    parseHeaderLoop (k + 1) m buf = onLine m (parseHeaderLoop k) o r := by
  rw [parseHeaderLoop, h]; rfl

theorem headerLoop_iff (m' : HeaderMap) (r : Bytes) : ∀ (k : Nat) (m : HeaderMap) (buf : Bytes), k > buf.length →
    (parseHeaderLoop k m buf = (.ok (), m', r) ↔
      ∃ hs text, AcceptedFields hs text ∧ buf = text ++ r ∧ m' = hs.foldl (fun m h => m.insert h.1 h.2) m) := by
  intro k
  induction k with
  | zero => intro m buf h; omega
  | succ k ih =>
    intro m buf hk
    constructor
    · intro h
      rcases hl : parseHeaderLine buf with ⟨o, s⟩
      rcases o with o | e | _
      · rcases o with _ | a
        · rw [headerLoop_line hl, onLine] at h
          simp only [Prod.mk.injEq, true_and] at h
          obtain ⟨rfl, rfl⟩ := h
          obtain ⟨e, he, hb⟩ := (headerLine_none_iff _ _).mp hl
          exact ⟨[], e, .done he, hb, rfl⟩
        · rw [headerLoop_line hl, onLine] at h
          have := parseHeaderLine_shrinks hl
          obtain ⟨line, h1, h2⟩ := (headerLine_some_iff _ _ _).mp hl
          obtain ⟨hs, text, g1, g2, g3⟩ := (ih _ s (by omega)).mp h
          exact ⟨a :: hs, line ++ text, .more h1 g1, by rw [h2, g2, List.append_assoc], g3⟩
      · unfold parseHeaderLoop at h
        rw [hl] at h
        simp [thenDo] at h
      · unfold parseHeaderLoop at h
        rw [hl] at h
        simp [thenDo] at h
    · rintro ⟨hs, text, ha, hb, hm⟩
      cases ha with
      | done he =>
        rw [headerLoop_line ((headerLine_none_iff _ _).mpr ⟨_, he, hb⟩), hm]; rfl
      | @more h line hs text h1 h2 =>
        rw [List.append_assoc] at hb
        have hl := (headerLine_some_iff buf (text ++ r) h).mpr ⟨line, h1, hb⟩
        have := parseHeaderLine_shrinks hl
        rw [headerLoop_line hl, onLine]
        exact (ih _ _ (by omega)).mpr ⟨hs, text, h2, rfl, hm⟩

theorem parseHeader_iff (m0 m : HeaderMap) (buf r : Bytes) : parseHeader m0 buf = (.ok (), m, r) ↔
    ∃ hs text, AcceptedFields hs text ∧ buf = text ++ r ∧ m = storeAll hs :=
  headerLoop_iff m r (buf.length + 1) [] buf (by omega)

theorem statusToken_bytes (t : Bytes) : t.all isStatusToken = true ↔ ∀ x ∈ t, 32 ≤ x.toNat ∧ x.toNat < 127 := by
  rw [List.all_eq_true]
  refine forall_congr' fun b => imp_congr_right fun hm => ?_
  clear hm
  revert b; decide +kernel

theorem token_bytes (t : Bytes) : t.all isToken = true ↔ ∀ x ∈ t, 32 < x.toNat ∧ x.toNat < 127 := by
  rw [List.all_eq_true]
  refine forall_congr' fun b => imp_congr_right fun hm => ?_
  clear hm
  revert b; decide +kernel

theorem onToken_iff {α : Type} (f : Bytes → Res α) (buf r : Bytes) (a : α) : onToken (parseToken buf) f = (.ok a, r) ↔
    ∃ t, f t = .ok a ∧ t ≠ [] ∧ t.all isToken = true ∧ buf = t ++ r ∧ Starts (fun b => isToken b = false) r := by
  unfold onToken
  rw [thenRead_iff]
  constructor
  · rintro ⟨t, s, h, e⟩
    simp only [Prod.mk.injEq] at e
    obtain ⟨e1, rfl⟩ := e
    exact ⟨t, e1, (token_iff _ _ _ _ _).mp h⟩
  · rintro ⟨t, e1, h⟩
    exact ⟨t, r, (token_iff _ _ _ _ _).mpr h, by simp only [e1]⟩

theorem status_iff (t : Bytes) (n : Nat) : statusFromBytes t = .ok n ↔ 100 ≤ n ∧ n ≤ 999 ∧ t = threeDigits n := by
  constructor
  · intro h
    have := (C44_roundtrip n t).2 h
    rw [statusAsStr_eq] at this
    by_cases hn : 100 ≤ n ∧ n ≤ 999
    · rw [if_pos hn, Res.ok.injEq] at this; exact ⟨hn.1, hn.2, this.symm⟩
    · rw [if_neg hn] at this; simp at this
  · rintro ⟨h1, h2, rfl⟩
    exact statusFromBytes_digits n ⟨h1, h2⟩

/-- After a token, the next token comes only after a space. -/
theorem spaces_between {f : UInt8 → Bool} (hf : ∀ b, b ≠ 32 → isToken b = false → f b = false) {a t r : Bytes} (hne : t ≠ []) (ht : t.all f = true)
    (h : Starts (fun b => isToken b = false) (a ++ (t ++ r))) (h32 : Starts (fun b => b ≠ 32) (t ++ r)) : a ≠ [] := by
  rintro rfl
  rw [List.nil_append, starts_append hne] at h
  rw [starts_append hne] at h32
  obtain ⟨b, s, rfl, hb⟩ := h
  rw [starts_cons] at h32
  have := hf b h32 hb
  simp [this] at ht

theorem versionName_facts : ∀ n ∈ versionNames, asciiBytes n.2 ≠ [] ∧ (asciiBytes n.2).all isToken = true ∧
    (asciiBytes n.2).head? = some 72 := by decide +kernel

theorem methodName_facts : ∀ n ∈ methodNames, asciiBytes n.2 ≠ [] ∧ (asciiBytes n.2).all isToken = true := by decide +kernel

theorem token_starts {t r : Bytes} (hne : t ≠ []) (h : t.all isToken = true) :
    Starts (fun b => b ≠ 13 ∧ b ≠ 10) (t ++ r) ∧ Starts (fun b => b ≠ 32) (t ++ r) := by
  obtain ⟨b, s, rfl⟩ := List.exists_cons_of_ne_nil hne
  simp only [List.all_cons, Bool.and_eq_true] at h
  have hb := h.1
  rw [List.cons_append, starts_cons, starts_cons]
  clear h hne
  revert b; decide +kernel

theorem spaces_starts {a r : Bytes} (hne : a ≠ []) (h : Spaces a) : Starts (fun b => isToken b = false) (a ++ r) := by
  rw [starts_append hne]
  obtain ⟨b, s, hb, e⟩ := spaces_head h hne
  exact ⟨b, s, hb, by rw [e]; decide⟩

theorem responseHead_iff (r0 r' : Response) (buf rest : Bytes) : r0.parseHead buf = (.ok (), r', rest) ↔
    ∃ v code hs head, AcceptedResponse v code hs head ∧ buf = head ++ rest ∧ r' = ⟨code, v, storeAll hs, false⟩ := by
  have hfor : r0.parseHead buf = (.ok (), r', rest) ↔ forget (r0.parseHead buf) = (.ok ((), r'), rest) := forget_ok.symm
  rw [hfor, forget_response]
  constructor
  · intro h
    obtain ⟨_, r1, h1, h⟩ := thenRead_ok h
    obtain ⟨v, r2, h2, h⟩ := thenRead_ok h
    obtain ⟨_, r3, h3, h⟩ := thenRead_ok h
    obtain ⟨code, r4, h4, h⟩ := thenRead_ok h
    obtain ⟨_, r5, h5, h⟩ := thenRead_ok h
    obtain ⟨reason, r6, h6, h⟩ := thenRead_ok h
    obtain ⟨_, r7, h7, h⟩ := thenRead_ok h
    obtain ⟨⟨_, m⟩, r8, h8, h⟩ := thenRead_ok h
    simp only [Prod.mk.injEq, Res.ok.injEq, true_and] at h
    obtain ⟨rfl, rfl⟩ := h
    obtain ⟨lines, hl, rfl, -⟩ := (skipEmptyLines_iff _ _).mp h1
    obtain ⟨vt, hv, -, -, rfl, hs2⟩ := (onToken_iff _ _ _ _).mp h2
    obtain ⟨a, ha, rfl, ha3⟩ := (skipSpaces_iff _ _).mp h3
    obtain ⟨ct, hc, hct, hcta, rfl, hs4⟩ := (onToken_iff _ _ _ _).mp h4
    obtain ⟨b, hb, rfl, hb3⟩ := (skipSpaces_iff _ _).mp h5
    obtain ⟨hr1, hr2, rfl, hs6⟩ := (token_iff _ _ _ _ _).mp h6
    obtain ⟨e, he, rfl⟩ := (skipNewLine_iff _ _).mp h7
    obtain ⟨hs, text, ht, rfl, rfl⟩ := (parseHeader_iff [] m r7 r8).mp (forget_ok.mp h8)
    obtain ⟨n, hn, hnv, rfl⟩ := (C45_version _ _).mp hv
    obtain ⟨hc1, hc2, rfl⟩ := (status_iff _ _).mp hc
    refine ⟨v, code, hs, lines ++ asciiBytes n.2 ++ a ++ threeDigits code ++ b ++ reason ++ e ++ text,
      ⟨lines, a, b, reason, e, text, hl, ha, ?_, hb, ?_, hr1, (statusToken_bytes _).mp hr2, ?_, ?_, hc1, hc2, ht, n, hn, hnv, rfl⟩, by simp, rfl⟩
    · exact spaces_between (f := isToken) (fun _ _ h => h) hct hcta hs2 ha3
    · exact spaces_between (f := isStatusToken) (by decide +kernel) hr1 hr2 hs4 hb3
    · obtain ⟨x, s, rfl⟩ := List.exists_cons_of_ne_nil hr1
      rw [List.cons_append, starts_cons] at hb3
      simpa using hb3
    · rcases he with rfl | rfl | rfl
      · exact Or.inl rfl
      · exact Or.inr rfl
      · rw [List.cons_append, starts_cons] at hs6
        exact absurd hs6 (by decide)
  · rintro ⟨v, code, hs, head, ⟨lines, a, b, reason, e, text, hl, ha, hane, hb, hbne, hr, hrb, hr32, he, hc1, hc2, ht, n, hn, hnv, rfl⟩, rfl, rfl⟩
    obtain ⟨n1, n2, -⟩ := versionName_facts n hn
    have c1 : threeDigits code ≠ [] := by simp [threeDigits]
    have c2 := (threeDigits_token code).1
    have hene : e ≠ [] := by rcases he with rfl | rfl <;> simp
    have e0 : lines ++ asciiBytes n.2 ++ a ++ threeDigits code ++ b ++ reason ++ e ++ text ++ rest =
      lines ++ (asciiBytes n.2 ++ (a ++ (threeDigits code ++ (b ++ (reason ++ (e ++ (text ++ rest))))))) := by simp
    rw [e0, thenRead_iff]
    refine ⟨(), _, (skipEmptyLines_iff _ _).mpr ⟨lines, hl, rfl, (token_starts n1 n2).1⟩, ?_⟩
    rw [thenRead_iff]
    refine ⟨v, _, (onToken_iff _ _ _ _).mpr ⟨_, (C45_version _ _).mpr ⟨n, hn, hnv, rfl⟩, n1, n2, rfl, spaces_starts hane ha⟩, ?_⟩
    rw [thenRead_iff]
    refine ⟨(), _, (skipSpaces_iff _ _).mpr ⟨a, ha, rfl, (token_starts c1 c2).2⟩, ?_⟩
    rw [thenRead_iff]
    refine ⟨code, _, (onToken_iff _ _ _ _).mpr ⟨_, (status_iff _ _).mpr ⟨hc1, hc2, rfl⟩, c1, c2, rfl, spaces_starts hbne hb⟩, ?_⟩
    rw [thenRead_iff]
    refine ⟨(), _, (skipSpaces_iff _ _).mpr ⟨b, hb, rfl, ?_⟩, ?_⟩
    · obtain ⟨x, s, rfl⟩ := List.exists_cons_of_ne_nil hr
      rw [List.cons_append, starts_cons]
      simpa using hr32
    rw [thenRead_iff]
    refine ⟨reason, _, (token_iff _ _ _ _ _).mpr ⟨hr, (statusToken_bytes _).mpr hrb, rfl, ?_⟩, ?_⟩
    · rw [starts_append hene]
      rcases he with rfl | rfl <;> exact ⟨_, _, rfl, by decide⟩
    rw [thenRead_iff]
    refine ⟨(), _, (skipNewLine_iff _ _).mpr ⟨e, ?_, rfl⟩, ?_⟩
    · rcases he with rfl | rfl
      · exact Or.inl rfl
      · exact Or.inr (Or.inl rfl)
    rw [thenRead_iff]
    exact ⟨((), storeAll hs), rest, forget_ok.mpr ((parseHeader_iff [] _ _ _).mpr ⟨hs, text, ht, rfl, rfl⟩), rfl⟩

theorem requestHead_iff (r0 r' : Request) (buf rest : Bytes) : r0.parseHead buf = (.ok (), r', rest) ↔
    ∃ m target v hs head url, AcceptedRequest m target v hs head ∧ buf = head ++ rest ∧ requestUrl m (storeAll hs) target = .ok url ∧
      r' = ⟨m, storeAll hs, v, url, false⟩ := by
  have hfor : r0.parseHead buf = (.ok (), r', rest) ↔ forget (r0.parseHead buf) = (.ok ((), r'), rest) := forget_ok.symm
  rw [hfor, forget_request]
  constructor
  · intro h
    obtain ⟨_, r1, h1, h⟩ := thenRead_ok h
    obtain ⟨m, r2, h2, h⟩ := thenRead_ok h
    obtain ⟨_, r3, h3, h⟩ := thenRead_ok h
    obtain ⟨target, r4, h4, h⟩ := thenRead_ok h
    obtain ⟨_, r5, h5, h⟩ := thenRead_ok h
    obtain ⟨v, r6, h6, h⟩ := thenRead_ok h
    obtain ⟨_, r7, h7, h⟩ := thenRead_ok h
    obtain ⟨⟨_, hm⟩, r8, h8, hfin⟩ := thenRead_ok h
    clear h
    simp only [Prod.mk.injEq] at hfin
    obtain ⟨hq, rfl⟩ := hfin
    obtain ⟨lines, hl, rfl, -⟩ := (skipEmptyLines_iff _ _).mp h1
    obtain ⟨mt, hmt, -, -, rfl, hs2⟩ := (onToken_iff _ _ _ _).mp h2
    obtain ⟨a, ha, rfl, ha3⟩ := (skipSpaces_iff _ _).mp h3
    obtain ⟨ht1, ht2, rfl, hs4⟩ := (token_iff _ _ _ _ _).mp h4
    obtain ⟨b, hb, rfl, hb3⟩ := (skipSpaces_iff _ _).mp h5
    obtain ⟨vt, hv, hv1, hv2, rfl, hs6⟩ := (onToken_iff _ _ _ _).mp h6
    obtain ⟨e, he, rfl⟩ := (skipNewLine_iff _ _).mp h7
    obtain ⟨hs, text, ht, rfl, rfl⟩ := (parseHeader_iff [] hm r7 r8).mp (forget_ok.mp h8)
    obtain ⟨n, hn, hnv, rfl⟩ := (C45_version _ _).mp hv
    obtain ⟨k, hk, hkm, rfl⟩ := (C45_method _ _).mp hmt
    have hane := spaces_between (f := isToken) (fun _ _ h => h) ht1 ht2 hs2 ha3
    have hbne := spaces_between (f := isToken) (fun _ _ h => h) hv1 hv2 hs4 hb3
    unfold urlStep at hq
    rcases hu : requestUrl m (storeAll hs) target with url | er | _
    · rw [hu] at hq
      simp only [Res.ok.injEq, Prod.mk.injEq, true_and] at hq
      exact ⟨m, target, v, hs, lines ++ asciiBytes k.2 ++ a ++ target ++ b ++ asciiBytes n.2 ++ e ++ text, url,
        ⟨lines, a, b, e, text, hl, ha, hane, hb, hbne, ht1, (token_bytes _).mp ht2, he, ht, n, hn, hnv, k, hk, hkm, rfl⟩, by simp, hu, hq.symm⟩
    · rw [hu] at hq; simp at hq
    · rw [hu] at hq; simp at hq
  · rintro ⟨m, target, v, hs, head, url, ⟨lines, a, b, e, text, hl, ha, hane, hb, hbne, ht1, ht2, he, ht, n, hn, hnv, k, hk, hkm, rfl⟩, rfl, hu, rfl⟩
    obtain ⟨n1, n2, -⟩ := versionName_facts n hn
    obtain ⟨k1, k2⟩ := methodName_facts k hk
    rw [← token_bytes] at ht2
    have hene : e ≠ [] := by rcases he with rfl | rfl | rfl <;> simp
    have e0 : lines ++ asciiBytes k.2 ++ a ++ target ++ b ++ asciiBytes n.2 ++ e ++ text ++ rest =
      lines ++ (asciiBytes k.2 ++ (a ++ (target ++ (b ++ (asciiBytes n.2 ++ (e ++ (text ++ rest))))))) := by simp
    rw [e0, thenRead_iff]
    refine ⟨(), _, (skipEmptyLines_iff _ _).mpr ⟨lines, hl, rfl, (token_starts k1 k2).1⟩, ?_⟩
    rw [thenRead_iff]
    refine ⟨m, _, (onToken_iff _ _ _ _).mpr ⟨_, (C45_method _ _).mpr ⟨k, hk, hkm, rfl⟩, k1, k2, rfl, spaces_starts hane ha⟩, ?_⟩
    rw [thenRead_iff]
    refine ⟨(), _, (skipSpaces_iff _ _).mpr ⟨a, ha, rfl, (token_starts ht1 ht2).2⟩, ?_⟩
    rw [thenRead_iff]
    refine ⟨target, _, (token_iff _ _ _ _ _).mpr ⟨ht1, ht2, rfl, spaces_starts hbne hb⟩, ?_⟩
    rw [thenRead_iff]
    refine ⟨(), _, (skipSpaces_iff _ _).mpr ⟨b, hb, rfl, (token_starts n1 n2).2⟩, ?_⟩
    rw [thenRead_iff]
    refine ⟨v, _, (onToken_iff _ _ _ _).mpr ⟨_, (C45_version _ _).mpr ⟨n, hn, hnv, rfl⟩, n1, n2, rfl, ?_⟩, ?_⟩
    · rw [starts_append hene]
      rcases he with rfl | rfl | rfl <;> exact ⟨_, _, rfl, by decide⟩
    rw [thenRead_iff]
    refine ⟨(), _, (skipNewLine_iff _ _).mpr ⟨e, he, rfl⟩, ?_⟩
    rw [thenRead_iff]
    refine ⟨((), storeAll hs), rest, forget_ok.mpr ((parseHeader_iff [] _ _ _).mpr ⟨hs, text, ht, rfl, rfl⟩), ?_⟩
    unfold urlStep
    rw [hu]

instance (s : Bytes) : Decidable (Spaces s) := decidable_of_iff (s.all (· == 32) = true) (by simp [Spaces])

theorem skipEmptyLines_token {t r : Bytes} (hne : t ≠ []) (h : t.all isToken = true) : skipEmptyLines (t ++ r) = (.ok (), t ++ r) :=
  (skipEmptyLines_iff _ _).mpr ⟨[], .nil, rfl, (token_starts hne h).1⟩

theorem skipSpaces_sp {r : Bytes} (h : Starts (fun b => b ≠ 32) r) : skipSpaces ([32] ++ r) = (.ok (), r) :=
  (skipSpaces_iff _ _).mpr ⟨[32], by decide, rfl, h⟩

end Webparse
