import Verif.Proofs.Basic
import Verif.Proofs.Final
import Verif.Proofs.Url
import Verif.Spec.Pieces

/-! Readers for which there is always some input that brings a verdict. -/

namespace Webparse
open Spec

theorem orderly_suffix {u r : Bytes} (h : Orderly (u ++ r)) : Orderly r := by
  induction u with
  | nil => exact h
  | cons b u ih => exact ih h.2.2

theorem orderly_prefix {u r : Bytes} (h : Orderly (u ++ r)) : Orderly u := by
  induction u with
  | nil => trivial
  | cons b u ih =>
    obtain ⟨h1, h2, h3⟩ := h
    refine ⟨h1, fun hb => ?_, ih h3⟩
    cases u with
    | nil => exact Or.inl rfl
    | cons c u => simpa using h2 hb

theorem orderly_join {u r y : Bytes} {c : UInt8} (h : Orderly (u ++ c :: r)) (h' : Orderly (c :: r ++ y)) :
    Orderly (u ++ (c :: r ++ y)) := by
  induction u with
  | nil => exact h'
  | cons b u ih =>
    obtain ⟨h1, h2, h3⟩ := h
    refine ⟨h1, fun hb => ?_, ih h3⟩
    cases u with
    | nil => simpa using h2 hb
    | cons d u => simpa using h2 hb

theorem orderly_lf {l : Bytes} (h : Orderly l) : Orderly (l ++ [10]) := by
  induction l with
  | nil => exact ⟨Or.inr (Or.inr rfl), by simp, trivial⟩
  | cons b l ih =>
    obtain ⟨h1, h2, h3⟩ := h
    refine ⟨h1, fun hb => ?_, ih h3⟩
    cases l with
    | nil => exact Or.inr rfl
    | cons c l => simpa using h2 hb

/-- Some continuation brings a verdict. -/
def Helps {α : Type} (p : Bytes → Res α × Bytes) : Prop :=
  ∀ buf, Orderly buf → ∃ x, Orderly (buf ++ x) ∧ (p (buf ++ x)).1 ≠ .err .partialData

theorem helps_const {α : Type} (c : Res α) (h : c ≠ .err .partialData) : Helps fun buf => (c, buf) :=
  fun buf hb => ⟨[], by simpa using hb, h⟩

theorem helps_then {α β : Type} {p : Bytes → Res α × Bytes} {f : α → Bytes → Res β × Bytes}
    (sp : Streams p) (hp : Helps p) (hf : ∀ a, Helps (f a)) : Helps fun buf => thenRead (p buf) f := by
  intro buf hb
  obtain ⟨x, hx, h1⟩ := hp buf hb
  cases hv : p (buf ++ x) with
  | mk v r =>
    cases v with
    | err e => exact ⟨x, hx, by rw [hv] at h1; simpa [hv, thenRead] using h1⟩
    | panic => exact ⟨x, hx, by simp [hv, thenRead]⟩
    | ok a =>
      obtain ⟨⟨u, hu⟩, h2⟩ := sp.ext _ _ _ hv
      have ho := orderly_lf hx
      rw [hu, List.append_assoc] at ho
      obtain ⟨c, t, ht⟩ : ∃ c t, r ++ [10] = c :: t := by cases r <;> simp
      rw [ht] at ho
      obtain ⟨y, hy, h3⟩ := hf a (c :: t) (orderly_suffix ho)
      refine ⟨x ++ ([10] ++ y), ?_, ?_⟩
      · have := orderly_join ho hy
        have e : buf ++ (x ++ ([10] ++ y)) = u ++ (c :: t ++ y) := by
          rw [← ht, ← List.append_assoc, hu]; simp
        rw [e]; exact this
      · have h4 := h2 ([10] ++ y)
        have e : buf ++ (x ++ ([10] ++ y)) = buf ++ x ++ ([10] ++ y) := by simp
        have e2 : r ++ ([10] ++ y) = c :: t ++ y := by rw [← ht]; simp
        simp only [e, h4, thenRead, e2]
        exact h3

theorem helps_ite {α : Type} (c : Prop) [Decidable c] {p q : Bytes → Res α × Bytes} (hp : Helps p) (hq : Helps q) :
    Helps fun buf => if c then p buf else q buf := by
  by_cases h : c
  · simp only [if_pos h]; exact hp
  · simp only [if_neg h]; exact hq

/-- One more LF is enough. -/
theorem helps_lf {α : Type} {p : Bytes → Res α × Bytes} (h : ∀ buf, (p (buf ++ [10])).1 ≠ .err .partialData) : Helps p :=
  fun buf hb => ⟨[10], orderly_lf hb, h buf⟩

theorem helps_nextByte : Helps nextByte := helps_lf fun buf => by cases buf <;> simp [nextByte]

theorem helps_peekByte : Helps peekByte := helps_lf fun buf => by cases buf <;> simp [peekByte]

theorem helps_expectByte (c : UInt8) (e : Error) (he : e ≠ .partialData) : Helps (expectByte c e) := helps_lf fun buf => by
  cases buf with
  | nil => simp only [List.nil_append, expectByte]; split <;> simp [he]
  | cons b buf => simp only [List.cons_append, expectByte]; split <;> simp [he]

theorem helps_skipSpaces : Helps skipSpaces := helps_lf fun buf => by
  induction buf with
  | nil => simp [skipSpaces]
  | cons b buf ih =>
    simp only [List.cons_append, skipSpaces]
    split
    · exact ih
    · simp

theorem helps_token (f : UInt8 → Bool) (e : Error) (empty : Bool) (hf : f 10 = false) (he : e ≠ .partialData) :
    Helps (parseTokenEmpty f e empty) := helps_lf fun buf => by
  obtain ⟨t, b, s, h1, h2, h3, _⟩ := scan_spec (f := f) (buf := buf ++ [10]) (by simp [hf])
  rw [h1, parseTokenEmpty_eq _ _ h2 h3]
  split
  · cases empty <;> simp [he]
  · simp

theorem helps_onToken {α : Type} {p : Bytes → Res Bytes × Bytes} (sp : Streams p) (hp : Helps p) (f : Bytes → Res α)
    (hf : ∀ t, f t ≠ .err .partialData) : Helps fun buf => onToken (p buf) f :=
  helps_then sp hp fun t => helps_const _ (hf t)

theorem skipEmptyLines_verdict (buf : Bytes) (n : Nat) (h : buf.length ≤ n) : (skipEmptyLines (buf ++ [10, 65])).1 ≠ .err .partialData := by
  induction n generalizing buf with
  | zero =>
    have : buf = [] := List.length_eq_zero_iff.mp (by omega)
    subst this; decide
  | succ n ih =>
    match buf with
    | [] => decide
    | [b] =>
      simp only [List.cons_append, List.nil_append, skipEmptyLines]
      split
      · simp
      · split <;> simp
    | b :: c :: r =>
      simp only [List.length_cons] at h
      simp only [List.cons_append, skipEmptyLines]
      split
      · split
        · exact ih r (by omega)
        · simp
      · split
        · exact ih (c :: r) (by simp; omega)
        · simp

theorem helps_skipEmptyLines : Helps skipEmptyLines := fun buf hb =>
  ⟨[10, 65], by
    have h := orderly_lf hb
    have := orderly_join (u := buf) (c := 10) (r := []) (y := [65]) h ⟨Or.inr (Or.inr rfl), by simp, Or.inl (by decide), by simp, trivial⟩
    simpa using this, skipEmptyLines_verdict buf _ (Nat.le_refl _)⟩

/-- A new line where orderly input has a byte that is neither printable nor the end. -/
theorem skipNewLine_orderly {c : UInt8} {r : Bytes} (h : Orderly (c :: r)) (hc : c = 32 ∨ c = 13 ∨ c = 10) :
    (skipNewLine (c :: r ++ [10])).1 ≠ .err .partialData := by
  rcases hc with rfl | rfl | rfl
  · simp [skipNewLine, thenRead, nextByte]
  · cases r with
    | nil => simp [skipNewLine, thenRead, nextByte, expectByte]
    | cons d r =>
      have : d = 10 := by simpa using h.2.1 rfl
      subst this
      simp [skipNewLine, thenRead, nextByte, expectByte]
  · simp [skipNewLine, thenRead, nextByte]

/-- A token, then a new line. -/
def tokenLine {α : Type} (f : UInt8 → Bool) (e : Error) (g : Bytes → Res α) (buf : Bytes) : Res α × Bytes :=
  thenRead (onToken (parseTokenBy f e buf) g) fun a buf => thenRead (skipNewLine buf) fun _ buf => (.ok a, buf)

theorem streams_tokenLine {α : Type} (f : UInt8 → Bool) (e : Error) (g : Bytes → Res α) : Streams (tokenLine f e g) :=
  streams_then (streams_onToken (streams_token _ _ _) _) fun _ => streams_then streams_skipNewLine fun _ => streams_const _

theorem helps_tokenLine {α : Type} (f : UInt8 → Bool) (e : Error) (g : Bytes → Res α) (he : e ≠ .partialData)
    (hg : ∀ t, g t ≠ .err .partialData) (hf : ∀ b, PlainByte b → f b = false → b = 32 ∨ b = 13 ∨ b = 10) (hf10 : f 10 = false) :
    Helps (tokenLine f e g) := by
  intro buf hb
  have ho := orderly_lf hb
  obtain ⟨t, b, s, h1, h2, h3, _⟩ := scan_spec (f := f) (buf := buf ++ [10]) (by simp [hf10])
  refine ⟨[10, 10], ?_, ?_⟩
  · have := orderly_lf ho
    simpa using this
  · have e1 : buf ++ [10, 10] = t ++ b :: (s ++ [10]) := by
      have : buf ++ [10, 10] = buf ++ [10] ++ [10] := by simp
      rw [this, h1]; simp
    rw [e1]
    unfold tokenLine onToken parseTokenBy
    rw [parseTokenEmpty_eq _ _ h2 h3]
    by_cases ht : t = []
    · simp [ht, thenRead, he]
    · rw [if_neg ht]
      simp only [thenRead]
      rw [h1] at ho
      have hs := orderly_suffix ho
      cases hgt : g t with
      | err e' => simp only; intro h; exact hg t (by rw [hgt]; simpa using h)
      | panic => simp
      | ok a =>
        simp only
        have := skipNewLine_orderly hs (hf b hs.1 h3)
        revert this
        simp only [List.cons_append]
        cases skipNewLine (b :: (s ++ [10])) with
        | mk v r => cases v <;> simp

/-- A header value, then a new line. -/
def valueLine (name : Bytes) (buf : Bytes) : Res (Option Header) × Bytes :=
  thenRead (parseHeaderValue buf) fun value buf => thenRead (skipNewLine buf) fun _ buf => (.ok (some (name, value)), buf)

theorem orderly_cr {l : Bytes} (h : Orderly l) (hl : (13 : UInt8) ∉ l) : Orderly (l ++ [13, 10]) := by
  induction l with
  | nil => exact ⟨Or.inr (Or.inl rfl), by simp, Or.inr (Or.inr rfl), by simp, trivial⟩
  | cons b l ih =>
    obtain ⟨h1, h2, h3⟩ := h
    exact ⟨h1, fun hb => absurd (by simp [hb]) hl, ih h3 (by simp at hl; exact hl.2)⟩

theorem headerValueToken_iff (b : UInt8) : isHeaderValueToken b = false ↔ b = 13 := by
  revert b; decide +kernel

theorem valueLine_verdict (name : Bytes) {t s : Bytes} (ht : t.all isHeaderValueToken = true) (hs : Orderly (13 :: s)) :
    (valueLine name (t ++ 13 :: (s ++ [10]))).1 ≠ .err .partialData := by
  unfold valueLine parseHeaderValue
  rw [parseTokenEmpty_eq _ _ ht (by decide)]
  by_cases h0 : t = []
  · rw [if_pos h0]
    cases s with
    | nil => simp [thenRead, skipNewLine, nextByte]
    | cons d s =>
      have : d = 10 := by simpa using hs.2.1 rfl
      subst this
      simp [thenRead, skipNewLine, nextByte]
  · rw [if_neg h0]
    have := skipNewLine_orderly hs (Or.inr (Or.inl rfl))
    revert this
    simp only [thenRead, List.cons_append]
    cases skipNewLine (13 :: (s ++ [10])) with
    | mk v r => cases v <;> simp

theorem helps_valueLine (name : Bytes) : Helps (valueLine name) := by
  intro buf hb
  by_cases h : buf.all isHeaderValueToken = true
  · have h13 : (13 : UInt8) ∉ buf := by
      intro hm
      have := List.all_eq_true.mp h 13 hm
      exact absurd this (by decide)
    refine ⟨[13, 10, 10], ?_, ?_⟩
    · have := orderly_lf (orderly_cr hb h13)
      simpa using this
    · exact valueLine_verdict name (s := [10]) h ⟨Or.inr (Or.inl rfl), by simp, Or.inr (Or.inr rfl), by simp, trivial⟩
  · obtain ⟨t, b, s, h1, h2, h3, _⟩ := scan_spec h
    rw [headerValueToken_iff] at h3
    subst h3
    refine ⟨[10], orderly_lf hb, ?_⟩
    rw [h1] at hb
    have := valueLine_verdict name h2 (orderly_suffix hb)
    rw [h1]
    simpa using this

theorem helps_parseHeaderLine : Helps parseHeaderLine := by
  unfold parseHeaderLine
  refine helps_then streams_peekByte helps_peekByte fun b => ?_
  refine helps_ite _ ?_ (helps_ite _ ?_ ?_)
  · exact helps_then streams_nextByte helps_nextByte fun _ =>
      helps_then (streams_expectByte _ _) (helps_expectByte _ _ (by decide)) fun _ => helps_const _ (by simp)
  · exact helps_then streams_nextByte helps_nextByte fun _ => helps_const _ (by simp)
  · refine helps_then streams_parseHeaderName ?_ fun name => helps_then streams_skipSpaces helps_skipSpaces fun _ =>
      helps_then (streams_expectByte _ _) (helps_expectByte _ _ (by decide)) fun _ =>
      helps_then streams_skipSpaces helps_skipSpaces fun _ => helps_valueLine name
    exact helps_then (streams_token _ _ _) (helps_token _ _ _ (by decide) (by decide)) fun _ => helps_const _ (by simp)

theorem loop_err {m : HeaderMap} {buf r : Bytes} {e : Error} (h : parseHeaderLine buf = (.err e, r)) (k : Nat) :
    (forget (parseHeaderLoop (k + 1) m buf)).1 = .err e := by
  rw [forget_loop_succ, h]; rfl

theorem loop_none {m : HeaderMap} {buf r : Bytes} (h : parseHeaderLine buf = (.ok none, r)) (k : Nat) :
    forget (parseHeaderLoop (k + 1) m buf) = (.ok ((), m), r) := by
  rw [forget_loop_succ, h]; rfl

theorem loop_some {m : HeaderMap} {buf r : Bytes} {a : Header} (h : parseHeaderLine buf = (.ok (some a), r)) (k : Nat) :
    forget (parseHeaderLoop (k + 1) m buf) = forget (parseHeaderLoop k (m.insert a.1 a.2) r) := by
  rw [forget_loop_succ, h]; rfl

theorem parseHeaderLine_lf (r : Bytes) : parseHeaderLine (10 :: r) = (.ok none, r) := rfl

/-- The loop on all of the input. -/
def headerRun (m : HeaderMap) (buf : Bytes) : Res (Unit × HeaderMap) × Bytes := forget (parseHeaderLoop (buf.length + 1) m buf)

theorem headerRun_some {m : HeaderMap} {buf r : Bytes} {a : Header} (h : parseHeaderLine buf = (.ok (some a), r)) :
    headerRun m buf = headerRun (m.insert a.1 a.2) r := by
  unfold headerRun
  rw [loop_some h, parseHeaderLoop_fuel _ (r.length + 1) _ r (parseHeaderLine_shrinks h) (by omega)]

theorem helps_headerRun (n : Nat) (m : HeaderMap) (buf : Bytes) (hn : buf.length ≤ n) (hb : Orderly buf) :
    ∃ x, Orderly (buf ++ x) ∧ (headerRun m (buf ++ x)).1 ≠ .err .partialData := by
  induction n generalizing m buf with
  | zero =>
    have : buf = [] := List.length_eq_zero_iff.mp (by omega)
    subst this
    exact ⟨[10], ⟨Or.inr (Or.inr rfl), by simp, trivial⟩, by
      unfold headerRun; rw [List.nil_append, loop_none (parseHeaderLine_lf [])]; simp⟩
  | succ n ih =>
    have lf : ∀ {x : Bytes} {a : Header}, Orderly (buf ++ x) → parseHeaderLine (buf ++ x) = (.ok (some a), []) →
        ∃ x, Orderly (buf ++ x) ∧ (headerRun m (buf ++ x)).1 ≠ .err .partialData := by
      intro x a hx h
      refine ⟨x ++ [10], by rw [← List.append_assoc]; exact orderly_lf hx, ?_⟩
      have := (streams_parseHeaderLine.ext _ _ _ h).2 [10]
      rw [← List.append_assoc, headerRun_some this]
      unfold headerRun
      rw [List.nil_append, loop_none (parseHeaderLine_lf [])]; simp
    cases hl : parseHeaderLine buf with
    | mk v r =>
      cases v with
      | panic =>
        refine ⟨[], by simpa using hb, ?_⟩
        unfold headerRun
        rw [List.append_nil, forget_loop_succ, hl]; simp [thenRead]
      | ok o =>
        cases o with
        | none =>
          refine ⟨[], by simpa using hb, ?_⟩
          unfold headerRun
          rw [List.append_nil, loop_none hl]; simp
        | some a =>
          obtain ⟨⟨u, hu⟩, h2⟩ := streams_parseHeaderLine.ext _ _ _ hl
          cases r with
          | nil => exact lf (x := []) (by simpa using hb) (by simpa using hl)
          | cons c r =>
            have hsh := parseHeaderLine_shrinks hl
            obtain ⟨y, hy, h3⟩ := ih (m.insert a.1 a.2) (c :: r) (by omega) (orderly_suffix (by rw [← hu]; exact hb))
            refine ⟨y, ?_, ?_⟩
            · rw [hu, List.append_assoc]
              exact orderly_join (by rw [← hu]; exact hb) hy
            · rw [headerRun_some (h2 y)]; exact h3
      | err e =>
        by_cases he : e = .partialData
        · subst he
          obtain ⟨x, hx, h1⟩ := helps_parseHeaderLine buf hb
          cases hv : parseHeaderLine (buf ++ x) with
          | mk v r' =>
            cases v with
            | panic =>
              refine ⟨x, hx, ?_⟩
              unfold headerRun
              rw [forget_loop_succ, hv]; simp [thenRead]
            | err e' =>
              refine ⟨x, hx, ?_⟩
              unfold headerRun
              rw [loop_err hv]
              rw [hv] at h1
              simpa using h1
            | ok o =>
              obtain ⟨u, hne, e1, hu⟩ := exact_parseHeaderLine _ _ _ hv
              have hlen : buf.length ≤ u.length := by
                apply Nat.le_of_not_lt
                intro hlt
                have hbuf : buf = u ++ buf.drop u.length := by
                  have h5 := congrArg (List.take buf.length) e1
                  rw [List.take_left, List.take_append, List.take_of_length_le (by omega)] at h5
                  have h6 := congrArg (List.drop u.length) h5
                  rw [List.drop_left] at h6
                  rw [h6]; exact h5
                have h7 := (streams_parseHeaderLine.ext _ _ _ hu).2 (buf.drop u.length)
                rw [← hbuf, hl] at h7
                simp at h7
              have hux : u = buf ++ x.take (u.length - buf.length) := by
                have h5 := congrArg (List.take u.length) e1
                rw [List.take_left, List.take_append, List.take_of_length_le hlen] at h5
                exact h5.symm
              have hou : Orderly (buf ++ x.take (u.length - buf.length)) := by
                rw [← hux]; exact orderly_prefix (by rw [← e1]; exact hx)
              rw [hux] at hu
              cases o with
              | none =>
                refine ⟨_, hou, ?_⟩
                unfold headerRun
                rw [loop_none hu]; simp
              | some a => exact lf hou hu
        · refine ⟨[], by simpa using hb, ?_⟩
          unfold headerRun
          rw [List.append_nil, loop_err hl]
          simpa using he

theorem helps_parseHeader (m : HeaderMap) : Helps fun buf => forget (parseHeader m buf) :=
  fun buf hb => helps_headerRun _ [] buf (Nat.le_refl _) hb

theorem thenRead_then {α β γ : Type} (x : Res α × Bytes) (f : α → Bytes → Res β × Bytes) (g : β → Bytes → Res γ × Bytes) :
    thenRead (thenRead x f) g = thenRead x fun a buf => thenRead (f a buf) g := by
  obtain ⟨v, r⟩ := x
  cases v <;> rfl

theorem status_not_partial (t : Bytes) : statusFromBytes t ≠ .err .partialData := by
  unfold statusFromBytes; repeat' split <;> try simp

theorem version_not_partial (t : Bytes) : versionOfToken t ≠ .err .partialData := by
  unfold versionOfToken; repeat' split <;> try simp

theorem helps_response (r : Response) : Helps fun buf => forget (r.parseHead buf) := by
  rw [funext (forget_response r)]
  refine helps_then streams_skipEmptyLines helps_skipEmptyLines fun _ =>
    helps_then (streams_onToken (streams_token _ _ _) _) (helps_onToken (streams_token _ _ _) (helps_token _ _ _ (by decide) (by decide)) _ version_not_partial) fun v =>
    helps_then streams_skipSpaces helps_skipSpaces fun _ =>
    helps_then (streams_onToken (streams_token _ _ _) _) (helps_onToken (streams_token _ _ _) (helps_token _ _ _ (by decide) (by decide)) _ status_not_partial) fun s =>
    helps_then streams_skipSpaces helps_skipSpaces fun _ => ?_
  have e : (fun buf => thenRead (parseStatusToken buf) fun _ buf => thenRead (skipNewLine buf) fun _ buf =>
      thenRead (forget (parseHeader [] buf)) fun p buf => ((.ok ((), (⟨s, v, p.2, false⟩ : Response)) : Res (Unit × Response)), buf)) =
      fun buf => thenRead (tokenLine isStatusToken .token (fun t => .ok t) buf) fun _ buf =>
        thenRead (forget (parseHeader [] buf)) fun p buf => (.ok ((), ⟨s, v, p.2, false⟩), buf) := by
    funext buf
    unfold tokenLine onToken
    rw [thenRead_then, thenRead_then]
    unfold parseStatusToken
    congr 1
    funext _ b
    rw [thenRead, thenRead_then]; rfl
  rw [e]
  refine helps_then (streams_tokenLine _ _ _) (helps_tokenLine _ _ _ (by decide) (by simp) ?_ (by decide)) fun _ =>
    helps_then (streams_parseHeader []) (helps_parseHeader []) fun _ => helps_const _ (by simp)
  unfold PlainByte
  intro b
  revert b
  decide +kernel

/-! ## Requests -/

theorem urlToken_verdict (raw : Bytes) (h : (37 : UInt8) ∉ raw) : urlTokenLoop raw = .ok raw := by
  induction raw with
  | nil => rfl
  | cons b r ih =>
    simp only [List.mem_cons, not_or] at h
    rw [urlTokenLoop_plain r (fun hb => h.1 hb.symm), ih h.2]; rfl

theorem parseUrlToken_verdict {raw : Bytes} (h : (37 : UInt8) ∉ raw) : parseUrlToken raw ≠ .err .partialData := by
  unfold parseUrlToken
  rw [urlToken_verdict raw h]
  show (if utf8Valid raw = true then Res.ok raw else .err .urlInvalid) ≠ _
  split <;> simp

/-- No part of the state has a `%`. -/
structure NoPercent (s : UrlState) : Prop where
  username : ∀ v, s.username = some v → (37 : UInt8) ∉ v
  password : ∀ v, s.password = some v → (37 : UInt8) ∉ v
  domain : ∀ v, s.domain = some v → (37 : UInt8) ∉ v
  port : ∀ v, s.port = some v → (37 : UInt8) ∉ v
  path : ∀ v, s.path = some v → (37 : UInt8) ∉ v
  query : ∀ v, s.query = some v → (37 : UInt8) ∉ v
  val : (37 : UInt8) ∉ s.val

theorem noPercent_finish {s : UrlState} (h : NoPercent s) : NoPercent s.finish := by
  obtain ⟨h1, h2, h3, h4, h5, h6, h7⟩ := h
  unfold UrlState.finish
  repeat' split
  all_goals constructor <;> simp_all

theorem noPercent_step {s s' : UrlState} {b : UInt8} (h : NoPercent s) (hb : b ≠ 37) (hs : s.step b = .ok s') : NoPercent s' := by
  obtain ⟨h1, h2, h3, h4, h5, h6, h7⟩ := h
  have hb' : ¬ (37 : UInt8) = b := fun h => hb h.symm
  unfold UrlState.step at hs
  repeat' split at hs
  all_goals first
    | (simp only [Res.ok.injEq] at hs; subst hs; constructor <;> simp_all)
    | simp at hs

theorem step_not_partial (s : UrlState) (b : UInt8) : s.step b ≠ .err .partialData := by
  unfold UrlState.step
  repeat' split
  all_goals simp

theorem run_verdict {s : UrlState} {buf : Bytes} (h : NoPercent s) (hb : (37 : UInt8) ∉ buf) :
    s.run buf ≠ .err .partialData ∧ ∀ s', s.run buf = .ok s' → NoPercent s' := by
  induction buf generalizing s with
  | nil =>
    refine ⟨by simp [UrlState.run], fun s' hs => ?_⟩
    simp only [UrlState.run, Res.ok.injEq] at hs
    rw [← hs]; exact noPercent_finish h
  | cons b r ih =>
    simp only [List.mem_cons, not_or] at hb
    rw [UrlState.run]
    cases hs : s.step b with
    | ok s1 => exact ih (noPercent_step h (fun e => hb.1 e.symm) hs) hb.2
    | err e =>
      refine ⟨?_, fun s' h' => by simp [Bind.bind, Res.bind] at h'⟩
      simp only [Bind.bind, Res.bind, ne_eq, Res.err.injEq]
      intro he
      exact step_not_partial s b (by rw [hs, he])
    | panic => exact ⟨by simp [Bind.bind, Res.bind], fun s' h' => by simp [Bind.bind, Res.bind] at h'⟩

theorem bind_not_partial {α β : Type} {x : Res α} {f : α → Res β} (h : x ≠ .err .partialData)
    (hf : ∀ a, x = .ok a → f a ≠ .err .partialData) : (x >>= f) ≠ .err .partialData := by
  cases x with
  | ok a => exact hf a rfl
  | err e => simpa [Bind.bind, Res.bind] using h
  | panic => simp [Bind.bind, Res.bind]

theorem parseOptToken_verdict {o : Option Bytes} (h : ∀ v, o = some v → (37 : UInt8) ∉ v) : parseOptToken o ≠ .err .partialData := by
  cases o with
  | none => simp [parseOptToken]
  | some v => exact bind_not_partial (parseUrlToken_verdict (h v rfl)) (by simp)

theorem build_verdict {scheme : Scheme} {s : UrlState} (h : NoPercent s) : s.build scheme ≠ .err .partialData := by
  unfold UrlState.build
  refine bind_not_partial (parseOptToken_verdict h.username) fun _ _ => bind_not_partial (parseOptToken_verdict h.password) fun _ _ =>
    bind_not_partial (parseOptToken_verdict h.domain) fun _ _ => bind_not_partial ?_ fun _ _ => bind_not_partial ?_ fun _ _ =>
    bind_not_partial (parseOptToken_verdict h.query) (by simp)
  · have := h.port
    revert this
    cases s.port with
    | none => intro _; simp [parsePort]
    | some v =>
      intro this
      refine bind_not_partial (parseUrlToken_verdict (this v rfl)) fun _ _ => ?_
      split <;> simp
  · have := h.path
    revert this
    cases s.path with
    | none => intro _; simp [parsePath]
    | some v => intro this; exact parseUrlToken_verdict (this v rfl)

theorem urlParse_verdict {path : Bytes} (h : (37 : UInt8) ∉ path) (h47 : path.head? = some 47) : Url.parse path ≠ .err .partialData := by
  cases path with
  | nil => simp at h47
  | cons b r =>
    simp only [List.head?_cons, Option.some.injEq] at h47
    subst h47
    unfold Url.parse
    simp only
    rw [if_neg (by decide), if_pos trivial]
    have hn : NoPercent { isFirstSlash := true, hasDomain := false } := by constructor <;> simp
    have := run_verdict hn h
    exact bind_not_partial this.1 fun s hs => build_verdict (this.2 s hs)

theorem connectByHost_verdict (u : Url) (h : Bytes) : connectByHost u h ≠ .err .partialData := by
  unfold connectByHost
  repeat' split
  all_goals simp

theorem urlStep_verdict {path : Bytes} (method : Method) (version : Version) (m : HeaderMap) (h : (37 : UInt8) ∉ path)
    (h47 : path.head? = some 47) : urlStep method version path m ≠ .err .partialData := by
  have : requestUrl method m path ≠ .err .partialData := by
    unfold requestUrl
    split
    · exact connectByHost_verdict _ _
    · refine bind_not_partial (urlParse_verdict h h47) fun u _ => bind_not_partial ?_ (by simp)
      unfold fillHost
      split
      · split
        · exact connectByHost_verdict _ _
        · simp
      · simp
  unfold urlStep
  cases hr : requestUrl method m path with
  | ok u => simp
  | err e => rw [hr] at this; simpa using this
  | panic => simp

/-- The first part of a request head: up to the end of the target. -/
def requestFront (buf : Bytes) : Res (Method × Bytes) × Bytes :=
  thenRead (skipEmptyLines buf) fun _ buf => thenRead (parseMethod buf) fun method buf =>
    thenRead (skipSpaces buf) fun _ buf => thenRead (parseToken buf) fun path buf => (.ok (method, path), buf)

/-- The rest. -/
def requestBack (method : Method) (path buf : Bytes) : Res (Unit × Request) × Bytes :=
  thenRead (skipSpaces buf) fun _ buf => thenRead (tokenLine isToken .token versionOfToken buf) fun version buf =>
    thenRead (forget (parseHeader [] buf)) fun p buf => (urlStep method version path p.2, buf)

theorem request_split (r : Request) (buf : Bytes) : forget (r.parseHead buf) =
    thenRead (requestFront buf) fun mp buf => requestBack mp.1 mp.2 buf := by
  rw [forget_request]
  unfold requestFront requestBack tokenLine parseVersion
  simp only [thenRead_then]
  rfl

theorem streams_requestFront : Streams requestFront :=
  streams_then streams_skipEmptyLines fun _ => streams_then (streams_onToken (streams_token _ _ _) _) fun _ =>
    streams_then streams_skipSpaces fun _ => streams_then (streams_token _ _ _) fun _ => streams_const _

theorem helps_requestBack (method : Method) {path : Bytes} (h : (37 : UInt8) ∉ path) (h47 : path.head? = some 47) :
    Helps (requestBack method path) := by
  refine helps_then streams_skipSpaces helps_skipSpaces fun _ => helps_then (streams_tokenLine _ _ _)
    (helps_tokenLine _ _ _ (by decide) version_not_partial ?_ (by decide)) fun version =>
    helps_then (streams_parseHeader []) (helps_parseHeader []) fun _ => helps_const _ (urlStep_verdict method version _ h h47)
  unfold PlainByte
  intro b
  revert b
  decide +kernel

theorem skipEmptyLines_ok (buf : Bytes) (n : Nat) (hn : buf.length ≤ n) {r : Bytes} (h : skipEmptyLines buf = (.ok (), r)) :
    ∃ u, buf = u ++ r ∧ (32 : UInt8) ∉ u ∧ r ≠ [] := by
  induction n generalizing buf with
  | zero =>
    have : buf = [] := List.length_eq_zero_iff.mp (by omega)
    subst this; simp [skipEmptyLines] at h
  | succ n ih =>
    match buf with
    | [] => simp [skipEmptyLines] at h
    | [b] =>
      simp only [skipEmptyLines] at h
      split at h
      · simp at h
      · split at h
        · simp at h
        · simp only [Prod.mk.injEq, true_and] at h
          exact ⟨[], by simp [h], by simp, by simp [← h]⟩
    | b :: c :: r' =>
      simp only [List.length_cons] at hn
      simp only [skipEmptyLines] at h
      split at h
      · rename_i hb
        split at h
        · rename_i hc
          obtain ⟨u, h1, h2, h3⟩ := ih r' (by omega) h
          exact ⟨b :: c :: u, by rw [h1]; rfl, by subst hb hc; simp [h2], h3⟩
        · simp at h
      · split at h
        · rename_i hb
          obtain ⟨u, h1, h2, h3⟩ := ih (c :: r') (by simp; omega) h
          exact ⟨b :: u, by rw [h1]; rfl, by subst hb; simp [h2], h3⟩
        · simp only [Prod.mk.injEq, true_and] at h
          exact ⟨[], by simp [h], by simp, by simp [← h]⟩

theorem skipEmptyLines_partial (buf : Bytes) (n : Nat) (hn : buf.length ≤ n) {r : Bytes} (h : skipEmptyLines buf = (.err .partialData, r)) :
    skipEmptyLines (buf ++ [10, 32]) = (.ok (), [32]) := by
  induction n generalizing buf with
  | zero =>
    have : buf = [] := List.length_eq_zero_iff.mp (by omega)
    subst this; decide
  | succ n ih =>
    match buf with
    | [] => decide
    | [b] =>
      simp only [skipEmptyLines] at h
      split at h
      · rename_i hb; subst hb; decide
      · split at h
        · rename_i hb; subst hb; decide
        · simp at h
    | b :: c :: r' =>
      simp only [List.length_cons] at hn
      simp only [skipEmptyLines] at h
      simp only [List.cons_append, skipEmptyLines]
      split at h
      · rename_i hb
        rw [if_pos hb]
        split at h
        · rename_i hc
          rw [if_pos hc]
          exact ih r' (by omega) h
        · simp at h
      · rename_i hb
        rw [if_neg hb]
        split at h
        · rename_i hb'
          rw [if_pos hb']
          exact ih (c :: r') (by simp; omega) h
        · simp at h

theorem skipSpaces_split {buf r : Bytes} (h : skipSpaces buf = (.ok (), r)) :
    ∃ k, buf = List.replicate k 32 ++ r ∧ r ≠ [] := by
  induction buf with
  | nil => simp [skipSpaces] at h
  | cons b buf ih =>
    simp only [skipSpaces] at h
    split at h
    · rename_i hb
      obtain ⟨k, h1, h2⟩ := ih h
      exact ⟨k + 1, by rw [hb, h1]; rfl, h2⟩
    · simp only [Prod.mk.injEq, true_and] at h
      exact ⟨0, by simp [h], by simp [← h]⟩

theorem token_split {f : UInt8 → Bool} {e : Error} {buf t r : Bytes} (h : parseTokenBy f e buf = (.ok t, r)) :
    buf = t ++ r ∧ t ≠ [] ∧ t.all f = true ∧ r ≠ [] ∧ ∀ c s, r = c :: s → f c = false := by
  unfold parseTokenBy at h
  by_cases ha : buf.all f = true
  · rw [parseTokenEmpty_all _ _ ha] at h; simp at h
  · obtain ⟨t', b, s, rfl, h2, h3, _⟩ := scan_spec ha
    rw [parseTokenEmpty_eq _ _ h2 h3] at h
    split at h
    · simp at h
    · rename_i hne
      simp only [Prod.mk.injEq, Res.ok.injEq] at h
      obtain ⟨rfl, rfl⟩ := h
      refine ⟨rfl, hne, h2, by simp, ?_⟩
      intro c s' e
      simp only [List.cons.injEq] at e
      rw [← e.1]; exact h3

/-- Where the target is. -/
theorem requestFront_ok {buf r path : Bytes} {m : Method} (h : requestFront buf = (.ok (m, path), r)) :
    ∃ a k, buf = a ++ 32 :: (List.replicate k 32 ++ (path ++ r)) ∧ (32 : UInt8) ∉ a ∧ path ≠ [] ∧ r ≠ [] := by
  obtain ⟨_, r0, h0, h⟩ := thenRead_ok h
  obtain ⟨m', r1, h1, h⟩ := thenRead_ok h
  obtain ⟨_, r2, h2, h⟩ := thenRead_ok h
  obtain ⟨p, r3, h3, h⟩ := thenRead_ok h
  simp only [Prod.mk.injEq, Res.ok.injEq] at h
  obtain ⟨⟨rfl, rfl⟩, rfl⟩ := h
  obtain ⟨t, r1', h5, h4⟩ := thenRead_ok h1
  simp only [Prod.mk.injEq] at h4
  obtain ⟨-, rfl⟩ := h4
  obtain ⟨u, e0, hu, -⟩ := skipEmptyLines_ok _ _ (Nat.le_refl _) h0
  obtain ⟨e1, ht, hta, hr1, hc⟩ := token_split h5
  obtain ⟨k, e2, -⟩ := skipSpaces_split h2
  obtain ⟨e3, hp, hpa, hr3, -⟩ := token_split h3
  cases k with
  | zero =>
    exfalso
    cases p with
    | nil => exact hp rfl
    | cons c p =>
      have : isToken c = false := hc c (p ++ r3) (by rw [e2, e3]; rfl)
      simp [this] at hpa
  | succ k =>
    refine ⟨u ++ t, k, ?_, ?_, hp, hr3⟩
    · rw [e0, e1, e2, e3, List.replicate_succ]; simp
    · simp only [List.mem_append, not_or]
      refine ⟨hu, fun hm => ?_⟩
      have := List.all_eq_true.mp hta _ hm
      exact absurd this (by decide)

theorem slash_path {buf r path : Bytes} {k : Nat} {a : Bytes} (hs : SlashTarget buf)
    (e : buf = a ++ 32 :: (List.replicate k 32 ++ (path ++ r))) (ha : (32 : UInt8) ∉ a) (hp : path ≠ []) :
    (37 : UInt8) ∉ path ∧ path.head? = some 47 := by
  refine ⟨fun hm => hs.2 (by rw [e]; simp [hm]), ?_⟩
  cases k with
  | succ k =>
    have := hs.1 a 32 (List.replicate k 32 ++ (path ++ r)) (by rw [e]; simp [List.replicate_succ]) ha
    exact absurd this (by decide)
  | zero =>
    cases path with
    | nil => exact absurd rfl hp
    | cons c path =>
      have := hs.1 a c (path ++ r) (by rw [e]; simp) ha
      simp [this]

theorem ends_lf {l u r : Bytes} (h : l ++ [10] = u ++ r) (hr : r ≠ []) : ∃ r', r = r' ++ [10] ∧ l = u ++ r' := by
  obtain ⟨r', b, rfl⟩ : ∃ r' b, r = r' ++ [b] := ⟨r.dropLast, r.getLast hr, (List.dropLast_concat_getLast hr).symm⟩
  rw [← List.append_assoc] at h
  obtain ⟨h1, h2⟩ := List.append_inj' h rfl
  simp only [List.cons.injEq, and_true] at h2
  subst h2
  exact ⟨r', rfl, h1⟩

theorem method_not_partial (t : Bytes) : Method.tryFrom t ≠ .err .partialData := by
  unfold Method.tryFrom; repeat' split <;> try simp

theorem token_lf {f : UInt8 → Bool} (hf : f 10 = false) (buf : Bytes) : (parseTokenBy f .token (buf ++ [10])).1 ≠ .err .partialData := by
  unfold parseTokenBy
  obtain ⟨t, b, s, h1, h2, h3, _⟩ := scan_spec (f := f) (buf := buf ++ [10]) (by simp [hf])
  rw [h1, parseTokenEmpty_eq _ _ h2 h3]
  split <;> simp

theorem thenRead_verdict {α β : Type} {x : Res α × Bytes} {f : α → Bytes → Res β × Bytes} (h : x.1 ≠ .err .partialData)
    (hf : ∀ a r, x = (.ok a, r) → (f a r).1 ≠ .err .partialData) : (thenRead x f).1 ≠ .err .partialData := by
  obtain ⟨v, r⟩ := x
  cases v with
  | ok a => exact hf a r rfl
  | err e => simpa [thenRead] using h
  | panic => simp [thenRead]

/-- After the empty lines an LF brings a verdict on the first part. -/
theorem requestFront_lf {buf : Bytes} (h : (skipEmptyLines buf).1 ≠ .err .partialData) :
    (requestFront (buf ++ [10])).1 ≠ .err .partialData := by
  have h0 : ∀ v r, skipEmptyLines buf = (v, r) → v ≠ .panic → skipEmptyLines (buf ++ [10]) = (v, r ++ [10]) := by
    intro v r hv hp
    cases v with
    | ok _ => exact (streams_skipEmptyLines.ext _ _ _ hv).2 [10]
    | err e => exact final_skipEmptyLines _ _ _ hv (by rw [hv] at h; simpa using h) [10]
    | panic => exact absurd rfl hp
  cases hv : skipEmptyLines buf with
  | mk v r =>
    rw [hv] at h
    cases v with
    | panic =>
      exfalso
      have : ∀ n (buf : Bytes), buf.length ≤ n → (skipEmptyLines buf).1 ≠ .panic := by
        intro n
        induction n with
        | zero =>
          intro buf hn
          have : buf = [] := List.length_eq_zero_iff.mp (by omega)
          subst this; decide
        | succ n ih =>
          intro buf hn
          match buf with
          | [] => decide
          | [b] => simp only [skipEmptyLines]; repeat' split <;> try simp
          | b :: c :: r' =>
            simp only [List.length_cons] at hn
            simp only [skipEmptyLines]
            split
            · split
              · exact ih r' (by omega)
              · simp
            · split
              · exact ih (c :: r') (by simp; omega)
              · simp
      exact this _ _ (Nat.le_refl _) (by rw [hv])
    | err e =>
      unfold requestFront
      rw [h0 _ _ hv (by simp)]
      simpa [thenRead] using h
    | ok _ =>
      unfold requestFront
      rw [h0 _ _ hv (by simp)]
      simp only [thenRead]
      refine thenRead_verdict ?_ fun m r1 h1 => ?_
      · exact thenRead_verdict (token_lf (by decide) _) fun t _ _ => method_not_partial t
      · obtain ⟨t, r1', h5, h4⟩ := thenRead_ok h1
        simp only [Prod.mk.injEq] at h4
        obtain ⟨-, rfl⟩ := h4
        obtain ⟨e1, -, -, hr1, -⟩ := token_split h5
        obtain ⟨q, rfl, -⟩ := ends_lf e1 hr1
        refine thenRead_verdict ?_ fun _ r2 h2 => ?_
        · have : ∀ q : Bytes, (skipSpaces (q ++ [10])).1 ≠ .err .partialData := by
            intro q
            induction q with
            | nil => simp [skipSpaces]
            | cons b q ih =>
              simp only [List.cons_append, skipSpaces]
              split
              · exact ih
              · simp
          exact this q
        · obtain ⟨k, e2, hr2⟩ := skipSpaces_split h2
          obtain ⟨q2, rfl, -⟩ := ends_lf e2 hr2
          exact thenRead_verdict (token_lf (by decide) _) (by simp)

theorem request_verdict (r : Request) (buf : Bytes) (hb : Orderly buf) (hs : SlashTarget buf) :
    ∃ x, (forget (r.parseHead (buf ++ x))).1 ≠ .err .partialData := by
  simp only [request_split]
  by_cases h0 : (skipEmptyLines buf).1 = .err .partialData
  · refine ⟨[10, 32], ?_⟩
    cases hv : skipEmptyLines buf with
    | mk v q =>
      rw [hv] at h0
      simp only at h0
      subst h0
      unfold requestFront
      rw [skipEmptyLines_partial _ _ (Nat.le_refl _) hv]
      decide
  · have back : ∀ (x : Bytes) (m : Method) (path q : Bytes), requestFront (buf ++ x) = (.ok (m, path), q) → Orderly q →
        (37 : UInt8) ∉ path ∧ path.head? = some 47 → ∃ x, (thenRead (requestFront (buf ++ x)) fun mp buf => requestBack mp.1 mp.2 buf).1 ≠ .err .partialData := by
      intro x m path q hq hoq ⟨h37, h47⟩
      obtain ⟨y, -, h3⟩ := helps_requestBack m h37 h47 q hoq
      refine ⟨x ++ y, ?_⟩
      rw [← List.append_assoc, (streams_requestFront.ext _ _ _ hq).2 y]
      exact h3
    cases hv : requestFront buf with
    | mk v q =>
      cases v with
      | panic => exact ⟨[], by simp [hv, thenRead]⟩
      | ok mp =>
        obtain ⟨m, path⟩ := mp
        obtain ⟨⟨u, hu⟩, -⟩ := streams_requestFront.ext _ _ _ hv
        obtain ⟨a, k, e, ha, hp, -⟩ := requestFront_ok hv
        exact back [] m path q (by simpa using hv) (orderly_suffix (by rw [← hu]; exact hb)) (slash_path hs e ha hp)
      | err e =>
        by_cases he : e = .partialData
        · have h1 := requestFront_lf h0
          cases hw : requestFront (buf ++ [10]) with
          | mk w q' =>
            rw [hw] at h1
            cases w with
            | panic => exact ⟨[10], by simp [hw, thenRead]⟩
            | err e' => exact ⟨[10], by simpa [hw, thenRead] using h1⟩
            | ok mp =>
              obtain ⟨m, path⟩ := mp
              obtain ⟨⟨u, hu⟩, -⟩ := streams_requestFront.ext _ _ _ hw
              obtain ⟨a, k, e2, ha, hp, hq'⟩ := requestFront_ok hw
              have e3 : buf ++ [10] = (a ++ 32 :: (List.replicate k 32 ++ path)) ++ q' := by simpa using e2
              obtain ⟨q'', -, e4⟩ := ends_lf e3 hq'
              exact back [10] m path q' hw (orderly_suffix (by rw [← hu]; exact orderly_lf hb))
                (slash_path (r := q'') hs (by simpa using e4) ha hp)
        · exact ⟨[], by simpa [hv, thenRead] using he⟩

end Webparse
