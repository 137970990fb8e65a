import Verif.Props.UncheckedText

/-! # C127, exactly: an accepted head gives `unsafe` code what it requires if and only if the head is UTF-8 -/

namespace Webparse
open Spec

/-- What was read, `buf` up to `r`, is ASCII. -/
def AsciiRead (buf r : Bytes) : Prop := ∃ u : Bytes, (∀ b ∈ u, b < 0x80) ∧ buf = u ++ r

theorem AsciiRead.refl (buf : Bytes) : AsciiRead buf buf := ⟨[], by simp, rfl⟩

theorem AsciiRead.cons {b : UInt8} {buf r : Bytes} (hb : b < 0x80) (h : AsciiRead buf r) : AsciiRead (b :: buf) r := by
  obtain ⟨u, hu, rfl⟩ := h
  exact ⟨b :: u, by simpa using ⟨hb, hu⟩, rfl⟩

theorem AsciiRead.trans {a b c : Bytes} (h1 : AsciiRead a b) (h2 : AsciiRead b c) : AsciiRead a c := by
  obtain ⟨u, hu, rfl⟩ := h1
  obtain ⟨v, hv, rfl⟩ := h2
  refine ⟨u ++ v, fun x hx => ?_, by simp⟩
  rcases List.mem_append.mp hx with h | h
  · exact hu x h
  · exact hv x h

theorem AsciiRead.utf8 {buf r : Bytes} (h : AsciiRead buf r) : IsUtf8 buf ↔ IsUtf8 r := by
  obtain ⟨u, hu, rfl⟩ := h
  exact ⟨utf8_drop hu, isUtf8_append (isUtf8_ascii u hu)⟩

theorem read_spaces {buf r : Bytes} (h : skipSpaces buf = (.ok (), r)) : AsciiRead buf r := by
  induction buf with
  | nil => simp [skipSpaces] at h
  | cons b buf ih =>
    unfold skipSpaces at h
    split at h
    next hb => exact (ih h).cons (by rw [hb]; decide)
    next => simp only [Prod.mk.injEq, true_and] at h; rw [← h]; exact .refl _

theorem read_expect {c : UInt8} {e : Error} {buf r : Bytes} (hc : c < 0x80) (h : expectByte c e buf = (.ok (), r)) : AsciiRead buf r := by
  cases buf with
  | nil => simp [expectByte] at h
  | cons b buf =>
    unfold expectByte at h
    by_cases hb : b = c
    · simp only [hb, if_true, Prod.mk.injEq, true_and] at h
      rw [← h]
      exact (AsciiRead.refl _).cons (by rw [hb]; exact hc)
    · simp [hb] at h

theorem read_newLine {buf r : Bytes} (h : skipNewLine buf = (.ok (), r)) : AsciiRead buf r := by
  cases buf with
  | nil => simp [skipNewLine, nextByte, thenRead] at h
  | cons b buf =>
    simp only [skipNewLine, nextByte, thenRead] at h
    split at h
    next hb => exact (read_expect (by decide) h).cons (by rw [hb]; decide)
    next =>
      split at h
      next hb =>
        simp only [Prod.mk.injEq, true_and] at h
        rw [← h]; exact (AsciiRead.refl _).cons (by rw [hb]; decide)
      next =>
        split at h
        next hb =>
          simp only [Prod.mk.injEq, true_and] at h
          rw [← h]; exact (AsciiRead.refl _).cons (by rw [hb]; decide)
        next => simp at h

theorem read_emptyLines (k : Nat) : ∀ {buf r : Bytes}, buf.length ≤ k → skipEmptyLines buf = (.ok (), r) → AsciiRead buf r := by
  induction k with
  | zero =>
    intro buf r hk h
    cases buf with
    | nil => simp [skipEmptyLines] at h
    | cons => simp at hk
  | succ k ih =>
    intro buf r hk h
    match buf, hk, h with
    | [], _, h => simp [skipEmptyLines] at h
    | [b], _, h =>
      unfold skipEmptyLines at h
      split at h
      · simp at h
      · split at h
        · simp at h
        · simp only [Prod.mk.injEq, true_and] at h; rw [← h]; exact .refl _
    | b :: c :: s, hk, h =>
      unfold skipEmptyLines at h
      simp only [List.length_cons] at hk
      split at h
      next hb =>
        split at h
        next hc => exact ((ih (by omega) h).cons (by rw [hc]; decide)).cons (by rw [hb]; decide)
        next => simp at h
      next =>
        split at h
        next hb => exact (ih (by simp only [List.length_cons]; omega) h).cons (by rw [hb]; decide)
        next => simp only [Prod.mk.injEq, true_and] at h; rw [← h]; exact .refl _

theorem read_token {func : UInt8 → Bool} {e : Error} {buf v r : Bytes} (hf : ∀ b, func b = true → b < 0x80)
    (h : parseTokenEmpty func e false buf = (.ok v, r)) : AsciiRead buf r := by
  obtain ⟨e, _, hv, _⟩ := token_cut h
  exact ⟨v, fun b hb => hf b (hv b hb), e⟩

theorem read_onToken {α : Type} {conv : Bytes → Res α} {buf r : Bytes} {a : α} (h : onToken (parseToken buf) conv = (.ok a, r)) :
    AsciiRead buf r := by
  obtain ⟨v, e, hv⟩ := onToken_cut h
  exact ⟨v, hv, e⟩

theorem read_value {buf v r : Bytes} (h : parseHeaderValue buf = (.ok v, r)) : IsUtf8 buf ↔ IsUtf8 v ∧ IsUtf8 r := by
  refine ⟨value_utf8 h, fun ⟨h1, h2⟩ => ?_⟩
  rcases token_cut_empty h with ⟨e, _, c, s, hr, hc⟩ | ⟨rfl, c, e, hc⟩
  · rw [e]; exact isUtf8_append h1 h2
  · rw [e]
    exact ((AsciiRead.refl r).cons (by rw [value_stop c hc]; decide)).utf8.mpr h2

/-- A line: its texts are the name and the value, if there is one, and its bytes are UTF-8 if the value is. -/
theorem line_exact {buf r : Bytes} {h : Header} (hl : parseHeaderLine buf = (.ok (some h), r)) (next : Bytes → List Bytes) :
    ((∀ t ∈ lineTexts buf next, IsUtf8 t) ↔ IsUtf8 h.2 ∧ ∀ t ∈ next r, IsUtf8 t) ∧ (IsUtf8 buf ↔ IsUtf8 h.2 ∧ IsUtf8 r) := by
  unfold parseHeaderLine at hl
  obtain ⟨b, r1, h1, hl⟩ := thenRead_ok hl
  by_cases hb : b = 13
  · rw [if_pos hb] at hl
    obtain ⟨_, _, _, hl⟩ := thenRead_ok hl
    obtain ⟨_, _, _, hl⟩ := thenRead_ok hl
    simp at hl
  rw [if_neg hb] at hl
  by_cases hb' : b = 10
  · rw [if_pos hb'] at hl
    obtain ⟨_, _, _, hl⟩ := thenRead_ok hl
    simp at hl
  rw [if_neg hb'] at hl
  obtain ⟨n, r2, h2, hl⟩ := thenRead_ok hl
  obtain ⟨_, r3, h3, hl⟩ := thenRead_ok hl
  obtain ⟨_, r4, h4, hl⟩ := thenRead_ok hl
  obtain ⟨_, r5, h5, hl⟩ := thenRead_ok hl
  obtain ⟨v, r6, h6, hl⟩ := thenRead_ok hl
  obtain ⟨_, r7, h7, hl⟩ := thenRead_ok hl
  simp only [Prod.mk.injEq, Res.ok.injEq, Option.some.injEq] at hl
  obtain ⟨rfl, rfl⟩ := hl
  unfold parseHeaderName at h2
  obtain ⟨tok, r2', h2t, e2⟩ := thenRead_ok h2
  simp only [Prod.mk.injEq] at e2
  obtain ⟨_, rfl⟩ := e2
  have hbuf : buf = r1 ∧ buf.head? = some b := by
    cases buf with
    | nil => simp [peekByte] at h1
    | cons x y =>
      simp only [peekByte, Prod.mk.injEq, Res.ok.injEq] at h1
      exact ⟨h1.2, by rw [h1.1]; rfl⟩
  have key : lineTexts buf next = (if tok = [] then [] else [tok]) ++ ((if v = [] then [] else [v]) ++ next r7) := by
    unfold lineTexts
    rw [h1]
    simp only [afterRead]
    rw [if_neg (by rw [← hbuf.1, hbuf.2]; simp [hb, hb'])]
    unfold withText
    rw [token_error (e' := .token) h2t]
    simp only
    rw [h3]
    simp only
    rw [h4]
    simp only
    rw [h5]
    simp only
    rw [token_error (e' := .token) h6]
    simp only
    rw [h7]
  have htok : IsUtf8 tok := by
    obtain ⟨_, _, hv, _⟩ := token_cut h2t
    exact isUtf8_ascii tok fun b hb => ascii_name b (hv b hb)
  have opt : ∀ (x t : Bytes), IsUtf8 x → t ∈ (if x = [] then [] else [x]) → IsUtf8 t := by
    intro x t hx ht
    split at ht
    · simp at ht
    · rw [List.mem_singleton] at ht; rw [ht]; exact hx
  constructor
  · rw [key]
    constructor
    · intro h
      refine ⟨?_, fun t ht => h t (by simp [ht])⟩
      by_cases hv : v = []
      · simp only [hv]; exact isUtf8_nil
      · exact h v (by simp [hv])
    · rintro ⟨hv, hn⟩ t ht
      rcases List.mem_append.mp ht with ht | ht
      · exact opt tok t htok ht
      · rcases List.mem_append.mp ht with ht | ht
        · exact opt v t hv ht
        · exact hn t ht
  · rw [hbuf.1, ((read_token ascii_name h2t).trans ((read_spaces h3).trans ((read_expect (by decide) h4).trans (read_spaces h5)))).utf8,
      read_value h6, (read_newLine h7).utf8]

theorem line_end {buf r : Bytes} (hl : parseHeaderLine buf = (.ok none, r)) (next : Bytes → List Bytes) :
    lineTexts buf next = [] ∧ AsciiRead buf r := by
  unfold parseHeaderLine at hl
  obtain ⟨b, r1, h1, hl⟩ := thenRead_ok hl
  cases buf with
  | nil => simp [peekByte] at h1
  | cons x y =>
    simp only [peekByte, Prod.mk.injEq, Res.ok.injEq] at h1
    obtain ⟨rfl, rfl⟩ := h1
    by_cases hb : x = 13
    · rw [if_pos hb] at hl
      obtain ⟨_, r2, h2, hl⟩ := thenRead_ok hl
      obtain ⟨_, r3, h3, hl⟩ := thenRead_ok hl
      simp only [Prod.mk.injEq, true_and] at hl
      simp only [nextByte, Prod.mk.injEq] at h2
      subst hl
      rw [← h2.2] at h3
      exact ⟨by simp [lineTexts, peekByte, afterRead, hb], (read_expect (by decide) h3).cons (by rw [hb]; decide)⟩
    · rw [if_neg hb] at hl
      by_cases hb' : x = 10
      · rw [if_pos hb'] at hl
        obtain ⟨_, r2, h2, hl⟩ := thenRead_ok hl
        simp only [Prod.mk.injEq, true_and] at hl
        simp only [nextByte, Prod.mk.injEq] at h2
        subst hl
        exact ⟨by simp [lineTexts, peekByte, afterRead, hb'], by rw [← h2.2]; exact (AsciiRead.refl _).cons (by rw [hb']; decide)⟩
      · rw [if_neg hb'] at hl
        obtain ⟨_, _, _, hl⟩ := thenRead_ok hl
        obtain ⟨_, _, _, hl⟩ := thenRead_ok hl
        obtain ⟨_, _, _, hl⟩ := thenRead_ok hl
        obtain ⟨_, _, _, hl⟩ := thenRead_ok hl
        obtain ⟨_, _, _, hl⟩ := thenRead_ok hl
        obtain ⟨_, _, _, hl⟩ := thenRead_ok hl
        simp at hl

theorem headers_exact (k : Nat) : ∀ (m m' : HeaderMap) (buf r : Bytes), parseHeaderLoop k m buf = (.ok (), m', r) →
    (IsUtf8 buf ↔ (∀ t ∈ headerTexts k buf, IsUtf8 t) ∧ IsUtf8 r) := by
  induction k with
  | zero => intro m m' buf r h; simp [parseHeaderLoop] at h
  | succ k ih =>
    intro m m' buf r h
    unfold parseHeaderLoop at h
    obtain ⟨o, rest, hl, h⟩ := thenDo_ok h
    rw [headerTexts]
    cases o with
    | none =>
      simp only [onLine, Prod.mk.injEq, true_and] at h
      obtain ⟨h1, h2⟩ := line_end hl (headerTexts k)
      rw [h1, h2.utf8, h.2]
      simp
    | some x =>
      simp only [onLine] at h
      obtain ⟨h1, h2⟩ := line_exact hl (headerTexts k)
      rw [h1, h2, ih _ _ _ _ h, and_assoc]

theorem withText_iff {func : UInt8 → Bool} {e : Error} {buf v rest : Bytes} {next : Bytes → List Bytes} (hf : ∀ b, func b = true → b < 0x80)
    (h : parseTokenEmpty func e false buf = (.ok v, rest)) :
    (∀ t ∈ withText func false buf next, IsUtf8 t) ↔ ∀ t ∈ next rest, IsUtf8 t := by
  have h' := token_error (e' := .token) h
  constructor
  · intro hh t ht
    exact hh t (mem_withText h ht)
  · intro hh
    refine withText_all fun v' rest' e' => ?_
    rw [h'] at e'
    simp only [Prod.mk.injEq, Res.ok.injEq] at e'
    obtain ⟨rfl, rfl⟩ := e'
    exact ⟨(token_text hf h').1, hh⟩

/-- For a response head that is accepted: the bytes are UTF-8 exactly if all texts made of it are and what follows is.  So,
with nothing after the head, C127 holds for it if and only if it is UTF-8; missing for C127: heads that are not. -/
theorem C127_response_iff_partial (r r' : Response) (buf rest : Bytes) (h : r.parseHead buf = (.ok (), r', rest)) :
    IsUtf8 buf ↔ (∀ t ∈ responseTexts buf, IsUtf8 t) ∧ IsUtf8 rest := by
  unfold Response.parseHead at h
  obtain ⟨a1, b1, h1, h⟩ := thenDo_ok h
  obtain ⟨a2, b2, h2, h⟩ := thenDo_ok h
  obtain ⟨a3, b3, h3, h⟩ := thenDo_ok h
  obtain ⟨a4, b4, h4, h⟩ := thenDo_ok h
  obtain ⟨a5, b5, h5, h⟩ := thenDo_ok h
  obtain ⟨a6, b6, h6, h⟩ := thenDo_ok h
  obtain ⟨a7, b7, h7, h⟩ := thenDo_ok h
  obtain ⟨a8, b8, h8, h⟩ := thenDo_ok h
  simp only [Prod.mk.injEq, true_and] at h
  simp only [Prod.mk.injEq] at h8
  have key := headers_exact _ [] _ b7 b8 (Prod.ext h8.1 (Prod.ext rfl h8.2))
  have texts : (∀ t ∈ responseTexts buf, IsUtf8 t) ↔ ∀ t ∈ headerTexts (b7.length + 1) b7, IsUtf8 t := by
    unfold responseTexts
    rw [h1]
    simp only [afterRead]
    rw [withText_iff ascii_token (onToken_text h2).choose_spec]
    have e2 : parseVersion b1 = (.ok a2, b2) := h2
    have e4 : parseStatus b3 = (.ok a4, b4) := h4
    rw [e2]
    simp only
    rw [h3]
    simp only
    rw [withText_iff ascii_token (onToken_text h4).choose_spec, e4]
    simp only
    rw [h5]
    simp only
    rw [withText_iff ascii_status h6, h7]
  rw [texts, ← h.2, ← key]
  exact ((read_emptyLines _ (Nat.le_refl _) h1).trans ((read_onToken h2).trans ((read_spaces h3).trans ((read_onToken h4).trans
    ((read_spaces h5).trans ((read_token ascii_status h6).trans (read_newLine h7))))))).utf8

/-- The same for a request head. -/
theorem C127_request_iff_partial (r r' : Request) (buf rest : Bytes) (h : r.parseHead buf = (.ok (), r', rest)) :
    IsUtf8 buf ↔ (∀ t ∈ requestTexts buf, IsUtf8 t) ∧ IsUtf8 rest := by
  unfold Request.parseHead at h
  obtain ⟨a1, b1, h1, h⟩ := thenDo_ok h
  obtain ⟨a2, b2, h2, h⟩ := thenDo_ok h
  obtain ⟨a3, b3, h3, h⟩ := thenDo_ok h
  obtain ⟨a4, b4, h4, h⟩ := thenDo_ok h
  obtain ⟨a5, b5, h5, h⟩ := thenDo_ok h
  obtain ⟨a6, b6, h6, h⟩ := thenDo_ok h
  obtain ⟨a7, b7, h7, h⟩ := thenDo_ok h
  obtain ⟨a8, b8, h8, h⟩ := thenDo_ok h
  unfold Request.finishUrl at h
  obtain ⟨a9, b9, h9, h⟩ := thenDo_ok h
  simp only [Prod.mk.injEq, true_and] at h
  simp only [Prod.mk.injEq] at h8 h9
  have key := headers_exact _ [] _ b7 b8 (Prod.ext h8.1 (Prod.ext rfl h8.2))
  have texts : (∀ t ∈ requestTexts buf, IsUtf8 t) ↔ ∀ t ∈ headerTexts (b7.length + 1) b7, IsUtf8 t := by
    unfold requestTexts
    rw [h1]
    simp only [afterRead]
    have e2 : parseMethod b1 = (.ok a2, b2) := h2
    have e6 : parseVersion b5 = (.ok a6, b6) := h6
    rw [withText_iff ascii_token (onToken_text h2).choose_spec, e2]
    simp only
    rw [h3]
    simp only
    rw [withText_iff ascii_token h4]
    rw [h5]
    simp only
    rw [withText_iff ascii_token (onToken_text h6).choose_spec, e6]
    simp only
    rw [h7]
  rw [texts, ← h.2, ← h9.2, ← key]
  exact ((read_emptyLines _ (Nat.le_refl _) h1).trans ((read_onToken h2).trans ((read_spaces h3).trans ((read_token ascii_token h4).trans
    ((read_spaces h5).trans ((read_onToken h6).trans (read_newLine h7))))))).utf8

/-- A request with a value that is UTF-8 and not ASCII is accepted. -/
example : (({} : Request).parseHead (asciiBytes "GET /a HTTP/1.1\r\nhost: a\r\nx: " ++ [0xC3, 0xA9, 13, 10, 13, 10])).1 = .ok () ∧
    (({} : Request).parseHead (asciiBytes "GET /a HTTP/1.1\r\nhost: a\r\nx: " ++ [0xC3, 0xA9, 13, 10, 13, 10])).2.2 = [] := by
  decide +kernel

/-- A response with a value that is not UTF-8 is accepted. -/
example : ({} : Response).parseHead (asciiBytes "HTTP/1.1 200 OK\r\nx: " ++ [0xFF, 13, 10, 13, 10]) =
    (.ok (), { status := 200, header := [(asciiBytes "x", [0xFF])] }, []) := by decide +kernel

end Webparse
