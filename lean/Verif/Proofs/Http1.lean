import Verif.Spec.Http1
import Verif.Spec.FrameHeaders
import Verif.Proofs.Streams
import Verif.Proofs.HeaderMap
import Verif.Proofs.Status
import Verif.Proofs.Utf8
import Verif.Proofs.FrameHeaders

/-! Lemmas about HTTP/1 text. -/

namespace Webparse
open Spec

/-! ## Header lines -/

theorem isHeaderNameToken_eq (b : UInt8) : isHeaderNameToken b = isTchar b := by
  revert b; decide +kernel

theorem isHeaderValueToken_eq (b : UInt8) : isHeaderValueToken b = decide (b ≠ 13) := by
  revert b; decide +kernel

theorem skipSpaces_trim (v : Bytes) (c : UInt8) (r : Bytes) (hc : c ≠ 32) :
    skipSpaces (v ++ c :: r) = (.ok (), trimLeft v ++ c :: r) := by
  induction v with
  | nil => simp [skipSpaces, hc, trimLeft]
  | cons b v ih =>
    rw [List.cons_append, skipSpaces, trimLeft]
    by_cases hb : b = 32
    · rw [if_pos hb, if_pos hb, ih]
    · rw [if_neg hb, if_neg hb]; rfl

theorem trimLeft_sub {v : Bytes} {b : UInt8} (h : b ∈ trimLeft v) : b ∈ v := by
  induction v with
  | nil => exact h
  | cons c v ih =>
    rw [trimLeft] at h
    by_cases hc : c = 32
    · rw [if_pos hc] at h; exact List.mem_cons_of_mem _ (ih h)
    · rw [if_neg hc] at h; exact h

theorem trimLeft_head (v : Bytes) : (trimLeft v).head? ≠ some 32 := by
  induction v with
  | nil => simp [trimLeft]
  | cons c v ih =>
    rw [trimLeft]
    by_cases hc : c = 32
    · rw [if_pos hc]; exact ih
    · rw [if_neg hc]; simpa using hc

theorem trimLeft_id {v : Bytes} (h : v.head? ≠ some 32) : trimLeft v = v := by
  cases v with
  | nil => rfl
  | cons c v => rw [trimLeft, if_neg (by simpa using h)]

theorem tchar_facts (b : UInt8) : isTchar b = true → b ≠ 13 ∧ b ≠ 10 ∧ b ≠ 32 ∧ b ≠ 58 ∧ b < 0x80 := by
  revert b; decide +kernel

theorem utf8Lossy_token {n : Bytes} (h : ∀ b ∈ n, isTchar b = true) : utf8Lossy n = n :=
  utf8Lossy_valid (utf8Valid_ascii _ fun b hb => (tchar_facts b (h b hb)).2.2.2.2)

theorem parseHeaderName_eq {n : Bytes} (hne : n ≠ []) (h : ∀ b ∈ n, isTchar b = true) (c : UInt8) (hc : isTchar c = false)
    (r : Bytes) : parseHeaderName (n ++ c :: r) = (.ok n, c :: r) := by
  unfold parseHeaderName parseTokenBy
  rw [parseTokenEmpty_eq _ _ (by simpa [isHeaderNameToken_eq] using h) (by rw [isHeaderNameToken_eq, hc]), if_neg hne]
  simp only [thenRead, headerNameFromBytes, utf8Lossy_token h]

theorem parseHeaderValue_crlf {v : Bytes} (h : (13 : UInt8) ∉ v) (r : Bytes) :
    thenRead (parseHeaderValue (v ++ 13 :: 10 :: r)) (fun value buf =>
      thenRead (skipNewLine buf) fun _ buf => ((.ok value : Res Bytes), buf)) = (.ok v, r) := by
  unfold parseHeaderValue
  rw [parseTokenEmpty_eq _ _ (by
    rw [List.all_eq_true]
    intro b hb
    rw [isHeaderValueToken_eq, decide_eq_true_eq]
    rintro rfl; exact h hb) (by rw [isHeaderValueToken_eq]; rfl)]
  by_cases hv : v = []
  · rw [if_pos hv, hv]; rfl
  · rw [if_neg hv]; rfl

theorem thenRead_assoc {α β γ : Type} (x : Res α × Bytes) (f : α → Bytes → Res β × Bytes) (g : β → Bytes → Res γ × Bytes) :
    thenRead (thenRead x f) g = thenRead x fun a buf => thenRead (f a buf) g := by
  obtain ⟨x, b⟩ := x
  cases x <;> rfl

/-- One line, written and read. -/
theorem parseHeaderLine_eq {h : Header} (hh : LineHeader h) (r : Bytes) :
    parseHeaderLine (h.1 ++ [58, 32] ++ h.2 ++ [13, 10] ++ r) = (.ok (some (h.1, trimLeft h.2)), r) := by
  obtain ⟨n, v⟩ := h
  obtain ⟨hne, hn, hv⟩ := hh
  simp only at hne hn hv ⊢
  have e : n ++ [58, 32] ++ v ++ [13, 10] ++ r = n ++ 58 :: (([32] ++ v) ++ 13 :: 10 :: r) := by simp
  rw [e]
  obtain ⟨b, n', rfl⟩ := List.exists_cons_of_ne_nil hne
  have hb := tchar_facts b (hn b (by simp))
  have hp : peekByte (b :: n' ++ 58 :: (([32] ++ v) ++ 13 :: 10 :: r)) =
    (.ok b, b :: n' ++ 58 :: (([32] ++ v) ++ 13 :: 10 :: r)) := rfl
  unfold parseHeaderLine
  rw [hp]
  simp only [thenRead]
  rw [if_neg hb.1, if_neg hb.2.1, parseHeaderName_eq hne hn 58 (by decide +kernel)]
  simp only
  rw [show skipSpaces (58 :: (([32] ++ v) ++ 13 :: 10 :: r)) = (.ok (), 58 :: (([32] ++ v) ++ 13 :: 10 :: r)) from by
    simp [skipSpaces]]
  simp only
  rw [show expectByte 58 .headerName (58 :: (([32] ++ v) ++ 13 :: 10 :: r)) = (.ok (), ([32] ++ v) ++ 13 :: 10 :: r) from by
    simp [expectByte]]
  simp only
  rw [skipSpaces_trim _ _ _ (by decide)]
  simp only
  rw [show trimLeft ([32] ++ v) = trimLeft v from by simp [trimLeft]]
  have hv' := parseHeaderValue_crlf (v := trimLeft v) (fun h => hv (trimLeft_sub h)) r
  obtain ⟨a, r0, h1, h2⟩ := thenRead_ok hv'
  rw [h1]
  simp only
  obtain ⟨a', r1, h3, h4⟩ := thenRead_ok h2
  rw [h3]
  simp only [Prod.mk.injEq, Res.ok.injEq] at h4
  obtain ⟨rfl, rfl⟩ := h4
  rfl

theorem parseHeaderLine_end (r : Bytes) : parseHeaderLine ([13, 10] ++ r) = (.ok none, r) := by
  simp [parseHeaderLine, peekByte, thenRead, nextByte, expectByte]

theorem parseHeaderLoop_encode (hs : HeaderMap) (hh : ∀ h ∈ hs, LineHeader h) (r : Bytes) : ∀ (k : Nat) (m : HeaderMap),
    k > hs.length → parseHeaderLoop k m (hs.encode ++ r) =
      (.ok (), (trimValues hs).foldl (fun m e => m.insert e.1 e.2) m, r) := by
  induction hs with
  | nil =>
    intro k m hk
    obtain ⟨k, rfl⟩ : ∃ j, k = j + 1 := ⟨k - 1, by omega⟩
    rw [parseHeaderLoop, HeaderMap.encode, parseHeaderLine_end]
    rfl
  | cons h hs ih =>
    intro k m hk
    simp only [List.length_cons] at hk
    obtain ⟨k, rfl⟩ : ∃ j, k = j + 1 := ⟨k - 1, by omega⟩
    rw [parseHeaderLoop, HeaderMap.encode]
    rw [show h.1 ++ [58, 32] ++ h.2 ++ [13, 10] ++ HeaderMap.encode hs ++ r =
      h.1 ++ [58, 32] ++ h.2 ++ [13, 10] ++ (HeaderMap.encode hs ++ r) from by simp]
    rw [parseHeaderLine_eq (hh h (by simp))]
    simp only [thenDo, onLine]
    rw [ih (fun x hx => hh x (by simp [hx])) k _ (by omega)]
    rfl

theorem foldl_insert_fresh (hs : HeaderMap) : ∀ m : HeaderMap, (∀ h ∈ hs, ∀ e ∈ m, nameEq e.1 h.1 = false) →
    Distinct hs → hs.foldl (fun m e => m.insert e.1 e.2) m = m ++ hs := by
  induction hs with
  | nil => intro m _ _; simp
  | cons h hs ih =>
    intro m hm hd
    unfold Distinct at hd
    rw [List.pairwise_cons] at hd
    rw [List.foldl_cons, insert_fresh m h.1 h.2 (hm h (by simp)), ih]
    · simp
    · intro x hx e he
      rcases List.mem_append.mp he with he | he
      · exact hm x (by simp [hx]) e he
      · rw [List.mem_singleton.mp he]; exact hd.1 x hx
    · exact hd.2

theorem encode_length_ge (hs : HeaderMap) : hs.length < hs.encode.length := by
  induction hs with
  | nil => simp [HeaderMap.encode]
  | cons h hs ih => simp [HeaderMap.encode]; omega

/-- Text written for headers is read back, leading spaces of values apart. -/
theorem parseHeader_encode (hs : HeaderMap) (hd : Distinct hs) (hh : ∀ h ∈ hs, LineHeader h) (m : HeaderMap) (r : Bytes) :
    parseHeader m (hs.encode ++ r) = (.ok (), trimValues hs, r) := by
  rw [parseHeader, parseHeaderLoop_encode hs hh r _ _ (by
    have := encode_length_ge hs; rw [List.length_append]; omega)]
  rw [foldl_insert_fresh _ _ (by simp)]
  · rfl
  · unfold Distinct trimValues
    rw [List.pairwise_map]
    exact hd

theorem trimValues_clean {m : HeaderMap} (h : ∀ e ∈ m, CleanHeader e) : trimValues m = m := by
  unfold trimValues
  conv => rhs; rw [← List.map_id m]
  apply List.map_congr_left
  intro e he
  rw [trimLeft_id (h e he).lead]; rfl

/-! ## What is read is clean -/

theorem token_ok {f : UInt8 → Bool} {e : Error} {empty : Bool} {buf t r : Bytes}
    (h : parseTokenEmpty f e empty buf = (.ok t, r)) :
    t.all f = true ∧ ((∃ b s, r = b :: s ∧ f b = false ∧ t ≠ [] ∧ buf = t ++ r) ∨
      (empty = true ∧ t = [] ∧ ∃ b, buf = b :: r ∧ f b = false)) := by
  by_cases ha : buf.all f = true
  · rw [parseTokenEmpty_all _ _ ha] at h; simp at h
  · obtain ⟨t', b, s, rfl, h2, h3, _⟩ := scan_spec ha
    rw [parseTokenEmpty_eq _ _ h2 h3] at h
    by_cases ht : t' = []
    · rw [if_pos ht] at h
      cases empty with
      | false => simp at h
      | true =>
        simp only [if_true, Prod.mk.injEq, Res.ok.injEq] at h
        obtain ⟨rfl, rfl⟩ := h
        exact ⟨rfl, Or.inr ⟨rfl, rfl, b, by rw [ht]; rfl, h3⟩⟩
    · rw [if_neg ht] at h
      simp only [Prod.mk.injEq, Res.ok.injEq] at h
      obtain ⟨rfl, rfl⟩ := h
      exact ⟨h2, Or.inl ⟨b, s, rfl, h3, ht, rfl⟩⟩

theorem skipSpaces_ok {buf r : Bytes} (h : skipSpaces buf = (.ok (), r)) : ∃ b s, r = b :: s ∧ b ≠ 32 := by
  induction buf with
  | nil => simp [skipSpaces] at h
  | cons b buf ih =>
    rw [skipSpaces] at h
    by_cases hb : b = 32
    · rw [if_pos hb] at h; exact ih h
    · rw [if_neg hb, Prod.mk.injEq] at h; exact ⟨b, buf, h.2.symm, hb⟩

theorem parseHeaderLine_clean {buf r : Bytes} {h : Header} (hl : parseHeaderLine buf = (.ok (some h), r)) : CleanHeader h := by
  unfold parseHeaderLine at hl
  obtain ⟨b, r1, h1, hl⟩ := thenRead_ok hl
  by_cases hb : b = 13
  · rw [if_pos hb] at hl
    obtain ⟨_, _, _, hl⟩ := thenRead_ok hl
    obtain ⟨_, _, _, hl⟩ := thenRead_ok hl
    simp at hl
  rw [if_neg hb] at hl
  by_cases hb : b = 10
  · rw [if_pos hb] at hl
    obtain ⟨_, _, _, hl⟩ := thenRead_ok hl
    simp at hl
  rw [if_neg hb] at hl
  obtain ⟨n, r2, hn, hl⟩ := thenRead_ok hl
  obtain ⟨_, r3, h3, hl⟩ := thenRead_ok hl
  obtain ⟨_, r4, h4, hl⟩ := thenRead_ok hl
  obtain ⟨_, r5, h5, hl⟩ := thenRead_ok hl
  obtain ⟨v, r6, hv, hl⟩ := thenRead_ok hl
  obtain ⟨_, r7, h7, hl⟩ := thenRead_ok hl
  simp only [Prod.mk.injEq, Res.ok.injEq, Option.some.injEq] at hl
  obtain ⟨rfl, rfl⟩ := hl
  obtain ⟨t, r8, ht, hn⟩ := thenRead_ok hn
  simp only [Prod.mk.injEq, Res.ok.injEq] at hn
  obtain ⟨rfl, rfl⟩ := hn
  obtain ⟨ta, tc⟩ := token_ok ht
  have htc : ∀ x ∈ t, isTchar x = true := by
    intro x hx
    rw [← isHeaderNameToken_eq]
    exact List.all_eq_true.mp ta x hx
  rw [headerNameFromBytes, utf8Lossy_token htc]
  obtain ⟨va, vc⟩ := token_ok hv
  refine ⟨?_, htc, ?_, ?_⟩
  · rcases tc with ⟨_, _, _, _, h, _⟩ | ⟨h, _⟩
    · exact h
    · exact absurd h (by simp)
  · intro h13
    have := List.all_eq_true.mp va 13 h13
    rw [isHeaderValueToken_eq] at this
    exact absurd this (by decide)
  · obtain ⟨c, s, e5, hc⟩ := skipSpaces_ok h5
    rcases vc with ⟨_, _, _, _, hne, e⟩ | ⟨_, h, _⟩
    · simp only
      intro h32
      obtain ⟨x, v', rfl⟩ := List.exists_cons_of_ne_nil hne
      rw [e5] at e
      simp only [List.head?_cons, Option.some.injEq] at h32
      simp only [List.cons_append, List.cons.injEq] at e
      exact hc (e.1.trans h32)
    · simp [h]

theorem insert_clean {m : HeaderMap} {h : Header} (hm : ∀ e ∈ m, CleanHeader e) (hh : CleanHeader h) :
    ∀ e ∈ m.insert h.1 h.2, CleanHeader e := by
  induction m with
  | nil =>
    intro e he
    simp only [HeaderMap.insert, List.mem_singleton] at he
    rw [he]; exact hh
  | cons a m ih =>
    intro e he
    unfold HeaderMap.insert at he
    split at he
    · rcases List.mem_cons.mp he with rfl | he
      · have := hm a (by simp)
        exact ⟨this.name_ne, this.name, hh.value, hh.lead⟩
      · exact hm e (by simp [he])
    · rcases List.mem_cons.mp he with rfl | he
      · exact hm e (by simp)
      · exact ih (fun x hx => hm x (by simp [hx])) e he

theorem parseHeaderLoop_clean (k : Nat) : ∀ (m : HeaderMap) (buf : Bytes) (m' : HeaderMap) (r : Bytes),
    (∀ e ∈ m, CleanHeader e) → parseHeaderLoop k m buf = (.ok (), m', r) → ∀ e ∈ m', CleanHeader e := by
  induction k with
  | zero => intro m buf m' r _ h; simp [parseHeaderLoop] at h
  | succ k ih =>
    intro m buf m' r hm h
    rw [parseHeaderLoop] at h
    cases hl : parseHeaderLine buf with
    | mk x r1 =>
      rw [hl] at h
      cases x with
      | err e => simp [thenDo] at h
      | panic => simp [thenDo] at h
      | ok o =>
        cases o with
        | none =>
          simp only [thenDo, onLine, Prod.mk.injEq] at h
          rw [← h.2.1]; exact hm
        | some a =>
          simp only [thenDo, onLine] at h
          exact ih _ _ _ _ (insert_clean hm (parseHeaderLine_clean hl)) h

theorem parseHeader_clean {m0 m : HeaderMap} {buf r : Bytes} (h : parseHeader m0 buf = (.ok (), m, r)) :
    ∀ e ∈ m, CleanHeader e := parseHeaderLoop_clean _ _ _ _ _ (by simp) h

/-! ## Counting -/

theorem forget_ok {α σ : Type} {x : Res α × σ × Bytes} {a : α} {s : σ} {r : Bytes} :
    forget x = (.ok (a, s), r) ↔ x = (.ok a, s, r) := by
  obtain ⟨x, s', r'⟩ := x
  cases x <;> simp [forget]
  constructor
  · rintro ⟨⟨rfl, rfl⟩, rfl⟩; simp
  · rintro ⟨rfl, rfl, rfl⟩; simp

theorem forget_err {α σ : Type} {x : Res α × σ × Bytes} {e : Error} {r : Bytes} :
    forget x = (.err e, r) ↔ ∃ s, x = (.err e, s, r) := by
  obtain ⟨x, s', r'⟩ := x
  cases x <;> simp [forget]

theorem countRead_ok {σ : Type} {buf : Bytes} {x : Res Unit × σ × Bytes} {n : Nat} {s : σ} {r : Bytes} :
    countRead buf x = (.ok n, s, r) ↔ x = (.ok (), s, r) ∧ n = buf.length - r.length := by
  obtain ⟨x, s', r'⟩ := x
  cases x with
  | ok u =>
    simp only [countRead, Prod.mk.injEq, Res.ok.injEq, true_and]
    constructor
    · rintro ⟨rfl, rfl, rfl⟩; exact ⟨⟨rfl, rfl⟩, rfl⟩
    · rintro ⟨⟨rfl, rfl⟩, rfl⟩; exact ⟨rfl, rfl, rfl⟩
  | err e => simp [countRead]
  | panic => simp [countRead]

/-- Exact reading of a message, for `countRead`. -/
theorem count_exact {σ : Type} {p q : Bytes → Res Unit × σ × Bytes}
    (hpq : ∀ buf, forget (p buf) = forget (q buf))
    (hs : Streams fun buf => forget (p buf)) (he : Exact fun buf => forget (p buf))
    {buf : Bytes} {n : Nat} {s : σ} {r : Bytes} (h : countRead buf (p buf) = (.ok n, s, r)) :
    n ≤ buf.length ∧ r = buf.drop n ∧
    (∀ x, countRead (buf.take n ++ x) (q (buf.take n ++ x)) = (.ok n, s, x)) ∧
    ∀ k, k < n → ∃ s', countRead (buf.take k) (q (buf.take k)) = (.err .partialData, s') := by
  obtain ⟨h1, rfl⟩ := countRead_ok.mp h
  obtain ⟨u, hne, hb, hu⟩ := he _ _ _ (forget_ok.mpr h1)
  have hlen : buf.length - r.length = u.length := by rw [hb]; simp
  rw [hlen]
  have ht : buf.take u.length = u := by rw [hb, List.take_left]
  refine ⟨by rw [hb]; simp, by rw [hb, List.drop_left], ?_, ?_⟩
  · intro x
    rw [ht]
    have := (hs.ext _ _ _ hu).2 x
    rw [List.nil_append] at this
    simp only [hpq] at this
    exact countRead_ok.mpr ⟨forget_ok.mp this, by simp⟩
  · intro k hk
    have e : u = u.take k ++ u.drop k := (List.take_append_drop k u).symm
    have htk : buf.take k = u.take k := by rw [hb, List.take_append_of_le_length (by omega)]
    rw [htk]
    rw [e] at hu
    rcases hs.cut _ _ _ _ hu with ⟨a', r', h3⟩ | ⟨r', h3⟩
    · obtain ⟨_, h4⟩ := hs.ok_ok hu h3
      have := congrArg List.length h4
      simp only [List.length_nil, List.length_append, List.length_drop] at this
      omega
    · simp only [hpq] at h3
      obtain ⟨s', h4⟩ := forget_err.mp h3
      exact ⟨(s', r'), by rw [h4]; rfl⟩

/-! ## Start lines -/

theorem skipEmptyLines_start {b : UInt8} (r : Bytes) (h1 : b ≠ 13) (h2 : b ≠ 10) : skipEmptyLines (b :: r) = (.ok (), b :: r) := by
  cases r with
  | nil => simp [skipEmptyLines, h1, h2]
  | cons c r => simp [skipEmptyLines, h1, h2]

theorem skipSpaces_one {c : UInt8} (r : Bytes) (h : c ≠ 32) : skipSpaces (32 :: c :: r) = (.ok (), c :: r) := by
  simp [skipSpaces, h]

theorem parseToken_eq {t : Bytes} (hne : t ≠ []) (h : t.all isToken = true) {c : UInt8} (hc : isToken c = false) (r : Bytes) :
    parseToken (t ++ c :: r) = (.ok t, c :: r) := by
  unfold parseToken parseTokenBy
  rw [parseTokenEmpty_eq _ _ h hc, if_neg hne]

theorem version_text (v : Version) (hv : v ≠ .none) : v.asStr ≠ [] ∧ v.asStr.all isToken = true ∧ versionOfToken v.asStr = .ok v := by
  cases v <;> first | exact absurd rfl hv | decide +kernel

theorem version_encode (v : Version) (s : Bytes) : v.encode = .ok s ↔ v ≠ .none ∧ s = v.asStr := by
  cases v <;> simp [Version.encode, eq_comm]

theorem parseVersion_eq {v : Version} (hv : v ≠ .none) {c : UInt8} (hc : isToken c = false) (r : Bytes) :
    parseVersion (v.asStr ++ c :: r) = (.ok v, c :: r) := by
  obtain ⟨h1, h2, h3⟩ := version_text v hv
  unfold parseVersion onToken
  rw [parseToken_eq h1 h2 hc]
  simp only [thenRead, h3]

theorem threeDigits_token (c : Nat) : (threeDigits c).all isToken = true ∧ ∀ b ∈ threeDigits c, b ≠ 32 := by
  have key : ∀ d : Fin 10, isToken (UInt8.ofNat (48 + d.val)) = true ∧ UInt8.ofNat (48 + d.val) ≠ 32 := by decide
  have h1 := key ⟨c / 100 % 10, Nat.mod_lt _ (by decide)⟩
  have h2 := key ⟨c / 10 % 10, Nat.mod_lt _ (by decide)⟩
  have h3 := key ⟨c % 10, Nat.mod_lt _ (by decide)⟩
  simp only at h1 h2 h3
  constructor
  · simp only [threeDigits, List.all_cons, h1.1, h2.1, h3.1, List.all_nil, Bool.and_self]
  · intro b hb
    simp only [threeDigits, List.mem_cons, List.not_mem_nil, or_false] at hb
    rcases hb with rfl | rfl | rfl
    · exact h1.2
    · exact h2.2
    · exact h3.2

theorem parseStatus_eq {n : Nat} (hn : 100 ≤ n ∧ n ≤ 999) {c : UInt8} (hc : isToken c = false) (r : Bytes) :
    parseStatus (threeDigits n ++ c :: r) = (.ok n, c :: r) := by
  unfold parseStatus onToken
  rw [parseToken_eq (by simp [threeDigits]) (threeDigits_token n).1 hc]
  simp only [thenRead, statusFromBytes_digits n hn]

/-- The known codes are three-digit numbers and their reasons can be read back. -/
theorem statusTable_facts : ∀ e ∈ statusTable, 100 ≤ e.1 ∧ e.1 ≤ 999 ∧ asciiBytes e.2 ≠ [] ∧
    (asciiBytes e.2).all isStatusToken = true ∧ (asciiBytes e.2).head? ≠ some 32 := by
  decide +kernel

theorem statusEncode_ok {n : Nat} {s : Bytes} (h : statusEncode n = .ok s) : ∃ reason, s = threeDigits n ++ [32] ++ reason ++ [13, 10] ∧
    100 ≤ n ∧ n ≤ 999 ∧ reason ≠ [] ∧ reason.all isStatusToken = true ∧ reason.head? ≠ some 32 := by
  unfold statusEncode at h
  cases hr : canonicalReason n with
  | none => rw [hr] at h; simp at h
  | some reason =>
    rw [hr] at h
    unfold canonicalReason at hr
    cases hf : statusTable.find? (fun e => e.1 == n) with
    | none => rw [hf] at hr; simp at hr
    | some e =>
      rw [hf] at hr
      simp only [Option.map_some, Option.some.injEq] at hr
      obtain ⟨f1, f2, f3, f4, f5⟩ := statusTable_facts e (List.mem_of_find?_eq_some hf)
      have he : e.1 = n := by simpa using List.find?_some hf
      subst he hr
      simp only [statusAsStr_eq, f1, f2, and_self, if_true, Res.bind_ok, Res.ok.injEq] at h
      exact ⟨asciiBytes e.2, h.symm, f1, f2, f3, f4, f5⟩

theorem parseStatusToken_eq {t : Bytes} (hne : t ≠ []) (h : t.all isStatusToken = true) {c : UInt8} (hc : isStatusToken c = false)
    (r : Bytes) : parseStatusToken (t ++ c :: r) = (.ok t, c :: r) := by
  unfold parseStatusToken parseTokenBy
  rw [parseTokenEmpty_eq _ _ h hc, if_neg hne]

theorem skipNewLine_crlf' (r : Bytes) : skipNewLine (13 :: 10 :: r) = (.ok (), r) := by
  simp [skipNewLine, nextByte, thenRead, expectByte]

/-- Reading the text of a response up to its headers. -/
theorem response_text (r0 : Response) {v : Version} {n : Nat} {reason : Bytes} (hv : v ≠ .none) (hn : 100 ≤ n ∧ n ≤ 999)
    (h1 : reason ≠ []) (h2 : reason.all isStatusToken = true) (h3 : reason.head? ≠ some 32) (rest : Bytes) :
    forget (r0.parseHead (v.asStr ++ [32] ++ (threeDigits n ++ [32] ++ reason ++ [13, 10]) ++ rest)) =
      thenRead (forget (parseHeader [] rest)) fun p buf => (.ok ((), (⟨n, v, p.2, false⟩ : Response)), buf) := by
  rw [forget_response]
  have e : v.asStr ++ [32] ++ (threeDigits n ++ [32] ++ reason ++ [13, 10]) ++ rest =
      v.asStr ++ 32 :: (threeDigits n ++ 32 :: (reason ++ 13 :: 10 :: rest)) := by simp
  rw [e]
  obtain ⟨w, hw⟩ : ∃ w, v.asStr ++ 32 :: (threeDigits n ++ 32 :: (reason ++ 13 :: 10 :: rest)) = 72 :: w := by
    cases v with
    | none => exact absurd rfl hv
    | http10 => exact ⟨_, rfl⟩
    | http11 => exact ⟨_, rfl⟩
    | http2 => exact ⟨_, rfl⟩
    | http3 => exact ⟨_, rfl⟩
  rw [hw, skipEmptyLines_start _ (by decide) (by decide), ← hw]
  simp only [thenRead]
  rw [parseVersion_eq hv (by decide)]
  simp only
  obtain ⟨d, ds, hd⟩ : ∃ d ds, threeDigits n ++ 32 :: (reason ++ 13 :: 10 :: rest) = d :: ds := ⟨_, _, rfl⟩
  have hdne : d ≠ 32 := by
    have : d ∈ threeDigits n := by
      simp only [threeDigits, List.cons_append, List.cons.injEq] at hd
      simp [threeDigits, hd.1]
    exact (threeDigits_token n).2 d this
  rw [hd, skipSpaces_one _ hdne, ← hd]
  simp only
  rw [parseStatus_eq hn (by decide)]
  simp only
  obtain ⟨b, reason', rfl⟩ := List.exists_cons_of_ne_nil h1
  rw [List.cons_append, skipSpaces_one _ (by simpa using h3), ← List.cons_append]
  simp only
  rw [parseStatusToken_eq h1 h2 (by decide)]
  simp only
  rw [skipNewLine_crlf']

/-- Failure leaves the partial mark, success clears it. -/
theorem thenDo_flag {α β σ : Type} (P : Res β × σ × Bytes → Prop) (x : Res α × Bytes) (s : σ) (f : α → Bytes → Res β × σ × Bytes)
    (he : ∀ e buf, P (.err e, s, buf)) (hp : ∀ buf, P (.panic, s, buf)) (hf : ∀ a buf, P (f a buf)) : P (thenDo x s f) := by
  obtain ⟨x, buf⟩ := x
  cases x with
  | ok a => exact hf a buf
  | err e => exact he e buf
  | panic => exact hp buf

end Webparse
