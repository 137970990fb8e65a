import Verif.Model.UncheckedText
import Verif.Spec.Utf8
import Verif.Proofs.Utf8Spec
import Verif.Proofs.Status
import Verif.Proofs.Rfc9113Peer
import Verif.Props.Display

/-! # What `unsafe` code is given (C127) -/

namespace Webparse
open Spec

/-- C127: the bytes that are made a `str` without a check are UTF-8, whatever is parsed. -/
def C127_statement : Prop :=
  ∀ buf : Bytes, ∀ t ∈ requestTexts buf ++ responseTexts buf ++ urlTexts buf ++ chunkTexts buf, IsUtf8 t

/-! ## Cutting UTF-8 -/

theorem scalar_ascii {c : Nat} {b : UInt8} (hc : IsScalar c) (hm : b ∈ encodeScalar c) (hb : b < 0x80) : encodeScalar c = [b] := by
  have big : ∀ n : Nat, 0x80 ≤ n → n < 256 → b ≠ UInt8.ofNat n := by
    intro n h1 h2 e
    have h3 := congrArg UInt8.toNat e
    rw [UInt8.toNat_ofNat_of_lt' (by show n < 256; omega)] at h3
    have h4 : b.toNat < 128 := hb
    omega
  have := hc.1
  unfold encodeScalar at hm ⊢
  split at hm
  next h => rw [if_pos h]; rw [List.mem_singleton] at hm; rw [hm]
  next h =>
    exfalso
    split at hm
    · simp only [List.mem_cons, List.not_mem_nil, or_false] at hm
      rcases hm with e | e
      · exact big _ (by omega) (by omega) e
      · exact big _ (by omega) (by omega) e
    · split at hm
      · simp only [List.mem_cons, List.not_mem_nil, or_false] at hm
        rcases hm with e | e | e
        · exact big _ (by omega) (by omega) e
        · exact big _ (by omega) (by omega) e
        · exact big _ (by omega) (by omega) e
      · simp only [List.mem_cons, List.not_mem_nil, or_false] at hm
        rcases hm with e | e | e | e
        · exact big _ (by omega) (by omega) e
        · exact big _ (by omega) (by omega) e
        · exact big _ (by omega) (by omega) e
        · exact big _ (by omega) (by omega) e

/-- A text can be cut in front of an ASCII character. -/
theorem utf8_cut {x y : Bytes} {b : UInt8} (hb : b < 0x80) (h : IsUtf8 (x ++ b :: y)) : IsUtf8 x ∧ IsUtf8 (b :: y) := by
  obtain ⟨cs, hs, h⟩ := h
  induction cs generalizing x with
  | nil => simp at h
  | cons c cs ih =>
    rw [List.flatMap_cons] at h
    have hcs : ∀ d ∈ cs, IsScalar d := fun d hd => hs d (by simp [hd])
    rcases List.append_eq_append_iff.mp h with ⟨z, h1, h2⟩ | ⟨z, h1, h2⟩
    · cases z with
      | nil =>
        simp only [List.append_nil, List.nil_append] at h1 h2
        exact ⟨by rw [← h1]; exact isUtf8_scalar (hs c (by simp)), cs, hcs, h2⟩
      | cons d z =>
        simp only [List.cons_append, List.cons.injEq] at h2
        have he := scalar_ascii (hs c (by simp)) (b := b) (by rw [h1, h2.1]; simp) hb
        have hx : x = [] := by
          rw [h1] at he
          cases x with
          | nil => rfl
          | cons e x => simp at he
        subst hx
        exact ⟨isUtf8_nil, c :: cs, hs, by rw [List.flatMap_cons]; simpa using h⟩
    · obtain ⟨a, e⟩ := ih hcs h2.symm
      exact ⟨by rw [h1]; exact isUtf8_append (isUtf8_scalar (hs c (by simp))) a, e⟩

theorem utf8_tail {y : Bytes} {b : UInt8} (hb : b < 0x80) (h : IsUtf8 (b :: y)) : IsUtf8 y := by
  obtain ⟨cs, hs, h⟩ := h
  cases cs with
  | nil => simp at h
  | cons c cs =>
    rw [List.flatMap_cons] at h
    have hm : b ∈ encodeScalar c := by
      have hne : encodeScalar c ≠ [] := by
        unfold encodeScalar
        split
        · simp
        · split
          · simp
          · split <;> simp
      cases he : encodeScalar c with
      | nil => exact absurd he hne
      | cons d ds => rw [he, List.cons_append, List.cons.injEq] at h; simp [h.1]
    rw [scalar_ascii (hs c (by simp)) hm hb] at h
    simp only [List.cons_append, List.nil_append, List.cons.injEq, true_and] at h
    exact ⟨cs, fun d hd => hs d (by simp [hd]), h⟩

theorem utf8_drop {x y : Bytes} (hx : ∀ b ∈ x, b < 0x80) (h : IsUtf8 (x ++ y)) : IsUtf8 y := by
  induction x with
  | nil => exact h
  | cons b x ih => exact ih (fun c hc => hx c (by simp [hc])) (utf8_tail (hx b (by simp)) h)

/-! ## Readers -/

theorem withText_all {P : Bytes → Prop} {func : UInt8 → Bool} {empty : Bool} {buf : Bytes} {next : Bytes → List Bytes}
    (h : ∀ v rest, parseTokenEmpty func .token empty buf = (.ok v, rest) → P v ∧ ∀ t ∈ next rest, P t) :
    ∀ t ∈ withText func empty buf next, P t := by
  intro t ht
  unfold withText at ht
  split at ht
  next v rest e =>
    obtain ⟨h1, h2⟩ := h v rest e
    rw [List.mem_append] at ht
    rcases ht with ht | ht
    · split at ht
      · simp at ht
      · rw [List.mem_singleton] at ht; rw [ht]; exact h1
    · exact h2 t ht
  next => simp at ht

theorem afterRead_all {α : Type} {P : Bytes → Prop} {x : Res α × Bytes} {next : Bytes → List Bytes}
    (h : ∀ a rest, x = (.ok a, rest) → ∀ t ∈ next rest, P t) : ∀ t ∈ afterRead x next, P t := by
  intro t ht
  unfold afterRead at ht
  split at ht
  next a rest => exact h a rest rfl t ht
  next => simp at ht

theorem takeWhile_holds {func : UInt8 → Bool} {l : Bytes} {b : UInt8} (h : b ∈ l.takeWhile func) : func b = true := by
  have := List.all_takeWhile (p := func) (l := l)
  exact List.all_eq_true.mp this b h

/-- A token and what is left. -/
theorem token_cut {func : UInt8 → Bool} {e : Error} {buf v rest : Bytes} (h : parseTokenEmpty func e false buf = (.ok v, rest)) :
    buf = v ++ rest ∧ v ≠ [] ∧ (∀ b ∈ v, func b = true) ∧ ∃ c r, rest = c :: r ∧ func c = false := by
  unfold parseTokenEmpty at h
  split at h
  · simp at h
  next hall =>
    have htd : buf = buf.takeWhile func ++ buf.dropWhile func := (List.takeWhile_append_dropWhile).symm
    have h1 : buf.take (buf.takeWhile func).length = buf.takeWhile func := by
      conv => lhs; arg 2; rw [htd]
      rw [List.take_left]
    have h2 : buf.drop (buf.takeWhile func).length = buf.dropWhile func := by
      conv => lhs; arg 2; rw [htd]
      rw [List.drop_left]
    simp only at h
    split at h
    · simp at h
    next hp =>
      rw [h1, h2] at h
      simp only [Prod.mk.injEq, Res.ok.injEq] at h
      obtain ⟨rfl, rfl⟩ := h
      refine ⟨htd, fun he => hp (by rw [he]; rfl), fun b hb => takeWhile_holds hb, ?_⟩
      cases hd : buf.dropWhile func with
      | nil =>
        rw [hd, List.append_nil] at htd
        exact absurd (List.all_eq_true.mpr fun b hb => takeWhile_holds (by rw [← htd]; exact hb)) hall
      | cons c r =>
        refine ⟨c, r, rfl, ?_⟩
        have := List.head?_dropWhile_not func buf
        rw [hd] at this
        simpa using this

/-- A header value and what is left. -/
theorem token_cut_empty {func : UInt8 → Bool} {e : Error} {buf v rest : Bytes} (h : parseTokenEmpty func e true buf = (.ok v, rest)) :
    (buf = v ++ rest ∧ (∀ b ∈ v, func b = true) ∧ ∃ c r, rest = c :: r ∧ func c = false) ∨ (v = [] ∧ ∃ c, buf = c :: rest ∧ func c = false) := by
  by_cases hp : (buf.takeWhile func).length = 0
  · right
    unfold parseTokenEmpty at h
    split at h
    · simp at h
    next hall =>
      simp only at h
      rw [if_pos hp, if_pos trivial] at h
      cases buf with
      | nil => simp at hall
      | cons c r =>
        simp only [nextByte, thenRead, Prod.mk.injEq, Res.ok.injEq] at h
        refine ⟨h.1.symm, c, by rw [h.2], ?_⟩
        rw [List.takeWhile_cons] at hp
        split at hp
        · simp at hp
        next hc => simpa using hc
  · left
    have h' : parseTokenEmpty func e false buf = (.ok v, rest) := by
      unfold parseTokenEmpty at h ⊢
      split at h
      next hall => simp at h
      next hall =>
        rw [if_neg hall]
        simp only at h ⊢
        rw [if_neg hp] at h ⊢
        exact h
    obtain ⟨a, _, b, c⟩ := token_cut h'
    exact ⟨a, b, c⟩

theorem token_error {func : UInt8 → Bool} {e e' : Error} {empty : Bool} {buf v rest : Bytes} (h : parseTokenEmpty func e empty buf = (.ok v, rest)) :
    parseTokenEmpty func e' empty buf = (.ok v, rest) := by
  unfold parseTokenEmpty at h ⊢
  split at h
  next => simp at h
  next hall =>
    rw [if_neg hall]
    simp only at h ⊢
    split at h
    next hp =>
      rw [if_pos hp]
      split at h
      next he => rw [if_pos he]; exact h
      next he => simp at h
    next hp => rw [if_neg hp]; exact h

theorem ascii_token : ∀ b, isToken b = true → b < 0x80 := by decide +kernel
theorem ascii_status : ∀ b, isStatusToken b = true → b < 0x80 := by decide +kernel
theorem ascii_name : ∀ b, isHeaderNameToken b = true → b < 0x80 := by decide +kernel
theorem ascii_scheme : ∀ b, isSchemeToken b = true → b < 0x80 := by decide +kernel
theorem ascii_hex : ∀ b, isHex b = true → b < 0x80 := by decide +kernel
theorem value_stop : ∀ b, isHeaderValueToken b = false → b = 13 := by decide +kernel

/-! ## Only header values are not checked -/

/-- The header values among the texts of a head. -/
theorem lineTexts_all {P : Bytes → Prop} {buf : Bytes} {next : Bytes → List Bytes} (hasc : ∀ v : Bytes, (∀ b ∈ v, b < 0x80) → P v)
    (hval : ∀ name r1 r2 r3 r4, buf = name ++ r1 → (∀ b ∈ name, b < 0x80) → skipSpaces r1 = (.ok (), r2) → expectByte 58 .headerName r2 = (.ok (), r3) →
      skipSpaces r3 = (.ok (), r4) → ∀ v r5, parseHeaderValue r4 = (.ok v, r5) → P v ∧ ∀ r6, skipNewLine r5 = (.ok (), r6) → ∀ t ∈ next r6, P t) :
    ∀ t ∈ lineTexts buf next, P t := by
  unfold lineTexts
  refine afterRead_all fun a rest h0 => ?_
  have hb : rest = buf := by
    cases buf with
    | nil => simp [peekByte] at h0
    | cons b r => simp only [peekByte, Prod.mk.injEq] at h0; exact h0.2.symm
  subst hb
  split
  · simp
  refine withText_all fun name r1 h1 => ?_
  obtain ⟨e1, _, hn, _⟩ := token_cut h1
  refine ⟨hasc _ fun b hb => ascii_name b (hn b hb), ?_⟩
  refine afterRead_all fun _ r2 h2 => afterRead_all fun _ r3 h3 => afterRead_all fun _ r4 h4 => withText_all fun v r5 h5 => ?_
  obtain ⟨p, q⟩ := hval name r1 r2 r3 r4 e1 (fun b hb => ascii_name b (hn b hb)) h2 h3 h4 v r5 (token_error h5)
  exact ⟨p, afterRead_all fun _ r6 h6 => q r6 h6⟩

theorem skipSpaces_utf8 {buf r : Bytes} (h : skipSpaces buf = (.ok (), r)) (hu : IsUtf8 buf) : IsUtf8 r := by
  induction buf with
  | nil => simp [skipSpaces] at h
  | cons b buf ih =>
    unfold skipSpaces at h
    split at h
    next hb => exact ih h (utf8_tail (by rw [hb]; decide) hu)
    next => simp only [Prod.mk.injEq, true_and] at h; rw [← h]; exact hu

theorem expect_utf8 {c : UInt8} {e : Error} {buf r : Bytes} (hc : c < 0x80) (h : expectByte c e buf = (.ok (), r)) (hu : IsUtf8 buf) : IsUtf8 r := by
  cases buf with
  | nil => simp [expectByte] at h
  | cons b buf =>
    unfold expectByte at h
    by_cases hb : b = c
    · simp only [hb, if_true, Prod.mk.injEq, true_and] at h
      rw [← h]
      exact utf8_tail (by rw [hb]; exact hc) hu
    · simp [hb] at h

theorem skipNewLine_utf8 {buf r : Bytes} (h : skipNewLine buf = (.ok (), r)) (hu : IsUtf8 buf) : IsUtf8 r := by
  cases buf with
  | nil => simp [skipNewLine, nextByte, thenRead] at h
  | cons b buf =>
    simp only [skipNewLine, nextByte, thenRead] at h
    split at h
    next hb => exact expect_utf8 (by decide) h (utf8_tail (by rw [hb]; decide) hu)
    next =>
      split at h
      next hb =>
        simp only [Prod.mk.injEq, true_and] at h
        rw [← h]; exact utf8_tail (by rw [hb]; decide) hu
      next =>
        split at h
        next hb =>
          simp only [Prod.mk.injEq, true_and] at h
          rw [← h]; exact utf8_tail (by rw [hb]; decide) hu
        next => simp at h

theorem skipEmptyLines_utf8 (k : Nat) : ∀ {buf r : Bytes}, buf.length ≤ k → skipEmptyLines buf = (.ok (), r) → IsUtf8 buf → IsUtf8 r := by
  induction k with
  | zero =>
    intro buf r hk h
    cases buf with
    | nil => simp [skipEmptyLines] at h
    | cons => simp at hk
  | succ k ih =>
    intro buf r hk h hu
    match buf, hk, h, hu with
    | [], _, h, _ => simp [skipEmptyLines] at h
    | [b], _, h, hu =>
      unfold skipEmptyLines at h
      split at h
      · simp at h
      · split at h
        · simp at h
        · simp only [Prod.mk.injEq, true_and] at h; rw [← h]; exact hu
    | b :: c :: s, hk, h, hu =>
      unfold skipEmptyLines at h
      simp only [List.length_cons] at hk
      split at h
      next hb =>
        split at h
        next hc => exact ih (by omega) h (utf8_tail (by rw [hc]; decide) (utf8_tail (by rw [hb]; decide) hu))
        next => simp at h
      next =>
        split at h
        next hb => exact ih (by simp only [List.length_cons]; omega) h (utf8_tail (by rw [hb]; decide) hu)
        next => simp only [Prod.mk.injEq, true_and] at h; rw [← h]; exact hu

theorem value_utf8 {buf v r : Bytes} (h : parseHeaderValue buf = (.ok v, r)) (hu : IsUtf8 buf) : IsUtf8 v ∧ IsUtf8 r := by
  rcases token_cut_empty h with ⟨e, _, c, s, hr, hc⟩ | ⟨rfl, c, e, hc⟩
  · have := value_stop c hc
    subst this
    rw [e, hr] at hu
    rw [hr]
    exact utf8_cut (by decide) hu
  · have := value_stop c hc
    subst this
    rw [e] at hu
    exact ⟨isUtf8_nil, utf8_tail (by decide) hu⟩

theorem onToken_cut {α : Type} {conv : Bytes → Res α} {buf r : Bytes} {a : α} (h : onToken (parseToken buf) conv = (.ok a, r)) :
    ∃ v, buf = v ++ r ∧ ∀ b ∈ v, b < 0x80 := by
  unfold onToken thenRead parseToken parseTokenBy at h
  split at h
  next v rest hp =>
    obtain ⟨e, _, hv, _⟩ := token_cut hp
    simp only [Prod.mk.injEq] at h
    exact ⟨v, by rw [e, h.2], fun b hb => ascii_token b (hv b hb)⟩
  next => simp at h
  next => simp at h

theorem headerTexts_utf8 (k : Nat) : ∀ {buf : Bytes}, IsUtf8 buf → ∀ t ∈ headerTexts k buf, IsUtf8 t := by
  induction k with
  | zero => intro buf _ t ht; simp [headerTexts] at ht
  | succ k ih =>
    intro buf hu
    refine lineTexts_all (fun v hv => isUtf8_ascii v hv) fun name r1 r2 r3 r4 e1 hn h2 h3 h4 v r5 h5 => ?_
    have u1 : IsUtf8 r1 := utf8_drop hn (by rw [← e1]; exact hu)
    obtain ⟨p, q⟩ := value_utf8 h5 (skipSpaces_utf8 h4 (expect_utf8 (by decide) h3 (skipSpaces_utf8 h2 u1)))
    exact ⟨p, fun r6 h6 => ih (skipNewLine_utf8 h6 q)⟩

theorem token_text {func : UInt8 → Bool} {buf v r : Bytes} (hf : ∀ b, func b = true → b < 0x80)
    (h : parseTokenEmpty func .token false buf = (.ok v, r)) : IsUtf8 v ∧ (IsUtf8 buf → IsUtf8 r) := by
  obtain ⟨e, _, hv, _⟩ := token_cut h
  exact ⟨isUtf8_ascii v fun b hb => hf b (hv b hb), fun hu => utf8_drop (fun b hb => hf b (hv b hb)) (by rw [← e]; exact hu)⟩

/-- C127, partial: of a head that is UTF-8 only UTF-8 is made a `str`. -/
theorem C127_utf8_partial (buf : Bytes) (hu : IsUtf8 buf) : ∀ t ∈ requestTexts buf ++ responseTexts buf, IsUtf8 t := by
  intro t ht
  rw [List.mem_append] at ht
  have conv : ∀ {α : Type} {f : Bytes → Res α} {b r : Bytes} {a : α}, onToken (parseToken b) f = (.ok a, r) → IsUtf8 b → IsUtf8 r := by
    intro α f b r a h hb
    obtain ⟨v, e, hv⟩ := onToken_cut h
    exact utf8_drop hv (by rw [← e]; exact hb)
  rcases ht with ht | ht
  · revert t
    refine afterRead_all fun _ r1 h1 => withText_all fun v _ hv => ⟨(token_text ascii_token hv).1, ?_⟩
    have u1 := skipEmptyLines_utf8 _ (Nat.le_refl _) h1 hu
    refine afterRead_all fun _ r2 h2 => afterRead_all fun _ r3 h3 => withText_all fun v r4 h4 => ⟨(token_text ascii_token h4).1, ?_⟩
    have u4 := (token_text ascii_token h4).2 (skipSpaces_utf8 h3 (conv h2 u1))
    refine afterRead_all fun _ r5 h5 => withText_all fun v _ hv => ⟨(token_text ascii_token hv).1, ?_⟩
    have u5 := skipSpaces_utf8 h5 u4
    refine afterRead_all fun _ r6 h6 => afterRead_all fun _ r7 h7 => ?_
    exact headerTexts_utf8 _ (skipNewLine_utf8 h7 (conv h6 u5))
  · revert t
    refine afterRead_all fun _ r1 h1 => withText_all fun v _ hv => ⟨(token_text ascii_token hv).1, ?_⟩
    have u1 := skipEmptyLines_utf8 _ (Nat.le_refl _) h1 hu
    refine afterRead_all fun _ r2 h2 => afterRead_all fun _ r3 h3 => withText_all fun v _ hv => ⟨(token_text ascii_token hv).1, ?_⟩
    have u3 := skipSpaces_utf8 h3 (conv h2 u1)
    refine afterRead_all fun _ r4 h4 => afterRead_all fun _ r5 h5 => withText_all fun v r6 h6 => ⟨(token_text ascii_status h6).1, ?_⟩
    have u6 := (token_text ascii_status h6).2 (skipSpaces_utf8 h5 (conv h4 u3))
    refine afterRead_all fun _ r7 h7 => ?_
    exact headerTexts_utf8 _ (skipNewLine_utf8 h7 u6)

/-- C127, partial: for schemes and chunk sizes it holds without a condition. -/
theorem C127_tokens_partial (buf : Bytes) : ∀ t ∈ urlTexts buf ++ chunkTexts buf, IsUtf8 t := by
  intro t ht
  rw [List.mem_append] at ht
  rcases ht with ht | ht
  · unfold urlTexts at ht
    split at ht
    · simp at ht
    · split at ht
      · exact withText_all (P := IsUtf8) (fun v r h => ⟨(token_text ascii_scheme h).1, by simp⟩) t ht
      · simp at ht
  · exact withText_all (P := IsUtf8) (fun v r h => ⟨(token_text ascii_hex h).1, by simp⟩) t ht

/-! ## Header values -/

theorem lineTexts_ok {buf r : Bytes} {h : Header} (hl : parseHeaderLine buf = (.ok (some h), r)) (next : Bytes → List Bytes) :
    (h.2 ≠ [] → h.2 ∈ lineTexts buf next) ∧ ∀ t ∈ next r, t ∈ lineTexts buf next := by
  unfold parseHeaderLine at hl
  obtain ⟨b, r1, h1, hl⟩ := thenRead_ok hl
  by_cases hb : b = 13
  · rw [if_pos hb] at hl
    obtain ⟨_, _, _, hl⟩ := thenRead_ok hl
    obtain ⟨_, _, _, hl⟩ := thenRead_ok hl
    simp at hl
  rw [if_neg hb] at hl
  by_cases hb' : b = 10
  · rw [if_pos hb'] at hl
    obtain ⟨_, _, _, hl⟩ := thenRead_ok hl
    simp at hl
  rw [if_neg hb'] at hl
  obtain ⟨n, r2, h2, hl⟩ := thenRead_ok hl
  obtain ⟨_, r3, h3, hl⟩ := thenRead_ok hl
  obtain ⟨_, r4, h4, hl⟩ := thenRead_ok hl
  obtain ⟨_, r5, h5, hl⟩ := thenRead_ok hl
  obtain ⟨v, r6, h6, hl⟩ := thenRead_ok hl
  obtain ⟨_, r7, h7, hl⟩ := thenRead_ok hl
  simp only [Prod.mk.injEq, Res.ok.injEq, Option.some.injEq] at hl
  obtain ⟨rfl, rfl⟩ := hl
  unfold parseHeaderName at h2
  obtain ⟨tok, r2', h2t, e2⟩ := thenRead_ok h2
  simp only [Prod.mk.injEq] at e2
  obtain ⟨_, rfl⟩ := e2
  have hbuf : buf = r1 ∧ buf.head? = some b := by
    cases buf with
    | nil => simp [peekByte] at h1
    | cons x y =>
      simp only [peekByte, Prod.mk.injEq, Res.ok.injEq] at h1
      exact ⟨h1.2, by rw [h1.1]; rfl⟩
  have key : lineTexts buf next = (if tok = [] then [] else [tok]) ++ ((if v = [] then [] else [v]) ++ next r7) := by
    unfold lineTexts
    rw [h1]
    simp only [afterRead]
    rw [if_neg (by rw [← hbuf.1, hbuf.2]; simp [hb, hb'])]
    unfold withText
    rw [token_error (e' := .token) h2t]
    simp only
    rw [h3]
    simp only
    rw [h4]
    simp only
    rw [h5]
    simp only
    rw [token_error (e' := .token) h6]
    simp only
    rw [h7]
  rw [key]
  refine ⟨fun hv => ?_, fun t ht => ?_⟩
  · simp only at hv ⊢
    rw [if_neg hv]
    simp
  · simp [ht]

theorem headerTexts_values (k : Nat) : ∀ (m m' : HeaderMap) (buf r : Bytes), parseHeaderLoop k m buf = (.ok (), m', r) →
    ∀ e ∈ m', e.2 ≠ [] → e.2 ∈ headerTexts k buf ∨ ∃ e' ∈ m, e'.2 = e.2 := by
  induction k with
  | zero => intro m m' buf r h; simp [parseHeaderLoop] at h
  | succ k ih =>
    intro m m' buf r h e he hne
    unfold parseHeaderLoop thenDo at h
    split at h
    next o rest hl =>
      cases o with
      | none =>
        simp only [onLine, Prod.mk.injEq, true_and] at h
        exact .inr ⟨e, by rw [h.1]; exact he, rfl⟩
      | some x =>
        simp only [onLine] at h
        obtain ⟨p, q⟩ := lineTexts_ok hl (headerTexts k)
        rcases ih _ _ _ _ h e he hne with hm | ⟨e', hm, hv⟩
        · exact .inl (q _ hm)
        · rcases mem_insert_value hm with h2 | ⟨e'', hm, h2⟩
          · left
            have : e.2 = x.2 := by rw [← hv, h2]
            rw [this] at hne ⊢
            exact p hne
          · exact .inr ⟨e'', hm, by rw [h2, hv]⟩
    next => simp at h
    next => simp at h

theorem mem_withText {func : UInt8 → Bool} {e : Error} {empty : Bool} {buf v rest t : Bytes} {next : Bytes → List Bytes}
    (h : parseTokenEmpty func e empty buf = (.ok v, rest)) (ht : t ∈ next rest) : t ∈ withText func empty buf next := by
  unfold withText
  rw [token_error (e' := .token) h]
  simp [ht]

theorem mem_afterRead {α : Type} {x : Res α × Bytes} {a : α} {rest t : Bytes} {next : Bytes → List Bytes} (h : x = (.ok a, rest))
    (ht : t ∈ next rest) : t ∈ afterRead x next := by
  rw [h]; exact ht

theorem onToken_text {α : Type} {conv : Bytes → Res α} {buf r : Bytes} {a : α} (h : onToken (parseToken buf) conv = (.ok a, r)) :
    ∃ v, parseTokenEmpty isToken .token false buf = (.ok v, r) := by
  unfold onToken at h
  obtain ⟨v, r', h1, h2⟩ := thenRead_ok h
  simp only [Prod.mk.injEq] at h2
  exact ⟨v, by rw [← h2.2]; exact h1⟩

theorem thenDo_ok {α β σ : Type} {x : Res α × Bytes} {s : σ} {f : α → Bytes → Res β × σ × Bytes} {b : β} {s' : σ} {r : Bytes}
    (h : thenDo x s f = (.ok b, s', r)) : ∃ a r1, x = (.ok a, r1) ∧ f a r1 = (.ok b, s', r) := by
  obtain ⟨x, buf⟩ := x
  cases x with
  | ok a => exact ⟨a, buf, rfl, h⟩
  | err e => simp [thenDo] at h
  | panic => simp [thenDo] at h

/-- C127 does not hold for any response of which a header value is not UTF-8: that value was made a `str`. -/
theorem C127_violated_response (r r' : Response) (buf rest : Bytes) (h : r.parseHead buf = (.ok (), r', rest)) (e : Header)
    (he : e ∈ r'.header) (hv : ¬ IsUtf8 e.2) : ∃ t ∈ responseTexts buf, ¬ IsUtf8 t := by
  have hne : e.2 ≠ [] := fun h0 => hv (by rw [h0]; exact isUtf8_nil)
  refine ⟨e.2, ?_, hv⟩
  unfold Response.parseHead at h
  obtain ⟨a1, b1, h1, h⟩ := thenDo_ok h
  obtain ⟨a2, b2, h2, h⟩ := thenDo_ok h
  obtain ⟨a3, b3, h3, h⟩ := thenDo_ok h
  obtain ⟨a4, b4, h4, h⟩ := thenDo_ok h
  obtain ⟨a5, b5, h5, h⟩ := thenDo_ok h
  obtain ⟨a6, b6, h6, h⟩ := thenDo_ok h
  obtain ⟨a7, b7, h7, h⟩ := thenDo_ok h
  obtain ⟨a8, b8, h8, h⟩ := thenDo_ok h
  simp only [Prod.mk.injEq, true_and] at h
  rw [← h.1] at he
  simp only [Prod.mk.injEq] at h8
  have key : e.2 ∈ headerTexts (b7.length + 1) b7 := by
    rcases headerTexts_values _ [] _ b7 b8 (Prod.ext h8.1 (Prod.ext rfl h8.2)) e he hne with hm | ⟨_, hm, _⟩
    · exact hm
    · simp at hm
  unfold responseTexts
  rw [h1]
  refine mem_withText (onToken_text h2).choose_spec (mem_afterRead h2 (mem_afterRead h3 (mem_withText (onToken_text h4).choose_spec (mem_afterRead h4 (mem_afterRead h5 (mem_withText h6 (mem_afterRead h7 key)))))))

/-- The same for requests. -/
theorem C127_violated_request (r r' : Request) (buf rest : Bytes) (h : r.parseHead buf = (.ok (), r', rest)) (e : Header)
    (he : e ∈ r'.header) (hv : ¬ IsUtf8 e.2) : ∃ t ∈ requestTexts buf, ¬ IsUtf8 t := by
  have hne : e.2 ≠ [] := fun h0 => hv (by rw [h0]; exact isUtf8_nil)
  refine ⟨e.2, ?_, hv⟩
  unfold Request.parseHead at h
  obtain ⟨a1, b1, h1, h⟩ := thenDo_ok h
  obtain ⟨a2, b2, h2, h⟩ := thenDo_ok h
  obtain ⟨a3, b3, h3, h⟩ := thenDo_ok h
  obtain ⟨a4, b4, h4, h⟩ := thenDo_ok h
  obtain ⟨a5, b5, h5, h⟩ := thenDo_ok h
  obtain ⟨a6, b6, h6, h⟩ := thenDo_ok h
  obtain ⟨a7, b7, h7, h⟩ := thenDo_ok h
  obtain ⟨a8, b8, h8, h⟩ := thenDo_ok h
  unfold Request.finishUrl at h
  obtain ⟨a9, b9, h9, h⟩ := thenDo_ok h
  simp only [Prod.mk.injEq, true_and] at h
  rw [← h.1] at he
  simp only [Prod.mk.injEq] at h8
  have key : e.2 ∈ headerTexts (b7.length + 1) b7 := by
    rcases headerTexts_values _ [] _ b7 b8 (Prod.ext h8.1 (Prod.ext rfl h8.2)) e he hne with hm | ⟨_, hm, _⟩
    · exact hm
    · simp at hm
  unfold requestTexts
  rw [h1]
  refine mem_withText (onToken_text h2).choose_spec (mem_afterRead h2 (mem_afterRead h3 (mem_withText h4 (mem_afterRead h5 (mem_withText (onToken_text h6).choose_spec (mem_afterRead h6 (mem_afterRead h7 key)))))))

theorem C127_violated : ¬ C127_statement := by
  intro h
  have hp : ({} : Response).parseHead (asciiBytes "HTTP/1.1 200 OK\r\nx: " ++ [0xFF, 13, 10, 13, 10]) =
      (.ok (), { status := 200, header := [(asciiBytes "x", [0xFF])] }, []) := by
    decide +kernel
  have hv : ¬ IsUtf8 ([0xFF] : Bytes) := by
    rw [← utf8Valid_iff]; decide +kernel
  obtain ⟨t, ht, hn⟩ := C127_violated_response _ _ _ _ hp (asciiBytes "x", [0xFF]) (List.mem_singleton.mpr rfl) hv
  exact hn (h _ t (List.mem_append_left _ (List.mem_append_left _ (List.mem_append_right _ ht))))

/-- The other `unsafe` code, in builds without debug assertions: every status code that can be made, by `from_u16`, by `from_bytes` or
as one of the constants, is in the range for which `as_str` looks into `CODE_DIGITS` without a check, and there are three digits there. -/
theorem C127_status_partial (code : Nat) (h : (∃ n, statusFromU16 n = .ok code) ∨ (∃ b, statusFromBytes b = .ok code) ∨ ∃ e ∈ statusTable, e.1 = code) :
    100 ≤ code ∧ (code - 100) * 3 + 3 ≤ codeDigitsBytes.length ∧ code < 2 ^ 16 := by
  have hl : codeDigitsBytes.length = 2700 := by
    rw [codeDigits_eq, flatMap_length threeDigits 3 (fun _ => rfl), List.length_range']
  have hr : 100 ≤ code ∧ code < 1000 := by
    rcases h with ⟨n, h⟩ | ⟨b, h⟩ | ⟨e, he, h⟩
    · unfold statusFromU16 at h
      split at h
      · simp at h
      · simp only [Res.ok.injEq] at h; omega
    · unfold statusFromBytes at h
      split at h
      · simp only at h
        split at h
        · simp at h
        · simp only [Res.ok.injEq] at h; omega
      · simp at h
    · have : ∀ e ∈ statusTable, 100 ≤ e.1 ∧ e.1 < 1000 := by decide +kernel
      rw [← h]; exact this e he
  rw [hl]
  omega

/-- A request with a value in UTF-8 that is not ASCII: five texts. -/
example : requestTexts (asciiBytes "GET / HTTP/1.1\r\nx: " ++ [0xC3, 0xA9, 13, 10, 13, 10]) =
    [asciiBytes "GET", asciiBytes "/", asciiBytes "HTTP/1.1", asciiBytes "x", [0xC3, 0xA9]] := by decide +kernel

example : IsUtf8 (asciiBytes "GET / HTTP/1.1\r\nx: " ++ [0xC3, 0xA9, 13, 10, 13, 10]) := by
  rw [← utf8Valid_iff]; decide +kernel

example : urlTexts (asciiBytes "http://a/") = [asciiBytes "http"] ∧ chunkTexts (asciiBytes "1a\r\n") = [asciiBytes "1a"] := by decide +kernel

example : ∃ b, statusFromBytes b = .ok 999 := ⟨asciiBytes "999", by decide +kernel⟩

end Webparse
