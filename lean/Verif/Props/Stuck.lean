import Verif.Proofs.Stuck
import Verif.Props.UrlFull

/-! # C70: exactly the heads that never get a verdict -/

namespace Webparse
open Spec

theorem oddByte_iff (c : UInt8) : IsOddByte c ↔ isStatusToken c = false ∧ c ≠ 13 ∧ c ≠ 10 ∧ c ≠ 32 := by
  unfold IsOddByte
  revert c; decide +kernel

theorem oddByte_iff_token (c : UInt8) : IsOddByte c ↔ isToken c = false ∧ c ≠ 13 ∧ c ≠ 10 ∧ c ≠ 32 := by
  unfold IsOddByte
  revert c; decide +kernel

/-- **C70** (partial: exactly when).  A response head gets `Partial` whatever follows it exactly if its status line is followed by a
byte that is no line end and no printable character, or a field line with an empty value is followed by something that is no line
end. -/
theorem C70_response_iff_partial (r : Response) (buf : Bytes) :
    (∀ x, (r.parseBuffer (buf ++ x)).1 = .err .partialData) ↔ StuckResponse buf := by
  have hcount : (∀ x, (r.parseBuffer (buf ++ x)).1 = .err .partialData) ↔ Hopeless (fun b => forget (r.parseHead b)) buf := by
    constructor
    · intro h x
      obtain ⟨q, hq⟩ := count_err.mp (h x)
      exact congrArg Prod.fst hq
    · intro h x
      exact hopeless_count (p := r.parseHead) h x
  rw [hcount, funext (forget_response r)]
  have hz : ∀ {α β : Type} (f : Bytes → Res α) (G : α → Bytes → Res β × Bytes),
      (thenRead (onToken (parseToken [0]) f) G).1 ≠ .err .partialData := by
    intro α β f G
    rw [show parseToken [0] = (.err .token, [0]) by decide +kernel]
    simp [onToken, thenRead]
  have hs : ∀ {α : Type} (G : Bytes → Bytes → Res α × Bytes), (thenRead (parseStatusToken [0]) G).1 ≠ .err .partialData := by
    intro α G
    rw [show parseStatusToken [0] = (.err .token, [0]) by decide +kernel]
    simp [thenRead]
  have hsp : ∀ {α : Type} (G : Unit → Bytes → Res α × Bytes), thenRead (skipSpaces [0]) G = G () [0] := fun _ => rfl
  constructor
  · intro h
    obtain ⟨_, r1, h1, h⟩ := (hopeless_step streams_skipEmptyLines (fun b hb => ⟨[0], emptyLines_feed (hz _ _) hb⟩) _).mp h
    obtain ⟨v, r2, h2, h⟩ := (hopeless_step (streams_onToken (streams_token _ _ _) _) (fun b hb => ⟨[0],
      onToken_feed version_not_partial (onToken_exhausted version_not_partial hb) (by decide) fun _ => by rw [hsp]; exact hz _ _⟩) _).mp h
    obtain ⟨_, r3, h3, h⟩ := (hopeless_step streams_skipSpaces (fun b hb => ⟨[0], spaces_feed (spaces_exhausted hb) (by decide) (hz _ _)⟩) _).mp h
    obtain ⟨code, r4, h4, h⟩ := (hopeless_step (streams_onToken (streams_token _ _ _) _) (fun b hb => ⟨[0],
      onToken_feed status_not_partial (onToken_exhausted status_not_partial hb) (by decide) fun _ => by rw [hsp]; exact hs _⟩) _).mp h
    obtain ⟨_, r5, h5, h⟩ := (hopeless_step streams_skipSpaces (fun b hb => ⟨[0], spaces_feed (spaces_exhausted hb) (by decide) (hs _)⟩) _).mp h
    obtain ⟨reason, r6, h6, h⟩ := (hopeless_step (streams_token _ _ _) (fun b hb => ⟨[13, 0],
      token_feed (by decide) (token_exhausted (by decide) hb) (by decide) fun _ => by simp [thenRead, skipNewLine, nextByte, expectByte]⟩) _).mp h
    have hfin := (badEnd_of_newLine _).mp h
    obtain ⟨lines, hl, rfl, -⟩ := (skipEmptyLines_iff _ _).mp h1
    obtain ⟨vt, hv, -, -, rfl, hs2⟩ := (onToken_iff _ _ _ _).mp h2
    obtain ⟨a, ha, rfl, ha3⟩ := (skipSpaces_iff _ _).mp h3
    obtain ⟨ct, hc, hct, hcta, rfl, hs4⟩ := (onToken_iff _ _ _ _).mp h4
    obtain ⟨b, hb, rfl, hb3⟩ := (skipSpaces_iff _ _).mp h5
    obtain ⟨hr1, hr2, rfl, hs6⟩ := (token_iff _ _ _ _ _).mp h6
    obtain ⟨n, hn, hnv, rfl⟩ := (C45_version _ _).mp hv
    obtain ⟨hc1, hc2, rfl⟩ := (status_iff _ _).mp hc
    refine ⟨lines ++ asciiBytes n.2 ++ a ++ threeDigits code ++ b ++ reason,
      ⟨lines, a, b, reason, code, hl, ha, ?_, hb, ?_, hr1, (statusToken_bytes _).mp hr2, ?_, hc1, hc2, n, hn, rfl⟩, ?_⟩
    · exact spaces_between (f := isToken) (fun _ _ h => h) hct hcta hs2 ha3
    · exact spaces_between (f := isStatusToken) (by decide +kernel) hr1 hr2 hs4 hb3
    · obtain ⟨x, s, rfl⟩ := List.exists_cons_of_ne_nil hr1
      rw [List.cons_append, starts_cons] at hb3
      simpa using hb3
    · rcases hfin with ⟨c, t, rfl, g1, g2, g3⟩ | ⟨_, r7, h7, hfin⟩
      · rw [starts_cons] at hs6
        exact Or.inl ⟨c, t, (oddByte_iff c).mpr ⟨hs6, g1, g2, g3⟩, by simp⟩
      · right
        obtain ⟨e, he, rfl⟩ := (skipNewLine_iff _ _).mp h7
        rcases (hopeless_header [] _ _).mp hfin with h | ⟨hm, q, -, h⟩
        · refine ⟨e, r7, ?_, h, by simp⟩
          rcases he with rfl | rfl | rfl
          · exact Or.inl rfl
          · exact Or.inr rfl
          · rw [List.cons_append, starts_cons] at hs6
            exact absurd hs6 (by decide)
        · simp at h
  · rintro ⟨line, ⟨lines, a, b, reason, code, hl, ha, hane, hb, hbne, hr, hrb, hr32, hc1, hc2, n, hn, rfl⟩, htail⟩
    obtain ⟨n1, n2, -⟩ := versionName_facts n hn
    have c1 : threeDigits code ≠ [] := by simp [threeDigits]
    have c2 := (threeDigits_token code).1
    obtain ⟨tail, hbuf, hts, hth⟩ : ∃ tail, buf = lines ++ (asciiBytes n.2 ++ (a ++ (threeDigits code ++ (b ++ (reason ++ tail))))) ∧
        Starts (fun b => isStatusToken b = false) tail ∧
        (BadEnd tail ∨ ∃ e text, (e = [13, 10] ∨ e = [10]) ∧ StuckFields text ∧ tail = e ++ text) := by
      rcases htail with ⟨c, rest, hc, rfl⟩ | ⟨e, text, he, ht, rfl⟩
      · obtain ⟨g0, g1, g2, g3⟩ := (oddByte_iff c).mp hc
        exact ⟨c :: rest, by simp, (starts_cons _ _ _).mpr g0, Or.inl ⟨c, rest, rfl, g1, g2, g3⟩⟩
      · refine ⟨e ++ text, by simp, ?_, Or.inr ⟨e, text, he, ht, rfl⟩⟩
        rcases he with rfl | rfl <;> exact ⟨_, _, rfl, by decide⟩
    rw [hbuf]
    refine hopeless_then streams_skipEmptyLines ((skipEmptyLines_iff _ _).mpr ⟨lines, hl, rfl, (token_starts n1 n2).1⟩) ?_
    refine hopeless_then (streams_onToken (streams_token _ _ _) _)
      ((onToken_iff _ _ _ _).mpr ⟨_, (C45_version _ n.1).mpr ⟨n, hn, rfl, rfl⟩, n1, n2, rfl, spaces_starts hane ha⟩) ?_
    refine hopeless_then streams_skipSpaces ((skipSpaces_iff _ _).mpr ⟨a, ha, rfl, (token_starts c1 c2).2⟩) ?_
    refine hopeless_then (streams_onToken (streams_token _ _ _) _)
      ((onToken_iff _ _ _ _).mpr ⟨_, (status_iff _ code).mpr ⟨hc1, hc2, rfl⟩, c1, c2, rfl, spaces_starts hbne hb⟩) ?_
    refine hopeless_then (r := reason ++ tail) streams_skipSpaces ((skipSpaces_iff _ _).mpr ⟨b, hb, rfl, ?_⟩) ?_
    · obtain ⟨x, s, rfl⟩ := List.exists_cons_of_ne_nil hr
      rw [List.cons_append, starts_cons]
      simpa using hr32
    refine hopeless_then (streams_token _ _ _) ((token_iff _ _ _ _ _).mpr ⟨hr, (statusToken_bytes _).mpr hrb, rfl, hts⟩) ?_
    refine (badEnd_of_newLine _).mpr ?_
    rcases hth with h | ⟨e, text, he, ht, rfl⟩
    · exact Or.inl h
    · refine Or.inr ⟨(), text, (skipNewLine_iff _ _).mpr ⟨e, ?_, rfl⟩, (hopeless_header [] _ _).mpr (Or.inl ht)⟩
      rcases he with rfl | rfl
      · exact Or.inl rfl
      · exact Or.inr (Or.inl rfl)

/-! ## Incomplete URLs -/

theorem bind_partial_iff {α β : Type} {x : Res α} {f : α → Res β} :
    (x >>= f) = .err .partialData ↔ x = .err .partialData ∨ ∃ a, x = .ok a ∧ f a = .err .partialData := by
  cases x with
  | ok a => simp [Bind.bind, Res.bind]
  | err e => simp [Bind.bind, Res.bind]
  | panic => simp [Bind.bind, Res.bind]

theorem halfEscape_plain {b : UInt8} {s : Bytes} (hb : b ≠ 37) : HalfEscape (b :: s) ↔ HalfEscape s := by
  constructor
  · rintro ⟨g, v, hg, h⟩
    cases hg with
    | nil => rcases h with h | ⟨x, h⟩ <;> simp only [List.nil_append, List.cons.injEq] at h <;> exact absurd h.1 hb
    | plain _ hg =>
      rcases h with h | ⟨x, h⟩ <;> simp only [List.cons_append, List.cons.injEq] at h
      · exact ⟨_, _, hg, .inl h.2⟩
      · exact ⟨_, _, hg, .inr ⟨x, h.2⟩⟩
    | escape _ _ _ => rcases h with h | ⟨x, h⟩ <;> simp only [List.cons_append, List.cons.injEq] at h <;> exact absurd h.1 hb
  · rintro ⟨g, v, hg, h⟩
    refine ⟨b :: g, b :: v, .plain hb hg, ?_⟩
    rcases h with rfl | ⟨x, rfl⟩
    · exact .inl rfl
    · exact .inr ⟨x, rfl⟩

theorem halfEscape_escape {x y : UInt8} {s : Bytes} : HalfEscape (37 :: x :: y :: s) ↔
    (hexDigit? x).isSome ∧ (hexDigit? y).isSome ∧ HalfEscape s := by
  constructor
  · rintro ⟨g, v, hg, h⟩
    cases hg with
    | nil => rcases h with h | ⟨x, h⟩ <;> simp at h
    | plain hb _ => rcases h with h | ⟨x, h⟩ <;> simp only [List.cons_append, List.cons.injEq] at h <;> exact absurd h.1.symm hb
    | escape h1 h2 hg =>
      rcases h with h | ⟨z, h⟩ <;> simp only [List.cons_append, List.cons.injEq] at h
      · obtain ⟨-, rfl, rfl, h⟩ := h
        exact ⟨by rw [h1]; rfl, by rw [h2]; rfl, _, _, hg, .inl h⟩
      · obtain ⟨-, rfl, rfl, h⟩ := h
        exact ⟨by rw [h1]; rfl, by rw [h2]; rfl, _, _, hg, .inr ⟨z, h⟩⟩
  · rintro ⟨h1, h2, g, v, hg, h⟩
    obtain ⟨t, h1⟩ := Option.isSome_iff_exists.mp h1
    obtain ⟨u, h2⟩ := Option.isSome_iff_exists.mp h2
    refine ⟨37 :: x :: y :: g, _, .escape h1 h2 hg, ?_⟩
    rcases h with rfl | ⟨z, rfl⟩
    · exact .inl rfl
    · exact .inr ⟨z, rfl⟩

theorem urlTokenLoop_partial_iff (s : Bytes) : urlTokenLoop s = .err .partialData ↔ HalfEscape s := by
  suffices ∀ n (s : Bytes), s.length ≤ n → (urlTokenLoop s = .err .partialData ↔ HalfEscape s) from this _ _ (Nat.le_refl _)
  intro n
  induction n with
  | zero =>
    intro s hn
    have : s = [] := List.length_eq_zero_iff.mp (by omega)
    subst this
    simp only [urlTokenLoop, reduceCtorEq, false_iff]
    rintro ⟨g, v, -, h | ⟨x, h⟩⟩ <;> simp at h
  | succ n ih =>
    intro s hn
    match s with
    | [] =>
      simp only [urlTokenLoop, reduceCtorEq, false_iff]
      rintro ⟨g, v, -, h | ⟨x, h⟩⟩ <;> simp at h
    | b :: r =>
      simp only [List.length_cons] at hn
      by_cases hb : b = 37
      · subst hb
        match r with
        | [] =>
          have e : urlTokenLoop [37] = .err .partialData := by decide
          simp only [e, true_iff]
          exact ⟨[], [], .nil, .inl rfl⟩
        | [x] =>
          have e : urlTokenLoop [37, x] = .err .partialData := by
            rw [urlTokenLoop.eq_def]
            simp
          simp only [e, true_iff]
          exact ⟨[], [], .nil, .inr ⟨x, rfl⟩⟩
        | x :: y :: r =>
          simp only [List.length_cons] at hn
          rw [urlTokenLoop, if_pos rfl, halfEscape_escape, ← ih r (by omega)]
          simp only [convertHex_eq]
          cases hexDigit? x with
          | none => simp
          | some t =>
            cases hexDigit? y with
            | none => simp
            | some u =>
              simp only [Option.map_some, Option.isSome_some, true_and]
              rw [bind_partial_iff]
              simp
      · rw [urlTokenLoop.eq_def]
        simp only [if_neg hb]
        rw [bind_partial_iff, halfEscape_plain hb, ih r (by omega)]
        simp

theorem parseUrlToken_partial_iff (s : Bytes) : parseUrlToken s = .err .partialData ↔ HalfEscape s := by
  unfold parseUrlToken
  rw [bind_partial_iff, urlTokenLoop_partial_iff]
  constructor
  · rintro (h | ⟨v, -, h⟩)
    · exact h
    · split at h <;> simp at h
  · exact .inl

theorem parseOptToken_partial_iff (o : Option Bytes) : parseOptToken o = .err .partialData ↔ HalfPart o := by
  cases o with
  | none => simp [parseOptToken, HalfPart]
  | some s =>
    rw [parseOptToken, bind_partial_iff, parseUrlToken_partial_iff]
    simp [HalfPart]

theorem build_partial_iff (scheme : Scheme) (s : UrlState) : s.build scheme = .err .partialData ↔ FirstHalf s.raw := by
  have hport : parsePort s.port = .err .partialData ↔ HalfPart s.port := by
    cases s.port with
    | none => simp [parsePort, HalfPart]
    | some p =>
      rw [parsePort, bind_partial_iff, parseUrlToken_partial_iff]
      simp only [HalfPart, Option.some.injEq, exists_eq_left']
      constructor
      · rintro (h | ⟨v, -, h⟩)
        · exact h
        · split at h <;> simp at h
      · exact .inl
  have hport2 : (∃ n, parsePort s.port = .ok n) ↔ ∃ n, PortIs 0 s.port n := by
    constructor
    · rintro ⟨n, h⟩; exact ⟨_, (parsePort_iff 0 _ _).mp ⟨n, h, rfl⟩⟩
    · rintro ⟨n, h⟩
      obtain ⟨p, h, -⟩ := (parsePort_iff 0 _ _).mpr h
      exact ⟨p, h⟩
  have hpath : parsePath s.path = .err .partialData ↔ HalfPart s.path := by
    cases s.path with
    | none => simp [parsePath, HalfPart]
    | some p =>
      rw [parsePath, parseUrlToken_partial_iff]
      simp [HalfPart]
  have hpath2 : (∃ v, parsePath s.path = .ok v) ↔ FinePart s.path := by
    cases s.path with
    | none => simp [parsePath, FinePart, PartIs]
    | some p =>
      simp only [parsePath, parseUrlToken_iff, FinePart, PartIs]
      constructor
      · rintro ⟨v, h1, h2⟩; exact ⟨some v, v, h1, h2, rfl⟩
      · rintro ⟨_, v, h1, h2, -⟩; exact ⟨v, h1, h2⟩
  have step : ∀ {α β : Type} {x : Res α} {P : Prop}, (∃ a, x = .ok a ∧ P) ↔ (∃ a, x = .ok a) ∧ P := fun {_ _ _ _} =>
    ⟨fun ⟨a, h, p⟩ => ⟨⟨a, h⟩, p⟩, fun ⟨⟨a, h⟩, p⟩ => ⟨a, h, p⟩⟩
  unfold UrlState.build FirstHalf
  simp only [bind_partial_iff, parseOptToken_partial_iff, hport, hpath, reduceCtorEq, and_false, exists_false, or_false]
  simp only [exists_and_right, hport2, hpath2, parseOptToken_iff]
  rfl

theorem run_not_partial (s : UrlState) (x : Bytes) : s.run x ≠ .err .partialData := by
  induction x generalizing s with
  | nil => simp [UrlState.run]
  | cons b r ih =>
    rw [UrlState.run]
    exact bind_not_partial (step_not_partial s b) fun a _ => ih a

theorem expect_partial {c : UInt8} {e : Error} (he : e ≠ .partialData) (buf : Bytes) :
    (expectByte c e buf).1 = .err .partialData ↔ buf = [] := by
  cases buf with
  | nil => simp [expectByte]
  | cons b r =>
    simp only [expectByte, reduceCtorEq, iff_false]
    split
    · simp
    · simpa using he

theorem thenRead_partial {α β : Type} {x : Res α × Bytes} {f : α → Bytes → Res β × Bytes} :
    (thenRead x f).1 = .err .partialData ↔ x.1 = .err .partialData ∨ ∃ a r, x = (.ok a, r) ∧ (f a r).1 = .err .partialData := by
  obtain ⟨a | e | _, r⟩ := x <;> simp [thenRead]

theorem schemePrefix_partial (c : UInt8) (r : Bytes) (hc : isLetter c = true) :
    (parseSchemePrefix (c :: r)).1 = .err .partialData ↔
      (∀ b ∈ c :: r, (asciiBytes "ABCDEFGHIJKLMNOPQRSTUVWXYZabcdefghijklmnopqrstuvwxyz0123456789+-.").contains b = true) ∨
      ∃ t, SchemeText t ∧ (c :: r = t ++ [58] ∨ c :: r = t ++ [58, 47]) := by
  have chars : ∀ t : Bytes, t.all isSchemeToken = true ↔
      ∀ b ∈ t, (asciiBytes "ABCDEFGHIJKLMNOPQRSTUVWXYZabcdefghijklmnopqrstuvwxyz0123456789+-.").contains b = true := by
    intro t
    rw [List.all_eq_true]
    exact forall_congr' fun b => by rw [schemeChar_eq]
  have htok : ∀ buf, (parseTokenBy isSchemeToken .headerValue buf).1 = .err .partialData ↔ buf.all isSchemeToken = true := by
    intro buf
    constructor
    · exact token_exhausted (by decide)
    · intro h; unfold parseTokenBy parseTokenEmpty; rw [if_pos h]
  have hexp := fun buf => expect_partial (c := 58) (show Error.urlInvalid ≠ .partialData by decide) buf
  have hexp' := fun buf => expect_partial (c := 47) (show Error.urlInvalid ≠ .partialData by decide) buf
  have hpre : (parseSchemePrefix (c :: r)).1 = .err .partialData ↔ (parseScheme (c :: r)).1 = .err .partialData ∨
      ∃ sc b, parseScheme (c :: r) = (.ok sc, b) ∧ (b = [] ∨ b = [58] ∨ b = [58, 47]) := by
    unfold parseSchemePrefix
    rw [thenRead_partial]
    refine or_congr Iff.rfl (exists_congr fun sc => exists_congr fun b => and_congr_right fun _ => ?_)
    rw [thenRead_partial, hexp]
    refine or_congr Iff.rfl ?_
    constructor
    · rintro ⟨_, b1, h1, h⟩
      rw [expectByte_iff] at h1
      subst h1
      rw [thenRead_partial, hexp'] at h
      rcases h with rfl | ⟨_, b2, h2, h⟩
      · exact .inl rfl
      · rw [expectByte_iff] at h2
        subst h2
        rw [thenRead_partial, hexp'] at h
        rcases h with rfl | ⟨_, _, _, h⟩
        · exact .inr rfl
        · simp at h
    · rintro (rfl | rfl)
      · exact ⟨(), [], (expectByte_iff _ _ _ _).mpr rfl, by simp [thenRead, expectByte]⟩
      · refine ⟨(), [47], (expectByte_iff _ _ _ _).mpr rfl, ?_⟩
        rw [show expectByte 47 .urlInvalid [47] = (.ok (), []) by decide]
        simp [thenRead, expectByte]
  have hsch : (parseScheme (c :: r)).1 = .err .partialData ↔ (c :: r).all isSchemeToken = true := by
    unfold parseScheme
    rw [thenRead_partial, htok]
    constructor
    · rintro (h | ⟨t, b, -, h⟩)
      · exact h
      · exfalso
        split at h
        · simp at h
        · rename_i hl
          obtain ⟨s, hs⟩ := tryFrom_short hl
          rw [hs] at h; simp at h
    · exact .inl
  have hok : ∀ sc b, parseScheme (c :: r) = (.ok sc, b) ↔
      ∃ t, SchemeText t ∧ c :: r = t ++ b ∧ Scheme.tryFrom t = .ok sc ∧ Starts (fun b => isSchemeToken b = false) b := by
    intro sc b
    unfold parseScheme
    rw [thenRead_iff]
    constructor
    · rintro ⟨t, b', h1, h2⟩
      obtain ⟨g1, g2, g3, g4⟩ := (token_iff _ _ _ _ _).mp h1
      split at h2
      · simp at h2
      · rename_i hl
        simp only [Prod.mk.injEq] at h2
        obtain ⟨h2, rfl⟩ := h2
        refine ⟨t, ⟨?_, (chars t).mp g2, by omega⟩, g3, h2, g4⟩
        obtain ⟨x, t', rfl⟩ := List.exists_cons_of_ne_nil g1
        simp only [List.cons_append, List.cons.injEq] at g3
        exact ⟨x, t', rfl, by rw [← g3.1]; exact hc⟩
    · rintro ⟨t, ht, e, hs, hb⟩
      have hne : t ≠ [] := by obtain ⟨x, t', rfl, -⟩ := ht.head; simp
      refine ⟨t, b, (token_iff _ _ _ _ _).mpr ⟨hne, (chars t).mpr ht.chars, e, hb⟩, ?_⟩
      have := ht.len
      rw [if_neg (by omega), hs]
  rw [hpre, hsch, chars]
  refine or_congr Iff.rfl ?_
  constructor
  · rintro ⟨sc, b, h, hb⟩
    obtain ⟨t, ht, e, -, b0, s0, hst, -⟩ := (hok sc b).mp h
    rcases hb with rfl | rfl | rfl
    · simp at hst
    · exact ⟨t, ht, .inl e⟩
    · exact ⟨t, ht, .inr e⟩
  · rintro ⟨t, ht, h⟩
    obtain ⟨sc, hs⟩ := tryFrom_short (t := t) (by have := ht.len; omega)
    rcases h with e | e
    · exact ⟨sc, [58], (hok _ _).mpr ⟨t, ht, e, hs, 58, [], rfl, by decide +kernel⟩, .inr (.inl rfl)⟩
    · exact ⟨sc, [58, 47], (hok _ _).mpr ⟨t, ht, e, hs, 58, [47], rfl, by decide +kernel⟩, .inr (.inr rfl)⟩

/-- A text with a complete scheme. -/
theorem absolute_partial_iff (t a tail : Bytes) (ht : SchemeText t) (ha : (47 : UInt8) ∉ a) (h47 : tail = [] ∨ tail.head? = some 47) :
    Url.parse (t ++ [58, 47, 47] ++ (a ++ tail)) = .err .partialData ↔ (∀ b ∈ a ++ tail, IsPrint b) ∧
      ∃ user d p r, Authority none user d p a ∧ tailParts tail (authorityRaw user d p) = some r ∧ FirstHalf r := by
  obtain ⟨sc, hs⟩ := tryFrom_short (t := t) (by have := ht.len; omega)
  rw [parse_absolute_eq t _ ht, hs, Res.bind_ok, bind_partial_iff]
  constructor
  · rintro (h | ⟨st, h1, h2⟩)
    · exact absurd h (run_not_partial _ _)
    · obtain ⟨s', h4, -⟩ := run_ok h1
      have tok := steps_tokens h4
      obtain ⟨user, d, p, g1, g2⟩ := (run_iff a tail ha h47 tok st.raw).mp ⟨st, h1, rfl⟩
      exact ⟨fun b hb => (isPrint_iff b).mpr (tok b hb), user, d, p, st.raw, g1, g2, (build_partial_iff _ _).mp h2⟩
  · rintro ⟨tok, user, d, p, r, g1, g2, hu⟩
    obtain ⟨st, e1, e2⟩ := (run_iff a tail ha h47 (fun b hb => (isPrint_iff b).mp (tok b hb)) r).mpr ⟨user, d, p, g1, g2⟩
    exact .inr ⟨st, e1, (build_partial_iff _ _).mpr (by rw [e2]; exact hu)⟩

theorem origin_partial_iff (s : Bytes) (h47 : s.head? = some 47) :
    Url.parse s = .err .partialData ↔ (∀ b ∈ s, IsPrint b ∧ b ≠ 64) ∧ FirstHalf (pathParts s {}) := by
  rw [parse_origin_eq s h47, bind_partial_iff]
  constructor
  · rintro (h | ⟨st, h1, h2⟩)
    · exact absurd h (run_not_partial _ _)
    · obtain ⟨n64, tok⟩ := origin_inv h1
      have hall : ∀ b ∈ s, isToken b = true ∧ b ≠ 64 := fun b hb => ⟨tok b hb, fun e => n64 (e ▸ hb)⟩
      obtain ⟨st', e1, e2⟩ := origin_run s hall h47
      rw [h1, Res.ok.injEq] at e1
      subst e1
      exact ⟨fun b hb => ⟨(isPrint_iff b).mpr (tok b hb), (hall b hb).2⟩, by rw [← e2]; exact (build_partial_iff _ _).mp h2⟩
  · rintro ⟨hall, h⟩
    obtain ⟨st, e1, e2⟩ := origin_run s (fun b hb => ⟨(isPrint_iff b).mp (hall b hb).1, (hall b hb).2⟩) h47
    exact .inr ⟨st, e1, (build_partial_iff _ _).mpr (by rw [e2]; exact h)⟩

/-- The URLs that are called incomplete. -/
theorem C70_url_iff_partial (s : Bytes) : Url.parse s = .err .partialData ↔ UrlIncomplete s := by
  have e3 : asciiBytes "://" = [58, 47, 47] := by decide
  constructor
  · intro h
    cases s with
    | nil => exact .inl rfl
    | cons c r =>
      by_cases hc : isLetter c = true
      · rcases hp : parseSchemePrefix (c :: r) with ⟨sc | e | _, rest⟩
        · obtain ⟨t, ht, hs, -⟩ := schemePrefix_inv (c := c) rfl hc hp
          obtain ⟨a, tail, rfl, ha, h4⟩ := slash_split rest
          rw [hs] at h
          obtain ⟨g1, user, d, p, r', g2, g3, g4⟩ := (absolute_partial_iff t a tail ht ha h4).mp h
          exact .inr (.inr (.inr (.inr ⟨t, a, tail, user, d, p, r', ht, by rw [hs, e3]; simp, ha, h4, g1, g2, g3, g4⟩)))
        · rw [Url.parse, if_pos (by rw [isAlpha_eq]; exact hc), hp] at h
          have : (parseSchemePrefix (c :: r)).1 = .err .partialData := by
            rw [hp]
            simpa [Bind.bind, Res.bind] using h
          rcases (schemePrefix_partial c r hc).mp this with h | h
          · exact .inr (.inl ⟨c, r, rfl, hc, h⟩)
          · exact .inr (.inr (.inl h))
        · rw [Url.parse, if_pos (by rw [isAlpha_eq]; exact hc), hp] at h
          simp [Bind.bind, Res.bind] at h
      · by_cases h47 : c = 47
        · subst h47
          exact .inr (.inr (.inr (.inl ⟨rfl, (origin_partial_iff _ rfl).mp h⟩)))
        · rw [Url.parse, if_neg (by rw [isAlpha_eq]; exact hc), if_neg h47] at h
          simp at h
  · have hpre : ∀ c r, isLetter c = true → (parseSchemePrefix (c :: r)).1 = .err .partialData → Url.parse (c :: r) = .err .partialData := by
      intro c r hc h
      rw [Url.parse, if_pos (by rw [isAlpha_eq]; exact hc), h]
      rfl
    rintro (rfl | ⟨c, r, rfl, hc, h⟩ | ⟨t, ht, h⟩ | ⟨h47, h⟩ | ⟨t, a, tail, user, d, p, r, ht, hs, ha, h4, g1, g2, g3, g4⟩)
    · rfl
    · exact hpre c r hc ((schemePrefix_partial c r hc).mpr (.inl h))
    · obtain ⟨c, t', e, hc⟩ := ht.head
      obtain ⟨r, hr⟩ : ∃ r, s = c :: r := by rcases h with rfl | rfl <;> rw [e] <;> exact ⟨_, rfl⟩
      subst hr
      exact hpre c r hc ((schemePrefix_partial c r hc).mpr (.inr ⟨t, ht, h⟩))
    · exact (origin_partial_iff s h47).mpr h
    · rw [hs, e3, List.append_assoc _ a tail]
      exact (absolute_partial_iff t a tail ht ha h4).mpr ⟨g1, user, d, p, r, g2, g3, g4⟩

theorem requestUrl_partial_iff (m : Method) (hm : HeaderMap) (t : Bytes) :
    requestUrl m hm t = .err .partialData ↔ m ≠ .connect ∧ UrlIncomplete t := by
  rw [← C70_url_iff_partial]
  unfold requestUrl
  by_cases hc : m = .connect
  · rw [if_pos hc]
    constructor
    · intro h; exact absurd h (connectByHost_verdict _ _)
    · rintro ⟨h, -⟩; exact absurd hc h
  · rw [if_neg hc]
    rcases hp : Url.parse t with u | e | _
    · simp only [reduceCtorEq, and_false, iff_false]
      show ¬ (fillHost hm u >>= fun url => Res.ok (fillScheme hm url)) = _
      rcases hf : fillHost hm u with u' | e' | _
      · show ¬ Res.ok _ = _; simp
      · show ¬ Res.err e' = _
        rintro h
        rw [Res.err.injEq] at h
        subst h
        unfold fillHost at hf
        repeat' split at hf
        · exact connectByHost_verdict _ _ hf
        · simp at hf
        · simp at hf
      · show ¬ Res.panic = _; simp
    · show Res.err e = _ ↔ _
      simp [hc]
    · show Res.panic = _ ↔ _
      simp

/-- **C70** (partial: exactly when).  A request head gets `Partial` whatever follows it exactly if its request line is followed by a
byte that is no line end and no printable character, or a field line with an empty value is followed by something that is no line end,
or the head is complete and its target is an incomplete URL. -/
theorem C70_request_iff_partial (r : Request) (buf : Bytes) :
    (∀ x, (r.parseBuffer (buf ++ x)).1 = .err .partialData) ↔ StuckRequest buf := by
  have hcount : (∀ x, (r.parseBuffer (buf ++ x)).1 = .err .partialData) ↔ Hopeless (fun b => forget (r.parseHead b)) buf := by
    constructor
    · intro h x
      obtain ⟨q, hq⟩ := count_err.mp (h x)
      exact congrArg Prod.fst hq
    · intro h x
      exact hopeless_count (p := r.parseHead) h x
  rw [hcount, funext (forget_request r)]
  have hz : ∀ {α β : Type} (f : Bytes → Res α) (G : α → Bytes → Res β × Bytes),
      (thenRead (onToken (parseToken [0]) f) G).1 ≠ .err .partialData := by
    intro α β f G
    rw [show parseToken [0] = (.err .token, [0]) by decide +kernel]
    simp [onToken, thenRead]
  have hs : ∀ {α : Type} (G : Bytes → Bytes → Res α × Bytes), (thenRead (parseToken [0]) G).1 ≠ .err .partialData := by
    intro α G
    rw [show parseToken [0] = (.err .token, [0]) by decide +kernel]
    simp [thenRead]
  have hsp : ∀ {α : Type} (G : Unit → Bytes → Res α × Bytes), thenRead (skipSpaces [0]) G = G () [0] := fun _ => rfl
  constructor
  · intro h
    obtain ⟨_, r1, h1, h⟩ := (hopeless_step streams_skipEmptyLines (fun b hb => ⟨[0], emptyLines_feed (hz _ _) hb⟩) _).mp h
    obtain ⟨m, r2, h2, h⟩ := (hopeless_step (streams_onToken (streams_token _ _ _) _) (fun b hb => ⟨[0],
      onToken_feed method_not_partial (onToken_exhausted method_not_partial hb) (by decide) fun _ => by rw [hsp]; exact hs _⟩) _).mp h
    obtain ⟨_, r3, h3, h⟩ := (hopeless_step streams_skipSpaces (fun b hb => ⟨[0], spaces_feed (spaces_exhausted hb) (by decide) (hs _)⟩) _).mp h
    obtain ⟨target, r4, h4, h⟩ := (hopeless_step (streams_token _ _ _) (fun b hb => ⟨[0],
      token_feed (by decide) (token_exhausted (by decide) hb) (by decide) fun _ => by rw [hsp]; exact hz _ _⟩) _).mp h
    obtain ⟨_, r5, h5, h⟩ := (hopeless_step streams_skipSpaces (fun b hb => ⟨[0], spaces_feed (spaces_exhausted hb) (by decide) (hz _ _)⟩) _).mp h
    obtain ⟨v, r6, h6, h⟩ := (hopeless_step (streams_onToken (streams_token _ _ _) _) (fun b hb => ⟨[13, 0],
      onToken_feed version_not_partial (onToken_exhausted version_not_partial hb) (by decide) fun _ => by simp [thenRead, skipNewLine, nextByte, expectByte]⟩) _).mp h
    have hfin := (badEnd_of_newLine _).mp h
    obtain ⟨lines, hl, rfl, -⟩ := (skipEmptyLines_iff _ _).mp h1
    obtain ⟨mt, hmt, -, -, rfl, hs2⟩ := (onToken_iff _ _ _ _).mp h2
    obtain ⟨a, ha, rfl, ha3⟩ := (skipSpaces_iff _ _).mp h3
    obtain ⟨ht1, ht2, rfl, hs4⟩ := (token_iff _ _ _ _ _).mp h4
    obtain ⟨b, hb, rfl, hb3⟩ := (skipSpaces_iff _ _).mp h5
    obtain ⟨vt, hv, hv1, hv2, rfl, hs6⟩ := (onToken_iff _ _ _ _).mp h6
    obtain ⟨n, hn, hnv, rfl⟩ := (C45_version _ _).mp hv
    obtain ⟨k, hk, hkm, rfl⟩ := (C45_method _ _).mp hmt
    have hane := spaces_between (f := isToken) (fun _ _ h => h) ht1 ht2 hs2 ha3
    have hbne := spaces_between (f := isToken) (fun _ _ h => h) hv1 hv2 hs4 hb3
    have hline : RequestLine (lines ++ asciiBytes k.2 ++ a ++ target ++ b ++ asciiBytes n.2) :=
      ⟨lines, a, target, b, hl, ha, hane, hb, hbne, ht1, (token_bytes _).mp ht2, n, hn, k, hk, rfl⟩
    rcases hfin with ⟨c, t, rfl, g1, g2, g3⟩ | ⟨_, r7, h7, hfin⟩
    · rw [starts_cons] at hs6
      exact Or.inl ⟨_, hline, Or.inl ⟨c, t, (oddByte_iff_token c).mpr ⟨hs6, g1, g2, g3⟩, by simp⟩⟩
    · obtain ⟨e, he, rfl⟩ := (skipNewLine_iff _ _).mp h7
      rcases (hopeless_header [] _ _).mp hfin with h | ⟨hm, q, hq, h⟩
      · exact Or.inl ⟨_, hline, Or.inr ⟨e, r7, he, h, by simp⟩⟩
      · right
        obtain ⟨hs, text, ht, rfl, rfl⟩ := (parseHeader_iff [] hm r7 q).mp hq
        have hu : requestUrl m (storeAll hs) target = .err .partialData := by
          have h : urlStep m v target (storeAll hs) = .err .partialData := h
          unfold urlStep at h
          rcases hu : requestUrl m (storeAll hs) target with url | er | _
          · rw [hu] at h; simp at h
          · rw [hu] at h; simpa using h
          · rw [hu] at h; simp at h
        obtain ⟨u1, u2⟩ := (requestUrl_partial_iff _ _ _).mp hu
        exact ⟨m, target, v, hs, lines ++ asciiBytes k.2 ++ a ++ target ++ b ++ asciiBytes n.2 ++ e ++ text, q,
          ⟨lines, a, b, e, text, hl, ha, hane, hb, hbne, ht1, (token_bytes _).mp ht2, he, ht, n, hn, hnv, k, hk, hkm, rfl⟩, by simp, u1, u2⟩
  · have key : ∀ (lines a target b tail : Bytes) (n : Version × String) (k : Method × String), BlankLines lines → Spaces a → a ≠ [] →
        Spaces b → b ≠ [] → target ≠ [] → (∀ x ∈ target, 32 < x.toNat ∧ x.toNat < 127) → n ∈ versionNames → k ∈ methodNames →
        Starts (fun b => isToken b = false) tail →
        (BadEnd tail ∨ ∃ e text, (e = [13, 10] ∨ e = [10] ∨ e = [32]) ∧ tail = e ++ text ∧
          (StuckFields text ∨ ∃ hm q, parseHeader [] text = (.ok (), hm, q) ∧ urlStep k.1 n.1 target hm = .err .partialData)) →
        buf = lines ++ asciiBytes k.2 ++ a ++ target ++ b ++ asciiBytes n.2 ++ tail →
        Hopeless (fun b => thenRead (skipEmptyLines b) fun _ buf =>
          thenRead (parseMethod buf) fun method buf =>
          thenRead (skipSpaces buf) fun _ buf =>
          thenRead (parseToken buf) fun path buf =>
          thenRead (skipSpaces buf) fun _ buf =>
          thenRead (parseVersion buf) fun version buf =>
          thenRead (skipNewLine buf) fun _ buf =>
          thenRead (forget (parseHeader [] buf)) fun p buf => (urlStep method version path p.2, buf)) buf := by
      intro lines a target b tail n k hl ha hane hb hbne ht1 ht2 hn hk hts hth hbuf
      obtain ⟨n1, n2, -⟩ := versionName_facts n hn
      obtain ⟨k1, k2⟩ := methodName_facts k hk
      rw [← token_bytes] at ht2
      have hbuf : buf = lines ++ (asciiBytes k.2 ++ (a ++ (target ++ (b ++ (asciiBytes n.2 ++ tail))))) := by rw [hbuf]; simp
      rw [hbuf]
      refine hopeless_then streams_skipEmptyLines ((skipEmptyLines_iff _ _).mpr ⟨lines, hl, rfl, (token_starts k1 k2).1⟩) ?_
      refine hopeless_then (streams_onToken (streams_token _ _ _) _)
        ((onToken_iff _ _ _ _).mpr ⟨_, (C45_method _ k.1).mpr ⟨k, hk, rfl, rfl⟩, k1, k2, rfl, spaces_starts hane ha⟩) ?_
      refine hopeless_then streams_skipSpaces ((skipSpaces_iff _ _).mpr ⟨a, ha, rfl, (token_starts ht1 ht2).2⟩) ?_
      refine hopeless_then (streams_token _ _ _) ((token_iff _ _ _ _ _).mpr ⟨ht1, ht2, rfl, spaces_starts hbne hb⟩) ?_
      refine hopeless_then streams_skipSpaces ((skipSpaces_iff _ _).mpr ⟨b, hb, rfl, (token_starts n1 n2).2⟩) ?_
      refine hopeless_then (streams_onToken (streams_token _ _ _) _)
        ((onToken_iff _ _ _ _).mpr ⟨_, (C45_version _ n.1).mpr ⟨n, hn, rfl, rfl⟩, n1, n2, rfl, hts⟩) ?_
      refine (badEnd_of_newLine _).mpr ?_
      rcases hth with h | ⟨e, text, he, rfl, h⟩
      · exact Or.inl h
      · exact Or.inr ⟨(), text, (skipNewLine_iff _ _).mpr ⟨e, he, rfl⟩, (hopeless_header [] _ _).mpr h⟩
    have hend : ∀ (e text : Bytes), (e = [13, 10] ∨ e = [10] ∨ e = [32]) → Starts (fun b => isToken b = false) (e ++ text) := by
      rintro e text (rfl | rfl | rfl) <;> exact ⟨_, _, rfl, by decide⟩
    rintro (⟨line, ⟨lines, a, target, b, hl, ha, hane, hb, hbne, ht1, ht2, n, hn, k, hk, rfl⟩, ⟨c, rest, hc, hbuf⟩ | ⟨e, text, he, ht, hbuf⟩⟩ |
      ⟨m, target, v, hs', head, rest, ⟨lines, a, b, e, text, hl, ha, hane, hb, hbne, ht1, ht2, he, ht, n, hn, rfl, k, hk, rfl, rfl⟩, hbuf, hm, hu⟩)
    · obtain ⟨g0, g1, g2, g3⟩ := (oddByte_iff_token c).mp hc
      exact key lines a target b _ n k hl ha hane hb hbne ht1 ht2 hn hk ((starts_cons _ _ _).mpr g0) (Or.inl ⟨c, rest, rfl, g1, g2, g3⟩) hbuf
    · exact key lines a target b (e ++ text) n k hl ha hane hb hbne ht1 ht2 hn hk (hend e text he) (Or.inr ⟨e, text, he, rfl, Or.inl ht⟩) (by rw [hbuf]; simp)
    · refine key lines a target b (e ++ (text ++ rest)) n k hl ha hane hb hbne ht1 ht2 hn hk (hend e _ he)
        (Or.inr ⟨e, text ++ rest, he, rfl, Or.inr ⟨storeAll hs', rest, (parseHeader_iff [] _ _ _).mpr ⟨hs', text, ht, rfl, rfl⟩, ?_⟩⟩) (by rw [hbuf]; simp)
      have := (requestUrl_partial_iff k.1 (storeAll hs') target).mpr ⟨hm, hu⟩
      unfold urlStep
      rw [this]

/-- Each kind of stuck head. -/
example : StuckResponse (asciiBytes "HTTP/1.1 200 OK\r\nA: b\r\nB:\rx") := by
  refine ⟨asciiBytes "HTTP/1.1 200 OK", ⟨[], [32], [32], asciiBytes "OK", 200, .nil, by decide +kernel, by decide +kernel, by decide +kernel, by decide +kernel, by decide +kernel,
    by decide +kernel, by decide +kernel, by decide +kernel, by decide +kernel, (.http11, "HTTP/1.1"), by decide +kernel, by decide +kernel⟩,
    Or.inr ⟨[13, 10], asciiBytes "A: b\r\nB:\rx", Or.inl rfl, ?_, by decide +kernel⟩⟩
  have e : asciiBytes "A: b\r\nB:\rx" = asciiBytes "A: b\r\n" ++ (asciiBytes "B" ++ [] ++ [58] ++ [] ++ 13 :: 120 :: []) := by decide +kernel
  rw [e]
  exact .later (h := (asciiBytes "A", asciiBytes "b")) ⟨⟨by decide +kernel, by decide +kernel⟩, [], [32], [13, 10], by decide +kernel, by decide +kernel, by decide +kernel,
    by decide +kernel, Or.inl rfl, by decide +kernel⟩ (.here ⟨by decide +kernel, by decide +kernel⟩ (by decide +kernel) (by decide +kernel) (by decide +kernel) (by decide +kernel) (by decide +kernel))

example (x : Bytes) : (({} : Response).parseBuffer (asciiBytes "HTTP/1.1 200 OK\x00" ++ x)).1 = .err .partialData :=
  (C70_response_iff_partial {} _).mpr ⟨asciiBytes "HTTP/1.1 200 OK", ⟨[], [32], [32], asciiBytes "OK", 200, .nil, by decide +kernel, by decide +kernel,
    by decide +kernel, by decide +kernel, by decide +kernel, by decide +kernel, by decide +kernel, by decide +kernel, by decide +kernel, (.http11, "HTTP/1.1"), by decide +kernel, by decide +kernel⟩,
    Or.inl ⟨0, [], ⟨by decide, by decide, by decide⟩, by decide +kernel⟩⟩ x

example : StuckRequest (asciiBytes "GET /%4 HTTP/1.1\r\n\r\nrest") :=
  Or.inr ⟨.get, asciiBytes "/%4", .http11, [], asciiBytes "GET /%4 HTTP/1.1\r\n\r\n", asciiBytes "rest",
    ⟨[], [32], [32], [13, 10], [13, 10], .nil, by decide +kernel, by decide +kernel, by decide +kernel, by decide +kernel, by decide +kernel, by decide +kernel, Or.inl rfl, .done (Or.inl rfl),
      (.http11, "HTTP/1.1"), by decide +kernel, rfl, (.get, "GET"), by decide +kernel, rfl, by decide +kernel⟩, by decide +kernel, by decide +kernel, (C70_url_iff_partial _).mp (by decide +kernel)⟩

/-- A head that is incomplete and not stuck: the name of a header is missing. -/
example : (({} : Request).parseBuffer (asciiBytes "GET / HTTP/1.1\r\nHo")).1 = .err .partialData ∧
    ¬ StuckRequest (asciiBytes "GET / HTTP/1.1\r\nHo") := by
  refine ⟨by decide +kernel, fun h => ?_⟩
  have := (C70_request_iff_partial {} _).mpr h (asciiBytes "st: a\r\n\r\n")
  revert this
  decide +kernel

end Webparse
