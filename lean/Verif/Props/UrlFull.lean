import Verif.Proofs.UrlFull
import Verif.Props.Builder

/-! # The whole language of `Url::parse`: C49, C56 and C63 for every text -/

namespace Webparse
open Spec

/-- Exactly which texts with a scheme are accepted and what they give.  Here `a` is the text between `://` and the first `/`, and `tail`
is the rest. -/
theorem C49_absolute_iff_partial (t a tail : Bytes) (u : Url) (ht : SchemeText t) (ha : (47 : UInt8) ∉ a) (h47 : tail = [] ∨ tail.head? = some 47) :
    Url.parse (t ++ [58, 47, 47] ++ (a ++ tail)) = .ok u ↔
      (∀ b ∈ a ++ tail, IsPrint b) ∧ u.scheme.asStr = t ∧ u.scheme ≠ .none ∧ (∀ x, u.scheme = .extension x → ∀ e ∈ schemeNames, x ≠ asciiBytes e.2) ∧
      ∃ user d p r, Authority none user d p a ∧ tailParts tail (authorityRaw user d p) = some r ∧ IsUrl u.scheme r u := by
  rw [parse_absolute_eq t _ ht, Res.bind_eq_ok]
  constructor
  · rintro ⟨sc, h1, h⟩
    rw [Res.bind_eq_ok] at h
    obtain ⟨st, h2, h3⟩ := h
    obtain ⟨s', h4, -⟩ := run_ok h2
    have tok := steps_tokens h4
    have hu := (build_iff _ _ _).mp h3
    obtain ⟨i1, i2, -, i3⟩ := tryFrom_asStr h1
    obtain ⟨user, d, p, g1, g2⟩ := (run_iff a tail ha h47 tok st.raw).mp ⟨st, h2, rfl⟩
    exact ⟨fun b hb => (isPrint_iff b).mpr (tok b hb), by rw [hu.scheme]; exact i1, by rw [hu.scheme]; exact i2,
      by rw [hu.scheme]; exact i3, user, d, p, st.raw, g1, g2, by rw [hu.scheme]; exact hu⟩
  · rintro ⟨tok, h1, h2, h3, user, d, p, r, g1, g2, hu⟩
    refine ⟨u.scheme, by rw [← h1]; exact asStr_tryFrom h2 (by rw [h1]; exact ht.len) h3, ?_⟩
    obtain ⟨st, e1, e2⟩ := (run_iff a tail ha h47 (fun b hb => (isPrint_iff b).mp (tok b hb)) r).mpr ⟨user, d, p, g1, g2⟩
    rw [e1, Res.bind_ok, build_iff, e2]
    exact hu

/-- The text up to the first slash, and the rest. -/
theorem slash_split (s : Bytes) : ∃ a tail, s = a ++ tail ∧ (47 : UInt8) ∉ a ∧ (tail = [] ∨ tail.head? = some 47) := by
  obtain ⟨x, r, rfl, h1, h2⟩ := span_sep [47] s
  refine ⟨x, r, rfl, fun h => h1 47 h (by simp), ?_⟩
  rcases h2 with rfl | ⟨c, r', rfl, hc⟩
  · exact .inl rfl
  · exact .inr (by simpa using hc)

/-- Exactly which texts are URLs, and which URL each of them is, for every text.  Missing for C49: the host of an absolute URL, which
may be absent (`C49_domain_iff_partial`), and parts that are not substrings, which have a `?` before the first `/`. -/
theorem C49_language_partial (s : Bytes) (u : Url) :
    Url.parse s = .ok u ↔
      (s.head? = some 47 ∧ (∀ b ∈ s, IsPrint b ∧ b ≠ 64) ∧ IsUrl .none (pathParts s {}) u) ∨
      ∃ t a tail user d p r, SchemeText t ∧ s = t ++ asciiBytes "://" ++ a ++ tail ∧ (47 : UInt8) ∉ a ∧ (tail = [] ∨ tail.head? = some 47) ∧
        (∀ b ∈ a ++ tail, IsPrint b) ∧ u.scheme.asStr = t ∧ u.scheme ≠ .none ∧ (∀ x, u.scheme = .extension x → ∀ e ∈ schemeNames, x ≠ asciiBytes e.2) ∧
        Authority none user d p a ∧ tailParts tail (authorityRaw user d p) = some r ∧ IsUrl u.scheme r u := by
  have e3 : asciiBytes "://" = [58, 47, 47] := by decide
  have origin : s.head? = some 47 → (Url.parse s = .ok u ↔ (∀ b ∈ s, IsPrint b ∧ b ≠ 64) ∧ IsUrl .none (pathParts s {}) u) := by
    intro h
    have hne : s ≠ [] := by rintro rfl; simp at h
    rw [C49_origin s h u, pathParts, if_neg hne]
    constructor
    · rintro ⟨h0, a1, a2, a3, a4, a5, a6, a7⟩; exact ⟨h0, a1, a2, a3, a4, a5, a6, a7⟩
    · rintro ⟨h0, a1, a2, a3, a4, a5, a6, a7⟩; exact ⟨h0, a1, a2, a3, a4, a5, a6, a7⟩
  constructor
  · intro h
    rcases parse_forms h with ⟨t, rest, -, -, ht, hs, -⟩ | ⟨h0, -⟩
    · right
      obtain ⟨a, tail, rfl, ha, h47⟩ := slash_split rest
      rw [hs] at h
      obtain ⟨b1, b2, b3, b4, user, d, p, r, b5, b6, b7⟩ := (C49_absolute_iff_partial t a tail u ht ha h47).mp h
      exact ⟨t, a, tail, user, d, p, r, ht, by rw [hs, e3]; simp, ha, h47, b1, b2, b3, b4, b5, b6, b7⟩
    · exact .inl ⟨h0, (origin h0).mp h⟩
  · rintro (⟨h0, h⟩ | ⟨t, a, tail, user, d, p, r, ht, hs, ha, h47, b1, b2, b3, b4, b5, b6, b7⟩)
    · exact (origin h0).mpr h
    · rw [hs, e3, List.append_assoc _ a tail]
      exact (C49_absolute_iff_partial t a tail u ht ha h47).mpr ⟨b1, b2, b3, b4, user, d, p, r, b5, b6, b7⟩

/-- Without an `@` the tail leaves user, password, host and port as they are. -/
theorem tailParts_plain {tail : Bytes} {r0 r : RawParts} (h : tailParts tail r0 = some r) (h64 : (64 : UInt8) ∉ tail) : r = pathParts tail r0 := by
  unfold tailParts at h
  cases hc : cut 64 tail with
  | mk x o =>
    cases o with
    | none => rw [hc] at h; simpa using h.symm
    | some y => obtain ⟨rfl, -⟩ := cut_some hc; exact absurd (by simp) h64

/-- With one the host is the user name, and the text after the `@` the host unless there is a `?`. -/
theorem tailParts_late {tail : Bytes} {r0 r : RawParts} (h : tailParts tail r0 = some r) (h64 : (64 : UInt8) ∈ tail) :
    tail.count 64 = 1 ∧ r.username = r0.domain ∧ r.port = r0.port ∧ (63 ∈ tail → r.domain = none) ∧ (63 ∉ tail → r.domain = (cut 64 tail).2) := by
  unfold tailParts at h
  cases hc : cut 64 tail with
  | mk x o =>
    cases o with
    | none => exact absurd h64 (cut_none hc).2
    | some y =>
      obtain ⟨rfl, hn⟩ := cut_some hc
      rw [hc] at h
      simp only [] at h
      split at h
      · simp at h
      · rename_i hy
        have hcount : (x ++ 64 :: y).count 64 = 1 := by
          rw [List.count_append, List.count_cons, List.count_eq_zero_of_not_mem hn, List.count_eq_zero_of_not_mem hy]
          simp
        refine ⟨hcount, ?_⟩
        cases hq : cut 63 x with
        | mk x1 o1 =>
          cases o1 with
          | some w =>
            obtain ⟨rfl, -⟩ := cut_some hq
            rw [hq] at h
            simp only [Option.some.injEq] at h
            subst h
            exact ⟨rfl, rfl, fun _ => rfl, fun hm => absurd (by simp) hm⟩
          | none =>
            have hx := (cut_none hq).2
            rw [hq] at h
            simp only [] at h
            cases hq2 : cut 63 y with
            | mk y1 o2 =>
              cases o2 with
              | some w =>
                obtain ⟨rfl, -⟩ := cut_some hq2
                rw [hq2] at h
                simp only [Option.some.injEq] at h
                subst h
                exact ⟨rfl, rfl, fun _ => rfl, fun hm => absurd (by simp) hm⟩
              | none =>
                have hy2 := (cut_none hq2).2
                rw [hq2] at h
                simp only [Option.some.injEq] at h
                subst h
                refine ⟨rfl, rfl, fun hm => ?_, fun _ => rfl⟩
                rcases List.mem_append.mp hm with hm | hm
                · exact absurd hm hx
                · rcases List.mem_cons.mp hm with hm | hm
                  · cases hm
                  · exact absurd hm hy2

theorem partIs_none {r o : Option Bytes} (h : PartIs r o) : o = none ↔ r = none := by
  cases r with
  | none => simp only [PartIs] at h; simp [h]
  | some x => obtain ⟨v, -, -, rfl⟩ := h; simp

/-- An accepted absolute URL has no host exactly if an `@` and a `?` follow the first slash. -/
theorem C49_domain_iff_partial (t a tail : Bytes) (u : Url) (ht : SchemeText t) (ha : (47 : UInt8) ∉ a) (h47 : tail = [] ∨ tail.head? = some 47)
    (h : Url.parse (t ++ [58, 47, 47] ++ (a ++ tail)) = .ok u) : u.domain = none ↔ 64 ∈ tail ∧ 63 ∈ tail := by
  obtain ⟨-, -, -, -, user, d, p, r, -, h2, h3⟩ := (C49_absolute_iff_partial t a tail u ht ha h47).mp h
  rw [partIs_none h3.domain]
  by_cases h64 : (64 : UInt8) ∈ tail
  · obtain ⟨-, -, -, g1, g2⟩ := tailParts_late h2 h64
    by_cases h63 : (63 : UInt8) ∈ tail
    · simp [g1 h63, h64, h63]
    · rw [g2 h63]
      cases hc : cut 64 tail with
      | mk x o =>
        cases o with
        | none => exact absurd h64 (cut_none hc).2
        | some y => simp [h63]
  · have e := tailParts_plain h2 h64
    have : r.domain = some d := by rw [e]; unfold pathParts; split <;> rfl
    simp [this, h64]

/-- Both readings of a URL, whole and cut at the first slash, start from the same authority. -/
theorem cut_readings {t a tail : Bytes} {u v : Url} (ht : SchemeText t) (ha : (47 : UInt8) ∉ a) (h47 : tail.head? = some 47)
    (h1 : Url.parse (t ++ [58, 47, 47] ++ (a ++ tail)) = .ok u) (h2 : Url.parse (t ++ [58, 47, 47] ++ a) = .ok v) :
    ∃ user d p r, Authority none user d p a ∧ tailParts tail (authorityRaw user d p) = some r ∧ IsUrl u.scheme r u ∧ IsUrl u.scheme (authorityRaw user d p) v := by
  obtain ⟨-, a1, a2, a3, user, d, p, r, a4, a5, a6⟩ := (C49_absolute_iff_partial t a tail u ht ha (.inr h47)).mp h1
  obtain ⟨b0, b1, b2, b3, user', d', p', r', b4, b5, b6⟩ := (C49_absolute_iff_partial t a [] v ht ha (.inl rfl)).mp (by simpa using h2)
  have tok : ∀ b ∈ a, isToken b = true := fun b hb => (isPrint_iff b).mp (b0 b (by simp [hb]))
  have hs : u.scheme = v.scheme := by
    have e1 := asStr_tryFrom a2 (by rw [a1]; exact ht.len) a3
    have e2 := asStr_tryFrom b2 (by rw [b1]; exact ht.len) b3
    rw [a1] at e1; rw [b1, e1, Res.ok.injEq] at e2; exact e2
  have hr : authorityRaw user d p = authorityRaw user' d' p' := by
    have e1 := steps_authority (u := none) a4 tok
    rw [steps_authority (u := none) b4 tok, Res.ok.injEq] at e1
    have e2 : (pending user' d' p').finish.raw = (pending user d p).finish.raw := by rw [e1]
    have e3 : ∀ (u : Option (Bytes × Bytes)) (d : Bytes) (p : Option Bytes), (pending u d p).finish.raw = authorityRaw u d p := by
      intro u d p; cases p <;> rfl
    rw [e3, e3] at e2
    exact e2.symm
  have h0 : r' = authorityRaw user' d' p' := by
    simpa [tailParts, cut, pathParts] using b5.symm
  rw [h0, ← hr, ← hs] at b6
  exact ⟨user, d, p, r, a4, a5, a6, b6⟩

/-- C56 holds for every authority if no `@` follows it. -/
theorem C56_any_authority_partial (t a tail : Bytes) (u v : Url) (ht : SchemeText t) (ha : (47 : UInt8) ∉ a) (h47 : tail.head? = some 47)
    (hat : (64 : UInt8) ∉ tail) (h1 : Url.parse (t ++ [58, 47, 47] ++ (a ++ tail)) = .ok u) (h2 : Url.parse (t ++ [58, 47, 47] ++ a) = .ok v) :
    u.domain = v.domain ∧ u.port = v.port ∧ u.username = v.username ∧ u.password = v.password := by
  obtain ⟨user, d, p, r, -, g2, g3, g4⟩ := cut_readings ht ha h47 h1 h2
  have hne : tail ≠ [] := by rintro rfl; simp at h47
  rw [tailParts_plain g2 hat, pathParts, if_neg hne] at g3
  exact ⟨partIs_unique g3.domain g4.domain, portIs_unique g3.port g4.port, partIs_unique g3.username g4.username, partIs_unique g3.password g4.password⟩

/-- C56 fails whenever one does: the host that was written is the user name, and the host is what follows the `@`, or none. -/
theorem C56_violated_always (t a tail : Bytes) (u v : Url) (ht : SchemeText t) (ha : (47 : UInt8) ∉ a) (h47 : tail.head? = some 47)
    (hat : (64 : UInt8) ∈ tail) (h1 : Url.parse (t ++ [58, 47, 47] ++ (a ++ tail)) = .ok u) (h2 : Url.parse (t ++ [58, 47, 47] ++ a) = .ok v) :
    u.username = v.domain ∧ u.port = v.port ∧ (63 ∈ tail → u.domain = none) ∧ (63 ∉ tail → PartIs (cut 64 tail).2 u.domain) := by
  obtain ⟨user, d, p, r, -, g2, g3, g4⟩ := cut_readings ht ha h47 h1 h2
  obtain ⟨-, k1, k2, k3, k4⟩ := tailParts_late g2 hat
  have i1 := g3.username
  have i2 := g3.port
  have i3 := g3.domain
  rw [k1] at i1
  rw [k2] at i2
  refine ⟨partIs_unique i1 g4.domain, portIs_unique i2 g4.port, fun h => ?_, fun h => ?_⟩
  · rw [k3 h] at i3; exact i3
  · rw [k4 h] at i3; exact i3

theorem authority_user {u0 user : Option (Bytes × Bytes)} {d a : Bytes} {p : Option Bytes} (h : Authority u0 user d p a) (h64 : (64 : UInt8) ∉ a) : user = u0 := by
  cases h with
  | host _ => rfl
  | user _ _ => exact absurd (by simp) h64

/-- For authorities without user information C56 holds exactly if no `@` follows. -/
theorem C56_iff_partial (t a tail : Bytes) (u v : Url) (ht : SchemeText t) (ha : (47 : UInt8) ∉ a) (h64 : (64 : UInt8) ∉ a) (h47 : tail.head? = some 47)
    (h1 : Url.parse (t ++ [58, 47, 47] ++ (a ++ tail)) = .ok u) (h2 : Url.parse (t ++ [58, 47, 47] ++ a) = .ok v) :
    (u.domain = v.domain ∧ u.port = v.port ∧ u.username = v.username ∧ u.password = v.password) ↔ (64 : UInt8) ∉ tail := by
  refine ⟨fun h hm => ?_, fun h => C56_any_authority_partial t a tail u v ht ha h47 h h1 h2⟩
  have h3 := (C56_violated_always t a tail u v ht ha h47 hm h1 h2).1
  obtain ⟨user, d, p, r, g1, -, -, g4⟩ := cut_readings ht ha h47 h1 h2
  obtain rfl := authority_user g1 h64
  have hn : v.username = none := (partIs_none g4.username).mpr rfl
  have hd := partIs_none g4.domain
  rw [← h3, h.2.2.1] at hd
  exact absurd (hd.mp hn) (by simp [authorityRaw])

example : (47 : UInt8) ∉ asciiBytes "a:b@u?p@h:8?1" ∧ (asciiBytes "/x@y").head? = some 47 := by decide +kernel
example : Authority none (some (asciiBytes "u", asciiBytes "p")) (asciiBytes "h") (some (asciiBytes "81")) (asciiBytes "a:b@u?p@h:8?1") := by
  have s1 : Section (asciiBytes "a") (some (asciiBytes "b")) (asciiBytes "a:b") :=
    ⟨by decide +kernel, .inr ⟨58, asciiBytes "b", .inl rfl, by decide, by decide +kernel, by decide⟩⟩
  have s2 : Section (asciiBytes "u") (some (asciiBytes "p")) (asciiBytes "u?p") :=
    ⟨by decide +kernel, .inr ⟨63, asciiBytes "p", .inr rfl, by decide, by decide +kernel, by decide⟩⟩
  have s3 : Section (asciiBytes "h") (some (asciiBytes "81")) (asciiBytes "h:8?1") :=
    ⟨by decide +kernel, .inr ⟨58, asciiBytes "8?1", .inl rfl, by decide, by decide +kernel, by decide⟩⟩
  exact .user s1 (.user s2 (.host s3))
example : Url.parse (asciiBytes "http://a:b@u?p@h:8?1/x?y") = .ok
    { scheme := .http, path := asciiBytes "/x", username := some (asciiBytes "u"), password := some (asciiBytes "p"), domain := some (asciiBytes "h"),
      port := some 81, query := some (asciiBytes "y") } := by decide +kernel
example : Url.parse (asciiBytes "http://h:81/x@y") = .ok
    { scheme := .http, path := asciiBytes "/", username := some (asciiBytes "h"), password := some (asciiBytes "/x"), domain := some (asciiBytes "y"),
      port := some 81, query := none } := by decide +kernel
example : Url.parse (asciiBytes "http://h/x@y?z") = .ok
    { scheme := .http, path := asciiBytes "y", username := some (asciiBytes "h"), password := some (asciiBytes "/x"), domain := none,
      port := some 80, query := some (asciiBytes "z") } := by decide +kernel

/-! ## C63 -/

/-- What the URL of a request made from a HEADERS frame is, for every authority and path: the two texts are joined and cut at the
first slash anew, wherever that is.  Missing for C63: nothing about the URL; its claim is false (`C63_violated_host`). -/
theorem C63_url_iff_partial (f : HeadersFrame) (auth a tail : Bytes) (u : Url) (hA : f.parts.authority = some auth)
    (hs : SchemeText (f.parts.scheme.getD .http).asStr) (hj : auth ++ f.parts.path.getD [47] = a ++ tail) (ha : (47 : UInt8) ∉ a)
    (h47 : tail = [] ∨ tail.head? = some 47) :
    (∃ r, requestOf f = .ok r ∧ r.url = u) ↔
      (∀ b ∈ a ++ tail, IsPrint b) ∧ u.scheme.asStr = (f.parts.scheme.getD .http).asStr ∧
      u.scheme ≠ .none ∧ (∀ x, u.scheme = .extension x → ∀ e ∈ schemeNames, x ≠ asciiBytes e.2) ∧
      ∃ user d p r, Authority none user d p a ∧ tailParts tail (authorityRaw user d p) = some r ∧ IsUrl u.scheme r u := by
  rw [← C49_absolute_iff_partial _ a tail u hs ha h47, ← hj]
  have hb : f.parts.buildUrl = Url.parse ((f.parts.scheme.getD .http).asStr ++ [58, 47, 47] ++ (auth ++ f.parts.path.getD [47])) := by
    simp only [Parts.buildUrl, hA, List.append_assoc]
  rw [← hb, requestOf_eq]
  have nf : ∀ (u : Url), ∀ c ∈ [RequestCall.urlIs u] ++ f.parts.method.toList.map RequestCall.methodIs ++ [RequestCall.headers f.fields],
      ∀ e, ¬ c.Fails e := by
    intro u c hc e he
    cases hm : f.parts.method <;> rw [hm] at hc <;> simp at hc <;> rcases he with ⟨t, rfl, -⟩ | ⟨t, rfl, -⟩ <;> simp at hc
  have hl : ∀ v : Url, (lastOf RequestCall.urlSet ([RequestCall.urlIs v] ++ f.parts.method.toList.map RequestCall.methodIs ++ [RequestCall.headers f.fields])).getD Url.new = v := by
    intro v
    cases f.parts.method <;> rfl
  cases hu : f.parts.buildUrl with
  | err e => simp [Res.bind]
  | panic => simp [Res.bind]
  | ok v =>
    simp only [Res.bind]
    rw [built_parts _ (nf v)]
    simp only [Res.ok.injEq, exists_eq_left']
    rw [hl]

/-- A path that does not begin with `/` goes on with the authority: `:authority good` and `:path .evil.com/` are a request to
`good.evil.com`. -/
theorem C63_violated_joined : (requestOf ⟨1, none, [], ⟨some .get, some .http, some (asciiBytes "good"), some (asciiBytes ".evil.com/"), none⟩, 4⟩).bind
      (fun r => .ok r.url.domain) = .ok (some (asciiBytes "good.evil.com")) := by decide +kernel

example : asciiBytes "good" ++ asciiBytes ".evil.com/" = asciiBytes "good.evil.com" ++ [47] ∧ (47 : UInt8) ∉ asciiBytes "good.evil.com" := by decide +kernel

end Webparse
