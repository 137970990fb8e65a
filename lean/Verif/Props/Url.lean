import Verif.Proofs.UrlInv

/-! # URLs: C46 to C51, C56 and C57 -/

namespace Webparse
open Spec

/-! ## C46: percent-encoding round-trips -/

/-- Decoding the encoding of a string gives the string.  Rust strings are valid UTF-8. -/
theorem C46_roundtrip (s : Bytes) (h : utf8Valid s = true) : urlDecode (urlEncode s) = .ok s := by
  rw [urlDecode, (urlDecodeLoop_iff _ _).mpr (decodes_encode s), Res.bind_ok, utf8Lossy_valid h]

/-- The encoding stands for the string: the decoding of RFC 3986 gives it back. -/
theorem C46_stands_for (s : Bytes) : Decodes (urlEncode s) s := decodes_encode s

/-- Only kept characters and complete escapes are produced. -/
theorem C46_safe (s : Bytes) : SafeText (urlEncode s) := safe_encode s

/-- Different strings have different encodings. -/
theorem C46_injective (s t : Bytes) (h : urlEncode s = urlEncode t) : s = t :=
  decodes_unique (decodes_encode s) (h ▸ decodes_encode t)

example : utf8Valid (asciiBytes "a b%/" ++ [0xC3, 0xBC]) = true := by decide +kernel
example : urlEncode (asciiBytes "a b%") = asciiBytes "a%20b%25" := by decide +kernel
example : urlDecode (asciiBytes "a%20b%25") = .ok (asciiBytes "a b%") := by decide +kernel

/-! ## C47: percent-decoding rejects every malformed escape -/

/-- C47: `url_decode` succeeds exactly on well-escaped strings, and gives what they stand for. -/
def C47_statement : Prop :=
  ∀ s : Bytes, utf8Valid s = true →
    (∀ v, Decodes s v → urlDecode s = .ok v) ∧ (¬ WellEscaped s → ∃ e, urlDecode s = .err e)

/-- `%FF` is not decoded to the byte FF but to the three bytes of U+FFFD. -/
theorem C47_violated : ¬ C47_statement := by
  intro h
  have h1 : Decodes (asciiBytes "%FF") [0xFF] :=
    Decodes.escape (x := 70) (y := 70) (t := 15) (u := 15) (by decide) (by decide) .nil
  have h2 := (h (asciiBytes "%FF") (by decide +kernel)).1 _ h1
  have h3 : urlDecode (asciiBytes "%FF") = .ok [0xEF, 0xBF, 0xBD] := by decide +kernel
  rw [h3] at h2
  exact absurd h2 (by decide)

/-- Success is exactly right, for all strings: each `%` has its two digits. -/
theorem C47_accepts (s : Bytes) : (∃ v, urlDecode s = .ok v) ↔ WellEscaped s := by
  rw [wellEscaped_iff]
  constructor
  · rintro ⟨v, h⟩
    rw [urlDecode, Res.bind_eq_ok] at h
    obtain ⟨w, h, -⟩ := h
    exact ⟨w, (urlDecodeLoop_iff s w).mp h⟩
  · rintro ⟨v, h⟩
    exact ⟨_, by rw [urlDecode, (urlDecodeLoop_iff s v).mpr h, Res.bind_ok]⟩

/-- Every string that is not well escaped is refused, with the same error. -/
theorem C47_rejects (s : Bytes) (h : ¬ WellEscaped s) : urlDecode s = .err .urlCodeInvalid := by
  rw [urlDecode]
  rcases urlDecodeLoop_fails s with ⟨v, hv⟩ | hv
  · exact absurd ((C47_accepts s).mp ⟨_, by rw [urlDecode, hv, Res.bind_ok]⟩) h
  · rw [hv]; rfl

/-- What is returned is the decoding with ill-formed UTF-8 replaced; missing for C47: the decoding
itself when it is not UTF-8. -/
theorem C47_result_partial (s v : Bytes) (h : Decodes s v) : urlDecode s = .ok (utf8Lossy v) := by
  rw [urlDecode, (urlDecodeLoop_iff s v).mpr h, Res.bind_ok]

/-- The decoding itself when it is valid UTF-8. -/
theorem C47_valid_partial (s v : Bytes) (h : Decodes s v) (hv : utf8Valid v = true) : urlDecode s = .ok v := by
  rw [C47_result_partial s v h, utf8Lossy_valid hv]

example : Decodes (asciiBytes "%41b") (asciiBytes "Ab") ∧ utf8Valid (asciiBytes "Ab") = true :=
  ⟨Decodes.escape (x := 52) (y := 49) (t := 4) (u := 1) (by decide) (by decide) (.plain (b := 98) (by decide) .nil), by decide +kernel⟩
example : ¬ WellEscaped (asciiBytes "a%4") := by
  rw [← C47_accepts]
  have : urlDecode (asciiBytes "a%4") = .err .urlCodeInvalid := by decide +kernel
  rw [this]; simp

/-! ## C48: URLs round-trip through text -/

/-- C48: parsing the text of a URL gives the URL, for every URL whose parts text can carry. -/
def C48_statement : Prop := ∀ u : Url, Carried u → Url.parse u.display = .ok u

/-- `http://h` with the path `/a?b`. -/
def urlQuestion : Url :=
  { scheme := .http, path := asciiBytes "/a?b", username := none, password := none, domain := some (asciiBytes "h"), port := some 80,
    query := none }

theorem carried_http {d p : Bytes} (hd : ∀ b ∈ d, IsPrint b ∧ b ∉ asciiBytes "%/:?@") (hp : p.head? = some 47) (hu : utf8Valid p = true)
    (n w : Option Bytes) (hn : (n = none ∧ w = none) ∨ ∃ a b, n = some a ∧ w = some b ∧ utf8Valid a = true ∧ utf8Valid b = true)
    (q : Option Bytes) (hq : ∀ x, q = some x → utf8Valid x = true) (o : Nat) (ho : o < 65536) :
    Carried { scheme := .http, path := p, username := n, password := w, domain := some d, port := some o, query := q } where
  slash := hp
  path := hu
  query := hq
  kind := .inr ⟨by simp, ⟨⟨104, asciiBytes "ttp", rfl, by decide⟩, show ∀ b ∈ asciiBytes "http", _ by decide +kernel, show (asciiBytes "http").length ≤ 64 by decide⟩, by simp, ⟨d, rfl, hd⟩, ⟨o, rfl, ho⟩, hn⟩

/-- The encoder keeps `?`, so a `?` in the path becomes the start of a query. -/
theorem C48_violated : ¬ C48_statement := by
  intro h
  have h1 := h urlQuestion (carried_http (by unfold IsPrint; decide +kernel) (by decide) (by decide +kernel) none none (.inl ⟨rfl, rfl⟩) none (by simp) 80 (by decide))
  have h2 : Url.parse urlQuestion.display = .ok
      { scheme := .http, path := asciiBytes "/a", username := none, password := none, domain := some (asciiBytes "h"), port := some 80,
        query := some (asciiBytes "b") } := by decide +kernel
  rw [h2] at h1
  exact absurd h1 (by decide +kernel)

/-- `http://trusted` with the path `/@evil`. -/
def urlAt : Url :=
  { scheme := .http, path := asciiBytes "/@evil", username := none, password := none, domain := some (asciiBytes "trusted"), port := some 80,
    query := none }

/-- The encoder keeps `@` too, and the parser looks for `@` in the path: the host of the text is
another one. -/
theorem C48_violated_host : Carried urlAt ∧ ∃ u, Url.parse urlAt.display = .ok u ∧ u.domain = some (asciiBytes "evil") := by
  refine ⟨carried_http (by unfold IsPrint; decide +kernel) (by decide) (by decide +kernel) none none (.inl ⟨rfl, rfl⟩) none (by simp) 80 (by decide), ?_⟩
  exact ⟨⟨.http, asciiBytes "/", some (asciiBytes "trusted"), some (asciiBytes "/"), some (asciiBytes "evil"), some 80, none⟩,
    by decide +kernel, rfl⟩

theorem encode_slash {p : Bytes} (h : p.head? = some 47) : (urlEncode p).head? = some 47 := by
  cases p with
  | nil => simp at h
  | cons c r =>
    simp only [List.head?_cons, Option.some.injEq] at h
    subst h
    rw [urlEncode_eq, List.flatMap_cons, show encodeByte 47 = [47] by decide +kernel]
    rfl

theorem tail_text (u : Url) (hp : u.path.head? = some 47) (hn : NoSeparators u) :
    (∀ b ∈ urlEncode u.path ++ queryText u.query, isToken b = true ∧ b ≠ 64) ∧
    (urlEncode u.path ++ queryText u.query).head? = some 47 ∧
    (∀ r, pathParts (urlEncode u.path ++ queryText u.query) r =
      { r with path := some (urlEncode u.path), query := u.query.map urlEncode }) := by
  have h1 : ∀ c ∈ asciiBytes "?@", c ∉ urlEncode u.path := fun c hc h =>
    hn.path c (encode_sep ((by decide +kernel : ∀ c ∈ asciiBytes "?@", c ∈ asciiBytes ":@/?") c hc) h) hc
  have hh : (urlEncode u.path ++ queryText u.query).head? = some 47 := by
    rw [List.head?_append, encode_slash hp]; rfl
  refine ⟨?_, hh, ?_⟩
  · intro b hb
    rcases List.mem_append.mp hb with hb | hb
    · exact ⟨encode_token _ b hb, by rintro rfl; exact h1 _ (by decide) hb⟩
    · cases hq : u.query with
      | none => rw [hq] at hb; simp [queryText] at hb
      | some q =>
        rw [hq, queryText] at hb
        rcases List.mem_append.mp hb with hb | hb
        · rw [List.mem_singleton] at hb; subst hb; decide
        · exact ⟨encode_token _ b hb, by rintro rfl; exact hn.query q hq (encode_sep (by decide) hb)⟩
  · intro r
    have hne : urlEncode u.path ++ queryText u.query ≠ [] := by intro e; rw [e] at hh; simp at hh
    unfold pathParts
    rw [if_neg hne]
    cases hq : u.query with
    | none => rw [queryText, List.append_nil, cut_of_not_mem (h1 _ (by decide))]; rfl
    | some q => rw [queryText, List.singleton_append, cut_append (h1 _ (by decide))]; rfl

theorem isPrint_iff (b : UInt8) : IsPrint b ↔ isToken b = true := by
  unfold IsPrint; revert b; decide +kernel

theorem decodes_plain {d : Bytes} (h : (37 : UInt8) ∉ d) : Decodes d d := by
  induction d with
  | nil => exact .nil
  | cons b r ih =>
    simp only [List.mem_cons, not_or] at h
    exact .plain (fun e => h.1 e.symm) (ih h.2)

theorem part_encode {o : Option Bytes} (h : ∀ x, o = some x → utf8Valid x = true) : PartIs (o.map urlEncode) o := by
  cases o with
  | none => rfl
  | some x => exact ⟨x, decodes_encode x, h x rfl, rfl⟩

theorem portSuffix_cases (s : Scheme) (p : Nat) (hs : s ≠ .none) :
    (portSuffix s (some p) = [] ∧ p = defaultPort s) ∨ portSuffix s (some p) = 58 :: decimal p := by
  unfold portSuffix
  rw [if_pos hs]
  simp only []
  split
  · rename_i h; left; exact ⟨rfl, by rw [h.1, h.2]; rfl⟩
  · split
    · rename_i h; left; exact ⟨rfl, by rw [h.1, h.2]; rfl⟩
    · right; rfl

theorem digit_plain (b : UInt8) (h : isDigit b = true) : isToken b = true ∧ b ≠ 47 ∧ b ≠ 63 ∧ b ≠ 64 ∧ b ≠ 58 ∧ b ≠ 37 := by
  revert h; revert b; decide +kernel

/-- The host part of the text and what it is read as. -/
theorem host_text (s : Scheme) (d : Bytes) (p : Nat) (hs : s ≠ .none) (hd : ∀ b ∈ d, IsPrint b ∧ b ∉ asciiBytes "%/:?@") (hp : p < 65536) :
    (∀ b ∈ d ++ portSuffix s (some p), (isToken b = true ∧ b ≠ 47 ∧ b ≠ 63) ∧ b ≠ 64) ∧
    ∃ r, hostParts (d ++ portSuffix s (some p)) = some r ∧ r.path = none ∧ r.query = none ∧ r.domain = some d ∧
      PortIs (defaultPort s) r.port (some p) := by
  have hd' : ∀ b ∈ d, (isToken b = true ∧ b ≠ 47 ∧ b ≠ 63) ∧ b ≠ 64 ∧ b ≠ 58 := by
    intro b hb
    obtain ⟨h1, h2⟩ := hd b hb
    refine ⟨⟨(isPrint_iff b).mp h1, ?_, ?_⟩, ?_, ?_⟩ <;> (rintro rfl; exact h2 (by decide))
  have h58 : (58 : UInt8) ∉ d := fun h => (hd' _ h).2.2 rfl
  rcases portSuffix_cases s p hs with ⟨e, hp'⟩ | e
  · rw [e, List.append_nil]
    refine ⟨fun b hb => ⟨(hd' b hb).1, (hd' b hb).2.1⟩, ?_⟩
    unfold hostParts
    rw [cut_of_not_mem h58]
    exact ⟨_, rfl, rfl, rfl, rfl, by simp [PortIs, hp']⟩
  · obtain ⟨g1, g2, g3⟩ := decimal_spec p
    rw [e]
    constructor
    · intro b hb
      rcases List.mem_append.mp hb with hb | hb
      · exact ⟨(hd' b hb).1, (hd' b hb).2.1⟩
      · rcases List.mem_cons.mp hb with rfl | hb
        · decide
        · obtain ⟨i1, i2, i3, i4, -⟩ := digit_plain b (g2 b hb)
          exact ⟨⟨i1, i2, i3⟩, i4⟩
    · unfold hostParts
      rw [cut_append h58]
      simp only []
      rw [if_neg (fun h => (digit_plain _ (g2 _ h)).2.2.2.2.1 rfl)]
      refine ⟨_, rfl, rfl, rfl, rfl, decimal p, p, decodes_plain (fun h => (digit_plain _ (g2 _ h)).2.2.2.2.2 rfl), ?_, hp, rfl⟩
      exact .inl ((numeral_iff _ _).mp ⟨g1, List.all_eq_true.mpr g2, g3⟩)

theorem domain_part {d : Bytes} (hd : ∀ b ∈ d, IsPrint b ∧ b ∉ asciiBytes "%/:?@") : PartIs (some d) (some d) := by
  refine ⟨d, decodes_plain (fun h => (hd _ h).2 (by decide)), utf8Valid_ascii d fun b hb => ?_, rfl⟩
  have := (hd b hb).1.2
  rw [UInt8.lt_iff_toNat_lt]; exact Nat.lt_of_le_of_lt this (by decide)

/-- `host_text` with a port or without. -/
theorem host_text_port (s : Scheme) (d : Bytes) (o : Option Nat) (hs : s ≠ .none) (hd : ∀ b ∈ d, IsPrint b ∧ b ∉ asciiBytes "%/:?@")
    (hp : ∀ p, o = some p → p < 65536) :
    (∀ b ∈ d ++ portSuffix s o, (isToken b = true ∧ b ≠ 47 ∧ b ≠ 63) ∧ b ≠ 64) ∧
    ∃ r, hostParts (d ++ portSuffix s o) = some r ∧ r.path = none ∧ r.query = none ∧ r.domain = some d ∧
      PortIs (defaultPort s) r.port (some (o.getD (defaultPort s))) := by
  cases o with
  | some p => exact host_text s d p hs hd (hp p rfl)
  | none =>
    have hd' : ∀ b ∈ d, (isToken b = true ∧ b ≠ 47 ∧ b ≠ 63) ∧ b ≠ 64 ∧ b ≠ 58 := by
      intro b hb
      obtain ⟨h1, h2⟩ := hd b hb
      refine ⟨⟨(isPrint_iff b).mp h1, ?_, ?_⟩, ?_, ?_⟩ <;> (rintro rfl; exact h2 (by decide))
    have h58 : (58 : UInt8) ∉ d := fun h => (hd' _ h).2.2 rfl
    have e : portSuffix s none = [] := by
      unfold portSuffix
      rw [if_pos hs]
    rw [e, List.append_nil]
    refine ⟨fun b hb => ⟨(hd' b hb).1, (hd' b hb).2.1⟩, ?_⟩
    unfold hostParts
    rw [cut_of_not_mem h58]
    exact ⟨_, rfl, rfl, rfl, rfl, by simp [PortIs]⟩

/-- An absolute URL read back from its text: a port that is not given becomes the default one. -/
theorem absolute_roundtrip (u : Url) (hslash : u.path.head? = some 47) (hp8 : utf8Valid u.path = true)
    (hq8 : ∀ q, u.query = some q → utf8Valid q = true) (hn : NoSeparators u) (hs : u.scheme ≠ .none)
    (ht : SchemeText u.scheme.asStr) (hx : ∀ t, u.scheme = .extension t → ∀ e ∈ schemeNames, t ≠ asciiBytes e.2)
    (hd0 : ∃ d, u.domain = some d ∧ ∀ b ∈ d, IsPrint b ∧ b ∉ asciiBytes "%/:?@")
    (hp : ∀ p, u.port = some p → p < 65536)
    (hui : (u.username = none ∧ u.password = none) ∨
        ∃ n w, u.username = some n ∧ u.password = some w ∧ utf8Valid n = true ∧ utf8Valid w = true) :
    Url.parse u.display = .ok { u with port := some (u.port.getD (defaultPort u.scheme)) } := by
  obtain ⟨t1, t2, t3⟩ := tail_text u hslash hn
  have hpath : PartIs (some (urlEncode u.path)) (some u.path) := ⟨u.path, decodes_encode _, hp8, rfl⟩
  have hquery := part_encode hq8
  obtain ⟨d, hd, hd'⟩ := hd0
  have e : u.display = u.scheme.asStr ++ [58, 47, 47] ++
      ((userText u.username u.password ++ (d ++ portSuffix u.scheme u.port)) ++ (urlEncode u.path ++ queryText u.query)) := by
    unfold Url.display schemeText
    rw [if_pos hs, hd]
    simp
  obtain ⟨g1, r, g2, g3, g4, g5, g6⟩ := host_text_port u.scheme d u.port hs hd' hp
  rw [e, parse_absolute_eq _ _ ht, asStr_tryFrom hs ht.len hx, Res.bind_ok]
  obtain ⟨a1, r', a2, a3, a4, a5, a6, a7, a8, a9⟩ : (∀ b ∈ userText u.username u.password ++ (d ++ portSuffix u.scheme u.port), isToken b = true ∧ b ≠ 47 ∧ b ≠ 63) ∧
      ∃ r', authorityParts (userText u.username u.password ++ (d ++ portSuffix u.scheme u.port)) = some r' ∧
        r'.path = none ∧ r'.query = none ∧ r'.domain = some d ∧ r'.port = r.port ∧ PartIs r'.username u.username ∧ PartIs r'.password u.password ∧
        (userText u.username u.password ++ (d ++ portSuffix u.scheme u.port)).count 64 ≤ 1 := by
    have g64 : (64 : UInt8) ∉ d ++ portSuffix u.scheme u.port := fun h => (g1 _ h).2 rfl
    rcases hui with ⟨h1, h2⟩ | ⟨n, w, h1, h2, hn1, hw1⟩
    · rw [h1, h2]
      simp only [userText, Option.isSome_none, Bool.false_eq_true, or_self, if_false, List.nil_append]
      refine ⟨fun b hb => (g1 b hb).1, { r with username := none, password := none }, ?_, g3, g4, g5, rfl, rfl, rfl, ?_⟩
      · unfold authorityParts
        rw [cut_of_not_mem g64]
        simp only []
        obtain ⟨q1, q2, -⟩ := (host_steps none none _ (fun b hb => (g1 b hb).1) g64).1 r g2
        rw [g2]
        cases r; simp only at q1 q2; subst q1 q2; rfl
      · rw [List.count_eq_zero_of_not_mem g64]; omega
    · have sepn : ∀ c ∈ asciiBytes ":@/?", c ∉ urlEncode n := fun c hc h => hn.username n h1 c (encode_sep hc h) hc
      have sepw : ∀ c ∈ asciiBytes ":@/?", c ∉ urlEncode w := fun c hc h => hn.password w h2 c (encode_sep hc h) hc
      have eu : userText (some n) (some w) = urlEncode n ++ 58 :: urlEncode w ++ [64] := by
        simp [userText]
      have h64 : (64 : UInt8) ∉ urlEncode n ++ 58 :: urlEncode w := by
        simp only [List.mem_append, List.mem_cons, not_or]
        exact ⟨sepn _ (by decide), by decide, sepw _ (by decide)⟩
      rw [h1, h2, eu]
      refine ⟨?_, { r with username := some (urlEncode n), password := some (urlEncode w) }, ?_, g3, g4, g5, rfl,
        ⟨n, decodes_encode n, hn1, rfl⟩, ⟨w, decodes_encode w, hw1, rfl⟩, ?_⟩
      · have plain : ∀ x : Bytes, (∀ c ∈ asciiBytes ":@/?", c ∉ urlEncode x) → ∀ b ∈ urlEncode x, isToken b = true ∧ b ≠ 47 ∧ b ≠ 63 := by
          intro x hx b hb
          exact ⟨encode_token _ b hb, by rintro rfl; exact hx _ (by decide) hb, by rintro rfl; exact hx _ (by decide) hb⟩
        intro b hb
        simp only [List.append_assoc, List.mem_append, List.mem_cons, List.cons_append, List.nil_append] at hb
        rcases hb with hb | rfl | hb | rfl | hb
        · exact plain n sepn b hb
        · decide
        · exact plain w sepw b hb
        · decide
        · exact (g1 b (List.mem_append.mpr hb)).1
      · unfold authorityParts
        rw [List.append_assoc, List.singleton_append, cut_append h64]
        simp only []
        rw [cut_append (sepn _ (by decide))]
        simp only []
        rw [if_neg (sepw _ (by decide)), g2]
        rfl
      · rw [List.append_assoc, List.singleton_append, List.count_append, List.count_cons_self, List.count_eq_zero_of_not_mem h64, List.count_eq_zero_of_not_mem g64]
  obtain ⟨st, r1, r2⟩ := (absolute_run _ _ a1 a9 t1 (.inr t2)).1 r' a2
  rw [r1, Res.bind_ok, build_iff, r2, t3]
  refine ⟨rfl, a7, a8, ?_, ?_, hpath, hquery⟩
  · show PartIs r'.domain u.domain
    rw [a5, hd]; exact domain_part hd'
  · show PortIs _ r'.port (some (u.port.getD (defaultPort u.scheme)))
    rw [a6]; exact g6

/-- The round trip holds for every URL whose parts have no separator that the encoder keeps; missing
for C48: user information with `: @ / ?`, paths with `?` or `@`, queries with `@`. -/
theorem C48_roundtrip_partial (u : Url) (hc : Carried u) (hn : NoSeparators u) : Url.parse u.display = .ok u := by
  obtain ⟨t1, t2, t3⟩ := tail_text u hc.slash hn
  have hpath : PartIs (some (urlEncode u.path)) (some u.path) := ⟨u.path, decodes_encode _, hc.path, rfl⟩
  have hquery := part_encode hc.query
  rcases hc.kind with ⟨hs, h1, h2, h3, h4⟩ | ⟨hs, ht, hx, hd, ⟨p, hp, hp'⟩, hui⟩
  · have e : u.display = urlEncode u.path ++ queryText u.query := by
      unfold Url.display
      rw [hs, h1, h2, h3]
      rfl
    rw [e, parse_origin_eq _ t2]
    obtain ⟨s, r1, r2⟩ := origin_run _ t1 t2
    rw [r1, Res.bind_ok, build_iff, r2, t3]
    exact ⟨hs, by rw [h1]; rfl, by rw [h2]; rfl, by rw [h3]; rfl, by rw [h4]; rfl, hpath, hquery⟩
  · have := absolute_roundtrip u hc.slash hc.path hc.query hn hs ht hx hd (fun q hq => by rw [hp] at hq; cases hq; exact hp') hui
    rw [this, hp]
    cases u; simp only at hp; subst hp; rfl

/-- `https://u%20v:p@host:8443/a%20b?q=1`. -/
def urlFull : Url :=
  { scheme := .https, path := asciiBytes "/a b", username := some (asciiBytes "u v"), password := some (asciiBytes "p"),
    domain := some (asciiBytes "host"), port := some 8443, query := some (asciiBytes "q=1") }

example : Carried urlFull ∧ NoSeparators urlFull := by
  refine ⟨⟨by decide, by decide +kernel, ?_, .inr ⟨by decide, ⟨⟨104, asciiBytes "ttps", rfl, by decide⟩, by decide +kernel, by decide⟩, by simp [urlFull],
    ⟨_, rfl, by unfold IsPrint; decide +kernel⟩, ⟨_, rfl, by decide⟩, .inr ⟨_, _, rfl, rfl, by decide +kernel, by decide +kernel⟩⟩⟩, ⟨?_, ?_, by decide +kernel, ?_⟩⟩
  · rintro q ⟨⟩; decide +kernel
  · rintro q ⟨⟩; decide +kernel
  · rintro q ⟨⟩; decide +kernel
  · rintro q ⟨⟩; decide +kernel
example : urlFull.display = asciiBytes "https://u%20v:p@host:8443/a%20b?q=1" := by decide +kernel

/-! ## C49: URL parsing yields complete, well-formed parts -/

/-- `v` is the decoding of a substring of `s`. -/
def PartOf (s v : Bytes) : Prop := ∃ raw, raw <:+: s ∧ Decodes raw v

/-- C49: a port, a domain in absolute form and none in origin form, and each part decoded from a
substring of the input (an absent path is `/`). -/
def C49_statement : Prop :=
  ∀ (s : Bytes) (u : Url), Url.parse s = .ok u →
    (∃ raw, (∀ x, raw = some x → x <:+: s) ∧ PortIs (defaultPort u.scheme) raw u.port) ∧
    (u.scheme ≠ .none → u.domain ≠ none) ∧
    (s.head? = some 47 → u.domain = none) ∧
    (∀ v, u.username = some v → PartOf s v) ∧ (∀ v, u.password = some v → PartOf s v) ∧
    (∀ v, u.domain = some v → PartOf s v) ∧ (∀ v, u.query = some v → PartOf s v) ∧
    (PartOf s u.path ∨ u.path = [47])

/-- `http://h/p?q@z` parses to a URL with a scheme and no domain. -/
theorem C49_violated : ¬ C49_statement := by
  intro h
  have h1 : Url.parse (asciiBytes "http://h/p?q@z") = .ok
      { scheme := .http, path := asciiBytes "/p", username := some (asciiBytes "h"), password := some (asciiBytes "q"), domain := none,
        port := some 80, query := some (asciiBytes "z") } := by decide +kernel
  exact (h _ _ h1).2.1 (by decide) rfl

/-- `?` before the first `/` is dropped: the port of `http://a:8?0/` is 80, which is not written in it. -/
theorem C49_violated_port : Url.parse (asciiBytes "http://a:8?0/") = .ok
    { scheme := .http, path := asciiBytes "/", username := none, password := none, domain := some (asciiBytes "a"), port := some 80, query := none } ∧
    Url.parse (asciiBytes "http://a:9?0/") = .ok
    { scheme := .http, path := asciiBytes "/", username := none, password := none, domain := some (asciiBytes "a"), port := some 90, query := none } ∧
    ¬ asciiBytes "90" <:+: asciiBytes "http://a:9?0/" := by
  refine ⟨by decide +kernel, by decide +kernel, by decide +kernel⟩

/-- Every parsed URL has a port of 16 bits. -/
theorem C49_port (s : Bytes) (u : Url) (h : Url.parse s = .ok u) : ∃ p, u.port = some p ∧ p < 65536 := by
  have key : ∀ sc raw, PortIs (defaultPort sc) raw u.port → ∃ p, u.port = some p ∧ p < 65536 := by
    intro sc raw hp
    cases raw with
    | none => exact ⟨_, hp, by cases sc <;> simp [defaultPort]⟩
    | some x => obtain ⟨_, n, -, -, h1, h2⟩ := hp; exact ⟨n, h2, h1⟩
  rcases parse_forms h with ⟨t, rest, sc, st, -, -, -, -, hu⟩ | ⟨-, st, -, hu⟩
  · exact key _ _ hu.port
  · exact key _ _ hu.port

/-- An origin-form URL: exactly which texts are accepted and what they give.  No domain, no user
information, port 0, the path up to the first `?` and the query after it. -/
theorem C49_origin (s : Bytes) (h : s.head? = some 47) (u : Url) :
    Url.parse s = .ok u ↔ (∀ b ∈ s, IsPrint b ∧ b ≠ 64) ∧
      u.scheme = .none ∧ u.username = none ∧ u.password = none ∧ u.domain = none ∧ u.port = some 0 ∧
      PartIs (some (cut 63 s).1) (some u.path) ∧ PartIs (cut 63 s).2 u.query := by
  have hne : s ≠ [] := by rintro rfl; simp at h
  have form : ∀ st : UrlState, st.raw = pathParts s {} → (IsUrl .none st.raw u ↔
      u.scheme = .none ∧ u.username = none ∧ u.password = none ∧ u.domain = none ∧ u.port = some 0 ∧
      PartIs (some (cut 63 s).1) (some u.path) ∧ PartIs (cut 63 s).2 u.query) := by
    intro st hst
    rw [hst, pathParts, if_neg hne]
    constructor
    · rintro ⟨a1, a2, a3, a4, a5, a6, a7⟩; exact ⟨a1, a2, a3, a4, a5, a6, a7⟩
    · rintro ⟨a1, a2, a3, a4, a5, a6, a7⟩; exact ⟨a1, a2, a3, a4, a5, a6, a7⟩
  rw [parse_origin_eq s h, Res.bind_eq_ok]
  constructor
  · rintro ⟨st, h1, h2⟩
    obtain ⟨i1, i2⟩ := origin_inv h1
    have ht : ∀ b ∈ s, isToken b = true ∧ b ≠ 64 := fun b hb => ⟨i2 b hb, by rintro rfl; exact i1 hb⟩
    obtain ⟨st', h3, h4⟩ := origin_run s ht h
    rw [h3, Res.ok.injEq] at h1
    subst h1
    refine ⟨fun b hb => ⟨(isPrint_iff b).mpr (ht b hb).1, (ht b hb).2⟩, (form _ h4).mp ((build_iff _ _ _).mp h2)⟩
  · rintro ⟨ht, hu⟩
    obtain ⟨st', h3, h4⟩ := origin_run s (fun b hb => ⟨(isPrint_iff b).mp (ht b hb).1, (ht b hb).2⟩) h
    exact ⟨st', h3, (build_iff _ _ _).mpr ((form _ h4).mpr hu)⟩

/-- An absolute URL has a domain if no `@` comes after the first `/` of what follows `://`; missing for
C49: the rest. -/
theorem C49_domain_partial (t rest : Bytes) (u : Url) (ht : SchemeText t)
    (h : Url.parse (t ++ [58, 47, 47] ++ rest) = .ok u) (hq : ∀ b ∈ rest.dropWhile (· != 47), b ≠ 64) :
    u.scheme ≠ .none ∧ u.domain ≠ none := by
  rw [parse_absolute_eq t rest ht, Res.bind_eq_ok] at h
  obtain ⟨sc, h1, h⟩ := h
  rw [Res.bind_eq_ok] at h
  obtain ⟨st, h2, h3⟩ := h
  have hu := (build_iff _ _ _).mp h3
  refine ⟨by rw [hu.scheme]; exact (tryFrom_asStr h1).2.1, ?_⟩
  obtain ⟨d, hd⟩ := Option.isSome_iff_exists.mp (hosted_run h2 hq)
  have := hu.domain
  unfold UrlState.raw at this
  rw [hd] at this
  obtain ⟨v, -, -, e⟩ := this
  rw [e]; simp

theorem part_of {s : Bytes} {raw : Option Bytes} {o : Option Bytes} (h : PartIs raw o) (hs : ∀ x, raw = some x → x <:+: s) :
    ∀ v, o = some v → PartOf s v := by
  intro v hv
  cases raw with
  | none => rw [PartIs] at h; rw [h] at hv; simp at hv
  | some x =>
    obtain ⟨w, h1, -, h2⟩ := h
    rw [h2, Option.some.injEq] at hv
    exact ⟨x, hs x rfl, by rw [← hv]; exact h1⟩

theorem parts_of_pieces {s x : Bytes} {sc : Scheme} {st : UrlState} {u : Url} (hx : x <:+: s) (hp : Pieces st x) (hu : IsUrl sc st.raw u) :
    (∃ raw, (∀ x, raw = some x → x <:+: s) ∧ PortIs (defaultPort u.scheme) raw u.port) ∧
    (∀ v, u.username = some v → PartOf s v) ∧ (∀ v, u.password = some v → PartOf s v) ∧
    (∀ v, u.domain = some v → PartOf s v) ∧ (∀ v, u.query = some v → PartOf s v) ∧
    (PartOf s u.path ∨ u.path = [47]) := by
  refine ⟨⟨st.port, fun y hy => (hp.port y hy).trans hx, by rw [hu.scheme]; exact hu.port⟩,
    part_of hu.username fun y hy => (hp.username y hy).trans hx, part_of hu.password fun y hy => (hp.password y hy).trans hx,
    part_of hu.domain fun y hy => (hp.domain y hy).trans hx, part_of hu.query fun y hy => (hp.query y hy).trans hx, ?_⟩
  have h := hu.path
  unfold UrlState.raw at h
  cases hpath : st.path with
  | none =>
    rw [hpath] at h
    obtain ⟨v, h1, -, h2⟩ := h
    right
    rw [Option.some.injEq] at h2
    rw [h2]
    exact decodes_unique h1 (.plain (by decide) .nil)
  | some y =>
    rw [hpath] at h
    left
    exact part_of (raw := some y) h (fun z hz => by rw [Option.some.injEq] at hz; subst hz; exact (hp.path y hpath).trans hx) _ rfl

/-- Every part is decoded from a substring of the input if no `?` comes before the first `/` of what
follows `://`; missing for C49: URLs with such a `?`. -/
theorem C49_parts_partial (t rest : Bytes) (u : Url) (ht : SchemeText t)
    (h : Url.parse (t ++ [58, 47, 47] ++ rest) = .ok u) (hq : ∀ b ∈ rest.takeWhile (· != 47), b ≠ 63) :
    (∃ raw, (∀ x, raw = some x → x <:+: t ++ [58, 47, 47] ++ rest) ∧ PortIs (defaultPort u.scheme) raw u.port) ∧
    (∀ v, u.username = some v → PartOf (t ++ [58, 47, 47] ++ rest) v) ∧ (∀ v, u.password = some v → PartOf (t ++ [58, 47, 47] ++ rest) v) ∧
    (∀ v, u.domain = some v → PartOf (t ++ [58, 47, 47] ++ rest) v) ∧ (∀ v, u.query = some v → PartOf (t ++ [58, 47, 47] ++ rest) v) ∧
    (PartOf (t ++ [58, 47, 47] ++ rest) u.path ∨ u.path = [47]) := by
  rw [parse_absolute_eq t rest ht, Res.bind_eq_ok] at h
  obtain ⟨sc, h1, h⟩ := h
  rw [Res.bind_eq_ok] at h
  obtain ⟨st, h2, h3⟩ := h
  exact parts_of_pieces (List.suffix_append _ _).isInfix (pieces_run ⟨rfl, rfl, rfl, rfl, rfl, rfl, rfl⟩ h2 (.inr hq)) ((build_iff _ _ _).mp h3)

/-- Exactly which absolute URLs are accepted and what they give, if the authority has no `?` and at
most one `@` and there is no `@` after it: the authority splits into user, password, host and port,
the rest into path and query.  Missing for C49: the other texts. -/
theorem C49_absolute_partial (t a tail : Bytes) (u : Url) (ht : SchemeText t) (ha : ∀ b ∈ a, b ≠ 47 ∧ b ≠ 63) (h64 : a.count 64 ≤ 1)
    (h47 : tail = [] ∨ tail.head? = some 47) (hat : (64 : UInt8) ∉ tail) :
    Url.parse (t ++ [58, 47, 47] ++ (a ++ tail)) = .ok u ↔
      (∀ b ∈ a ++ tail, IsPrint b) ∧ u.scheme.asStr = t ∧ u.scheme ≠ .none ∧ (∀ x, u.scheme = .extension x → ∀ e ∈ schemeNames, x ≠ asciiBytes e.2) ∧
      ∃ r, authorityParts a = some r ∧ IsUrl u.scheme (pathParts tail r) u := by
  rw [parse_absolute_eq t _ ht, Res.bind_eq_ok]
  constructor
  · rintro ⟨sc, h1, h⟩
    rw [Res.bind_eq_ok] at h
    obtain ⟨st, h2, h3⟩ := h
    obtain ⟨s', h4, -⟩ := run_ok h2
    have tok := steps_tokens h4
    have hu := (build_iff _ _ _).mp h3
    obtain ⟨i1, i2, -, i3⟩ := tryFrom_asStr h1
    obtain ⟨g1, g2⟩ := absolute_run a tail (fun b hb => ⟨tok b (by simp [hb]), ha b hb⟩) h64
      (fun b hb => ⟨tok b (by simp [hb]), by rintro rfl; exact hat hb⟩) h47
    refine ⟨fun b hb => (isPrint_iff b).mpr (tok b hb), by rw [hu.scheme]; exact i1, by rw [hu.scheme]; exact i2,
      by rw [hu.scheme]; exact i3, ?_⟩
    cases hr : authorityParts a with
    | none => rw [g2 hr] at h2; simp at h2
    | some r =>
      obtain ⟨s2, e1, e2⟩ := g1 r hr
      rw [h2, Res.ok.injEq] at e1
      subst e1
      exact ⟨r, rfl, by rw [← e2, hu.scheme]; exact hu⟩
  · rintro ⟨tok, h1, h2, h3, r, hr, hu⟩
    refine ⟨u.scheme, by rw [← h1]; exact asStr_tryFrom h2 (by rw [h1]; exact ht.len) h3, ?_⟩
    have tok' := fun b hb => (isPrint_iff b).mp (tok b hb)
    obtain ⟨s2, e1, e2⟩ := (absolute_run a tail (fun b hb => ⟨tok' b (by simp [hb]), ha b hb⟩) h64
      (fun b hb => ⟨tok' b (by simp [hb]), by rintro rfl; exact hat hb⟩) h47).1 r hr
    rw [e1, Res.bind_ok, build_iff, e2]
    exact hu

example : SchemeText (asciiBytes "http") := ⟨⟨104, asciiBytes "ttp", rfl, by decide⟩, by decide +kernel, by decide⟩
example : Url.parse (asciiBytes "http://u:p@h:81/x?y=%31") = .ok
    { scheme := .http, path := asciiBytes "/x", username := some (asciiBytes "u"), password := some (asciiBytes "p"), domain := some (asciiBytes "h"),
      port := some 81, query := some (asciiBytes "y=1") } := by decide +kernel
example : (∀ b ∈ asciiBytes "u:p@h:81", b ≠ 47 ∧ b ≠ 63) ∧ (asciiBytes "u:p@h:81").count 64 ≤ 1 ∧ (64 : UInt8) ∉ asciiBytes "/x?y=%31" := by
  decide +kernel
example : Url.parse (asciiBytes "/x?y=1") = .ok
    { scheme := .none, path := asciiBytes "/x", username := none, password := none, domain := none, port := some 0, query := some (asciiBytes "y=1") } := by
  decide +kernel

/-! ## C50: merge overrides exactly the parts given -/

/-- Each part is the other's if that is given and one's own otherwise. -/
theorem C50_fields (a b : Url) :
    (a.merge b).scheme = (if b.scheme = .none then a.scheme else b.scheme) ∧
    (a.merge b).path = (if b.path = asciiBytes "/" then a.path else b.path) ∧
    (a.merge b).username = b.username.or a.username ∧
    (a.merge b).password = b.password.or a.password ∧
    (a.merge b).domain = b.domain.or a.domain ∧
    (a.merge b).port = (if b.port = some 0 then a.port else b.port.or a.port) ∧
    (a.merge b).query = b.query.or a.query := by
  have opt : ∀ {α : Type} [DecidableEq α] (x y : Option α), mergeField (decide (y ≠ none)) x y = y.or x := by
    intro α _ x y
    unfold mergeField
    cases y with
    | none => simp
    | some v =>
      simp only [decide_eq_true_eq, ne_eq, reduceCtorEq, not_false_eq_true, true_and]
      split
      · rfl
      · rename_i h; simpa using h
  have gen : ∀ {α : Type} [DecidableEq α] (x y z : α), mergeField (decide (y ≠ z)) x y = if y = z then x else y := by
    intro α _ x y z
    unfold mergeField
    by_cases h : y = z
    · simp [h]
    · simp only [decide_eq_true_eq, ne_eq, h, not_false_eq_true, true_and, if_false]
      split
      · rfl
      · rename_i h; simpa using h
  refine ⟨gen _ _ _, gen _ _ _, opt _ _, opt _ _, opt _ _, ?_, opt _ _⟩
  show mergeField _ _ _ = _
  unfold mergeField
  cases hb : b.port with
  | none => simp
  | some v =>
    by_cases h : v = 0
    · simp [h]
    · simp only [ne_eq, reduceCtorEq, not_false_eq_true, Option.some.injEq, h, and_self, decide_true, true_and, if_false]
      split
      · rfl
      · rename_i h; simpa using h

/-- Merging twice is merging once. -/
theorem C50_idempotent (a b : Url) : (a.merge b).merge b = a.merge b := by
  obtain ⟨h1, h2, h3, h4, h5, h6, h7⟩ := C50_fields a b
  obtain ⟨g1, g2, g3, g4, g5, g6, g7⟩ := C50_fields (a.merge b) b
  have or2 : ∀ {α : Type} (x y : Option α), x.or (x.or y) = x.or y := by intro α x y; cases x <;> rfl
  have ext : ∀ u v : Url, u.scheme = v.scheme → u.path = v.path → u.username = v.username → u.password = v.password →
      u.domain = v.domain → u.port = v.port → u.query = v.query → u = v := by
    intro u v; cases u; cases v; simp only [Url.mk.injEq]; intros; simp [*]
  apply ext
  · rw [g1, h1]; split <;> rfl
  · rw [g2, h2]; split <;> rfl
  · rw [g3, h3, or2]
  · rw [g4, h4, or2]
  · rw [g5, h5, or2]
  · rw [g6, h6]
    split
    · rfl
    · rw [or2]
  · rw [g7, h7, or2]

/-- Merging the empty URL changes nothing. -/
theorem C50_empty (a : Url) : a.merge Url.new = a := by
  cases a; rfl

/-- Merging into the empty URL gives the other one, up to a port 0. -/
theorem C50_into_empty (b : Url) (h : b.port ≠ some 0) : Url.new.merge b = b := by
  obtain ⟨h1, h2, h3, h4, h5, h6, h7⟩ := C50_fields Url.new b
  have ext : ∀ u v : Url, u.scheme = v.scheme → u.path = v.path → u.username = v.username → u.password = v.password →
      u.domain = v.domain → u.port = v.port → u.query = v.query → u = v := by
    intro u v; cases u; cases v; simp only [Url.mk.injEq]; intros; simp [*]
  apply ext
  · rw [h1]; split
    · rename_i h; rw [h]; rfl
    · rfl
  · rw [h2]; split
    · rename_i h; rw [h]; rfl
    · rfl
  · rw [h3]; cases b.username <;> rfl
  · rw [h4]; cases b.password <;> rfl
  · rw [h5]; cases b.domain <;> rfl
  · rw [h6, if_neg h]; cases b.port <;> rfl
  · rw [h7]; cases b.query <;> rfl

example : (urlFull.merge { Url.new with domain := some (asciiBytes "x"), port := some 0 }) = { urlFull with domain := some (asciiBytes "x") } := by
  decide +kernel
example : urlFull.port ≠ some 0 := by decide

/-! ## C51: schemes convert exactly -/

/-- C51, first sentence: the text of a scheme converts to that scheme. -/
def C51_statement : Prop := ∀ s : Scheme, s.asStr.length ≤ 64 → Scheme.tryFrom s.asStr = .ok s

/-- Not for `None`, whose text is empty and converts to an extension, nor for an extension with the
name of a known scheme. -/
theorem C51_violated : ¬ C51_statement := by
  intro h
  have := h .none (by decide)
  exact absurd this (by decide +kernel)

/-- The text of every other scheme converts to it; missing for C51: `None` and extensions named like
a known scheme. -/
theorem C51_roundtrip_partial (s : Scheme) (hl : s.asStr.length ≤ 64) (hn : s ≠ .none)
    (hx : ∀ e ∈ schemeNames, s ≠ .extension (asciiBytes e.2)) : Scheme.tryFrom s.asStr = .ok s :=
  asStr_tryFrom hn hl fun x e f hf he => hx f hf (by rw [e, he])

/-- What a text converts to has that text, so nothing is lost. -/
theorem C51_text (t : Bytes) (s : Scheme) (h : Scheme.tryFrom t = .ok s) : s.asStr = t := (tryFrom_asStr h).1

/-- Exactly the texts of more than 64 bytes are refused. -/
theorem C51_length (t : Bytes) : (∃ s, Scheme.tryFrom t = .ok s) ↔ t.length ≤ 64 := by
  constructor
  · rintro ⟨s, h⟩; exact (tryFrom_asStr h).2.2.1
  · intro h; exact tryFrom_short (by omega)

/-- The five names give their variants and nothing else does. -/
theorem C51_known (t : Bytes) : ∀ e ∈ schemeNames, (Scheme.tryFrom t = .ok e.1 ↔ t = asciiBytes e.2) := by
  intro e he
  constructor
  · intro h
    rw [← (tryFrom_asStr h).1]
    exact (by decide +kernel : ∀ e ∈ schemeNames, e.1.asStr = asciiBytes e.2) e he
  · rintro rfl
    revert e; decide +kernel

/-- `parse_scheme` reads the longest run of scheme characters and refuses more than 64 of them. -/
theorem C51_parse_length (t : Bytes) (c : UInt8) (r : Bytes) (hc : isSchemeToken c = false) (ht : ∀ b ∈ t, isSchemeToken b = true) (hne : t ≠ []) :
    parseScheme (t ++ c :: r) = (if t.length > 64 then .err .schemeTooLong else Scheme.tryFrom t, c :: r) := by
  unfold parseScheme parseTokenBy
  rw [parseTokenEmpty_eq _ _ (List.all_eq_true.mpr ht) hc, if_neg hne]
  simp only [thenRead]
  split <;> rfl

example : Scheme.tryFrom (asciiBytes "gopher") = .ok (.extension (asciiBytes "gopher")) := by decide +kernel
example : ∀ e ∈ schemeNames, Scheme.extension (asciiBytes "gopher") ≠ .extension (asciiBytes e.2) := by decide +kernel
example : isSchemeToken 58 = false ∧ ∀ b ∈ asciiBytes "http", isSchemeToken b = true := by decide +kernel

/-! ## C56: the host of a URL comes from its authority -/

/-- C56: host, port and user information of an absolute URL are those of the same URL cut before the
first `/` after `://`. -/
def C56_statement : Prop :=
  ∀ (t a tail : Bytes) (u v : Url), SchemeText t → (47 : UInt8) ∉ a → tail.head? = some 47 →
    Url.parse (t ++ [58, 47, 47] ++ (a ++ tail)) = .ok u → Url.parse (t ++ [58, 47, 47] ++ a) = .ok v →
    u.domain = v.domain ∧ u.port = v.port ∧ u.username = v.username ∧ u.password = v.password

/-- `http://trusted/x@evil` has the host `evil`. -/
theorem C56_violated : ¬ C56_statement := by
  intro h
  have h1 : Url.parse (asciiBytes "http" ++ [58, 47, 47] ++ (asciiBytes "trusted" ++ asciiBytes "/x@evil")) = .ok
      { scheme := .http, path := asciiBytes "/", username := some (asciiBytes "trusted"), password := some (asciiBytes "/x"),
        domain := some (asciiBytes "evil"), port := some 80, query := none } := by decide +kernel
  have h2 : Url.parse (asciiBytes "http" ++ [58, 47, 47] ++ asciiBytes "trusted") = .ok
      { scheme := .http, path := asciiBytes "/", username := none, password := none, domain := some (asciiBytes "trusted"), port := some 80,
        query := none } := by decide +kernel
  have := (h (asciiBytes "http") (asciiBytes "trusted") (asciiBytes "/x@evil") _ _ ⟨⟨104, asciiBytes "ttp", rfl, by decide⟩, by decide +kernel, by decide⟩
    (by decide) (by decide) h1 h2).1
  exact absurd this (by decide)

theorem partIs_unique {r o o' : Option Bytes} (h : PartIs r o) (h' : PartIs r o') : o = o' := by
  cases r with
  | none => rw [PartIs] at h h'; rw [h, h']
  | some x =>
    obtain ⟨v, h1, -, rfl⟩ := h
    obtain ⟨w, h2, -, rfl⟩ := h'
    rw [decodes_unique h1 h2]

theorem isNumeral_unique {v : Bytes} {n m : Nat} (h : IsNumeral v n ∨ ∃ t, v = 43 :: t ∧ IsNumeral t n) (h' : IsNumeral v m ∨ ∃ t, v = 43 :: t ∧ IsNumeral t m) :
    n = m := by
  rcases h with h | ⟨t, rfl, h⟩ <;> rcases h' with h' | ⟨t', e, h'⟩
  · rw [← h.2.2, h'.2.2]
  · exact absurd (by rw [e]; rfl) (numeral_head h).1
  · exact absurd rfl (numeral_head h').1
  · rw [List.cons.injEq] at e
    rw [← h.2.2, ← h'.2.2, e.2]

theorem portIs_unique {d : Nat} {r : Option Bytes} {o o' : Option Nat} (h : PortIs d r o) (h' : PortIs d r o') : o = o' := by
  cases r with
  | none => rw [PortIs] at h h'; rw [h, h']
  | some x =>
    obtain ⟨v, n, h1, h2, -, rfl⟩ := h
    obtain ⟨w, m, h3, h4, -, rfl⟩ := h'
    rw [decodes_unique h3 h1] at h4
    rw [isNumeral_unique h2 h4]

/-- It holds if the authority has no `?` and at most one `@` and no `@` follows it. -/
theorem C56_authority_partial (t a tail : Bytes) (u v : Url) (ht : SchemeText t) (ha : ∀ b ∈ a, b ≠ 47 ∧ b ≠ 63) (h64 : a.count 64 ≤ 1)
    (h47 : tail.head? = some 47) (hat : (64 : UInt8) ∉ tail)
    (h1 : Url.parse (t ++ [58, 47, 47] ++ (a ++ tail)) = .ok u) (h2 : Url.parse (t ++ [58, 47, 47] ++ a) = .ok v) :
    u.domain = v.domain ∧ u.port = v.port ∧ u.username = v.username ∧ u.password = v.password := by
  obtain ⟨-, a1, a2, a3, r, a4, a5⟩ := (C49_absolute_partial t a tail u ht ha h64 (.inr h47) hat).mp h1
  obtain ⟨-, b1, b2, b3, r', b4, b5⟩ := (C49_absolute_partial t a [] v ht ha h64 (.inl rfl) (by simp)).mp (by simpa using h2)
  rw [a4, Option.some.injEq] at b4
  subst b4
  have hne : tail ≠ [] := by rintro rfl; simp at h47
  have hs : u.scheme = v.scheme := by
    have e1 := asStr_tryFrom a2 (by rw [a1]; exact ht.len) a3
    have e2 := asStr_tryFrom b2 (by rw [b1]; exact ht.len) b3
    rw [a1] at e1; rw [b1, e1, Res.ok.injEq] at e2; exact e2
  rw [pathParts, if_neg hne] at a5
  rw [pathParts, if_pos rfl, ← hs] at b5
  exact ⟨partIs_unique a5.domain b5.domain, portIs_unique a5.port b5.port, partIs_unique a5.username b5.username, partIs_unique a5.password b5.password⟩

/-! ## C57: `str::parse` gives the scheme of a name -/

/-- C57: parsing the name of a known scheme gives that scheme. -/
def C57_statement : Prop := ∀ e ∈ schemeNames, Scheme.fromStr (asciiBytes e.2) = .ok e.1

/-- `FromStr` turns the text to upper case and then looks for lower-case names. -/
theorem C57_violated : ¬ C57_statement := by
  intro h
  have := h (.http, "http") (by simp [schemeNames])
  exact absurd this (by decide +kernel)

/-- It gives a known scheme for no text in ASCII; for all texts see `C57_any_text`. -/
theorem C57_never (t : Bytes) (_ : ∀ b ∈ t, b < 128) (s : Scheme) (h : Scheme.fromStr t = .ok s) :
    s = .extension (toUpperAscii t) := by
  have low : ∀ b : UInt8, (if 97 ≤ b && b ≤ 122 then b - 32 else b) ∉ asciiBytes "hwf" := by decide +kernel
  have ne : ∀ x : Bytes, x.head?.all (· ∈ asciiBytes "hwf") = true → x ≠ [] → toUpperAscii t ≠ x := by
    intro x hx hne e
    obtain ⟨c, r, rfl⟩ := List.exists_cons_of_ne_nil hne
    cases t with
    | nil => simp [toUpperAscii] at e
    | cons b t =>
      rw [toUpperAscii, List.map_cons, List.cons.injEq] at e
      simp only [List.head?_cons, Option.all_some, decide_eq_true_eq] at hx
      exact low b (by rw [e.1]; exact hx)
  unfold Scheme.fromStr Scheme.tryFrom at h
  split at h
  · simp at h
  · rw [if_neg (ne _ (by decide) (by decide)), if_neg (ne _ (by decide) (by decide)), if_neg (ne _ (by decide) (by decide)),
      if_neg (ne _ (by decide) (by decide)), if_neg (ne _ (by decide) (by decide)), Res.ok.injEq] at h
    exact h.symm

example : Scheme.fromStr (asciiBytes "http") = .ok (.extension (asciiBytes "HTTP")) := by decide +kernel

end Webparse
