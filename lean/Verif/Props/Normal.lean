import Verif.Proofs.Utf8Spec
import Verif.Props.UrlEq
import Verif.Props.UrlEqExact

/-!
# C114: displaying a URL and reading it settles at once

The text of a URL should be a normal form: whoever reads it and displays it again gets the same text.  It is if the host has no `%` and
no part but the path and the query contains a separator.  It is not in general: each reading decodes the host once more.
-/

namespace Webparse
open Spec

/-- The text of `u` is read, and displayed again it is the same text. -/
def Settled (u : Url) : Prop := ∃ u', Url.ofText u.display = .ok u' ∧ u'.display = u.display

/-- C114, the full claim: so for every URL that was read. -/
def C114_statement : Prop := ∀ (s : Bytes) (u : Url), Url.ofText s = .ok u → Settled u

theorem scalar_no_question {c : Nat} (h : c ≠ 63) (hc : IsScalar c) : (63 : UInt8) ∉ encodeScalar c := by
  have big : ∀ n : Nat, 128 ≤ n → n < 256 → (63 : UInt8) ≠ UInt8.ofNat n := by
    intro n h1 h2 e
    have := congrArg UInt8.toNat e
    rw [UInt8.toNat_ofNat_of_lt' (by omega)] at this
    change 63 = n at this
    omega
  unfold IsScalar at hc
  unfold encodeScalar
  split
  · intro hm
    rw [List.mem_singleton] at hm
    have := congrArg UInt8.toNat hm
    rw [UInt8.toNat_ofNat_of_lt' (by show c < 256; omega)] at this
    exact h this.symm
  · split
    · simp only [List.mem_cons, List.not_mem_nil, or_false, not_or]
      exact ⟨big _ (by omega) (by omega), big _ (by omega) (by omega)⟩
    · split
      · simp only [List.mem_cons, List.not_mem_nil, or_false, not_or]
        exact ⟨big _ (by omega) (by omega), big _ (by omega) (by omega), big _ (by omega) (by omega)⟩
      · simp only [List.mem_cons, List.not_mem_nil, or_false, not_or]
        exact ⟨big _ (by omega) (by omega), big _ (by omega) (by omega), big _ (by omega) (by omega), big _ (by omega) (by omega)⟩

theorem utf8_question : ∀ (cs : List Nat) (x y : Bytes), (∀ c ∈ cs, IsScalar c) → cs.flatMap encodeScalar = x ++ 63 :: y → (63 : UInt8) ∉ x →
    IsUtf8 x ∧ IsUtf8 y := by
  intro cs
  induction cs with
  | nil => intro x y _ h; simp at h
  | cons c cs ih =>
    intro x y hs h hx
    rw [List.flatMap_cons] at h
    by_cases hc : c = 63
    · subst hc
      have e : encodeScalar 63 = [63] := by decide
      rw [e] at h
      cases x with
      | nil =>
        simp only [List.nil_append, List.cons_append, List.cons.injEq, true_and] at h
        exact ⟨isUtf8_nil, cs, fun d hd => hs d (by simp [hd]), h.symm⟩
      | cons b x =>
        simp only [List.nil_append, List.cons_append, List.cons.injEq] at h
        exact absurd (by simp [← h.1]) hx
    · have hn := scalar_no_question hc (hs c (by simp))
      rcases List.append_eq_append_iff.mp h with ⟨z, h1, h2⟩ | ⟨z, h1, h2⟩
      · rw [h1] at hx
        simp only [List.mem_append, not_or] at hx
        obtain ⟨a, b⟩ := ih z y (fun d hd => hs d (by simp [hd])) h2 hx.2
        exact ⟨by rw [h1]; exact isUtf8_append (isUtf8_scalar (hs c (by simp))) a, b⟩
      · cases z with
        | nil =>
          simp only [List.append_nil, List.nil_append] at h1 h2
          obtain ⟨a, b⟩ := ih [] y (fun d hd => hs d (by simp [hd])) (by rw [List.nil_append]; exact h2.symm) (by simp)
          exact ⟨by rw [← h1]; exact isUtf8_scalar (hs c (by simp)), b⟩
        | cons d z =>
          simp only [List.cons_append, List.cons.injEq] at h2
          exact absurd (by rw [h1, ← h2.1]; simp) hn

theorem utf8Valid_question {x y : Bytes} (h : utf8Valid (x ++ 63 :: y) = true) (hx : (63 : UInt8) ∉ x) : utf8Valid x = true ∧ utf8Valid y = true := by
  obtain ⟨cs, h1, h2⟩ := (utf8Valid_iff _).mp h
  rw [utf8Valid_iff, utf8Valid_iff]
  exact utf8_question cs x y h1 h2.symm hx

/-- Path and query as one text. -/
theorem tail_encode (p : Bytes) (q : Option Bytes) : urlEncode p ++ queryText q = urlEncode (p ++ (match q with | some q => 63 :: q | none => [])) := by
  rw [query_encode, ← encode_append]
  cases q <;> rfl

theorem tail_display {u v : Url} (h1 : v.scheme = u.scheme) (h2 : v.username = u.username) (h3 : v.password = u.password) (h4 : v.domain = u.domain)
    (h5 : v.port = u.port) (h6 : urlEncode v.path ++ queryText v.query = urlEncode u.path ++ queryText u.query) : v.display = u.display := by
  unfold Url.display
  rw [h1, h2, h3, h4, h5, List.append_assoc _ (urlEncode v.path), h6, ← List.append_assoc]

/-- C114, partial: the text of a URL settles if text can carry it, the user information has no separators, and neither path nor query has
an `@`.  The path may contain `?`: then the text is read as another URL, but displayed the same.  Missing: `%` or separators in the host,
separators in the user information, `@` in path and query. -/
theorem C114_settles_partial (u : Url) (hc : Carried u) (hn : ∀ n, u.username = some n → ∀ b ∈ n, b ∉ asciiBytes ":@/?")
    (hw : ∀ w, u.password = some w → ∀ b ∈ w, b ∉ asciiBytes ":@/?") (hp : (64 : UInt8) ∉ u.path) (hq : ∀ q, u.query = some q → (64 : UInt8) ∉ q) :
    Settled u := by
  by_cases h63 : (63 : UInt8) ∈ u.path
  · obtain ⟨x, y, e, hx⟩ : ∃ x y, u.path = x ++ 63 :: y ∧ (63 : UInt8) ∉ x := by
      cases hcut : cut 63 u.path with
      | mk x o =>
        cases o with
        | none => exact absurd h63 (by have := cut_none hcut; exact this.2)
        | some y => exact ⟨x, y, cut_some hcut⟩
    have hv : utf8Valid x = true ∧ utf8Valid y = true := utf8Valid_question (by rw [← e]; exact hc.path) hx
    have hs : x.head? = some 47 := by
      have := hc.slash
      rw [e] at this
      cases x with
      | nil => simp at this
      | cons b x => simpa using this
    rw [e] at hp
    simp only [List.mem_append, List.mem_cons, not_or] at hp
    let v : Url := { u with path := x, query := some (y ++ (match u.query with | some q => 63 :: q | none => [])) }
    have hd : v.display = u.display := tail_display rfl rfl rfl rfl rfl (by
      rw [tail_encode, tail_encode, e]
      simp only [v, List.append_assoc, List.cons_append])
    have hc' : Carried v := by
      refine ⟨hs, hv.1, ?_, hc.kind⟩
      intro q hq'
      simp only [v, Option.some.injEq] at hq'
      subst hq'
      cases hu : u.query with
      | none => rw [List.append_nil]; exact hv.2
      | some q =>
        rw [utf8Valid_iff] at hv ⊢
        have h1 : IsUtf8 q := (utf8Valid_iff q).mp (hc.query q hu)
        have h2 : IsUtf8 [63] := (utf8Valid_iff _).mp (by decide)
        exact isUtf8_append ((utf8Valid_iff y).mp hv.2) (isUtf8_append h2 h1)
    have ns : NoSeparators v := by
      refine ⟨hn, hw, path_clean hx hp.1, ?_⟩
      intro q hq'
      simp only [v, Option.some.injEq] at hq'
      subst hq'
      cases hu : u.query with
      | none => simpa using hp.2.2
      | some q =>
        simp only [List.mem_append, List.mem_cons, not_or]
        exact ⟨hp.2.2, by decide, hq q hu⟩
    exact ⟨v, by rw [← hd]; exact C48_roundtrip_partial v hc' ns, hd⟩
  · exact ⟨u, C48_roundtrip_partial u hc ⟨hn, hw, path_clean h63 hp, hq⟩, rfl⟩

/-- C114, exactly, for origin-form URLs: the text settles if and only if neither path nor query has an `@`; otherwise it is not read at
all. -/
theorem C114_origin_iff_partial (s : Bytes) (h : s.head? = some 47) (u : Url) (hu : Url.ofText s = .ok u) :
    (Settled u ↔ (64 : UInt8) ∉ u.path ∧ ∀ q, u.query = some q → (64 : UInt8) ∉ q) ∧ (¬ Settled u → ∀ u', Url.ofText u.display ≠ .ok u') := by
  obtain ⟨-, h1, h2, h3, h4, h5, ⟨v, hv, hv8, e⟩, h7⟩ := (C49_origin s h u).mp hu
  obtain rfl : u.path = v := by simpa using e
  have hslash : u.path.head? = some 47 := by
    cases s with
    | nil => simp at h
    | cons b r =>
      simp only [List.head?_cons, Option.some.injEq] at h
      subst h
      rw [cut, if_neg (by decide)] at hv
      exact decodes_head hv rfl
  have hq8 : ∀ q, u.query = some q → utf8Valid q = true := by
    intro q hq
    cases hc : (cut 63 s).2 with
    | none =>
      rw [hc] at h7
      rw [show u.query = none from h7] at hq
      cases hq
    | some r =>
      rw [hc] at h7
      obtain ⟨w, -, h8, e⟩ := h7
      rw [e, Option.some.injEq] at hq
      rw [← hq]
      exact h8
  have hc : Carried u := ⟨hslash, hv8, hq8, .inl ⟨h1, h2, h3, h4, h5⟩⟩
  have ed : u.display = urlEncode u.path ++ queryText u.query := by
    unfold Url.display
    rw [h1, h2, h3, h4]
    rfl
  have hd : u.display.head? = some 47 := by
    rw [ed, List.head?_append, encode_slash hslash]; rfl
  have fwd : ∀ u', Url.ofText u.display = .ok u' → (64 : UInt8) ∉ u.path ∧ ∀ q, u.query = some q → (64 : UInt8) ∉ q := by
    intro u' hu'
    obtain ⟨a1, -⟩ := (C49_origin _ hd u').mp hu'
    exact tail_no_at fun hm => (a1 _ (by rw [ed]; exact hm)).2 rfl
  have bwd : ((64 : UInt8) ∉ u.path ∧ ∀ q, u.query = some q → (64 : UInt8) ∉ q) → Settled u := fun ⟨a, b⟩ =>
    C114_settles_partial u hc (by simp [h2]) (by simp [h3]) a b
  exact ⟨⟨fun ⟨u', hu', _⟩ => fwd u' hu', bwd⟩, fun hs u' hu' => hs (bwd (fwd u' hu'))⟩

theorem encode_mem {s : Bytes} {c : UInt8} (hc : c ∈ asciiBytes ":@/?") (h : c ∈ urlEncode s) : c ∈ s := by
  rw [urlEncode_eq, List.mem_flatMap] at h
  obtain ⟨b, hb, hm⟩ := h
  have : ∀ c ∈ asciiBytes ":@/?", ∀ b : UInt8, c ∈ encodeByte b → b = c := by
    have h (c : UInt8) (hc : c ∈ asciiBytes ":@/?") : c = 58 ∨ c = 64 ∨ c = 47 ∨ c = 63 := by
      revert c; decide +kernel
    intro c hc b
    rcases h c hc with rfl | rfl | rfl | rfl <;> revert b <;> decide +kernel
  exact this c hc b hm ▸ hb

/-- C114, exactly, for absolute URLs: where the user information, path and query are as in `C114_settles_partial` and the host has no
separators, the text settles only if the host has no `%`. -/
theorem C114_percent_partial (u : Url) (d : Bytes) (hs : u.scheme ≠ .none) (ht : SchemeText u.scheme.asStr)
    (hd : u.domain = some d) (hd' : ∀ b ∈ d, b ∉ asciiBytes ":@/?") (hslash : u.path.head? = some 47)
    (huser : (u.username = none ∧ u.password = none) ∨ ∃ n w, u.username = some n ∧ u.password = some w)
    (hn : ∀ n, u.username = some n → ∀ b ∈ n, b ∉ asciiBytes ":@/?")
    (hw : ∀ w, u.password = some w → ∀ b ∈ w, b ∉ asciiBytes ":@/?") (hp : (64 : UInt8) ∉ u.path) (hq : ∀ q, u.query = some q → (64 : UInt8) ∉ q)
    (h : Settled u) : (37 : UInt8) ∉ d := by
  obtain ⟨u', h1, h2⟩ := h
  obtain ⟨user, e1, e2⟩ : ∃ user, userPart user = userText u.username u.password ∧ ∀ x, user = some x → ∀ b ∈ x.1 ++ x.2, b ∉ asciiBytes ":@/?" := by
    rcases huser with ⟨a, b⟩ | ⟨n, w, a, b⟩
    · exact ⟨none, by rw [a, b]; rfl, by simp⟩
    · refine ⟨some (urlEncode n, urlEncode w), ?_, ?_⟩
      · rw [a, b]; simp [userText, userPart]
      · rintro x ⟨⟩ c hc hm
        rcases List.mem_append.mp hc with hc | hc
        · exact hn n a c (encode_mem hm hc) hm
        · exact hw w b c (encode_mem hm hc) hm
  obtain ⟨port, e3, e4⟩ : ∃ port, portPart port = portSuffix u.scheme u.port ∧ ∀ p, port = some p → ∀ b ∈ p, b ∉ asciiBytes ":@/?" := by
    have hdec : ∀ p, ∀ b ∈ decimal p, b ∉ asciiBytes ":@/?" := by
      intro p b hb
      have h3 := (decimal_spec p).2.1 b hb
      clear hb
      revert b
      decide +kernel
    unfold portSuffix
    rw [if_pos hs]
    split
    · rename_i p _
      split
      · exact ⟨none, rfl, by simp⟩
      · split
        · exact ⟨none, rfl, by simp⟩
        · exact ⟨some (decimal p), rfl, by rintro _ ⟨⟩; exact hdec p⟩
    · exact ⟨none, rfl, by simp⟩
  have e5 : asciiBytes "://" = [58, 47, 47] := by decide
  have ed : u.display = u.scheme.asStr ++ asciiBytes "://" ++ (userPart user ++ d ++ portPart port ++ (urlEncode u.path ++ queryText u.query)) := by
    unfold Url.display schemeText
    rw [if_pos hs, hd, e1, e3, e5]
    simp only [Option.getD_some, List.append_assoc]
  have hat : (64 : UInt8) ∉ urlEncode u.path ++ queryText u.query := by
    rw [tail_encode]
    intro hm
    have := encode_mem (by decide) hm
    rcases List.mem_append.mp this with hm | hm
    · exact hp hm
    · cases hu : u.query with
      | none => rw [hu] at hm; simp at hm
      | some q =>
        rw [hu] at hm
        rcases List.mem_cons.mp hm with hm | hm
        · exact absurd hm (by decide)
        · exact hq q hu hm
  rw [ed] at h1 h2
  exact ((C106_absolute_iff_partial _ user d port _ u' ht e2 hd' e4 (.inr (by rw [List.head?_append, encode_slash hslash]; rfl)) hat h1).mp
    (by unfold Url.eqText; rw [beq_iff_eq]; exact h2)).2.1

/-! ### Cases that meet the hypotheses -/

/-- A host with `%` that text does not settle: `C114_percent_partial` applies to the URL of `C114_violated_host`. -/
example : Url.ofText (asciiBytes "http://%2541/") = .ok ⟨.http, [47], none, none, some (asciiBytes "%41"), some 80, none⟩ := by decide +kernel

/-- A `?` in the path: read back as path and query, displayed the same. -/
example : Url.ofText (asciiBytes "/a%3Fb?c%20d") = .ok ⟨.none, asciiBytes "/a?b", none, none, none, some 0, some (asciiBytes "c d")⟩ ∧
    Url.ofText (asciiBytes "/a?b?c%20d") = .ok ⟨.none, asciiBytes "/a", none, none, none, some 0, some (asciiBytes "b?c d")⟩ ∧
    Url.display ⟨.none, asciiBytes "/a?b", none, none, none, some 0, some (asciiBytes "c d")⟩ = asciiBytes "/a?b?c%20d" ∧
    Url.display ⟨.none, asciiBytes "/a", none, none, none, some 0, some (asciiBytes "b?c d")⟩ = asciiBytes "/a?b?c%20d" := by decide +kernel

example : Settled ⟨.https, asciiBytes "/a?b", some (asciiBytes "u v"), some [], some (asciiBytes "h"), some 444, none⟩ := by
  refine C114_settles_partial _ ⟨rfl, by decide +kernel, by simp, .inr ⟨by decide, ⟨⟨104, asciiBytes "ttps", rfl, by decide⟩, by decide +kernel, by decide⟩, by simp,
    ⟨asciiBytes "h", rfl, by unfold IsPrint; decide +kernel⟩, ⟨444, rfl, by decide⟩, .inr ⟨asciiBytes "u v", [], rfl, rfl, by decide +kernel, by decide⟩⟩⟩ ?_ ?_ ?_ ?_
  · rintro n ⟨⟩; decide +kernel
  · rintro n ⟨⟩; decide +kernel
  · decide +kernel
  · simp

/-! ### Where the full claim fails -/

/-- A `%` escaped so many times: `%41`, `%2541`, `%252541`, ... -/
def layered : Nat → Bytes
  | 0 => asciiBytes "41"
  | k + 1 => asciiBytes "25" ++ layered k

theorem layered_plain : ∀ k, ∀ b ∈ layered k, b ∈ asciiBytes "1245"
  | 0 => by decide +kernel
  | k + 1 => by
    intro b hb
    rcases List.mem_append.mp hb with hb | hb
    · exact (show ∀ b ∈ asciiBytes "25", b ∈ asciiBytes "1245" by decide +kernel) b hb
    · exact layered_plain k b hb

/-- The URL `http://%25...2541/` is read with one layer of escapes removed from the host, and displayed with the rest of them as they
are. -/
theorem C114_violated_host (k : Nat) : ∃ u, Url.ofText (asciiBytes "http://%" ++ layered (k + 1) ++ [47]) = .ok u ∧
    u.domain = some (37 :: layered k) ∧ u.display = asciiBytes "http://%" ++ layered k ++ [47] := by
  have ht : SchemeText (asciiBytes "http") := ⟨⟨104, asciiBytes "ttp", rfl, by decide⟩, by decide +kernel, by decide⟩
  have hk : ∀ j, ∀ b ∈ (37 : UInt8) :: layered j, IsPrint b ∧ b ∉ asciiBytes ":/?@" := by
    intro j b hb
    rcases List.mem_cons.mp hb with rfl | hb
    · exact ⟨by unfold IsPrint; decide, by decide⟩
    · exact (show ∀ b ∈ asciiBytes "1245", IsPrint b ∧ b ∉ asciiBytes ":/?@" by unfold IsPrint; decide +kernel) b (layered_plain j b hb)
  have hn (c : UInt8) (hc : c ∈ asciiBytes ":/?@") : c ∉ (37 : UInt8) :: layered (k + 1) := fun hm => (hk _ c hm).2 hc
  have hdec : Decodes (37 :: layered (k + 1)) (37 :: layered k) := by
    refine .escape (x := 50) (y := 53) (t := 2) (u := 5) (by decide) (by decide) (decodes_plain ?_)
    intro hm
    exact absurd (layered_plain k 37 hm) (by decide)
  refine ⟨⟨.http, [47], none, none, some (37 :: layered k), some 80, none⟩, ?_, rfl, ?_⟩
  · have e : asciiBytes "http://%" ++ layered (k + 1) ++ [47] = asciiBytes "http" ++ [58, 47, 47] ++ ((37 :: layered (k + 1)) ++ [47]) := by
      rw [show asciiBytes "http://%" = asciiBytes "http" ++ [58, 47, 47] ++ [37] by decide]
      simp only [List.append_assoc, List.cons_append, List.nil_append]
    show Url.parse _ = _
    rw [e]
    refine (C49_absolute_partial _ _ _ _ ht (fun b hb => ⟨fun e => hn 47 (by decide) (e ▸ hb), fun e => hn 63 (by decide) (e ▸ hb)⟩)
      (by rw [List.count_eq_zero_of_not_mem (hn 64 (by decide))]; omega) (.inr rfl) (by decide)).mpr
      ⟨?_, show Scheme.http.asStr = asciiBytes "http" by decide, show Scheme.http ≠ .none by decide, by simp, { domain := some (37 :: layered (k + 1)) }, ?_, ?_⟩
    · intro b hb
      rcases List.mem_append.mp hb with hb | hb
      · exact (hk _ b hb).1
      · rw [List.mem_singleton] at hb; subst hb; unfold IsPrint; decide
    · unfold authorityParts hostParts
      simp only [cut_of_not_mem (hn 64 (by decide)), cut_of_not_mem (hn 58 (by decide))]
    · refine ⟨rfl, rfl, rfl, ⟨_, hdec, ?_, rfl⟩, rfl, ⟨[47], .plain (by decide) .nil, by decide, rfl⟩, rfl⟩
      apply utf8Valid_ascii
      intro x hx
      rcases List.mem_cons.mp hx with rfl | hx
      · decide
      · exact (show ∀ b ∈ asciiBytes "1245", b < 128 by decide +kernel) x (layered_plain k x hx)
  · rw [display_http (s := .http) rfl (by decide) rfl rfl rfl]
    have e1 : portSuffix .http (some 80) = [] := by decide
    have e2 : urlEncode [47] ++ queryText none = [47] := by decide +kernel
    simp only [e1, e2]
    rw [show asciiBytes "http://%" = asciiBytes "http" ++ [58, 47, 47] ++ [37] by decide, show Scheme.http.asStr = asciiBytes "http" by decide]
    simp only [List.append_assoc, List.cons_append, List.nil_append]

/-- Read what is displayed, so many times. -/
def rereads : Nat → Url → Res Url
  | 0, u => .ok u
  | n + 1, u => match Url.ofText u.display with
    | .ok u' => rereads n u'
    | .err e => .err e
    | .panic => .panic

/-- C114, violated: no number of readings is enough.  For every `n` there is a text whose URL has another host after each of the first
`n` further readings. -/
theorem C114_violated_passes (n : Nat) : ∃ s u, Url.ofText s = .ok u ∧
    ∀ j ≤ n, ∃ u', rereads j u = .ok u' ∧ u'.domain = some (37 :: layered (n - j)) := by
  obtain ⟨u, h1, h2, h3⟩ := C114_violated_host n
  refine ⟨_, u, h1, ?_⟩
  have key : ∀ (j m : Nat) (u : Url), j ≤ m → u.domain = some (37 :: layered m) → u.display = asciiBytes "http://%" ++ layered m ++ [47] →
      ∃ u', rereads j u = .ok u' ∧ u'.domain = some (37 :: layered (m - j)) := by
    intro j
    induction j with
    | zero => intro m u _ hd _; exact ⟨u, rfl, hd⟩
    | succ j ih =>
      intro m u hj hd he
      obtain ⟨m, rfl⟩ : ∃ i, m = i + 1 := ⟨m - 1, by omega⟩
      obtain ⟨v, a1, a2, a3⟩ := C114_violated_host m
      obtain ⟨w, b1, b2⟩ := ih m v (by omega) a2 a3
      refine ⟨w, ?_, by rw [b2, Nat.add_sub_add_right]⟩
      rw [rereads, he, a1]
      exact b1
  exact fun j hj => key j n u hj h2 h3

/-- C114, violated: the credentials change, `x` with the password `a@b:c` becomes `b` with the password `c`. -/
theorem C114_violated_user : ∃ u u', Url.ofText (asciiBytes "http://x:a%40b%3Ac@h/") = .ok u ∧ Url.ofText u.display = .ok u' ∧
    u.username = some (asciiBytes "x") ∧ u.password = some (asciiBytes "a@b:c") ∧
    u'.username = some (asciiBytes "b") ∧ u'.password = some (asciiBytes "c") ∧ u'.display ≠ u.display :=
  ⟨⟨.http, [47], some (asciiBytes "x"), some (asciiBytes "a@b:c"), some (asciiBytes "h"), some 80, none⟩,
    ⟨.http, [47], some (asciiBytes "b"), some (asciiBytes "c"), some (asciiBytes "h"), some 80, none⟩,
    by decide +kernel, by decide +kernel, rfl, rfl, rfl, rfl, by decide +kernel⟩

/-- C114, violated: the host changes, `trusted` becomes the user name. -/
theorem C114_violated_path : ∃ u u', Url.ofText (asciiBytes "http://trusted/%40evil") = .ok u ∧ Url.ofText u.display = .ok u' ∧
    u.domain = some (asciiBytes "trusted") ∧ u'.domain = some (asciiBytes "evil") ∧ u'.display ≠ u.display :=
  ⟨⟨.http, asciiBytes "/@evil", none, none, some (asciiBytes "trusted"), some 80, none⟩,
    ⟨.http, [47], some (asciiBytes "trusted"), some [47], some (asciiBytes "evil"), some 80, none⟩,
    by decide +kernel, by decide +kernel, rfl, rfl, by decide +kernel⟩

/-- C114 does not hold of the code. -/
theorem C114_violated : ¬ C114_statement := by
  intro h
  obtain ⟨u, u', h1, h2, -, -, h3⟩ := C114_violated_path
  obtain ⟨v, h4, h5⟩ := h _ u h1
  rw [h2, Res.ok.injEq] at h4
  subst h4
  exact h3 h5

end Webparse
