import Verif.Proofs.Request
import Verif.Spec.Target

/-! # C62: the URL of a request -/

namespace Webparse
open Spec

/-! ## Names -/

theorem nameEq_map (g : UInt8 → UInt8) (b : Bytes)
    (hg : ∀ y ∈ b, ∀ x, isTchar x = true → (x = y ∨ x - y = 32 ∨ x - y = 224) → lowerByte x = g y)
    (a : Bytes) (ha : ∀ x ∈ a, isTchar x = true) (h : nameEq a b = true) : lower a = b.map g := by
  obtain ⟨hl, h⟩ := (nameEq_iff a b).mp h
  unfold lower
  apply List.ext_getElem (by simpa using hl)
  intro i h1 h2
  have h1' : i < a.length := by simpa using h1
  have h2' : i < b.length := by simpa using h2
  simpa using hg b[i] (List.getElem_mem h2') a[i] (ha _ (List.getElem_mem h1')) (h i h1' h2')

theorem nameEq_host (a : Bytes) (ha : ∀ x ∈ a, isTchar x = true) :
    nameEq a (asciiBytes "host") = true ↔ lower a = asciiBytes "host" :=
  ⟨nameEq_map id _ (by decide +kernel) a ha, fun h => nameEq_of_lower (h.trans (by decide +kernel))⟩

/-- The code takes `Z` and `:` to be the same letter. -/
theorem nameEq_scheme (a : Bytes) (ha : ∀ x ∈ a, isTchar x = true) (h : lower a ≠ asciiBytes "zscheme") :
    nameEq a (asciiBytes ":scheme") = false := by
  rw [Bool.eq_false_iff]
  exact fun hn => h (nameEq_map (fun y => if y = 58 then 122 else y) _ (by decide +kernel) a ha hn)

theorem nameEq_authority (a : Bytes) (ha : ∀ x ∈ a, isTchar x = true) (h : lower a ≠ asciiBytes "zauthority") :
    nameEq a (asciiBytes ":authority") = false := by
  rw [Bool.eq_false_iff]
  exact fun hn => h (nameEq_map (fun y => if y = 58 then 122 else y) _ (by decide +kernel) a ha hn)

theorem get?_named {hs : HeaderMap} {n : Bytes} {s : String} (h : ∀ e ∈ hs, nameEq e.1 n = true ↔ lower e.1 = asciiBytes s) :
    hs.get? n = headerNamed s hs := by
  unfold HeaderMap.get? headerNamed
  congr 1
  induction hs with
  | nil => rfl
  | cons e hs ih =>
    rw [List.find?_cons, List.find?_cons]
    have he := h e (by simp)
    have ih := ih fun e he => h e (by simp [he])
    cases hn : nameEq e.1 n with
    | true => rw [show (lower e.1 == asciiBytes s) = true by simpa using he.mp hn]
    | false =>
      rw [show (lower e.1 == asciiBytes s) = false by
        rw [Bool.eq_false_iff]; intro h2; rw [he.mpr (by simpa using h2)] at hn; simp at hn]
      exact ih

/-! ## Host values -/

theorem splitColon_cases (x : Bytes) : ((58 : UInt8) ∉ x ∧ splitColon x = [x]) ∨
    ∃ d q, x = d ++ 58 :: q ∧ (58 : UInt8) ∉ d ∧ splitColon x = d :: splitColon q := by
  induction x with
  | nil => exact .inl ⟨by simp, rfl⟩
  | cons b r ih =>
    have hne : splitColon r ≠ [] := by rcases ih with ⟨-, h⟩ | ⟨d, q, -, -, h⟩ <;> simp [h]
    obtain ⟨w, ws, hw⟩ := List.exists_cons_of_ne_nil hne
    by_cases hb : b = 58
    · subst hb
      right
      exact ⟨[], r, rfl, by simp, by rw [splitColon, hw]; simp⟩
    · rcases ih with ⟨h1, h2⟩ | ⟨d, q, rfl, h1, h2⟩
      · left
        refine ⟨by simp only [List.mem_cons, not_or]; exact ⟨fun e => hb e.symm, h1⟩, ?_⟩
        rw [splitColon, h2]; simp [hb]
      · right
        refine ⟨b :: d, q, rfl, by simp only [List.mem_cons, not_or]; exact ⟨fun e => hb e.symm, h1⟩, ?_⟩
        rw [splitColon, h2]; simp [hb]

/-- What `parse_connect_by_host` accepts. -/
theorem connectByHost_iff (u u' : Url) (x : Bytes) : connectByHost u x = .ok u' ↔
    ∃ d p, HostIs x d p ∧ u' = { u with domain := some d, port := some p } := by
  unfold connectByHost
  constructor
  · intro h
    rcases splitColon_cases x with ⟨h1, h2⟩ | ⟨d, q, rfl, h1, h2⟩
    · rw [h2] at h
      simp only [Res.ok.injEq] at h
      exact ⟨x, 80, .inl ⟨h1, rfl, rfl⟩, h.symm⟩
    · rw [h2] at h
      rcases splitColon_cases q with ⟨h3, h4⟩ | ⟨d', q', rfl, h3, h4⟩
      · rw [h4] at h
        simp only at h
        split at h
        · rename_i n hn
          simp only [Res.ok.injEq] at h
          obtain ⟨g1, g2⟩ := (parseUnsigned_iff _ _ _).mp hn
          exact ⟨d, n, .inr ⟨q, rfl, h1, g1, g2⟩, h.symm⟩
        · simp at h
      · rw [h4] at h
        have hne : splitColon q' ≠ [] := by rcases splitColon_cases q' with ⟨-, h⟩ | ⟨d, q, -, -, h⟩ <;> simp [h]
        obtain ⟨w, ws, hw⟩ := List.exists_cons_of_ne_nil hne
        rw [hw] at h
        simp at h
  · rintro ⟨d, p, ⟨h1, rfl, rfl⟩ | ⟨q, rfl, h1, h2, h3⟩, rfl⟩
    · rw [splitColon_none h1]
    · rw [splitColon_one q h1 (numeral_no_colon h2)]
      simp only
      rw [(parseUnsigned_iff (2 ^ 16) q p).mpr ⟨h2, h3⟩]

theorem HostIs.unique {x d d' : Bytes} {p p' : Nat} (h : HostIs x d p) (h' : HostIs x d' p') : d = d' ∧ p = p' := by
  have h1 := (connectByHost_iff Url.new _ x).mpr ⟨d, p, h, rfl⟩
  rw [(connectByHost_iff Url.new _ x).mpr ⟨d', p', h', rfl⟩] at h1
  simp at h1
  exact ⟨h1.1.symm, h1.2.symm⟩

/-! ## The URL of an accepted request -/

theorem requestText_eq (t p v rest : Bytes) : requestText t p v rest = t ++ 32 :: (p ++ 32 :: (v ++ 13 :: 10 :: rest)) := by
  simp [requestText]

/-- What is known of an accepted request with a given request line. -/
theorem request_accepted {r0 r' : Request} {t p rest left : Bytes} {m : Method} {v : Version} {n : Nat}
    (hm : Method.tryFrom t = .ok m) (hv : v ≠ .none) (hp : p ≠ []) (hpt : ∀ b ∈ p, IsPrint b)
    (h : r0.parseBuffer (requestText t p v.asStr rest) = (.ok n, r', left)) :
    r'.method = m ∧ r'.version = v ∧ requestUrl m r'.header p = .ok r'.url ∧ (∀ e ∈ r'.header, CleanHeader e) ∧
      parseHeader [] rest = (.ok (), r'.header, left) ∧ r'.isPartial = false := by
  unfold Request.parseBuffer at h
  rw [countRead_ok, ← forget_ok, requestText_eq,
    request_text r0 hm hv hp (List.all_eq_true.mpr fun b hb => (isPrint_iff b).mp (hpt b hb))] at h
  obtain ⟨⟨_, hs⟩, b1, h1, h2⟩ := thenRead_ok h.1
  rw [forget_ok] at h1
  simp only [Prod.mk.injEq] at h2
  obtain ⟨h2, rfl⟩ := h2
  unfold urlStep at h2
  split at h2
  · rename_i url hurl
    simp only [Res.ok.injEq, Prod.mk.injEq, true_and] at h2
    subst h2
    exact ⟨rfl, rfl, hurl, parseHeader_clean h1, h1, rfl⟩
  · simp at h2
  · simp at h2

/-- The other direction: the request is accepted if its headers are and a URL can be made. -/
theorem request_accept {r0 : Request} {t p rest left : Bytes} {m : Method} {v : Version} {hs : HeaderMap} {url : Url}
    (hm : Method.tryFrom t = .ok m) (hv : v ≠ .none) (hp : p ≠ []) (hpt : ∀ b ∈ p, IsPrint b)
    (hh : parseHeader [] rest = (.ok (), hs, left)) (hu : requestUrl m hs p = .ok url) :
    r0.parseBuffer (requestText t p v.asStr rest) =
      (.ok ((requestText t p v.asStr rest).length - left.length), ⟨m, hs, v, url, false⟩, left) := by
  unfold Request.parseBuffer
  rw [countRead_ok, ← forget_ok]
  refine ⟨?_, rfl⟩
  rw [requestText_eq, request_text r0 hm hv hp (List.all_eq_true.mpr fun b hb => (isPrint_iff b).mp (hpt b hb)), hh]
  simp only [forget, thenRead, urlStep, hu]

theorem host_named {hs : HeaderMap} (hc : ∀ e ∈ hs, CleanHeader e) (hz : ∀ e ∈ hs, lower e.1 ≠ asciiBytes "zauthority") :
    hs.host = (headerNamed "host" hs).map utf8Lossy := by
  unfold HeaderMap.host
  rw [get?_named (s := "host") fun e he => nameEq_host _ (hc e he).name,
    get?_none_of (n := asciiBytes ":authority") fun e he => nameEq_authority _ (hc e he).name (hz e he)]
  cases headerNamed "host" hs <;> rfl

theorem scheme_named {hs : HeaderMap} (hc : ∀ e ∈ hs, CleanHeader e) (hz : ∀ e ∈ hs, lower e.1 ≠ asciiBytes "zscheme") (u : Url) :
    fillScheme hs u = if u.scheme = .none then { u with scheme := .http } else u := by
  unfold fillScheme
  rw [get?_none_of (n := asciiBytes ":scheme") fun e he => nameEq_scheme _ (hc e he).name (hz e he)]

/-- The URL of an origin-form request. -/
theorem origin_url {hs : HeaderMap} {m : Method} {p : Bytes} {u : Url} (hc : ∀ e ∈ hs, CleanHeader e) (hm : m ≠ .connect)
    (h47 : p.head? = some 47)
    (hz : ∀ e ∈ hs, lower e.1 ≠ asciiBytes "zscheme" ∧ lower e.1 ≠ asciiBytes "zauthority")
    (hx : ∀ x, headerNamed "host" hs = some x → utf8Valid x = true) :
    requestUrl m hs p = .ok u ↔ (∀ b ∈ p, IsPrint b ∧ b ≠ 64) ∧ u.scheme = .http ∧ u.username = none ∧ u.password = none ∧
      PartIs (some (cut 63 p).1) (some u.path) ∧ PartIs (cut 63 p).2 u.query ∧
      ((headerNamed "host" hs = none ∧ u.domain = none ∧ u.port = some 0) ∨
        ∃ x d q, headerNamed "host" hs = some x ∧ HostIs x d q ∧ u.domain = some d ∧ u.port = some q) := by
  unfold requestUrl
  rw [if_neg hm]
  simp only [Res.bind_eq_ok, Res.ok.injEq]
  have hh := host_named hc fun e he => (hz e he).2
  constructor
  · rintro ⟨u1, hu1, u2, hu2, rfl⟩
    obtain ⟨i1, i2, i3, i4, i5, i6, i7, i8⟩ := (C49_origin p h47 u1).mp hu1
    rw [scheme_named hc fun e he => (hz e he).1]
    unfold fillHost at hu2
    rw [i5, Option.isNone_none, if_pos rfl, hh] at hu2
    cases hn : headerNamed "host" hs with
    | none =>
      rw [hn] at hu2
      simp only [Option.map_none, Res.ok.injEq] at hu2
      subst hu2
      rw [if_pos i2]
      exact ⟨i1, rfl, i3, i4, i7, i8, .inl ⟨rfl, i5, i6⟩⟩
    | some x =>
      rw [hn] at hu2
      simp only [Option.map_some, utf8Lossy_valid (hx x hn)] at hu2
      obtain ⟨d, q, hd, rfl⟩ := (connectByHost_iff _ _ _).mp hu2
      simp only [i2, if_true]
      exact ⟨i1, trivial, i3, i4, i7, i8, .inr ⟨x, d, q, rfl, hd, rfl, rfl⟩⟩
  · rintro ⟨i1, i2, i3, i4, i7, i8, hd⟩
    refine ⟨{ u with scheme := .none, domain := none, port := some 0 }, (C49_origin p h47 _).mpr ⟨i1, rfl, i3, i4, rfl, rfl, i7, i8⟩,
      { u with scheme := .none }, ?_, ?_⟩
    · unfold fillHost
      simp only [Option.isNone_none, if_true]
      rw [hh]
      rcases hd with ⟨h1, h2, h3⟩ | ⟨x, d, q, h1, h2, h3, h4⟩
      · rw [h1]; simp only [Option.map_none, Res.ok.injEq]; rw [← h2, ← h3]
      · rw [h1]
        simp only [Option.map_some, utf8Lossy_valid (hx x h1)]
        rw [connectByHost_iff]
        exact ⟨d, q, h2, by rw [← h3, ← h4]⟩
    · rw [scheme_named hc fun e he => (hz e he).1]
      simp only [if_true]
      rw [← i2]

/-! ## C62 -/

/-- C62, the host of an accepted origin-form request is that of its `Host` header, and there is none without one. -/
def C62_host_statement : Prop :=
  ∀ (r0 r' : Request) (t p rest left : Bytes) (m : Method) (v : Version) (n : Nat),
    Method.tryFrom t = .ok m → v ≠ .none → m ≠ .connect → p.head? = some 47 → (∀ b ∈ p, IsPrint b) →
    r0.parseBuffer (requestText t p v.asStr rest) = (.ok n, r', left) →
    headerNamed "host" r'.header = none → r'.url.domain = none

/-- C62, the scheme of an origin-form request is http. -/
def C62_scheme_statement : Prop :=
  ∀ (r0 r' : Request) (t p rest left : Bytes) (m : Method) (v : Version) (n : Nat),
    Method.tryFrom t = .ok m → v ≠ .none → m ≠ .connect → p.head? = some 47 → (∀ b ∈ p, IsPrint b) →
    r0.parseBuffer (requestText t p v.asStr rest) = (.ok n, r', left) → r'.url.scheme = .http

/-- C62, an absolute-form target decides alone: `Host` is ignored. -/
def C62_absolute_statement : Prop :=
  ∀ (r0 r' : Request) (t p rest left : Bytes) (u : Url) (m : Method) (v : Version) (n : Nat),
    Method.tryFrom t = .ok m → v ≠ .none → m ≠ .connect → p.head? ≠ some 47 → (∀ b ∈ p, IsPrint b) → Url.parse p = .ok u →
    r0.parseBuffer (requestText t p v.asStr rest) = (.ok n, r', left) → r'.url = u

/-- C62, an address with an IPv6 literal (RFC 3986 3.2.2) is understood. -/
def C62_ipv6_statement : Prop :=
  ∀ (r0 : Request) (a : Bytes), a ≠ [] → (∀ b ∈ a, b ∈ asciiBytes "0123456789abcdef:") →
    ∃ n r', r0.parseBuffer (asciiBytes "GET / HTTP/1.1\r\nHost: [" ++ a ++ asciiBytes "]\r\n\r\n") = (.ok n, r', []) ∧
      r'.url.domain = some (asciiBytes "[" ++ a ++ asciiBytes "]")

/-- A header `Zauthority` is taken for `:authority`. -/
theorem C62_violated_host : ¬ C62_host_statement := by
  intro h
  have := h {} ⟨.get, [(asciiBytes "Zauthority", asciiBytes "evil")], .http11,
      ⟨.http, [47], none, none, some (asciiBytes "evil"), some 80, none⟩, false⟩
    (asciiBytes "GET") [47] (asciiBytes "Zauthority: evil\r\n\r\n") [] .get .http11 36 (by decide +kernel) (by decide) (by decide) rfl
    (by unfold IsPrint; decide +kernel) (by decide +kernel) (by decide +kernel)
  simp at this

/-- A header `Zscheme` is taken for `:scheme`. -/
theorem C62_violated_scheme : ¬ C62_scheme_statement := by
  intro h
  have := h {} ⟨.get, [(asciiBytes "Zscheme", asciiBytes "https")], .http11,
      ⟨.https, [47], none, none, none, some 0, none⟩, false⟩
    (asciiBytes "GET") [47] (asciiBytes "Zscheme: https\r\n\r\n") [] .get .http11 34 (by decide +kernel) (by decide) (by decide) rfl
    (by unfold IsPrint; decide +kernel) (by decide +kernel)
  simp at this

/-- With an `@` in the query the domain of the target is lost, and `Host` is used instead. -/
theorem C62_violated_absolute : ¬ C62_absolute_statement := by
  intro h
  have := h {} ⟨.get, [(asciiBytes "Host", asciiBytes "evil:81")], .http11,
      ⟨.http, asciiBytes "/p", some (asciiBytes "good"), some (asciiBytes "q"), some (asciiBytes "evil"), some 81, some (asciiBytes "z")⟩, false⟩
    (asciiBytes "GET") (asciiBytes "http://good/p?q@z") (asciiBytes "Host: evil:81\r\n\r\n") []
    ⟨.http, asciiBytes "/p", some (asciiBytes "good"), some (asciiBytes "q"), none, some 80, some (asciiBytes "z")⟩
    .get .http11 49 (by decide +kernel) (by decide) (by decide) (by decide +kernel)
    (by unfold IsPrint; decide +kernel) (by decide +kernel) (by decide +kernel)
  simp at this

/-- IPv6 literals are refused. -/
theorem C62_violated_ipv6 : ¬ C62_ipv6_statement := by
  intro h
  obtain ⟨n, r', h, -⟩ := h {} (asciiBytes "::1") (by decide) (by decide +kernel)
  have e : (({} : Request).parseBuffer (asciiBytes "GET / HTTP/1.1\r\nHost: [" ++ asciiBytes "::1" ++ asciiBytes "]\r\n\r\n")).1 = .err .intoError := by
    decide +kernel
  rw [h] at e
  simp at e

/-- An accepted origin-form request: scheme http, no user information, path and query from the target, and
domain and port from `Host`, with 80 if no port is written; no domain without `Host`.  For every text
of the headers.  Missing for C62: requests with headers `Zscheme` or `Zauthority`, or a `Host` that is not UTF-8. -/
theorem C62_origin_partial (r0 r' : Request) (t p rest left : Bytes) (m : Method) (v : Version) (n : Nat)
    (hm : Method.tryFrom t = .ok m) (hv : v ≠ .none) (hmc : m ≠ .connect) (h47 : p.head? = some 47) (hp : ∀ b ∈ p, IsPrint b)
    (hz : ∀ e ∈ r'.header, lower e.1 ≠ asciiBytes "zscheme" ∧ lower e.1 ≠ asciiBytes "zauthority")
    (hx : ∀ x, headerNamed "host" r'.header = some x → utf8Valid x = true)
    (h : r0.parseBuffer (requestText t p v.asStr rest) = (.ok n, r', left)) :
    r'.url.scheme = .http ∧ r'.url.username = none ∧ r'.url.password = none ∧
      PartIs (some (cut 63 p).1) (some r'.url.path) ∧ PartIs (cut 63 p).2 r'.url.query ∧
      (headerNamed "host" r'.header = none → r'.url.domain = none ∧ r'.url.port = some 0) ∧
      (∀ x, headerNamed "host" r'.header = some x → ∃ d q, HostIs x d q ∧ r'.url.domain = some d ∧ r'.url.port = some q) := by
  have hne : p ≠ [] := by rintro rfl; simp at h47
  obtain ⟨-, -, h3, h4, -, -⟩ := request_accepted hm hv hne hp h
  obtain ⟨-, g1, g2, g3, g4, g5, g6⟩ := (origin_url h4 hmc h47 hz hx).mp h3
  refine ⟨g1, g2, g3, g4, g5, ?_, ?_⟩
  · intro hn
    rcases g6 with ⟨-, g⟩ | ⟨x, d, q, g, -⟩
    · exact g
    · rw [hn] at g; simp at g
  · intro x hn
    rcases g6 with ⟨g, -⟩ | ⟨x', d, q, g, g'⟩
    · rw [hn] at g; simp at g
    · rw [hn, Option.some.injEq] at g; subst g; exact ⟨d, q, g'⟩

theorem headerText_eq (hs : HeaderMap) : headerText hs = hs.encode := by
  induction hs with
  | nil => rfl
  | cons e hs ih => rw [headerText, HeaderMap.encode, ih]

/-- Exactly which origin-form requests are accepted, for headers set by any history: the target decodes, and `Host`,
if there, is `name` or `name:port`. -/
theorem C62_accepts_partial (r0 : Request) (t p body : Bytes) (m : Method) (v : Version) (ops : List HeaderOp)
    (hc : ∀ e ∈ runOps ops, CleanHeader e)
    (hm : Method.tryFrom t = .ok m) (hv : v ≠ .none) (hmc : m ≠ .connect) (h47 : p.head? = some 47) (hp : ∀ b ∈ p, IsPrint b)
    (hz : ∀ e ∈ runOps ops, lower e.1 ≠ asciiBytes "zscheme" ∧ lower e.1 ≠ asciiBytes "zauthority")
    (hx : ∀ x, headerNamed "host" (runOps ops) = some x → utf8Valid x = true) :
    (∃ n r', r0.parseBuffer (requestText t p v.asStr (headerText (runOps ops) ++ body)) = (.ok n, r', body)) ↔
      (64 : UInt8) ∉ p ∧ (∃ o, PartIs (some (cut 63 p).1) (some o)) ∧ (∃ o, PartIs (cut 63 p).2 o) ∧
        (∀ x, headerNamed "host" (runOps ops) = some x → ∃ d q, HostIs x d q) := by
  have hne : p ≠ [] := by rintro rfl; simp at h47
  have hparse : parseHeader [] (headerText (runOps ops) ++ body) = (.ok (), runOps ops, body) := by
    rw [headerText_eq]; exact (C37_roundtrip_iff ops [] body).mpr hc
  constructor
  · rintro ⟨n, r', h⟩
    obtain ⟨-, -, h3, -, h5, -⟩ := request_accepted hm hv hne hp h
    rw [hparse] at h5
    have e : r'.header = runOps ops := by simp at h5; exact h5.symm
    rw [e] at h3
    obtain ⟨g0, -, -, -, g4, g5, g6⟩ := (origin_url hc hmc h47 hz hx).mp h3
    refine ⟨fun hm => (g0 _ hm).2 rfl, ⟨_, g4⟩, ⟨_, g5⟩, fun x hn => ?_⟩
    rcases g6 with ⟨g, -⟩ | ⟨x', d, q, g, g', -⟩
    · rw [hn] at g; simp at g
    · rw [hn, Option.some.injEq] at g; subst g; exact ⟨d, q, g'⟩
  · rintro ⟨h64, ⟨path, h1⟩, ⟨query, h2⟩, h3⟩
    have : ∃ dom port, ((headerNamed "host" (runOps ops) = none ∧ dom = none ∧ port = some 0) ∨
        ∃ x d q, headerNamed "host" (runOps ops) = some x ∧ HostIs x d q ∧ dom = some d ∧ port = some q) := by
      cases hn : headerNamed "host" (runOps ops) with
      | none => exact ⟨none, some 0, .inl ⟨rfl, rfl, rfl⟩⟩
      | some x =>
        obtain ⟨d, q, g⟩ := h3 x hn
        exact ⟨some d, some q, .inr ⟨x, d, q, rfl, g, rfl, rfl⟩⟩
    obtain ⟨dom, port, h4⟩ := this
    have hu := (origin_url (u := ⟨.http, path, none, none, dom, port, query⟩) hc hmc h47 hz hx).mpr
      ⟨fun b hb => ⟨hp b hb, by rintro rfl; exact h64 hb⟩, rfl, rfl, rfl, h1, h2, h4⟩
    exact ⟨_, _, request_accept hm hv hne hp hparse hu⟩

/-- An absolute-form target with a domain is the URL whatever the headers say.  Missing for C62: targets whose domain is
lost (see C49 and C56). -/
theorem C62_absolute_partial (r0 r' : Request) (t p rest left : Bytes) (u : Url) (m : Method) (v : Version) (n : Nat)
    (hm : Method.tryFrom t = .ok m) (hv : v ≠ .none) (hmc : m ≠ .connect) (hp : ∀ b ∈ p, IsPrint b)
    (hu : Url.parse p = .ok u) (hd : u.domain ≠ none)
    (h : r0.parseBuffer (requestText t p v.asStr rest) = (.ok n, r', left)) : r'.url = u := by
  have hne : p ≠ [] := by rintro rfl; simp [Url.parse] at hu
  obtain ⟨-, -, h3, -, -, -⟩ := request_accepted hm hv hne hp h
  unfold requestUrl at h3
  rw [if_neg hmc, hu, Res.bind_ok] at h3
  have hf : fillHost r'.header u = .ok u := by
    unfold fillHost
    rw [if_neg]
    cases hdd : u.domain with
    | none => exact absurd hdd hd
    | some d => simp
  rw [hf, Res.bind_ok, Res.ok.injEq] at h3
  rw [← h3]
  unfold fillScheme
  rw [if_neg]
  rcases parse_forms hu with ⟨s, _, sc, st, _, _, h1, _, h2⟩ | ⟨h47, st, -, -⟩
  · rw [h2.scheme]; exact (tryFrom_asStr h1).2.1
  · exact absurd ((C49_origin p h47 u).mp hu).2.2.2.2.1 hd

/-- CONNECT: the target is `name` or `name:port`, nothing else is accepted, and headers do not matter. -/
theorem C62_connect (r0 : Request) (p body : Bytes) (v : Version) (ops : List HeaderOp) (u : Url)
    (hc : ∀ e ∈ runOps ops, CleanHeader e) (hv : v ≠ .none) (hne : p ≠ []) (hp : ∀ b ∈ p, IsPrint b) :
    (∃ n r', r0.parseBuffer (requestText (asciiBytes "CONNECT") p v.asStr (headerText (runOps ops) ++ body)) = (.ok n, r', body) ∧ r'.url = u) ↔
      ∃ d q, HostIs p d q ∧ u = ⟨.none, [47], none, none, some d, some q, none⟩ := by
  have hm : Method.tryFrom (asciiBytes "CONNECT") = .ok .connect := by decide +kernel
  have hparse : parseHeader [] (headerText (runOps ops) ++ body) = (.ok (), runOps ops, body) := by
    rw [headerText_eq]; exact (C37_roundtrip_iff ops [] body).mpr hc
  constructor
  · rintro ⟨n, r', h, rfl⟩
    obtain ⟨-, -, h3, -, -, -⟩ := request_accepted hm hv hne hp h
    unfold requestUrl at h3
    rw [if_pos rfl, connectByHost_iff] at h3
    exact h3
  · rintro ⟨d, q, h, rfl⟩
    refine ⟨_, _, request_accept hm hv hne hp hparse (url := ⟨.none, [47], none, none, some d, some q, none⟩) ?_, rfl⟩
    unfold requestUrl
    rw [if_pos rfl, connectByHost_iff]
    exact ⟨d, q, h, rfl⟩

/-- Requests of the three forms. -/
example : ∃ r' n, ({} : Request).parseBuffer (requestText (asciiBytes "GET") (asciiBytes "/a?b") Version.http11.asStr
      (asciiBytes "hOsT: h:81\r\nA: b\r\n\r\n")) = (.ok n, r', []) ∧
    headerNamed "host" r'.header = some (asciiBytes "h:81") ∧ r'.url.domain = some (asciiBytes "h") ∧ r'.url.port = some 81 ∧
    (∀ e ∈ r'.header, lower e.1 ≠ asciiBytes "zscheme" ∧ lower e.1 ≠ asciiBytes "zauthority") :=
  ⟨⟨.get, [(asciiBytes "hOsT", asciiBytes "h:81"), (asciiBytes "A", asciiBytes "b")], .http11,
      ⟨.http, asciiBytes "/a", none, none, some (asciiBytes "h"), some 81, some (asciiBytes "b")⟩, false⟩, 39, by decide +kernel, by decide +kernel,
    rfl, rfl, by decide +kernel⟩

example : (({} : Request).parseBuffer (requestText (asciiBytes "GET") (asciiBytes "https://h/a") Version.http11.asStr
      (asciiBytes "Host: evil:x:y\r\n\r\n"))).2.1.url = ⟨.https, asciiBytes "/a", none, none, some (asciiBytes "h"), some 443, none⟩ ∧
    Url.parse (asciiBytes "https://h/a") = .ok ⟨.https, asciiBytes "/a", none, none, some (asciiBytes "h"), some 443, none⟩ := by decide +kernel

example : HostIs (asciiBytes "h:443") (asciiBytes "h") 443 ∧
    (({} : Request).parseBuffer (requestText (asciiBytes "CONNECT") (asciiBytes "h:443") Version.http11.asStr
      (asciiBytes "Host: evil\r\n\r\n"))).2.1.url = ⟨.none, [47], none, none, some (asciiBytes "h"), some 443, none⟩ := by
  refine ⟨.inr ⟨asciiBytes "443", by decide +kernel, by decide +kernel, .inl ⟨by decide, by unfold AllDigits; decide +kernel, by decide +kernel⟩, by decide⟩,
    by decide +kernel⟩

end Webparse
