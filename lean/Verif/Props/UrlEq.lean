import Verif.Model.UrlEq
import Verif.Spec.UrlEq
import Verif.Proofs.UrlEq
import Verif.Props.Url

/-!
# C106: comparing URLs with text

The full claim: the URL read from a text equals that text, and a text equals at most one URL.
-/

namespace Webparse
open Spec

/-- C106, the full claim. -/
def C106_statement : Prop :=
  (∀ (s : Bytes) (u : Url), Url.ofText s = .ok u → u.eqText s = true) ∧
  ∀ (u v : Url) (s : Bytes), Carried u → Carried v → u.eqText s = true → v.eqText s = true → u = v

/-- An origin-form URL equals the text it was read from exactly if its spelling is canonical.  Missing for C106: other
spellings. -/
theorem C106_origin_iff_partial (s : Bytes) (h : s.head? = some 47) (u : Url) (hu : Url.ofText s = .ok u) :
    u.eqText s = true ↔ Canonical s := by
  obtain ⟨-, h1, h2, h3, h4, h5, ⟨v, hv, -, e⟩, h7⟩ := (C49_origin s h u).mp hu
  obtain rfl : u.path = v := by simpa using e
  unfold Url.eqText Url.display
  rw [h1, h2, h3, h4, beq_iff_eq]
  have e0 : schemeText Scheme.none ++ userText none none ++ (none : Option Bytes).getD [] ++ portSuffix Scheme.none u.port = [] := rfl
  rw [e0, List.nil_append, query_encode, ← encode_append]
  apply encode_eq_iff
  cases hq : cut 63 s with
  | mk p q =>
    rw [hq] at hv h7
    cases q with
    | none =>
      obtain ⟨rfl, -⟩ := cut_none hq
      rw [show u.query = none from h7]
      simpa using hv
    | some q =>
      obtain ⟨w, hw, -, e⟩ := h7
      obtain ⟨rfl, -⟩ := cut_some hq
      rw [e]
      exact decodes_append hv (.plain (by decide) hw)

/-- A text equals at most one of the URLs that are read back from their text, and the URL read from it.  Missing for C106:
parts with separators that the encoder keeps. -/
theorem C106_unique_partial (u : Url) (s : Bytes) (hu : Carried u) (nu : NoSeparators u) (h : u.eqText s = true) :
    Url.ofText s = .ok u ∧ ∀ v, Carried v → NoSeparators v → v.eqText s = true → v = u := by
  have back : ∀ v : Url, Carried v → NoSeparators v → v.eqText s = true → Url.ofText s = .ok v := by
    intro v h1 h2 h3
    unfold Url.eqText at h3
    rw [beq_iff_eq] at h3
    rw [← h3]
    exact C48_roundtrip_partial v h1 h2
  refine ⟨back u hu nu h, fun v h1 h2 h3 => ?_⟩
  have := back v h1 h2 h3
  rw [back u hu nu h, Res.ok.injEq] at this
  exact this.symm

example : urlFull.eqText (asciiBytes "https://u%20v:p@host:8443/a%20b?q=1") = true := by decide +kernel
example : Url.ofText (asciiBytes "/a%20b?q=1") = .ok
    { scheme := .none, path := asciiBytes "/a b", username := none, password := none, domain := none, port := some 0, query := some (asciiBytes "q=1") } ∧
    Canonical (asciiBytes "/a%20b?q=1") := by
  refine ⟨by decide +kernel, ?_⟩
  exact .kept (by decide) (.kept (by decide) (.escape (t := 2) (u := 0) (by decide) (by decide) (by decide) (by decide) (by decide)
    (.kept (by decide) (.kept (by decide) (.kept (by decide) (.kept (by decide) (.kept (by decide) .nil)))))))

/-! ### Where the full claim fails -/

/-- What is displayed of a URL whose path begins with a slash, after the scheme and the host. -/
theorem display_http {u : Url} {s : Scheme} {d : Bytes} (h1 : u.scheme = s) (hs : s ≠ .none) (h2 : u.username = none) (h3 : u.password = none) (h4 : u.domain = some d) :
    u.display = s.asStr ++ [58, 47, 47] ++ (d ++ (portSuffix s u.port ++ (urlEncode u.path ++ queryText u.query))) := by
  unfold Url.display schemeText
  rw [h1, h2, h3, h4, if_pos hs]
  simp [userText]

theorem host_noport {d : Bytes} (hd : ∀ b ∈ d, IsPrint b ∧ b ∉ asciiBytes "%/:?@") :
    (∀ b ∈ d, b ≠ 47 ∧ b ≠ 63) ∧ d.count 64 ≤ 1 ∧ authorityParts d = some { domain := some d } ∧ Decodes d d := by
  have h (c : UInt8) (hc : c ∈ asciiBytes "%/:?@") : c ∉ d := fun hm => (hd c hm).2 hc
  refine ⟨fun b hb => ⟨fun e => h 47 (by decide) (e ▸ hb), fun e => h 63 (by decide) (e ▸ hb)⟩,
    by rw [List.count_eq_zero_of_not_mem (h 64 (by decide))]; omega, ?_, decodes_plain (h 37 (by decide))⟩
  unfold authorityParts hostParts
  simp only [cut_of_not_mem (h 64 (by decide)), cut_of_not_mem (h 58 (by decide))]

/-- C106, violated: no URL read from `http://host` without a path equals that text, whatever the scheme. -/
theorem C106_violated_path (t d : Bytes) (u : Url) (ht : SchemeText t) (hd : ∀ b ∈ d, IsPrint b ∧ b ∉ asciiBytes "%/:?@")
    (h : Url.ofText (t ++ [58, 47, 47] ++ d) = .ok u) : u.eqText (t ++ [58, 47, 47] ++ d) = false := by
  obtain ⟨h1, h2, h3, h4⟩ := host_noport hd
  have h' : Url.parse (t ++ [58, 47, 47] ++ (d ++ [])) = .ok u := by rw [List.append_nil]; exact h
  obtain ⟨-, e1, e2, -, r, hr, hu⟩ := (C49_absolute_partial t d [] u ht h1 h2 (.inl rfl) (by simp)).mp h'
  rw [h3, Option.some.injEq] at hr
  subst hr
  obtain ⟨v, hv, -, ev⟩ := hu.domain
  obtain ⟨p, hp, -, ep⟩ := hu.path
  obtain rfl : v = d := decodes_unique hv h4
  obtain rfl : p = [47] := decodes_unique hp (.plain (by decide) .nil)
  unfold Url.eqText
  rw [beq_eq_false_iff_ne, display_http rfl e2 hu.username hu.password ev, e1]
  intro e
  rw [List.append_cancel_left_eq] at e
  have := congrArg List.length e
  rw [Option.some.injEq] at ep
  rw [ep, show urlEncode [47] = [47] by decide +kernel] at this
  simp at this

/-- C106, violated: no URL read from a text with the scheme http and the explicit port 80 equals that text. -/
theorem C106_violated_port (d tail : Bytes) (u : Url) (hd : ∀ b ∈ d, IsPrint b ∧ b ∉ asciiBytes "%/:?@")
    (hh : tail.head? = some 47) (hat : (64 : UInt8) ∉ tail)
    (h : Url.ofText (asciiBytes "http" ++ [58, 47, 47] ++ (d ++ asciiBytes ":80" ++ tail)) = .ok u) :
    u.eqText (asciiBytes "http" ++ [58, 47, 47] ++ (d ++ asciiBytes ":80" ++ tail)) = false := by
  have hn (c : UInt8) (hc : c ∈ asciiBytes "%/:?@") : c ∉ d := fun hm => (hd c hm).2 hc
  have ht : SchemeText (asciiBytes "http") := ⟨⟨104, asciiBytes "ttp", rfl, by decide⟩, by decide +kernel, by decide⟩
  obtain ⟨g1, g2, -, g4⟩ := host_noport hd
  obtain ⟨-, e1, e2, e3, r, hr, hu⟩ := (C49_absolute_partial _ (d ++ asciiBytes ":80") tail u ht
    (fun b hb => by
      rcases List.mem_append.mp hb with hb | hb
      · exact g1 b hb
      · exact (show ∀ b ∈ asciiBytes ":80", b ≠ 47 ∧ b ≠ 63 by decide +kernel) b hb)
    (by rw [List.count_append]; have : (asciiBytes ":80").count 64 = 0 := by decide
        omega) (.inr hh) hat).mp h
  have hp : authorityParts (d ++ asciiBytes ":80") = some { domain := some d, port := some (asciiBytes "80") } := by
    have c64 : cut 64 (d ++ asciiBytes ":80") = (d ++ asciiBytes ":80", none) :=
      cut_of_not_mem (by simp only [List.mem_append, not_or]; exact ⟨hn 64 (by decide), by decide⟩)
    have c58 : cut 58 (d ++ asciiBytes ":80") = (d, some (asciiBytes "80")) := cut_append (hn 58 (by decide))
    unfold authorityParts hostParts
    simp only [c64, c58]
    rw [if_neg (by decide)]
  rw [hp, Option.some.injEq] at hr
  subst hr
  have hs : u.scheme = .http := by
    have := (C51_known (asciiBytes "http") (.http, "http") (by decide)).mpr rfl
    have h2 := asStr_tryFrom e2 (by rw [e1]; exact ht.len) e3
    rw [e1, this, Res.ok.injEq] at h2
    exact h2.symm
  have hne : tail ≠ [] := by rintro rfl; simp at hh
  rw [pathParts, if_neg hne] at hu
  obtain ⟨v, hv, -, ev⟩ := hu.domain
  obtain rfl : v = d := decodes_unique hv g4
  obtain ⟨p, n, hp1, hp2, -, hp4⟩ := hu.port
  obtain rfl : p = asciiBytes "80" := decodes_unique hp1 (decodes_plain (by decide))
  obtain rfl : n = 80 := isNumeral_unique hp2 (.inl ⟨by decide, by unfold AllDigits; decide +kernel, by decide +kernel⟩)
  obtain ⟨w, hw, -, ew⟩ := hu.path
  rw [Option.some.injEq] at ew
  have hslash : u.path.head? = some 47 := by
    rw [ew]
    cases tail with
    | nil => exact absurd rfl hne
    | cons c tl =>
      simp only [List.head?_cons, Option.some.injEq] at hh
      subst hh
      simp only [cut, if_neg (show ¬ (47 : UInt8) = 63 by decide), Option.getD_some] at hw
      obtain ⟨w', rfl, -⟩ := (decodes_not_escape (by decide)).mp hw
      rfl
  unfold Url.eqText
  rw [beq_eq_false_iff_ne, display_http hs (by decide) hu.username hu.password ev, hp4]
  intro e
  rw [show Scheme.http.asStr = asciiBytes "http" from rfl, List.append_cancel_left_eq, List.append_assoc, List.append_cancel_left_eq,
    show portSuffix .http (some 80) = [] from rfl, List.nil_append] at e
  have e' := congrArg List.head? e
  have hs' := encode_slash hslash
  cases hx : urlEncode u.path with
  | nil => rw [hx] at hs'; simp at hs'
  | cons c tl =>
    rw [hx] at hs' e'
    simp only [List.head?_cons, Option.some.injEq] at hs'
    rw [hs', List.cons_append, List.head?_cons, show asciiBytes ":80" ++ tail = 58 :: (asciiBytes "80" ++ tail) from rfl,
      List.head?_cons] at e'
    exact absurd e' (by decide)

example : Url.ofText (asciiBytes "http://h:80/x") = .ok
    { scheme := .http, path := asciiBytes "/x", username := none, password := none, domain := some (asciiBytes "h"), port := some 80, query := none } := by
  decide +kernel
example : Url.ofText (asciiBytes "ws://h") = .ok
    { scheme := .ws, path := asciiBytes "/", username := none, password := none, domain := some (asciiBytes "h"), port := some 80, query := none } := by
  decide +kernel

/-- C106, violated: an unnecessary escape, or one in lower case, makes an origin-form URL differ from its text. -/
theorem C106_violated_escape (s : Bytes) (h : s.head? = some 47) (u : Url) (hu : Url.ofText s = .ok u) (hc : ¬ Canonical s) :
    u.eqText s = false := by
  cases he : u.eqText s with
  | false => rfl
  | true => exact absurd ((C106_origin_iff_partial s h u hu).mp he) hc

/-- C106, violated: two different URLs, with different hosts, equal the same text. -/
theorem C106_violated_unique : ∃ v, Url.ofText (asciiBytes "http://trusted/@evil") = .ok v ∧ v.domain = some (asciiBytes "evil") ∧
    Carried urlAt ∧ urlAt.domain = some (asciiBytes "trusted") ∧ urlAt.eqText (asciiBytes "http://trusted/@evil") = true :=
  ⟨⟨.http, asciiBytes "/", some (asciiBytes "trusted"), some (asciiBytes "/"), some (asciiBytes "evil"), some 80, none⟩,
    by decide +kernel, rfl, C48_violated_host.1, rfl, by decide +kernel⟩

/-- C106 does not hold of the code. -/
theorem C106_violated : ¬ C106_statement := by
  intro h
  have := h.1 (asciiBytes "http://h") _ (show _ = Res.ok
    { scheme := .http, path := asciiBytes "/", username := none, password := none, domain := some (asciiBytes "h"), port := some 80, query := none } by
      decide +kernel)
  exact absurd this (by decide +kernel)

/-- Neither does its second half. -/
theorem C106_violated_second : ¬ ∀ (u v : Url) (s : Bytes), Carried u → Carried v → u.eqText s = true → v.eqText s = true → u = v := by
  intro h
  have := h urlQuestion { urlQuestion with path := asciiBytes "/a", query := some (asciiBytes "b") } urlQuestion.display
    (carried_http (by unfold IsPrint; decide +kernel) (by decide) (by decide +kernel) none none (.inl ⟨rfl, rfl⟩) none (by simp) 80 (by decide))
    (carried_http (by unfold IsPrint; decide +kernel) (by decide) (by decide +kernel) none none (.inl ⟨rfl, rfl⟩) (some (asciiBytes "b"))
      (by rintro x ⟨⟩; decide +kernel) 80 (by decide)) (by decide +kernel) (by decide +kernel)
  exact absurd this (by decide +kernel)

end Webparse
