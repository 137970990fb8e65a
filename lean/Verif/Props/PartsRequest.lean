import Verif.Model.PartsRequest
import Verif.Props.Url
import Verif.Props.Builder

/-! C78: a URL sent as the pseudo-headers of an HTTP/2 request. -/

namespace Webparse
open Spec

/-- C78, the full claim: the pseudo-headers made for a URL with a host are those from which the receiver
makes that URL. -/
def C78_statement : Prop :=
  ∀ (u : Url) (m : Method) (protocol : Option Scheme), u.scheme ≠ .none → Carried u → NoSeparators u →
    (Parts.request m u protocol).buildUrl = .ok u

/-- A path of printable characters that stand for themselves. -/
def PlainPath (p : Bytes) : Prop := p.head? = some 47 ∧ ∀ b ∈ p, IsPrint b ∧ b ≠ 37 ∧ b ≠ 63 ∧ b ≠ 64

theorem decodes_plain_self {s : Bytes} (h : ∀ b ∈ s, b ≠ 37) : Decodes s s := by
  induction s with
  | nil => exact .nil
  | cons b r ih => exact .plain (h b (by simp)) (ih fun x hx => h x (by simp [hx]))

theorem cut_absent {c : UInt8} {s : Bytes} (h : c ∉ s) : cut c s = (s, none) := by
  induction s with
  | nil => rfl
  | cons b r ih =>
    rw [List.mem_cons, not_or] at h
    rw [cut, if_neg (fun e => h.1 e.symm), ih h.2]

theorem isPrint_small {b : UInt8} (h : IsPrint b) : b < 0x80 := by
  rw [UInt8.lt_iff_toNat_lt]
  exact Nat.lt_of_le_of_lt h.2 (by decide)

/-- C78, partial: for a plain path, exactly what the receiver makes of the URL: scheme, host and path are
kept, the port is the default one, user information and query are gone. -/
theorem C78_received_partial (u : Url) (m : Method) (protocol : Option Scheme) (hs : u.scheme ≠ .none)
    (hc : Carried u) (hp : PlainPath u.path) :
    (Parts.request m u protocol).buildUrl =
      .ok ⟨u.scheme, u.path, none, none, u.domain, some (defaultPort u.scheme), none⟩ := by
  obtain ⟨h47, hpath⟩ := hp
  rcases hc.kind with ⟨h, -⟩ | ⟨-, hst, hext, ⟨d, hd, hdb⟩, -, -⟩
  · exact absurd h hs
  have hne : u.path ≠ [] := by rintro e; rw [e] at h47; simp at h47
  have hdb' : ∀ b ∈ d, IsPrint b ∧ b ≠ 37 ∧ b ≠ 47 ∧ b ≠ 58 ∧ b ≠ 63 ∧ b ≠ 64 := by
    intro b hb
    obtain ⟨h1, h2⟩ := hdb b hb
    refine ⟨h1, ?_, ?_, ?_, ?_, ?_⟩ <;> rintro rfl <;> exact h2 (by decide +kernel)
  have ed : (Parts.request m u protocol).buildUrl = Url.parse (u.scheme.asStr ++ [58, 47, 47] ++ (d ++ u.path)) := by
    unfold Parts.buildUrl Parts.request
    simp only [hd, hs, hne, ne_eq, not_false_eq_true, if_true, if_false, Option.getD_some, List.append_assoc]
  rw [ed, C49_absolute_partial _ d _ _ hst (fun b hb => ⟨(hdb' b hb).2.2.1, (hdb' b hb).2.2.2.2.1⟩)
    (by rw [List.count_eq_zero.mpr (fun h => (hdb' 64 h).2.2.2.2.2 rfl)]; omega) (.inr h47)
    (fun h => (hpath 64 h).2.2.2 rfl)]
  refine ⟨?_, rfl, hs, hext, { domain := some d }, ?_, ?_⟩
  · intro b hb
    rcases List.mem_append.mp hb with h | h
    · exact (hdb' b h).1
    · exact (hpath b h).1
  · unfold authorityParts
    rw [cut_absent (fun h => (hdb' 64 h).2.2.2.2.2 rfl)]
    unfold hostParts
    simp only
    rw [cut_absent (fun h => (hdb' 58 h).2.2.2.1 rfl)]
  · rw [pathParts, if_neg hne, cut_absent (fun h => (hpath 63 h).2.2.1 rfl)]
    refine ⟨rfl, rfl, rfl, ?_, rfl, ?_, rfl⟩
    · refine ⟨d, decodes_plain_self fun b hb => (hdb' b hb).2.1, ?_, hd⟩
      exact utf8Valid_ascii d fun b hb => isPrint_small (hdb' b hb).1
    · exact ⟨u.path, decodes_plain_self fun b hb => (hpath b hb).2.1, hc.path, rfl⟩

/-- C78, partial: such a URL comes back as it was exactly when it has nothing but scheme, host, default port
and path. -/
theorem C78_exact_partial (u : Url) (m : Method) (protocol : Option Scheme) (hs : u.scheme ≠ .none)
    (hc : Carried u) (hp : PlainPath u.path) :
    (Parts.request m u protocol).buildUrl = .ok u ↔
      u.username = none ∧ u.password = none ∧ u.port = some (defaultPort u.scheme) ∧ u.query = none := by
  rw [C78_received_partial u m protocol hs hc hp]
  obtain ⟨sc, pa, us, pw, dm, po, q⟩ := u
  simp only [Res.ok.injEq, Url.mk.injEq, true_and]
  constructor
  · rintro ⟨rfl, rfl, rfl, rfl⟩
    exact ⟨rfl, rfl, rfl, rfl⟩
  · rintro ⟨rfl, rfl, rfl, rfl⟩
    exact ⟨rfl, rfl, rfl, rfl⟩

/-- C78, partial: a URL without a host is no HTTP/2 request URL, whatever the protocol given with it. -/
theorem C78_hostless_partial (u : Url) (m : Method) (protocol : Option Scheme) (h : u.domain = none) :
    (Parts.request m u protocol).buildUrl = .err .invalidRequestUrl := by
  unfold Parts.buildUrl Parts.request
  simp only [h]

/-- C78, partial: the scheme sent is the URL's own; the protocol given beside it counts only for a URL
without a scheme. -/
theorem C78_scheme_partial (u : Url) (m : Method) (protocol : Option Scheme) :
    (u.scheme ≠ .none → (Parts.request m u protocol).scheme = some u.scheme) ∧
      (u.scheme = .none → (Parts.request m u protocol).scheme = protocol) := by
  refine ⟨fun h => ?_, fun h => ?_⟩
  · unfold Parts.request; simp only [h, ne_eq, not_false_eq_true, if_true]
  · unfold Parts.request; simp only [h, ne_eq, not_true_eq_false, if_false]

/-- `https://example.org/a` with the given port, query and path. -/
def sampleHost (port : Nat) (query : Option Bytes) (path : Bytes) : Url :=
  ⟨.https, path, none, none, some (asciiBytes "example.org"), some port, query⟩

theorem sampleHost_carried (port : Nat) (query : Option Bytes) (path : Bytes) (hp : port < 65536)
    (h47 : path.head? = some 47) (hu : utf8Valid path = true) (hq : ∀ q, query = some q → utf8Valid q = true) :
    Carried (sampleHost port query path) := by
  have e : (sampleHost port query path).scheme = .https := rfl
  refine ⟨h47, hu, hq, .inr ⟨?_, ?_, ?_, ⟨_, rfl, ?_⟩, ⟨port, rfl, hp⟩, .inl ⟨rfl, rfl⟩⟩⟩
  · rw [e]; decide
  · rw [e]
    exact ⟨⟨104, asciiBytes "ttps", by decide +kernel, by decide +kernel⟩,
      by decide +kernel, by decide +kernel⟩
  · intro t h; cases h
  · unfold IsPrint; decide +kernel

theorem sample_plain : PlainPath (asciiBytes "/a") := by
  unfold PlainPath IsPrint; decide +kernel

example : (Parts.request .get (sampleHost 443 none (asciiBytes "/a")) none).buildUrl =
    .ok (sampleHost 443 none (asciiBytes "/a")) :=
  (C78_exact_partial _ _ _ (by decide) (sampleHost_carried 443 none _ (by decide) (by decide +kernel)
    (by decide +kernel) (fun _ h => by cases h)) sample_plain).mpr ⟨rfl, rfl, rfl, rfl⟩

/-- C78, violated: every query is lost. -/
theorem C78_violated_query (u : Url) (m : Method) (protocol : Option Scheme) (hs : u.scheme ≠ .none)
    (hc : Carried u) (hp : PlainPath u.path) (q : Bytes) (hq : u.query = some q) :
    (Parts.request m u protocol).buildUrl ≠ .ok u := by
  intro h
  have := ((C78_exact_partial u m protocol hs hc hp).mp h).2.2.2
  rw [hq] at this
  cases this

/-- C78, violated: every port that is not the default one is lost. -/
theorem C78_violated_port (u : Url) (m : Method) (protocol : Option Scheme) (hs : u.scheme ≠ .none)
    (hc : Carried u) (hp : PlainPath u.path) (hq : u.port ≠ some (defaultPort u.scheme)) :
    (Parts.request m u protocol).buildUrl ≠ .ok u :=
  fun h => hq ((C78_exact_partial u m protocol hs hc hp).mp h).2.2.1

example : (Parts.request .get (sampleHost 8443 none (asciiBytes "/a")) none).buildUrl ≠
    .ok (sampleHost 8443 none (asciiBytes "/a")) :=
  C78_violated_port _ _ _ (by decide) (sampleHost_carried 8443 none _ (by decide) (by decide +kernel)
    (by decide +kernel) (fun _ h => by cases h)) sample_plain (by decide)

example : (Parts.request .get (sampleHost 443 (some (asciiBytes "x")) (asciiBytes "/a")) none).buildUrl ≠
    .ok (sampleHost 443 (some (asciiBytes "x")) (asciiBytes "/a")) :=
  C78_violated_query _ _ _ (by decide) (sampleHost_carried 443 _ _ (by decide) (by decide +kernel)
    (by decide +kernel) (fun q h => by cases h; decide +kernel)) sample_plain _ rfl

/-- C78, violated: the path is sent as it stands after decoding, so one with a space is refused by the
receiver, and one that holds the text `%41` arrives with `A` in its place. -/
theorem C78_violated_path :
    Carried (sampleHost 443 none (asciiBytes "/a b")) ∧
    (∀ u, (Parts.request .get (sampleHost 443 none (asciiBytes "/a b")) none).buildUrl ≠ .ok u) ∧
    Carried (sampleHost 443 none (asciiBytes "/%41")) ∧
    (Parts.request .get (sampleHost 443 none (asciiBytes "/%41")) none).buildUrl =
      .ok (sampleHost 443 none (asciiBytes "/A")) := by
  refine ⟨sampleHost_carried 443 none _ (by decide) (by decide +kernel) (by decide +kernel)
    (fun _ h => by cases h), ?_, sampleHost_carried 443 none _ (by decide) (by decide +kernel)
    (by decide +kernel) (fun _ h => by cases h), by decide +kernel⟩
  have : ∃ e, (Parts.request .get (sampleHost 443 none (asciiBytes "/a b")) none).buildUrl = .err e :=
    ⟨.urlInvalid, by decide +kernel⟩
  obtain ⟨e, he⟩ := this
  intro u h
  rw [h] at he
  cases he

/-- C78 does not hold of the code. -/
theorem C78_violated : ¬ C78_statement := by
  intro h
  refine C78_violated_port (sampleHost 8443 none (asciiBytes "/a")) .get none (by decide)
    (sampleHost_carried 8443 none _ (by decide) (by decide +kernel) (by decide +kernel)
      (fun _ h => by cases h)) sample_plain (by decide) (h _ _ _ (by decide)
    (sampleHost_carried 8443 none _ (by decide) (by decide +kernel) (by decide +kernel)
      (fun _ h => by cases h)) ?_)
  exact ⟨fun _ h => (by cases h), fun _ h => (by cases h), by decide +kernel, fun _ h => (by cases h)⟩

end Webparse
