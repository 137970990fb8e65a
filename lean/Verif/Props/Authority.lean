import Verif.Proofs.Basic
import Verif.Props.Target
import Verif.Props.UrlExact
import Verif.Spec.Authority

/-! # C117: `get_authority` names the host and the port -/

namespace Webparse
open Spec

/-- C117: the authority of a URL with host and port names them both. -/
def C117_statement : Prop :=
  ∀ (u : Url) (d : Bytes) (p : Nat), u.domain = some d → u.port = some p → NamesHost u.scheme d p u.authority

theorem colon_split {d e x y : Bytes} (hd : (58 : UInt8) ∉ d) (he : (58 : UInt8) ∉ e) (h : d ++ 58 :: x = e ++ 58 :: y) :
    d = e ∧ x = y := by
  induction d generalizing e with
  | nil =>
    cases e with
    | nil => simpa using h
    | cons b e => simp only [List.nil_append, List.cons_append, List.cons.injEq] at h; simp [← h.1] at he
  | cons a d ih =>
    cases e with
    | nil => simp only [List.nil_append, List.cons_append, List.cons.injEq] at h; simp [h.1] at hd
    | cons b e =>
      simp only [List.cons_append, List.cons.injEq] at h
      simp only [List.mem_cons, not_or] at hd he
      obtain ⟨h1, h2⟩ := ih hd.2 he.2 h.2
      exact ⟨by rw [h.1, h1], h2⟩

theorem decimal_inj {p q : Nat} (h : decimal p = decimal q) : p = q := by
  have := congrArg (digitsVal 10) h
  rwa [(decimal_spec p).2.2, (decimal_spec q).2.2] at this

/-- It does exactly if the URL has a scheme.  Missing for C117: without one the port is dropped. -/
theorem C117_iff_partial (u : Url) (d : Bytes) (p : Nat) (hd : u.domain = some d) (hp : u.port = some p) :
    NamesHost u.scheme d p u.authority ↔ u.scheme ≠ .none := by
  unfold Url.authority portSuffix NamesHost DefaultPort
  rw [hd, hp]
  simp only []
  constructor
  · rintro h hs
    rw [if_neg (by simp [hs]), List.append_nil] at h
    rcases h with h | ⟨-, h⟩
    · have := congrArg List.length h
      simp at this
    · simp [hs] at h
  · intro hs
    rw [if_pos hs]
    by_cases h1 : u.scheme = .http ∧ p = 80
    · rw [if_pos h1]; exact .inr ⟨by simp, .inl h1⟩
    · rw [if_neg h1]
      by_cases h2 : u.scheme = .https ∧ p = 443
      · rw [if_pos h2]; exact .inr ⟨by simp, .inr h2⟩
      · rw [if_neg h2]; exact .inl (by simp)

/-- With a scheme, the authority and the scheme together tell host and port: two URLs that agree in both name
the same place, if no host has a colon. -/
theorem C117_injective_partial (u v : Url) (d e : Bytes) (p q : Nat) (hd : u.domain = some d) (hp : u.port = some p)
    (he : v.domain = some e) (hq : v.port = some q) (hs : u.scheme ≠ .none) (hsv : u.scheme = v.scheme)
    (hcd : (58 : UInt8) ∉ d) (hce : (58 : UInt8) ∉ e) (h : u.authority = v.authority) : d = e ∧ p = q := by
  have h1 := (C117_iff_partial u d p hd hp).mpr hs
  have h2 := (C117_iff_partial v e q he hq).mpr (hsv ▸ hs)
  rw [h] at h1
  rcases h1 with h1 | ⟨h1, h1'⟩ <;> rcases h2 with h2 | ⟨h2, h2'⟩
  · rw [h1] at h2
    have := colon_split hcd hce h2
    exact ⟨this.1, decimal_inj this.2⟩
  · rw [h1] at h2
    exact absurd (h2 ▸ by simp : (58 : UInt8) ∈ e) hce
  · rw [h1] at h2
    exact absurd (h2 ▸ by simp : (58 : UInt8) ∈ d) hcd
  · refine ⟨h1.symm.trans h2, ?_⟩
    unfold DefaultPort at h1' h2'
    rw [← hsv] at h2'
    rcases h1' with ⟨a, rfl⟩ | ⟨a, rfl⟩ <;> rcases h2' with ⟨b, rfl⟩ | ⟨b, rfl⟩ <;> first | rfl | (rw [a] at b; cases b)

/-- Written after the scheme, the authority is read back as the same scheme, host and port, without user,
password and query, whatever else the URL had. -/
theorem C117_roundtrip_partial (u : Url) (d : Bytes) (p : Nat) (hd : u.domain = some d) (hp : u.port = some p) (hp' : p < 65536)
    (hs : u.scheme ≠ .none) (ht : SchemeText u.scheme.asStr)
    (hx : ∀ t, u.scheme = .extension t → ∀ e ∈ schemeNames, t ≠ asciiBytes e.2)
    (hb : ∀ b ∈ d, IsPrint b ∧ b ∉ asciiBytes "%/:?@") :
    Url.parse (u.scheme.asStr ++ asciiBytes "://" ++ u.authority ++ asciiBytes "/") =
      .ok ⟨u.scheme, asciiBytes "/", none, none, some d, some p, none⟩ := by
  have hc : Carried ⟨u.scheme, asciiBytes "/", none, none, some d, some p, none⟩ :=
    ⟨show (asciiBytes "/").head? = some 47 by decide +kernel, show utf8Valid (asciiBytes "/") = true by decide +kernel, by simp, .inr ⟨hs, ht, hx, ⟨d, rfl, hb⟩, ⟨p, rfl, hp'⟩, .inl ⟨rfl, rfl⟩⟩⟩
  have hn : NoSeparators ⟨u.scheme, asciiBytes "/", none, none, some d, some p, none⟩ :=
    ⟨by simp, by simp, show ∀ b ∈ asciiBytes "/", b ∉ asciiBytes "?@" by decide +kernel, by simp⟩
  rw [← C48_roundtrip_partial _ hc hn]
  congr 1
  unfold Url.display schemeText Url.authority userText queryText
  simp only [hd, hp, if_pos hs]
  have e1 : urlEncode (asciiBytes "/") = asciiBytes "/" := by decide +kernel
  have e2 : asciiBytes "://" = [58, 47, 47] := by decide +kernel
  rw [e1, e2]
  simp

/-- C117 for every accepted request that is not CONNECT: if its URL has host and port, `get_authority` names
them. -/
theorem C117_request_partial (r0 r' : Request) (t p rest left : Bytes) (m : Method) (v : Version) (n : Nat)
    (hm : Method.tryFrom t = .ok m) (hmc : m ≠ .connect) (hv : v ≠ .none) (hp : p ≠ []) (hpt : ∀ b ∈ p, IsPrint b)
    (h : r0.parseBuffer (requestText t p v.asStr rest) = (.ok n, r', left))
    (d : Bytes) (q : Nat) (hd : r'.url.domain = some d) (hq : r'.url.port = some q) :
    NamesHost r'.url.scheme d q r'.url.authority := by
  rw [C117_iff_partial _ _ _ hd hq]
  obtain ⟨-, -, hu, -⟩ := request_accepted hm hv hp hpt h
  unfold requestUrl at hu
  rw [if_neg hmc] at hu
  simp only [Res.bind_eq_ok, Res.ok.injEq] at hu
  obtain ⟨u1, -, u2, -, hu⟩ := hu
  rw [← hu]
  unfold fillScheme
  by_cases hs : u2.scheme = .none
  · rw [if_pos hs]
    split
    · split
      · rename_i hs'; exact (tryFrom_asStr hs').2.1
      · simp
    · simp
  · rw [if_neg hs]; exact hs

/-- Every CONNECT request fails it: the tunnel's port is in the URL, and not in its authority, though
`get_connect_url` has it. -/
theorem C117_violated_connect (r0 : Request) (p body : Bytes) (v : Version) (ops : List HeaderOp) (d : Bytes) (q : Nat)
    (hc : ∀ e ∈ runOps ops, CleanHeader e) (hv : v ≠ .none) (hne : p ≠ []) (hp : ∀ b ∈ p, IsPrint b) (h : HostIs p d q) :
    ∃ n r', r0.parseBuffer (requestText (asciiBytes "CONNECT") p v.asStr (headerText (runOps ops) ++ body)) = (.ok n, r', body) ∧
      r'.url.domain = some d ∧ r'.url.port = some q ∧ r'.url.authority = d ∧ r'.url.connectUrl = some (d ++ 58 :: decimal q) ∧
      ¬ NamesHost r'.url.scheme d q r'.url.authority := by
  obtain ⟨n, r', h1, h2⟩ := (C62_connect r0 p body v ops _ hc hv hne hp).mpr ⟨d, q, h, rfl⟩
  refine ⟨n, r', h1, by rw [h2], by rw [h2], ?_, ?_, ?_⟩
  · rw [h2]; simp [Url.authority, portSuffix]
  · rw [h2]; simp [Url.connectUrl]
  · rw [C117_iff_partial _ d q (by rw [h2]) (by rw [h2]), h2]; simp

theorem C117_violated : ¬ C117_statement := by
  intro h
  have := h ⟨.none, [47], none, none, some (asciiBytes "h"), some 8443, none⟩ _ _ rfl rfl
  rw [C117_iff_partial _ _ _ rfl rfl] at this
  exact this rfl

/-- A URL that meets the hypotheses of the round trip. -/
example : ∃ u : Url, u.domain = some (asciiBytes "h") ∧ u.port = some 8443 ∧ u.scheme ≠ .none ∧ SchemeText u.scheme.asStr ∧
    u.authority = asciiBytes "h:8443" ∧ u.username = some (asciiBytes "u") :=
  ⟨⟨.https, asciiBytes "/a", some (asciiBytes "u"), some (asciiBytes "p"), some (asciiBytes "h"), some 8443, none⟩, rfl, rfl, by simp,
    ⟨⟨104, asciiBytes "ttps", rfl, by decide⟩, by decide +kernel, by decide⟩, by decide +kernel, rfl⟩

/-- A request with a port in its Host header, and a CONNECT. -/
example : ∃ r' n, ({} : Request).parseBuffer (requestText (asciiBytes "GET") (asciiBytes "/a") Version.http11.asStr
      (asciiBytes "Host: h:81\r\n\r\n")) = (.ok n, r', []) ∧ r'.url.domain = some (asciiBytes "h") ∧ r'.url.port = some 81 ∧
    r'.url.authority = asciiBytes "h:81" :=
  ⟨⟨.get, [(asciiBytes "Host", asciiBytes "h:81")], .http11,
      ⟨.http, asciiBytes "/a", none, none, some (asciiBytes "h"), some 81, none⟩, false⟩, 31, by decide +kernel, rfl, rfl, by decide +kernel⟩

example : HostIs (asciiBytes "h:8443") (asciiBytes "h") 8443 :=
  .inr ⟨asciiBytes "8443", by decide +kernel, by decide +kernel, .inl ⟨by decide, by unfold AllDigits; decide +kernel, by decide +kernel⟩, by decide⟩

end Webparse
