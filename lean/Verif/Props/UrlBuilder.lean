import Verif.Spec.UrlBuilder
import Verif.Props.Url
import Verif.Props.Builder

/-! # URLs that are built: C87 -/

namespace Webparse
open Spec

theorem tryFrom_named (t : Bytes) (h : t.length ≤ 64) : Scheme.tryFrom t = .ok (schemeNamed t) := by
  unfold Scheme.tryFrom schemeNamed schemeNames
  rw [if_neg (by omega)]
  simp only [List.find?_cons, List.find?_nil]
  by_cases h1 : t = asciiBytes "http"
  · simp [h1]
  by_cases h2 : t = asciiBytes "https"
  · subst h2; decide +kernel
  by_cases h3 : t = asciiBytes "ws"
  · subst h3; decide +kernel
  by_cases h4 : t = asciiBytes "wss"
  · subst h4; decide +kernel
  by_cases h5 : t = asciiBytes "ftp"
  · subst h5; decide +kernel
  simp [h1, h2, h3, h4, h5, Ne.symm h1, Ne.symm h2, Ne.symm h3, Ne.symm h4, Ne.symm h5]

/-- What a call that succeeds does. -/
def urlCallOn (u : Url) : UrlCall → Url
  | .scheme t => { u with scheme := schemeNamed t }
  | .username t => { u with username := some t }
  | .password t => { u with password := some t }
  | .domain t => { u with domain := some t }
  | .port n => { u with port := some n }
  | .path t => { u with path := t }
  | .query t => { u with query := some t }

theorem urlCall_ok (c : UrlCall) (u : Url) (h : ∀ t, c = .scheme t → t.length ≤ 64) :
    c.run ⟨.ok u⟩ = ⟨.ok (urlCallOn u c)⟩ := by
  cases c with
  | scheme t =>
    show UrlBuilder.mk _ = _
    rw [tryFrom_named t (h t rfl)]
    rfl
  | _ => rfl

theorem urlCalls_err (e : Error) (calls : List UrlCall) : calls.foldl UrlCall.run ⟨.err e⟩ = ⟨.err e⟩ := by
  induction calls with
  | nil => rfl
  | cons c cs ih =>
    have : c.run ⟨.err e⟩ = ⟨.err e⟩ := by cases c <;> rfl
    rw [List.foldl_cons, this, ih]

theorem urlCalls_ok (calls : List UrlCall) : ∀ u, (∀ t, UrlCall.scheme t ∈ calls → t.length ≤ 64) →
    calls.foldl UrlCall.run ⟨.ok u⟩ = ⟨.ok (calls.foldl urlCallOn u)⟩ := by
  induction calls with
  | nil => intro u _; rfl
  | cons c cs ih =>
    intro u h
    rw [List.foldl_cons, urlCall_ok c u (fun t e => h t (by simp [e])), ih _ (fun t ht => h t (List.mem_cons_of_mem _ ht))]
    rfl

theorem urlCalls_long (calls : List UrlCall) : ∀ u, (∃ t, UrlCall.scheme t ∈ calls ∧ 64 < t.length) →
    calls.foldl UrlCall.run ⟨.ok u⟩ = ⟨.err .urlInvalid⟩ := by
  induction calls with
  | nil => rintro u ⟨t, ht, -⟩; cases ht
  | cons c cs ih =>
    rintro u ⟨t, ht, hl⟩
    by_cases hc : ∃ t', c = .scheme t' ∧ 64 < t'.length
    · obtain ⟨t', rfl, h'⟩ := hc
      have : (UrlCall.scheme t').run ⟨.ok u⟩ = ⟨.err .urlInvalid⟩ := by
        show UrlBuilder.mk _ = _
        have e : Scheme.tryFrom t' = .err .urlInvalid := by unfold Scheme.tryFrom; rw [if_pos h']
        rw [e]; rfl
      rw [List.foldl_cons, this, urlCalls_err]
    · rw [List.foldl_cons, urlCall_ok c u (fun t' e => by
        by_contra h'; exact hc ⟨t', e, by omega⟩)]
      apply ih
      rcases List.mem_cons.mp ht with rfl | ht
      · exact absurd ⟨t, rfl, hl⟩ hc
      · exact ⟨t, ht, hl⟩

theorem lastOf_or {α β : Type} (f : α → Option β) (c : α) (cs : List α) (x : Option β) :
    (lastOf f (c :: cs)).or x = (lastOf f cs).or ((f c).or x) := by
  unfold lastOf
  cases h : f c with
  | none => rw [List.filterMap_cons_none h]; rfl
  | some b =>
    rw [List.filterMap_cons_some h, List.getLast?_cons]
    cases (List.filterMap f cs).getLast? <;> rfl

/-- The URL the calls describe. -/
def urlDescribed (calls : List UrlCall) (u : Url) : Url :=
  { scheme := ((lastOf UrlCall.schemeSet calls).map schemeNamed).getD u.scheme
    path := (lastOf UrlCall.pathSet calls).getD u.path
    username := (lastOf UrlCall.usernameSet calls).or u.username
    password := (lastOf UrlCall.passwordSet calls).or u.password
    domain := (lastOf UrlCall.domainSet calls).or u.domain
    port := (lastOf UrlCall.portSet calls).or u.port
    query := (lastOf UrlCall.querySet calls).or u.query }

theorem lastOf_map_cons {α β γ : Type} (f : α → Option β) (g : β → γ) (c : α) (cs : List α) (x : γ) :
    ((lastOf f (c :: cs)).map g).getD x = ((lastOf f cs).map g).getD (((f c).map g).getD x) := by
  unfold lastOf
  cases h : f c with
  | none => rw [List.filterMap_cons_none h]; rfl
  | some b =>
    rw [List.filterMap_cons_some h, List.getLast?_cons]
    cases (List.filterMap f cs).getLast? <;> rfl

theorem urlCalls_described (calls : List UrlCall) : ∀ u, calls.foldl urlCallOn u = urlDescribed calls u := by
  induction calls with
  | nil => intro u; cases u; rfl
  | cons c cs ih =>
    intro u
    rw [List.foldl_cons, ih]
    unfold urlDescribed
    simp only [lastOf_cons, lastOf_or, lastOf_map_cons]
    cases c <;> rfl

/-! ## C87: a built URL is what the calls say, and survives its text form -/

/-- The last call for each part counts; parts never set are absent, and the path is `/`. -/
theorem C87_built (calls : List UrlCall) (u : Url) : buildUrl calls = .ok u ↔
    (∀ t, UrlCall.scheme t ∈ calls → t.length ≤ 64) ∧
    u.scheme = ((lastOf UrlCall.schemeSet calls).map schemeNamed).getD .none ∧
    u.username = lastOf UrlCall.usernameSet calls ∧ u.password = lastOf UrlCall.passwordSet calls ∧
    u.domain = lastOf UrlCall.domainSet calls ∧ u.port = lastOf UrlCall.portSet calls ∧
    u.path = (lastOf UrlCall.pathSet calls).getD (asciiBytes "/") ∧ u.query = lastOf UrlCall.querySet calls := by
  unfold buildUrl UrlBuilder.build UrlBuilder.new
  by_cases h : ∀ t, UrlCall.scheme t ∈ calls → t.length ≤ 64
  · rw [urlCalls_ok calls _ h, urlCalls_described]
    simp only [Res.ok.injEq]
    cases u
    simp only [urlDescribed, Url.new, Option.or_none, Url.mk.injEq]
    have e : asciiBytes "/" = [47] := by decide
    rw [e]
    constructor
    · rintro ⟨rfl, rfl, rfl, rfl, rfl, rfl, rfl⟩; exact ⟨h, rfl, rfl, rfl, rfl, rfl, rfl, rfl⟩
    · rintro ⟨-, rfl, rfl, rfl, rfl, rfl, rfl, rfl⟩; exact ⟨rfl, rfl, rfl, rfl, rfl, rfl, rfl⟩
  · rw [urlCalls_long calls _ (by simpa using h)]
    constructor
    · intro h'; cases h'
    · intro h'; exact absurd h'.1 h

/-- A builder fails exactly if a scheme of more than 64 bytes is given, whatever comes after. -/
theorem C87_error (calls : List UrlCall) (e : Error) : buildUrl calls = .err e ↔
    e = .urlInvalid ∧ ∃ t, UrlCall.scheme t ∈ calls ∧ 64 < t.length := by
  unfold buildUrl UrlBuilder.build UrlBuilder.new
  by_cases h : ∃ t, UrlCall.scheme t ∈ calls ∧ 64 < t.length
  · rw [urlCalls_long calls _ h]
    simp only [Res.err.injEq, h, and_true]
    exact eq_comm
  · rw [urlCalls_ok calls _ (by simpa using h)]
    constructor
    · intro h'; cases h'
    · rintro ⟨-, h'⟩; exact absurd h' h

/-- C87: a URL built with a scheme and a host is read back from its text, with the default port if none
was given. -/
def C87_statement : Prop :=
  ∀ calls u, (∀ c ∈ calls, UrlCall.Typed c) → HostGiven calls → buildUrl calls = .ok u →
    Url.parse u.display = .ok (withDefaultPort u)

theorem schemeNamed_props (t : Bytes) : schemeNamed t ≠ .none ∧ (schemeNamed t).asStr = t ∧
    ∀ x, schemeNamed t = .extension x → ∀ e ∈ schemeNames, x ≠ asciiBytes e.2 := by
  unfold schemeNamed
  cases h : schemeNames.find? fun e => asciiBytes e.2 = t with
  | some e =>
    have hm := List.mem_of_find?_eq_some h
    have ht := List.find?_some h
    simp only [decide_eq_true_eq] at ht
    subst ht
    clear h
    have key : ∀ e ∈ schemeNames, e.1 ≠ .none ∧ e.1.asStr = asciiBytes e.2 := by decide
    refine ⟨(key e hm).1, (key e hm).2, ?_⟩
    intro x hx
    exfalso
    have : ∀ e ∈ schemeNames, (match e.1 with | .extension _ => false | _ => true) = true := by decide
    have := this e hm
    simp only at hx
    rw [hx] at this
    cases this
  | none =>
    refine ⟨by simp, rfl, ?_⟩
    intro x hx e he
    cases hx
    have := List.find?_eq_none.mp h e he
    simp only [decide_eq_true_eq] at this
    exact fun h' => this h'.symm

theorem lastOf_mem {α β : Type} (f : α → Option β) {l : List α} {b : β} (h : lastOf f l = some b) :
    ∃ a ∈ l, f a = some b := by
  unfold lastOf at h
  exact List.mem_filterMap.mp (List.mem_of_getLast? h)

theorem typed_text {calls : List UrlCall} (ht : ∀ c ∈ calls, UrlCall.Typed c) {f : UrlCall → Option Bytes} {x : Bytes}
    (h : lastOf f calls = some x) (hf : ∀ c, f c = some x → UrlCall.Typed c → utf8Valid x = true) : utf8Valid x = true := by
  obtain ⟨c, hc, e⟩ := lastOf_mem f h
  exact hf c e (ht c hc)

/-- The text of a built URL is read back if its path starts with `/`, the user name comes with a
password, and no part contains a character that ends it. -/
theorem C87_survives_partial (calls : List UrlCall) (u : Url) (ht : ∀ c ∈ calls, UrlCall.Typed c)
    (hg : HostGiven calls) (hb : buildUrl calls = .ok u) (hs : u.path.head? = some 47) (hu : UserComplete u)
    (hn : NoSeparators u) : Url.parse u.display = .ok (withDefaultPort u) := by
  obtain ⟨-, e1, e2, e3, e4, e5, e6, e7⟩ := (C87_built calls u).mp hb
  obtain ⟨⟨t, h1, h2⟩, d, h3, h4⟩ := hg
  rw [h1] at e1
  simp only [Option.map_some, Option.getD_some] at e1
  rw [h3] at e4
  obtain ⟨k1, k2, k3⟩ := schemeNamed_props t
  apply absolute_roundtrip u hs
  · rw [e6]
    cases hp : lastOf UrlCall.pathSet calls with
    | none => decide
    | some p => exact typed_text ht hp (fun c hc h => by cases c <;> cases hc; exact h)
  · intro q hq
    rw [e7] at hq
    exact typed_text ht hq (fun c hc h => by cases c <;> cases hc; exact h)
  · exact hn
  · rw [e1]; exact k1
  · rw [e1, k2]; exact h2
  · rw [e1]; exact k3
  · exact ⟨d, e4, h4⟩
  · intro p hp
    rw [e5] at hp
    obtain ⟨c, hc, e⟩ := lastOf_mem _ hp
    have := ht c hc
    cases c <;> cases e
    exact this
  · unfold UserComplete at hu
    cases hx : u.username with
    | none =>
      cases hy : u.password with
      | none => exact .inl ⟨rfl, rfl⟩
      | some w => rw [hx, hy] at hu; cases hu
    | some n =>
      cases hy : u.password with
      | none => rw [hx, hy] at hu; cases hu
      | some w =>
        refine .inr ⟨n, w, rfl, rfl, ?_, ?_⟩
        · rw [e2] at hx; exact typed_text ht hx (fun c hc h => by cases c <;> cases hc; exact h)
        · rw [e3] at hy; exact typed_text ht hy (fun c hc h => by cases c <;> cases hc; exact h)

theorem urlEncode_kept (q : Bytes) (h : ∀ b ∈ q, isKept b = true) (t : Bytes) : urlEncode (q ++ t) = q ++ urlEncode t := by
  rw [urlEncode_eq, urlEncode_eq, List.flatMap_append]
  congr 1
  induction q with
  | nil => rfl
  | cons b q ih =>
    have e : encodeByte b = [b] := by
      have : ∀ b : UInt8, isKept b = true → encodeByte b = [b] := by decide +kernel
      exact this b (h b (by simp))
    rw [List.flatMap_cons, e, ih (fun c hc => h c (List.mem_cons_of_mem _ hc))]
    rfl

theorem kept_print : ∀ b : UInt8, isKept b = true → IsPrint b ∧ b ≠ 37 := by
  unfold IsPrint; decide +kernel

/-- Violated: the part of the path before its first `/` becomes part of the host, for every scheme, host
and path. -/
theorem C87_violated_host (s d q t : Bytes) (hs : SchemeText s) (hd : ∀ b ∈ d, IsPrint b ∧ b ∉ asciiBytes "%/:?@")
    (hq : ∀ b ∈ q, isKept b = true ∧ b ∉ asciiBytes "/:?@") (ht : t.head? = some 47) (h8 : utf8Valid t = true)
    (hn : ∀ b ∈ t, b ∉ asciiBytes "?@") :
    ∃ u v, buildUrl [.scheme s, .domain d, .path (q ++ t)] = .ok u ∧ u.domain = some d ∧ u.path = q ++ t ∧
      Url.parse u.display = .ok v ∧ v.domain = some (d ++ q) ∧ v.path = t := by
  have hl : ∀ x, UrlCall.scheme x ∈ [UrlCall.scheme s, .domain d, .path (q ++ t)] → x.length ≤ 64 := by
    intro x hx
    simp only [List.mem_cons, List.not_mem_nil, or_false] at hx
    rcases hx with hx | hx | hx <;> cases hx
    exact hs.len
  obtain ⟨k1, k2, k3⟩ := schemeNamed_props s
  refine ⟨⟨schemeNamed s, q ++ t, none, none, some d, none, none⟩,
    ⟨schemeNamed s, t, none, none, some (d ++ q), some (defaultPort (schemeNamed s)), none⟩, (C87_built _ _).mpr ⟨hl, rfl, rfl, rfl, rfl, rfl, rfl, rfl⟩,
    rfl, rfl, ?_, rfl, rfl⟩
  · have e : Url.display ⟨schemeNamed s, q ++ t, none, none, some d, none, none⟩ =
        Url.display ⟨schemeNamed s, t, none, none, some (d ++ q), none, none⟩ := by
      have ep : portSuffix (schemeNamed s) none = [] := by unfold portSuffix; rw [if_pos k1]
      simp only [Url.display, urlEncode_kept q (fun b hb => (hq b hb).1), ep]
      simp
    rw [e]
    refine absolute_roundtrip _ ht h8 (fun q hq => by cases hq) ?_ k1 ?_ k3 ⟨_, rfl, ?_⟩ (fun p hp => by cases hp) (.inl ⟨rfl, rfl⟩)
    · exact ⟨fun _ h => (by cases h), fun _ h => (by cases h), hn, fun _ h => (by cases h)⟩
    · show SchemeText (schemeNamed s).asStr
      rw [k2]; exact hs
    · intro b hb
      rcases List.mem_append.mp hb with hb | hb
      · exact hd b hb
      · obtain ⟨i1, i2⟩ := hq b hb
        obtain ⟨i3, i4⟩ := kept_print b i1
        refine ⟨i3, ?_⟩
        have : asciiBytes "%/:?@" = 37 :: asciiBytes "/:?@" := by decide
        rw [this, List.mem_cons, not_or]
        exact ⟨i4, i2⟩

/-- Violated: a user name given without a password comes back with the empty password. -/
theorem C87_violated_user (s d n : Bytes) (hs : SchemeText s) (hd : ∀ b ∈ d, IsPrint b ∧ b ∉ asciiBytes "%/:?@")
    (h8 : utf8Valid n = true) (hn : ∀ b ∈ n, b ∉ asciiBytes ":@/?") :
    ∃ u v, buildUrl [.scheme s, .domain d, .username n] = .ok u ∧ u.password = none ∧
      Url.parse u.display = .ok v ∧ v.username = some n ∧ v.password = some [] := by
  have hl : ∀ x, UrlCall.scheme x ∈ [UrlCall.scheme s, .domain d, .username n] → x.length ≤ 64 := by
    intro x hx
    simp only [List.mem_cons, List.not_mem_nil, or_false] at hx
    rcases hx with hx | hx | hx <;> cases hx
    exact hs.len
  obtain ⟨k1, k2, k3⟩ := schemeNamed_props s
  refine ⟨⟨schemeNamed s, asciiBytes "/", some n, none, some d, none, none⟩,
    ⟨schemeNamed s, asciiBytes "/", some n, some [], some d, some (defaultPort (schemeNamed s)), none⟩, (C87_built _ _).mpr ⟨hl, rfl, rfl, rfl, rfl, rfl, rfl, rfl⟩,
    rfl, ?_, rfl, rfl⟩
  · have e : Url.display ⟨schemeNamed s, asciiBytes "/", some n, none, some d, none, none⟩ =
        Url.display ⟨schemeNamed s, asciiBytes "/", some n, some [], some d, none, none⟩ := by
      simp [Url.display, userText]
    rw [e]
    refine absolute_roundtrip _ (show (asciiBytes "/").head? = some 47 by decide +kernel) (show utf8Valid (asciiBytes "/") = true by decide +kernel) (fun q hq => by cases hq) ?_ k1 ?_ k3 ⟨_, rfl, hd⟩ (fun p hp => by cases hp)
      (.inr ⟨n, [], rfl, rfl, h8, by decide +kernel⟩)
    · refine ⟨fun m hm => ?_, fun m hm => ?_, ?_, fun n hn => by cases hn⟩
      · cases hm; exact hn
      · cases hm; intro b hb; cases hb
      · show ∀ b ∈ asciiBytes "/", b ∉ asciiBytes "?@"
        decide +kernel
    · show SchemeText (schemeNamed s).asStr
      rw [k2]; exact hs

theorem C87_violated : ¬ C87_statement := by
  intro h
  have hs : SchemeText (asciiBytes "http") := ⟨⟨104, asciiBytes "ttp", by decide +kernel, by decide +kernel⟩, by decide +kernel, by decide +kernel⟩
  obtain ⟨u, v, h1, h2, h3, h4, h5, -⟩ := C87_violated_host (asciiBytes "http") (asciiBytes "bank") (asciiBytes ".evil.org") (asciiBytes "/")
    hs (by unfold IsPrint; decide +kernel) (by decide +kernel) (by decide +kernel) (by decide +kernel) (by decide +kernel)
  have := h _ u ?_ ⟨⟨asciiBytes "http", rfl, hs⟩, asciiBytes "bank", rfl, by unfold IsPrint; decide +kernel⟩ h1
  · rw [h4] at this
    cases this
    have e : (withDefaultPort u).domain = u.domain := rfl
    rw [e, h2] at h5
    revert h5; decide +kernel
  · intro c hc
    simp only [List.mem_cons, List.not_mem_nil, or_false] at hc
    rcases hc with rfl | rfl | rfl
    · show utf8Valid _ = true; decide +kernel
    · show utf8Valid _ = true; decide +kernel
    · show utf8Valid _ = true; decide +kernel

/-- `wss`, `u v`, `p`, `host`, `/a b`, `q=1`: meets the hypotheses of `C87_survives_partial`. -/
def builtSample : List UrlCall :=
  [.scheme (asciiBytes "http"), .scheme (asciiBytes "wss"), .username (asciiBytes "u v"), .password (asciiBytes "p"),
   .domain (asciiBytes "host"), .path (asciiBytes "/a b"), .query (asciiBytes "q=1")]

example : HostGiven builtSample :=
  ⟨⟨asciiBytes "wss", rfl, ⟨119, asciiBytes "ss", by decide +kernel, by decide +kernel⟩, by decide +kernel, by decide +kernel⟩,
    asciiBytes "host", rfl, by unfold IsPrint; decide +kernel⟩
example : buildUrl builtSample = .ok ⟨.wss, asciiBytes "/a b", some (asciiBytes "u v"), some (asciiBytes "p"), some (asciiBytes "host"), none,
    some (asciiBytes "q=1")⟩ := by decide +kernel
example : NoSeparators ⟨.wss, asciiBytes "/a b", some (asciiBytes "u v"), some (asciiBytes "p"), some (asciiBytes "host"), none,
    some (asciiBytes "q=1")⟩ :=
  ⟨fun n h => by cases h; decide +kernel, fun n h => by cases h; decide +kernel, by decide +kernel, fun n h => by cases h; decide +kernel⟩
example : buildUrl [.scheme (List.replicate 65 97), .domain (asciiBytes "h")] = .err .urlInvalid := by decide +kernel

end Webparse
