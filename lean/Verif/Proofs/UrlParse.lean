import Verif.Proofs.Url
import Verif.Proofs.Http1

/-! Lemmas about `Url::parse`. -/

namespace Webparse
open Spec

/-! ## Decoding the parts -/

theorem parseUrlToken_iff (raw v : Bytes) : parseUrlToken raw = .ok v ↔ Decodes raw v ∧ utf8Valid v = true := by
  rw [parseUrlToken, Res.bind_eq_ok]
  constructor
  · rintro ⟨w, hw, h⟩
    split at h
    · simp only [Res.ok.injEq] at h
      subst h
      exact ⟨(urlTokenLoop_iff raw w).mp hw, ‹_›⟩
    · simp at h
  · rintro ⟨h1, h2⟩
    exact ⟨v, (urlTokenLoop_iff raw v).mpr h1, by rw [if_pos h2]⟩

theorem parseOptToken_iff (raw o : Option Bytes) : parseOptToken raw = .ok o ↔ PartIs raw o := by
  cases raw with
  | none => simp only [parseOptToken, PartIs, Res.ok.injEq]; exact eq_comm
  | some raw =>
    rw [parseOptToken, Res.bind_eq_ok, PartIs]
    exact exists_congr fun v => by
      rw [parseUrlToken_iff, Res.ok.injEq, and_assoc]
      exact and_congr_right fun _ => and_congr_right fun _ => eq_comm

theorem parsePath_iff (raw : Option Bytes) (v : Bytes) :
    parsePath raw = .ok v ↔ PartIs (some (raw.getD [47])) (some v) := by
  cases raw with
  | none =>
    simp only [parsePath, Option.getD_none, PartIs, Res.ok.injEq, Option.some.injEq]
    constructor
    · rintro rfl; exact ⟨[47], .plain (by decide) .nil, by decide, rfl⟩
    · rintro ⟨w, hw, -, rfl⟩
      exact decodes_unique (.plain (by decide) .nil) hw
  | some raw =>
    simp only [parsePath, Option.getD_some, PartIs, Option.some.injEq, parseUrlToken_iff]
    constructor
    · rintro ⟨h1, h2⟩; exact ⟨v, h1, h2, rfl⟩
    · rintro ⟨w, h1, h2, rfl⟩; exact ⟨h1, h2⟩

theorem allDigits_utf8 {v : Bytes} (h : AllDigits v) : utf8Valid v = true :=
  utf8Valid_ascii v fun b hb => by
    have := (h b hb).2
    rw [UInt8.lt_iff_toNat_lt]; exact Nat.lt_of_le_of_lt this (by decide)

theorem numeral_utf8 {v : Bytes} {n : Nat} (h : IsNumeral v n ∨ ∃ t, v = 43 :: t ∧ IsNumeral t n) : utf8Valid v = true := by
  rcases h with h | ⟨t, rfl, h⟩
  · exact allDigits_utf8 h.2.1
  · refine utf8Valid_ascii _ fun b hb => ?_
    rcases List.mem_cons.mp hb with rfl | hb
    · decide
    · have := (h.2.1 b hb).2
      rw [UInt8.lt_iff_toNat_lt]; exact Nat.lt_of_le_of_lt this (by decide)

theorem parsePort_iff (dflt : Nat) (raw : Option Bytes) (o : Option Nat) :
    (∃ p, parsePort raw = .ok p ∧ o = some (p.getD dflt)) ↔ PortIs dflt raw o := by
  cases raw with
  | none =>
    simp only [parsePort, Res.ok.injEq, PortIs]
    constructor
    · rintro ⟨p, rfl, h⟩; exact h
    · intro h; exact ⟨none, rfl, h⟩
  | some raw =>
    simp only [parsePort, Res.bind_eq_ok, PortIs, parseUrlToken_iff]
    constructor
    · rintro ⟨p, ⟨v, ⟨h1, h2⟩, h3⟩, rfl⟩
      split at h3
      · rename_i n hn
        simp only [Res.ok.injEq] at h3
        subst h3
        obtain ⟨h4, h5⟩ := (parseUnsigned_iff _ _ _).mp hn
        exact ⟨v, n, h1, h4, h5, rfl⟩
      · simp at h3
    · rintro ⟨v, n, h1, h2, h3, rfl⟩
      refine ⟨some n, ⟨v, ⟨h1, numeral_utf8 h2⟩, ?_⟩, rfl⟩
      rw [(parseUnsigned_iff (2 ^ 16) v n).mpr ⟨h2, h3⟩]

theorem defaultPort_eq (s : Scheme) : s.defaultPort = defaultPort s := by cases s <;> rfl

/-- The parts as they are written. -/
def UrlState.raw (s : UrlState) : RawParts := ⟨s.username, s.password, s.domain, s.port, s.path, s.query⟩

theorem build_iff (scheme : Scheme) (s : UrlState) (u : Url) : s.build scheme = .ok u ↔ IsUrl scheme s.raw u := by
  unfold UrlState.build
  simp only [Res.bind_eq_ok, parseOptToken_iff, parsePath_iff]
  constructor
  · rintro ⟨a, h1, b, h2, c, h3, d, h4, e, h5, f, h6, h⟩
    simp only [Res.ok.injEq] at h
    subst h
    exact ⟨rfl, h1, h2, h3, (parsePort_iff _ _ _).mp ⟨d, h4, by rw [defaultPort_eq]⟩, h5, h6⟩
  · rintro ⟨rfl, h1, h2, h3, h4, h5, h6⟩
    obtain ⟨d, h4, e⟩ := (parsePort_iff _ _ _).mpr h4
    refine ⟨_, h1, _, h2, _, h3, d, h4, _, h5, _, h6, ?_⟩
    rw [defaultPort_eq, ← e]

/-! ## The loop -/

/-- The loop without the end. -/
def UrlState.steps (s : UrlState) : Bytes → Res UrlState
  | [] => .ok s
  | b :: r => s.step b >>= fun s => UrlState.steps s r

theorem run_eq (s : UrlState) (x : Bytes) : s.run x = s.steps x >>= fun s => .ok s.finish := by
  induction x generalizing s with
  | nil => rfl
  | cons b r ih =>
    rw [UrlState.run, UrlState.steps]
    cases s.step b with
    | ok s => simp only [Res.bind_ok]; exact ih s
    | err => rfl
    | panic => rfl

theorem steps_append (s : UrlState) (x y : Bytes) : s.steps (x ++ y) = s.steps x >>= fun s => s.steps y := by
  induction x generalizing s with
  | nil => rfl
  | cons b r ih =>
    rw [List.cons_append, UrlState.steps, UrlState.steps]
    cases s.step b with
    | ok s => simp only [Res.bind_ok]; exact ih s
    | err => rfl
    | panic => rfl

theorem steps_cons_ok {s s' : UrlState} {b : UInt8} {r : Bytes} (h : s.step b = .ok s') : s.steps (b :: r) = s'.steps r := by
  rw [UrlState.steps, h, Res.bind_ok]

theorem step_plain (s : UrlState) {b : UInt8} (h : isToken b = true) (h1 : b ≠ 58) (h2 : b ≠ 64) (h3 : b ≠ 47) (h4 : b ≠ 63) :
    s.step b = .ok { s with val := s.val ++ [b] } := by
  rw [UrlState.step, if_neg h1, if_neg h2, if_neg h3, if_neg h4, h]; rfl

theorem steps_plain (s : UrlState) (x : Bytes) (h : ∀ b ∈ x, isToken b = true ∧ b ≠ 58 ∧ b ≠ 64 ∧ b ≠ 47 ∧ b ≠ 63) :
    s.steps x = .ok { s with val := s.val ++ x } := by
  induction x generalizing s with
  | nil => simp [UrlState.steps]
  | cons b r ih =>
    obtain ⟨h0, h1, h2, h3, h4⟩ := h b (by simp)
    rw [steps_cons_ok (step_plain s h0 h1 h2 h3 h4), ih _ fun c hc => h c (by simp [hc])]
    simp

theorem step_after (s : UrlState) {b : UInt8} (hs : s.isFirstSlash = true) (h : isToken b = true) (h2 : b ≠ 64)
    (h4 : b ≠ 63 ∨ s.path.isSome = true) : s.step b = .ok { s with val := s.val ++ [b] } := by
  rw [UrlState.step]
  split
  · rw [hs]; rfl
  · try rw [if_neg h2]
    split
    · rw [hs]; rfl
    · split
      · rw [hs]
        rcases h4 with h4 | h4
        · exact absurd ‹_› h4
        · obtain ⟨p, hp⟩ := Option.isSome_iff_exists.mp h4
          rw [hp]; rfl
      · rw [h]; rfl

theorem steps_after (s : UrlState) (x : Bytes) (hs : s.isFirstSlash = true)
    (h : ∀ b ∈ x, isToken b = true ∧ b ≠ 64 ∧ (b ≠ 63 ∨ s.path.isSome = true)) :
    s.steps x = .ok { s with val := s.val ++ x } := by
  induction x generalizing s with
  | nil => simp [UrlState.steps]
  | cons b r ih =>
    obtain ⟨h0, h1, h2⟩ := h b (by simp)
    rw [steps_cons_ok (step_after s hs h0 h1 h2), ih { s with val := s.val ++ [b] } hs fun c hc => h c (by simp [hc])]
    simp

theorem steps_tokens {s s' : UrlState} {x : Bytes} (h : s.steps x = .ok s') : ∀ b ∈ x, isToken b = true := by
  induction x generalizing s with
  | nil => simp
  | cons b r ih =>
    rw [UrlState.steps, Res.bind_eq_ok] at h
    obtain ⟨s1, h1, h2⟩ := h
    intro c hc
    rcases List.mem_cons.mp hc with rfl | hc
    · refine Classical.byContradiction fun hn => ?_
      have e58 : c ≠ 58 := by rintro rfl; exact hn (by decide)
      have e64 : c ≠ 64 := by rintro rfl; exact hn (by decide)
      have e47 : c ≠ 47 := by rintro rfl; exact hn (by decide)
      have e63 : c ≠ 63 := by rintro rfl; exact hn (by decide)
      rw [UrlState.step, if_neg e58, if_neg e64, if_neg e47, if_neg e63, if_pos (by simpa using hn)] at h1
      simp at h1
    · exact ih h2 c hc

/-! ## Cutting -/

theorem cut_none {c : UInt8} {s x : Bytes} (h : cut c s = (x, none)) : x = s ∧ c ∉ s := by
  induction s generalizing x with
  | nil => simp [cut] at h; simp [h]
  | cons b r ih =>
    rw [cut] at h
    split at h
    · simp at h
    · rename_i hb
      simp only [Prod.mk.injEq] at h
      obtain ⟨h1, h2⟩ := ih (x := (cut c r).1) (by rw [← h.2])
      refine ⟨by rw [← h.1, h1], ?_⟩
      simp only [List.mem_cons, not_or]
      exact ⟨fun e => hb e.symm, h2⟩

theorem cut_some {c : UInt8} {s x y : Bytes} (h : cut c s = (x, some y)) : s = x ++ c :: y ∧ c ∉ x := by
  induction s generalizing x with
  | nil => simp [cut] at h
  | cons b r ih =>
    rw [cut] at h
    split at h
    · rename_i hb
      simp only [Prod.mk.injEq, Option.some.injEq] at h
      obtain ⟨rfl, rfl⟩ := h
      simp [hb]
    · rename_i hb
      simp only [Prod.mk.injEq] at h
      obtain ⟨h1, h2⟩ := ih (x := (cut c r).1) (by rw [← h.2])
      rw [← h.1]
      refine ⟨by rw [List.cons_append, ← h1], ?_⟩
      simp only [List.mem_cons, not_or]
      exact ⟨fun e => hb e.symm, h2⟩

theorem cut_of_not_mem {c : UInt8} {s : Bytes} (h : c ∉ s) : cut c s = (s, none) := by
  induction s with
  | nil => rfl
  | cons b r ih =>
    simp only [List.mem_cons, not_or] at h
    rw [cut, if_neg (fun e => h.1 e.symm), ih h.2]

theorem cut_append {c : UInt8} {x y : Bytes} (h : c ∉ x) : cut c (x ++ c :: y) = (x, some y) := by
  induction x with
  | nil => rw [List.nil_append, cut, if_pos rfl]
  | cons b r ih =>
    simp only [List.mem_cons, not_or] at h
    rw [List.cons_append, cut, if_neg (fun e => h.1 e.symm), ih h.2]

/-! ## The authority -/

/-- The state before the end of the authority is seen. -/
def pend (r : RawParts) : UrlState :=
  match r.port with
  | some p => { username := r.username, password := r.password, domain := r.domain, val := p }
  | none => { username := r.username, password := r.password, val := r.domain.getD [] }

/-- Characters of an authority other than `:` and `@`. -/
def Auth (b : UInt8) : Prop := isToken b = true ∧ b ≠ 47 ∧ b ≠ 63

theorem host_steps (n w : Option Bytes) (h : Bytes) (ht : ∀ b ∈ h, Auth b) (h64 : (64 : UInt8) ∉ h) :
    (∀ r, hostParts h = some r → r.username = none ∧ r.password = none ∧ r.path = none ∧ r.query = none ∧ r.domain.isSome = true ∧
      UrlState.steps { username := n, password := w } h = .ok (pend { r with username := n, password := w })) ∧
    (hostParts h = none → UrlState.steps { username := n, password := w } h = .err .urlInvalid) := by
  have plain : ∀ (x : Bytes) (s : UrlState), (∀ b ∈ x, b ∈ h) → (58 : UInt8) ∉ x → s.steps x = .ok { s with val := s.val ++ x } := by
    intro x s hx h58
    refine steps_plain s x fun b hb => ⟨(ht b (hx b hb)).1, ?_, ?_, (ht b (hx b hb)).2.1, (ht b (hx b hb)).2.2⟩
    · rintro rfl; exact h58 hb
    · rintro rfl; exact h64 (hx _ hb)
  unfold hostParts
  rcases hc : cut 58 h with ⟨d, _ | p⟩
  · obtain ⟨rfl, h58⟩ := cut_none hc
    refine ⟨?_, by simp⟩
    rintro r hr
    simp only [Option.some.injEq] at hr
    subst hr
    refine ⟨rfl, rfl, rfl, rfl, rfl, ?_⟩
    rw [plain d _ (fun b hb => hb) h58]
    simp [pend]
  · obtain ⟨e, h58⟩ := cut_some hc
    have hd : ∀ b ∈ d, b ∈ h := fun b hb => by rw [e]; simp [hb]
    have hp : ∀ b ∈ p, b ∈ h := fun b hb => by rw [e]; simp [hb]
    have start : UrlState.steps { username := n, password := w } h =
        UrlState.steps { username := n, password := w, domain := some d } p := by
      rw [e, steps_append, plain d _ hd h58, Res.bind_ok]
      exact steps_cons_ok (by simp [UrlState.step])
    rw [start]
    simp only []
    by_cases h2 : (58 : UInt8) ∈ p
    · rw [if_pos h2]
      refine ⟨by simp, fun _ => ?_⟩
      rcases hc2 : cut 58 p with ⟨p1, _ | p2⟩
      · exact absurd h2 (cut_none hc2).2
      · obtain ⟨e2, h58'⟩ := cut_some hc2
        rw [e2, steps_append, plain p1 _ (fun b hb => hp b (by rw [e2]; simp [hb])) h58', Res.bind_ok, UrlState.steps]
        simp [UrlState.step]
    · rw [if_neg h2]
      refine ⟨?_, by simp⟩
      rintro r hr
      simp only [Option.some.injEq] at hr
      subst hr
      refine ⟨rfl, rfl, rfl, rfl, rfl, ?_⟩
      rw [plain p _ hp h2]
      simp [pend]

theorem authority_steps (a : Bytes) (ht : ∀ b ∈ a, Auth b) (h64 : a.count 64 ≤ 1) :
    (∀ r, authorityParts a = some r → r.path = none ∧ r.query = none ∧ r.domain.isSome = true ∧
      UrlState.steps {} a = .ok (pend r)) ∧
    (authorityParts a = none → UrlState.steps {} a = .err .urlInvalid) := by
  unfold authorityParts
  rcases hc : cut 64 a with ⟨h, _ | h⟩
  · obtain ⟨rfl, hn⟩ := cut_none hc
    obtain ⟨h1, h2⟩ := host_steps none none h ht hn
    refine ⟨fun r hr => ?_, h2⟩
    obtain ⟨e1, e2, e3, e4, e5, e6⟩ := h1 r hr
    refine ⟨e3, e4, e5, ?_⟩
    rw [e6]
    cases r; simp only at e1 e2; subst e1 e2; rfl
  · rename_i ui
    obtain ⟨e, hn⟩ := cut_some hc
    have hui : ∀ b ∈ ui, b ∈ a := fun b hb => by rw [e]; simp [hb]
    have hh : ∀ b ∈ h, b ∈ a := fun b hb => by rw [e]; simp [hb]
    have h64' : (64 : UInt8) ∉ h := by
      intro hm
      have := List.count_pos_iff.mpr hm
      rw [e, List.count_append, List.count_cons_self] at h64
      omega
    have plain : ∀ (x : Bytes) (s : UrlState), (∀ b ∈ x, b ∈ ui) → (58 : UInt8) ∉ x → s.steps x = .ok { s with val := s.val ++ x } := by
      intro x s hx h58
      refine steps_plain s x fun b hb => ⟨(ht b (hui b (hx b hb))).1, ?_, ?_, (ht b (hui b (hx b hb))).2.1, (ht b (hui b (hx b hb))).2.2⟩
      · rintro rfl; exact h58 hb
      · rintro rfl; exact hn (hx _ hb)
    simp only []
    rcases hc2 : cut 58 ui with ⟨u, _ | p⟩
    · obtain ⟨rfl, h58⟩ := cut_none hc2
      refine ⟨by simp, fun _ => ?_⟩
      rw [e, steps_append, plain u _ (fun b hb => hb) h58, Res.bind_ok, UrlState.steps]
      simp [UrlState.step]
    · obtain ⟨e2, h58⟩ := cut_some hc2
      have start : UrlState.steps {} a = UrlState.steps { domain := some u } (p ++ 64 :: h) := by
        rw [e, e2, List.append_assoc, steps_append, plain u _ (fun b hb => by rw [e2]; simp [hb]) h58, Res.bind_ok]
        exact steps_cons_ok (by simp [UrlState.step])
      rw [start]
      simp only []
      by_cases h2 : (58 : UInt8) ∈ p
      · rw [if_pos h2]
        refine ⟨by simp, fun _ => ?_⟩
        rcases hc3 : cut 58 p with ⟨p1, _ | p2⟩
        · exact absurd h2 (cut_none hc3).2
        · obtain ⟨e3, h58'⟩ := cut_some hc3
          rw [e3, List.append_assoc, steps_append, plain p1 _ (fun b hb => by rw [e2, e3]; simp [hb]) h58', Res.bind_ok,
            List.cons_append, UrlState.steps]
          simp [UrlState.step]
      · rw [if_neg h2]
        have start2 : UrlState.steps { domain := some u } (p ++ 64 :: h) =
            UrlState.steps { username := some u, password := some p } h := by
          rw [steps_append, plain p _ (fun b hb => by rw [e2]; simp [hb]) h2, Res.bind_ok]
          exact steps_cons_ok (by simp [UrlState.step])
        rw [start2]
        obtain ⟨h3, h4⟩ := host_steps (some u) (some p) h (fun b hb => ht b (hh b hb)) h64'
        constructor
        · intro r hr
          rw [Option.map_eq_some_iff] at hr
          obtain ⟨r', hr', rfl⟩ := hr
          obtain ⟨_, _, e3, e4, e5, e6⟩ := h3 r' hr'
          exact ⟨e3, e4, e5, e6⟩
        · intro hr
          exact h4 (by simpa using hr)

/-! ## Path and query -/

theorem tail_steps (s : UrlState) (t : Bytes) (hs : s.isFirstSlash = true) (hp : s.path = none)
    (hd : s.domain.isSome = true ∨ s.hasDomain = false) (hq : s.query = none)
    (ht : ∀ b ∈ t, isToken b = true ∧ b ≠ 64) :
    ∃ s', (s.steps t >>= fun s => .ok s.finish) = .ok s' ∧
      s'.raw = { s.raw with path := some (s.val ++ (cut 63 t).1), query := (cut 63 t).2 } := by
  have fin : ∀ s : UrlState, s.path = none → s.isFirstSlash = true → (s.domain.isSome = true ∨ s.hasDomain = false) →
      s.finish = { s with path := some s.val, val := [] } := by
    intro s h1 h2 h3
    unfold UrlState.finish
    rw [h1]
    simp only [Option.isSome_none, Bool.false_eq_true, if_false, h2]
    rcases h3 with h3 | h3
    · rw [if_pos h3]; rfl
    · rw [h3]; simp
  rcases hc : cut 63 t with ⟨p, _ | q⟩
  · obtain ⟨rfl, h63⟩ := cut_none hc
    rw [steps_after s p hs fun b hb => ⟨(ht b hb).1, (ht b hb).2, .inl (by rintro rfl; exact h63 hb)⟩, Res.bind_ok]
    refine ⟨_, rfl, ?_⟩
    rw [fin]
    · simp [UrlState.raw, hq]
    · exact hp
    · exact hs
    · exact hd
  · obtain ⟨e, h63⟩ := cut_some hc
    have ht1 : ∀ b ∈ p, isToken b = true ∧ b ≠ 64 ∧ (b ≠ 63 ∨ s.path.isSome = true) := fun b hb =>
      ⟨(ht b (by rw [e]; simp [hb])).1, (ht b (by rw [e]; simp [hb])).2, .inl (by rintro rfl; exact h63 hb)⟩
    rw [e, steps_append, steps_after s p hs ht1, Res.bind_ok]
    rw [steps_cons_ok (s' := { s with val := [], path := some (s.val ++ p) }) (by simp [UrlState.step, hs, hp])]
    have ht2 : ∀ b ∈ q, isToken b = true ∧ b ≠ 64 ∧
        (b ≠ 63 ∨ ({ s with val := [], path := some (s.val ++ p) } : UrlState).path.isSome = true) := fun b hb =>
      ⟨(ht b (by rw [e]; simp [hb])).1, (ht b (by rw [e]; simp [hb])).2, .inr rfl⟩
    rw [steps_after { s with val := [], path := some (s.val ++ p) } q hs ht2, Res.bind_ok]
    refine ⟨_, rfl, ?_⟩
    simp [UrlState.finish, UrlState.raw]

/-! ## Absolute form -/

theorem absolute_run (a t : Bytes) (ha : ∀ b ∈ a, isToken b = true ∧ b ≠ 47 ∧ b ≠ 63) (h64 : a.count 64 ≤ 1)
    (ht : ∀ b ∈ t, isToken b = true ∧ b ≠ 64) (h47 : t = [] ∨ t.head? = some 47) :
    (∀ r, authorityParts a = some r → ∃ s, UrlState.run {} (a ++ t) = .ok s ∧ s.raw = pathParts t r) ∧
    (authorityParts a = none → UrlState.run {} (a ++ t) = .err .urlInvalid) := by
  obtain ⟨h1, h2⟩ := authority_steps a ha h64
  constructor
  · intro r hr
    obtain ⟨e1, e2, e3, e4⟩ := h1 r hr
    obtain ⟨d, hd⟩ := Option.isSome_iff_exists.mp e3
    rw [run_eq, steps_append, e4, Res.bind_ok]
    obtain ⟨n, w, dd, po, pa, q⟩ := r
    simp only at e1 e2 hd
    subst e1 e2 hd
    rcases h47 with rfl | h47
    · rw [UrlState.steps, Res.bind_ok]
      refine ⟨_, rfl, ?_⟩
      unfold pend
      cases po with
      | none => simp [UrlState.finish, UrlState.raw, pathParts]
      | some p => simp [UrlState.finish, UrlState.raw, pathParts]
    · obtain ⟨c, t', rfl⟩ : ∃ c t', t = c :: t' := by
        cases t with
        | nil => simp at h47
        | cons c t' => exact ⟨c, t', rfl⟩
      simp only [List.head?_cons, Option.some.injEq] at h47
      subst h47
      have hs : ∀ x : RawParts, x.domain = some d → UrlState.steps (pend x) (47 :: t') =
          UrlState.steps { username := x.username, password := x.password, domain := x.domain, port := x.port, isFirstSlash := true, val := [47] } t' := by
        intro x hx
        apply steps_cons_ok
        unfold pend
        cases hp : x.port with
        | none => simp [UrlState.step, hx]
        | some p => simp [UrlState.step, hx]
      rw [hs _ rfl]
      obtain ⟨s', h3, h4⟩ := tail_steps
        { username := n, password := w, domain := some d, port := po, isFirstSlash := true, val := [47] } t' rfl rfl (.inl rfl) rfl
        (fun b hb => ht b (by simp [hb]))
      refine ⟨s', h3, ?_⟩
      rw [h4]
      simp [pathParts, UrlState.raw, cut]
  · intro hr
    rw [run_eq, steps_append, h2 hr]; rfl

theorem origin_run (t : Bytes) (ht : ∀ b ∈ t, isToken b = true ∧ b ≠ 64) (h47 : t.head? = some 47) :
    ∃ s, UrlState.run { isFirstSlash := true, hasDomain := false } t = .ok s ∧ s.raw = pathParts t {} := by
  rw [run_eq]
  obtain ⟨s', h3, h4⟩ := tail_steps { isFirstSlash := true, hasDomain := false } t rfl rfl (.inr rfl) rfl ht
  refine ⟨s', h3, ?_⟩
  rw [h4]
  have : t ≠ [] := by rintro rfl; simp at h47
  simp [pathParts, UrlState.raw, this]

/-! ## The scheme -/

theorem schemeChar_eq (b : UInt8) : isSchemeToken b =
    (asciiBytes "ABCDEFGHIJKLMNOPQRSTUVWXYZabcdefghijklmnopqrstuvwxyz0123456789+-.").contains b := by
  revert b; decide +kernel

theorem isAlpha_eq (b : UInt8) : isAlpha b = isLetter b := by
  revert b; decide +kernel

theorem tryFrom_short {t : Bytes} (h : ¬ t.length > 64) : ∃ s, Scheme.tryFrom t = .ok s := by
  unfold Scheme.tryFrom
  rw [if_neg h]
  repeat' split
  all_goals exact ⟨_, rfl⟩

theorem schemePrefix_ok {t : Bytes} (rest : Bytes) (h : SchemeText t) :
    parseSchemePrefix (t ++ [58, 47, 47] ++ rest) = (Scheme.tryFrom t, rest) := by
  obtain ⟨c, r, rfl, -⟩ := h.head
  have hall : (c :: r).all isSchemeToken = true :=
    List.all_eq_true.mpr fun b hb => by rw [schemeChar_eq]; exact h.chars b hb
  have h1 : parseTokenBy isSchemeToken .headerValue ((c :: r) ++ [58, 47, 47] ++ rest) = (.ok (c :: r), 58 :: 47 :: 47 :: rest) := by
    rw [List.append_assoc]
    unfold parseTokenBy
    exact (parseTokenEmpty_eq (b := 58) (r := 47 :: 47 :: rest) _ _ hall (by decide +kernel)).trans (if_neg (by simp))
  have hl : ¬ (c :: r).length > 64 := by have := h.len; omega
  unfold parseSchemePrefix parseScheme
  rw [h1]
  obtain ⟨s, hs⟩ := tryFrom_short hl
  simp only [thenRead]
  rw [if_neg hl, hs]
  rfl

theorem expectByte_ok {c : UInt8} {e : Error} {buf r : Bytes} (h : expectByte c e buf = (.ok (), r)) : buf = c :: r := by
  cases buf with
  | nil => simp [expectByte] at h
  | cons b t =>
    rw [expectByte] at h
    split at h
    · simp at h; rw [h, ‹b = c›]
    · simp at h

theorem schemePrefix_inv {buf rest : Bytes} {s : Scheme} {c : UInt8} (hc : buf.head? = some c) (hl : isLetter c = true)
    (h : parseSchemePrefix buf = (.ok s, rest)) :
    ∃ t, SchemeText t ∧ buf = t ++ [58, 47, 47] ++ rest ∧ Scheme.tryFrom t = .ok s := by
  unfold parseSchemePrefix parseScheme parseTokenBy at h
  obtain ⟨a, b1, h1, h⟩ := thenRead_ok h
  obtain ⟨t, b0, h0, hq⟩ := thenRead_ok h1
  obtain ⟨⟨⟩, b2, h2, h⟩ := thenRead_ok h
  obtain ⟨⟨⟩, b3, h3, h⟩ := thenRead_ok h
  obtain ⟨⟨⟩, b4, h4, h⟩ := thenRead_ok h
  simp only [Prod.mk.injEq, Res.ok.injEq] at h
  obtain ⟨rfl, rfl⟩ := h
  split at hq
  · simp at hq
  · rename_i hlen
    simp only [Prod.mk.injEq] at hq
    obtain ⟨hq, rfl⟩ := hq
    obtain ⟨hall, hb⟩ := token_ok h0
    rcases hb with ⟨x, y, e, hx, hne, hb⟩ | ⟨hf, -⟩
    · refine ⟨t, ⟨?_, ?_, by omega⟩, ?_, hq⟩
      · obtain ⟨c', r', rfl⟩ := List.exists_cons_of_ne_nil hne
        rw [hb] at hc
        simp at hc
        exact ⟨c', r', rfl, by rw [hc]; exact hl⟩
      · intro b hb
        rw [← schemeChar_eq]
        exact List.all_eq_true.mp hall b hb
      · rw [hb, expectByte_ok h2, expectByte_ok h3, expectByte_ok h4]; simp
    · simp at hf

/-- The scheme of a text. -/
theorem tryFrom_asStr {t : Bytes} {s : Scheme} (h : Scheme.tryFrom t = .ok s) :
    s.asStr = t ∧ s ≠ .none ∧ t.length ≤ 64 ∧ ∀ x, s = .extension x → ∀ e ∈ schemeNames, x ≠ asciiBytes e.2 := by
  unfold Scheme.tryFrom at h
  split at h
  · simp at h
  · rename_i h0
    have h0 : t.length ≤ 64 := by omega
    split at h
    · rename_i e; rw [Res.ok.injEq] at h; subst h; exact ⟨e.symm, by simp, h0, by simp⟩
    · split at h
      · rename_i e; rw [Res.ok.injEq] at h; subst h; exact ⟨e.symm, by simp, h0, by simp⟩
      · split at h
        · rename_i e; rw [Res.ok.injEq] at h; subst h; exact ⟨e.symm, by simp, h0, by simp⟩
        · split at h
          · rename_i e; rw [Res.ok.injEq] at h; subst h; exact ⟨e.symm, by simp, h0, by simp⟩
          · split at h
            · rename_i e; rw [Res.ok.injEq] at h; subst h; exact ⟨e.symm, by simp, h0, by simp⟩
            · rename_i h1 h2 h3 h4 h5
              rw [Res.ok.injEq] at h; subst h
              refine ⟨rfl, by simp, h0, ?_⟩
              rintro x ⟨⟩
              simp only [schemeNames, List.mem_cons, List.not_mem_nil, or_false]
              rintro e (rfl | rfl | rfl | rfl | rfl)
              · exact h1
              · exact h2
              · exact h3
              · exact h4
              · exact h5

theorem asStr_tryFrom {s : Scheme} (h : s ≠ .none) (hl : s.asStr.length ≤ 64)
    (hx : ∀ x, s = .extension x → ∀ e ∈ schemeNames, x ≠ asciiBytes e.2) : Scheme.tryFrom s.asStr = .ok s := by
  cases s with
  | none => exact absurd rfl h
  | extension x =>
    have hx := hx x rfl
    simp only [schemeNames, List.mem_cons, List.not_mem_nil, or_false] at hx
    have h1 := hx _ (.inl rfl)
    have h2 := hx _ (.inr (.inl rfl))
    have h3 := hx _ (.inr (.inr (.inl rfl)))
    have h4 := hx _ (.inr (.inr (.inr (.inl rfl))))
    have h5 := hx _ (.inr (.inr (.inr (.inr rfl))))
    simp only [Scheme.asStr] at *
    rw [Scheme.tryFrom, if_neg (by omega), if_neg h1, if_neg h2, if_neg h3, if_neg h4, if_neg h5]
  | _ => decide +kernel

/-! ## `Url::parse` -/

theorem parse_absolute_eq (t rest : Bytes) (h : SchemeText t) :
    Url.parse (t ++ [58, 47, 47] ++ rest) = (Scheme.tryFrom t >>= fun scheme => UrlState.run {} rest >>= fun s => s.build scheme) := by
  have h1 := schemePrefix_ok rest h
  obtain ⟨c, r, rfl, hc⟩ := h.head
  rw [← isAlpha_eq] at hc
  rw [List.cons_append, List.cons_append] at *
  rw [Url.parse, if_pos hc, h1]

theorem parse_origin_eq (t : Bytes) (h : t.head? = some 47) :
    Url.parse t = (UrlState.run { isFirstSlash := true, hasDomain := false } t >>= fun s => s.build .none) := by
  cases t with
  | nil => simp at h
  | cons c r =>
    simp only [List.head?_cons, Option.some.injEq] at h
    subst h
    rw [Url.parse, if_neg (by decide), if_pos rfl]

/-- A URL that parses is in absolute or in origin form. -/
theorem parse_forms {s : Bytes} {u : Url} (h : Url.parse s = .ok u) :
    (∃ t rest scheme st, SchemeText t ∧ s = t ++ [58, 47, 47] ++ rest ∧ Scheme.tryFrom t = .ok scheme ∧
      UrlState.run {} rest = .ok st ∧ IsUrl scheme st.raw u) ∨
    (s.head? = some 47 ∧ ∃ st, UrlState.run { isFirstSlash := true, hasDomain := false } s = .ok st ∧ IsUrl .none st.raw u) := by
  cases s with
  | nil => simp [Url.parse] at h
  | cons b r =>
    rw [Url.parse] at h
    split at h
    · rename_i hb
      left
      rw [isAlpha_eq] at hb
      rw [Res.bind_eq_ok] at h
      obtain ⟨scheme, h1, h⟩ := h
      rw [Res.bind_eq_ok] at h
      obtain ⟨st, h2, h3⟩ := h
      obtain ⟨t, ht, e, h4⟩ := schemePrefix_inv (rest := (parseSchemePrefix (b :: r)).2) (c := b) rfl hb
        (by rw [← h1])
      exact ⟨t, _, scheme, st, ht, e, h4, h2, (build_iff _ _ _).mp h3⟩
    · split at h
      · rename_i hb
        right
        subst hb
        rw [Res.bind_eq_ok] at h
        obtain ⟨st, h2, h3⟩ := h
        exact ⟨rfl, st, h2, (build_iff _ _ _).mp h3⟩
      · simp at h

end Webparse
