import Verif.Props.UrlBuilder
import Verif.Props.UrlEq

/-!
# C48, C87 and C106, exactly

Which URLs that text can carry are read back from their text: those without separators in their parts, and no others.
-/

namespace Webparse
open Spec

theorem encode_kept (s : Bytes) : ∀ b ∈ urlEncode s, isKept b = true ∨ b = 37 := by
  intro b hb
  rw [urlEncode_eq, List.mem_flatMap] at hb
  obtain ⟨a, -, ha⟩ := hb
  have hx : ∀ a : UInt8, isKept (toHex (a / 16)) = true ∧ isKept (toHex (a % 16)) = true := by decide +kernel
  unfold encodeByte at ha
  split at ha
  · rename_i hk
    rw [List.mem_singleton] at ha
    subst ha
    exact .inl (by rw [← isNotUritrans_eq]; exact hk)
  · simp only [List.mem_cons, List.not_mem_nil, or_false] at ha
    rcases ha with rfl | rfl | rfl
    · exact .inr rfl
    · exact .inl (hx a).1
    · exact .inl (hx a).2

theorem encodeByte_len (b : UInt8) : (encodeByte b).length ≤ 3 ∧ (isKept b = true → (encodeByte b).length = 1) := by
  revert b; decide +kernel

theorem kept_len {raw v : Bytes} (h : Decodes raw v) (hk : ∀ b ∈ raw, isKept b = true ∨ b = 37) : (urlEncode v).length ≤ raw.length := by
  induction h with
  | nil => simp [urlEncode_eq]
  | @plain b s v hb _ ih =>
    have := ih fun c hc => hk c (List.mem_cons_of_mem _ hc)
    have h1 := (encodeByte_len b).2 ((hk b (by simp)).resolve_right hb)
    rw [urlEncode_eq] at this ⊢
    rw [List.flatMap_cons, List.length_append, List.length_cons]
    omega
  | @escape x y t u s v _ _ _ ih =>
    have := ih fun c hc => hk c (by simp [hc])
    have h1 := (encodeByte_len (UInt8.ofNat (16 * t + u))).1
    rw [urlEncode_eq] at this ⊢
    rw [List.flatMap_cons, List.length_append]
    simp only [List.length_cons]
    omega

theorem mem_encode {s : Bytes} {c : UInt8} (hc : c ∈ asciiBytes ":@/?") (h : c ∈ s) : c ∈ urlEncode s := by
  rw [urlEncode_eq, List.mem_flatMap]
  refine ⟨c, h, ?_⟩
  revert c
  have : ∀ c ∈ asciiBytes ":@/?", c ∈ encodeByte c := by decide +kernel
  intro c hc _
  exact this c hc

theorem decodes_slash {s v : Bytes} (h : Decodes s v) (hm : (47 : UInt8) ∈ s) : (47 : UInt8) ∈ v := by
  induction h with
  | nil => simp at hm
  | plain _ _ ih =>
    rcases List.mem_cons.mp hm with e | hm
    · exact List.mem_cons.mpr (.inl e)
    · exact List.mem_cons.mpr (.inr (ih hm))
  | escape hx hy _ ih =>
    simp only [List.mem_cons] at hm
    rcases hm with e | e | e | hm
    · simp at e
    · subst e; simp [show hexDigit? 47 = none by decide] at hx
    · subst e; simp [show hexDigit? 47 = none by decide] at hy
    · exact List.mem_cons.mpr (.inr (ih hm))

/-! ### An `@` after the first slash -/

theorem step_query {s s' : UrlState} {b : UInt8} (h : s.step b = .ok s') : s'.query = s.query ∧
    (b ≠ 64 → s'.username = s.username ∧ s'.password = s.password) := by
  unfold UrlState.step at h
  (repeat' split at h) <;> first
    | (simp at h; done)
    | (simp only [Res.ok.injEq] at h; subst h; simp_all)

theorem steps_query {s s' : UrlState} {x : Bytes} (h : s.steps x = .ok s') : s'.query = s.query ∧
    ((64 : UInt8) ∉ x → s'.username = s.username ∧ s'.password = s.password) := by
  induction x generalizing s with
  | nil =>
    simp only [UrlState.steps, Res.ok.injEq] at h
    subst h
    exact ⟨rfl, fun _ => ⟨rfl, rfl⟩⟩
  | cons b r ih =>
    rw [UrlState.steps, Res.bind_eq_ok] at h
    obtain ⟨t, h1, h2⟩ := h
    obtain ⟨a1, a2⟩ := ih h2
    obtain ⟨b1, b2⟩ := step_query h1
    refine ⟨a1.trans b1, fun hm => ?_⟩
    rw [List.mem_cons, not_or] at hm
    obtain ⟨c1, c2⟩ := a2 hm.2
    obtain ⟨d1, d2⟩ := b2 (fun e => hm.1 e.symm)
    exact ⟨c1.trans d1, c2.trans d2⟩

theorem late_step (s s' : UrlState) (seen : Bytes) (b : UInt8)
    (h : s.isFirstSlash = true ∧ s.hasDomain = true ∧ s.domain = none ∧ (s.path = none → s.val = seen)) (_ : True) (e : s.step b = .ok s') :
    s'.isFirstSlash = true ∧ s'.hasDomain = true ∧ s'.domain = none ∧ (s'.path = none → s'.val = seen ++ [b]) := by
  obtain ⟨i1, i2, i3, i4⟩ := h
  unfold UrlState.step at e
  (repeat' split at e) <;> first
    | (simp at e; done)
    | (simp only [Res.ok.injEq] at e; subst e; simp_all)

theorem late_at {pre post : Bytes} {st : UrlState} (h : UrlState.run {} (pre ++ 64 :: post) = .ok st) (h47 : (47 : UInt8) ∈ pre) :
    st.domain = none ∨ (st.domain = some post ∧ st.path = none ∧ st.query = none) := by
  obtain ⟨s', h1, rfl⟩ := run_ok h
  have hq := (steps_query h1).1
  rw [steps_append, Res.bind_eq_ok] at h1
  obtain ⟨t, h2, h3⟩ := h1
  rw [UrlState.steps, Res.bind_eq_ok] at h3
  obtain ⟨t2, h4, h5⟩ := h3
  obtain ⟨k1, k2⟩ := steps_slash h2
  have e : t2 = { t with username := t.domain, domain := none, password := some t.val, val := [] } := by
    unfold UrlState.step at h4
    simp only [show (64 : UInt8) ≠ 58 by decide, if_false, if_true] at h4
    split at h4
    · simp at h4
    · simpa [eq_comm] using h4
  have := steps_inv (Q := fun _ _ => True) late_step post t2 s' [] ⟨by rw [e]; simp [k1, h47], by rw [e]; simp [k2], by rw [e], by rw [e]; simp⟩
    (fun _ _ _ _ _ _ => trivial) h5
  obtain ⟨i1, i2, i3, i4⟩ := this
  unfold UrlState.finish
  cases hp : s'.path with
  | some x => left; simp [i3]
  | none =>
    right
    have := i4 hp
    simp only [List.nil_append] at this
    simp [i3, i2, hp, this, hq]

/-! ### Sizes before the first slash -/

/-- A character that separates parts before the first slash. -/
def isSep (b : UInt8) : Bool := b == 58 || b == 64 || b == 63

theorem size_step {s s' : UrlState} {b : UInt8} (h : s.step b = .ok s') (h1 : s.isFirstSlash = false) (hb : b ≠ 47) :
    (s'.domain.getD []).length + s'.val.length + (if isSep b then 1 else 0) ≤ (s.domain.getD []).length + s.val.length + 1 ∧
    (∀ c ∈ s'.domain.getD [] ++ s'.val, c ∈ s.domain.getD [] ++ s.val ∨ c = b) := by
  have hd : s.domain.isNone = true → (s.domain.getD []) = [] := by cases s.domain <;> simp
  unfold isSep
  unfold UrlState.step at h
  rw [h1] at h
  (repeat' split at h) <;> first
    | (simp at h; done)
    | (exact absurd ‹b = 47› hb)
    | (simp only [Res.ok.injEq] at h; subst h; simp_all; done)
    | (simp only [Res.ok.injEq] at h; subst h; simp_all; omega)
    | (simp only [Res.ok.injEq] at h; subst h; simp_all; refine ⟨by omega, fun c hc => ?_⟩; rcases hc with hc | hc | hc <;> simp [hc])

theorem size_steps {s s' : UrlState} {x : Bytes} (h : s.steps x = .ok s') (h1 : s.isFirstSlash = false) (h47 : (47 : UInt8) ∉ x) :
    (s'.domain.getD []).length + s'.val.length + x.countP isSep ≤ (s.domain.getD []).length + s.val.length + x.length ∧
    (∀ c ∈ s'.domain.getD [] ++ s'.val, c ∈ s.domain.getD [] ++ s.val ∨ c ∈ x) := by
  induction x generalizing s with
  | nil =>
    simp only [UrlState.steps, Res.ok.injEq] at h
    subst h
    simp
  | cons b r ih =>
    rw [UrlState.steps, Res.bind_eq_ok] at h
    obtain ⟨t, h2, h3⟩ := h
    rw [List.mem_cons, not_or] at h47
    have hb : b ≠ 47 := fun e => h47.1 e.symm
    obtain ⟨a1, a2⟩ := ih h3 (by rw [(step_slash h2).1, h1]; simpa using hb) h47.2
    obtain ⟨b1, b2⟩ := size_step h2 h1 hb
    rw [List.countP_cons, List.length_cons]
    refine ⟨by omega, fun c hc => ?_⟩
    rcases a2 c hc with h | h
    · rcases b2 c h with h | h
      · exact .inl h
      · exact .inr (by simp [h])
    · exact .inr (by simp [h])

/-- User information before an `@` that is read as it was written has no separators. -/
theorem user_exact {n w post : Bytes} {st : UrlState} (h : UrlState.run {} (urlEncode n ++ 58 :: urlEncode w ++ 64 :: post) = .ok st)
    (h47 : (47 : UInt8) ∉ urlEncode n ++ 58 :: urlEncode w) (h64 : (64 : UInt8) ∉ post)
    (hn : PartIs st.username (some n)) (hw : PartIs st.password (some w)) :
    (∀ b ∈ urlEncode n, isSep b = false) ∧ (∀ b ∈ urlEncode w, isSep b = false) := by
  obtain ⟨s', h1, rfl⟩ := run_ok h
  rw [steps_append, Res.bind_eq_ok] at h1
  obtain ⟨t, h2, h3⟩ := h1
  rw [UrlState.steps, Res.bind_eq_ok] at h3
  obtain ⟨t2, h4, h5⟩ := h3
  have e : t2 = { t with username := t.domain, domain := none, password := some t.val, val := [] } := by
    unfold UrlState.step at h4
    simp only [show (64 : UInt8) ≠ 58 by decide, if_false, if_true] at h4
    split at h4
    · simp at h4
    · simpa [eq_comm] using h4
  obtain ⟨u1, u2⟩ := (steps_query h5).2 h64
  have f1 : s'.finish.username = t.domain := by
    rw [show t.domain = s'.username by rw [u1, e]]
    unfold UrlState.finish; repeat' split
    all_goals rfl
  have f2 : s'.finish.password = some t.val := by
    rw [show some t.val = s'.password by rw [u2, e]]
    unfold UrlState.finish; repeat' split
    all_goals rfl
  rw [f1] at hn
  rw [f2] at hw
  obtain ⟨z1, z2⟩ := size_steps h2 rfl h47
  cases hd : t.domain with
  | none => rw [hd] at hn; simp [PartIs] at hn
  | some D =>
    rw [hd] at hn z1 z2
    obtain ⟨v, hv, -, ev⟩ := hn
    obtain ⟨v', hv', -, ev'⟩ := hw
    simp only [Option.some.injEq] at ev ev'
    subst ev ev'
    have hk : ∀ c ∈ D ++ t.val, isKept c = true ∨ c = 37 := by
      intro c hc
      rcases z2 c (by simpa using hc) with h | h
      · simp at h
      · rcases List.mem_append.mp h with h | h
        · exact encode_kept _ c h
        · rcases List.mem_cons.mp h with rfl | h
          · exact .inl (by decide +kernel)
          · exact encode_kept _ c h
    have l1 := kept_len hv fun c hc => hk c (by simp [hc])
    have l2 := kept_len hv' fun c hc => hk c (by simp [hc])
    rw [List.countP_append, List.countP_cons] at z1
    simp only [Option.getD_some, Option.getD_none, List.length_nil, List.length_append, List.length_cons, show isSep 58 = true by decide, if_true] at z1
    have c1 : (urlEncode n).countP isSep = 0 := by omega
    have c2 : (urlEncode w).countP isSep = 0 := by omega
    rw [List.countP_eq_zero] at c1 c2
    exact ⟨fun b hb => by simpa using c1 b hb, fun b hb => by simpa using c2 b hb⟩

/-- A path read as it was written has no `?`. -/
theorem path_exact {p : Bytes} {q : Option Bytes} (h : PartIs (some (cut 63 (urlEncode p ++ queryText q)).1) (some p)) : (63 : UInt8) ∉ p := by
  intro hm
  have hm' := mem_encode (by decide) hm
  rcases hc : cut 63 (urlEncode p) with ⟨X, _ | Y⟩
  · exact (cut_none hc).2 hm'
  · obtain ⟨e, h63⟩ := cut_some hc
    rw [e, List.append_assoc, List.cons_append, cut_append h63] at h
    obtain ⟨v, hv, -, ev⟩ := h
    simp only [Option.some.injEq] at ev
    subst ev
    have := kept_len hv fun c hc => encode_kept p c (by rw [e]; simp [hc])
    rw [e] at this
    simp at this

/-! ### What every reading of a host gives -/

theorem shape_step {s s' : UrlState} {b : UInt8} (h : s.step b = .ok s')
    (hi : s.username.isSome = s.password.isSome ∧ (s.isFirstSlash = false → s.path = none) ∧
      (s.isFirstSlash = true → s.domain = none ∨ ((s.path = none → s.val.head? = some 47) ∧ ∀ p, s.path = some p → p.head? = some 47))) :
    s'.username.isSome = s'.password.isSome ∧ (s'.isFirstSlash = false → s'.path = none) ∧
      (s'.isFirstSlash = true → s'.domain = none ∨ ((s'.path = none → s'.val.head? = some 47) ∧ ∀ p, s'.path = some p → p.head? = some 47)) := by
  obtain ⟨i1, i2, i3⟩ := hi
  have hh : ∀ (v : Bytes) (c : UInt8), v.head? = some 47 → (v ++ [c]).head? = some 47 := by
    intro v c hv; cases v with
    | nil => simp at hv
    | cons a r => simpa using hv
  have hd : s.domain.isNone = false → s.domain.isSome = true := by cases s.domain <;> simp
  unfold UrlState.step at h
  (repeat' split at h) <;> first
    | (simp at h; done)
    | (simp only [Res.ok.injEq] at h; subst h; simp_all; done)
    | (simp only [Res.ok.injEq] at h; subst h
       refine ⟨i1, i2, fun e => ?_⟩
       rcases i3 e with e | ⟨e1, e2⟩
       · exact .inl e
       · exact .inr ⟨fun e => hh _ _ (e1 e), e2⟩)
    | (simp only [Res.ok.injEq] at h; subst h
       refine ⟨i1, by simp_all, fun e => ?_⟩
       rcases i3 e with e | ⟨e1, e2⟩
       · exact .inl e
       · simp_all)

theorem shape_steps {s s' : UrlState} {x : Bytes} (h : s.steps x = .ok s')
    (hi : s.username.isSome = s.password.isSome ∧ (s.isFirstSlash = false → s.path = none) ∧
      (s.isFirstSlash = true → s.domain = none ∨ ((s.path = none → s.val.head? = some 47) ∧ ∀ p, s.path = some p → p.head? = some 47))) :
    s'.username.isSome = s'.password.isSome ∧ (s'.isFirstSlash = false → s'.path = none) ∧
      (s'.isFirstSlash = true → s'.domain = none ∨ ((s'.path = none → s'.val.head? = some 47) ∧ ∀ p, s'.path = some p → p.head? = some 47)) := by
  induction x generalizing s with
  | nil =>
    simp only [UrlState.steps, Res.ok.injEq] at h
    subst h
    exact hi
  | cons b r ih =>
    rw [UrlState.steps, Res.bind_eq_ok] at h
    obtain ⟨t, h1, h2⟩ := h
    exact ih h2 (shape_step h1 hi)

/-- A URL read with a host has a path that is absent or starts with `/`, and a user name exactly if it has a password. -/
theorem run_shape {x : Bytes} {st : UrlState} (h : UrlState.run {} x = .ok st) :
    st.username.isSome = st.password.isSome ∧ (st.domain ≠ none → ∀ p, st.path = some p → p.head? = some 47) := by
  obtain ⟨s', h1, rfl⟩ := run_ok h
  have hd := (steps_slash h1).2
  obtain ⟨i1, i2, i3⟩ := shape_steps h1 ⟨rfl, fun _ => rfl, by simp⟩
  have hdef : ({} : UrlState).hasDomain = true := rfl
  rw [hdef] at hd
  have hf : s'.isFirstSlash = true ∨ s'.isFirstSlash = false := by cases s'.isFirstSlash <;> simp
  refine ⟨?_, fun hne p hp => ?_⟩
  · unfold UrlState.finish
    (repeat' split) <;> exact i1
  · unfold UrlState.finish at hne hp
    cases hpa : s'.path with
    | some q =>
      simp only [hpa, Option.isSome_some, if_true, Option.some.injEq] at hp hne
      subst hp
      rcases hf with hf | hf
      · rcases i3 hf with e | e
        · exact absurd e hne
        · exact e.2 _ hpa
      · rw [i2 hf] at hpa; simp at hpa
    | none =>
      cases hdo : s'.domain with
      | none => simp [hpa, hdo, hd] at hp
      | some D =>
        rcases hf with hf | hf
        · simp only [hpa, hdo, hf, Option.isSome_some, Option.isSome_none, Bool.false_eq_true, if_true, if_false, Bool.not_true, Option.some.injEq] at hp
          subst hp
          rcases i3 hf with e | e
          · rw [hdo] at e; simp at e
          · exact e.1 hpa
        · simp [hpa, hdo, hf] at hp

theorem decodes_head {s v : Bytes} (h : Decodes s v) (hs : s.head? = some 47) : v.head? = some 47 := by
  cases h with
  | nil => simp at hs
  | plain _ _ => simpa using hs
  | escape _ _ _ => simp at hs

theorem tail_no_at {u : Url} (h64 : (64 : UInt8) ∉ urlEncode u.path ++ queryText u.query) : (64 : UInt8) ∉ u.path ∧ ∀ q, u.query = some q → (64 : UInt8) ∉ q := by
  rw [List.mem_append, not_or] at h64
  refine ⟨fun hm => h64.1 (mem_encode (by decide) hm), fun q hq hm => h64.2 ?_⟩
  rw [hq, queryText]
  exact List.mem_append.mpr (.inr (mem_encode (by decide) hm))

theorem path_clean {p : Bytes} (h1 : (63 : UInt8) ∉ p) (h2 : (64 : UInt8) ∉ p) : ∀ b ∈ p, b ∉ asciiBytes "?@" := by
  intro b hb hm
  rw [show asciiBytes "?@" = [63, 64] by decide] at hm
  simp only [List.mem_cons, List.not_mem_nil, or_false] at hm
  rcases hm with rfl | rfl
  · exact h1 hb
  · exact h2 hb

/-- A URL with a scheme and a plain host that is read back from its text, but for its port, has a path starting with `/`, a user name
exactly if it has a password, and no separators. -/
theorem absolute_exact (u : Url) (P : Option Nat) (hs : u.scheme ≠ .none) (ht : SchemeText u.scheme.asStr)
    (hx : ∀ t, u.scheme = .extension t → ∀ e ∈ schemeNames, t ≠ asciiBytes e.2)
    {d : Bytes} (hd : u.domain = some d) (hd' : ∀ b ∈ d, IsPrint b ∧ b ∉ asciiBytes "%/:?@") (hp : ∀ p, u.port = some p → p < 65536)
    (h : Url.parse u.display = .ok { u with port := P }) : u.path.head? = some 47 ∧ UserComplete u ∧ NoSeparators u := by
  obtain ⟨g1, -⟩ := host_text_port u.scheme d u.port hs hd' hp
  have e : u.display = u.scheme.asStr ++ [58, 47, 47] ++
      ((userText u.username u.password ++ (d ++ portSuffix u.scheme u.port)) ++ (urlEncode u.path ++ queryText u.query)) := by
    unfold Url.display schemeText
    rw [if_pos hs, hd]
    simp
  have hparse := h
  rw [e, parse_absolute_eq _ _ ht, asStr_tryFrom hs ht.len hx, Res.bind_ok, Res.bind_eq_ok] at h
  obtain ⟨st, hr, hb⟩ := h
  have hu := (build_iff _ _ _).mp hb
  have hu1 : PartIs st.raw.domain u.domain := hu.domain
  have hu2 : PartIs (some (st.raw.path.getD [47])) (some u.path) := hu.path
  have hu3 : PartIs st.raw.query u.query := hu.query
  have hu4 : PartIs st.raw.username u.username := hu.username
  have hu5 : PartIs st.raw.password u.password := hu.password
  have hdom : st.domain ≠ none := by
    intro e
    have := hu1
    unfold UrlState.raw at this
    rw [e] at this
    rw [show u.domain = none from this] at hd
    simp at hd
  obtain ⟨sh1, sh2⟩ := run_shape hr
  have hslash0 : u.path.head? = some 47 := by
    unfold UrlState.raw at hu2
    obtain ⟨v, v1, -, v2⟩ := hu2
    simp only [Option.some.injEq] at v2
    subst v2
    refine decodes_head v1 ?_
    cases hpp : st.path with
    | none => rfl
    | some p => exact sh2 hdom p hpp
  have hslash := encode_slash hslash0
  have thead : (urlEncode u.path ++ queryText u.query).head? = some 47 := by rw [List.head?_append, hslash]; rfl
  have hcomplete : UserComplete u := by
    have some_iff : ∀ {r v : Option Bytes}, PartIs r v → r.isSome = v.isSome := by
      intro r v h
      cases r with
      | none => rw [show v = none from h]
      | some x => obtain ⟨y, -, -, rfl⟩ := h; rfl
    unfold UserComplete
    rw [← some_iff hu4, ← some_iff hu5]
    exact sh1
  refine ⟨hslash0, hcomplete, ?_⟩
  -- no `@` in the path and the query
  have t64 : (64 : UInt8) ∉ urlEncode u.path ++ queryText u.query := by
    intro hm
    obtain ⟨T1, T2, eT⟩ := List.append_of_mem hm
    have hT1 : (47 : UInt8) ∈ T1 := by
      rw [eT] at thead
      cases T1 with
      | nil => simp at thead
      | cons c r => simp only [List.cons_append, List.head?_cons, Option.some.injEq] at thead; simp [thead]
    rw [eT, ← List.append_assoc] at hr
    rcases late_at hr (by simp [hT1]) with h | ⟨-, h2, h3⟩
    · exact hdom h
    · have p1 := hu2
      have p2 := hu3
      unfold UrlState.raw at p1 p2
      rw [h2] at p1
      rw [h3] at p2
      obtain ⟨v, v1, -, v2⟩ := p1
      simp only [Option.getD_none, Option.some.injEq] at v1 v2
      have : u.path = [47] := by rw [v2]; exact decodes_unique v1 (.plain (by decide) .nil)
      rw [this, show u.query = none from p2, queryText, show urlEncode [47] = [47] by decide +kernel] at hm
      simp at hm
  obtain ⟨b1, b2⟩ := tail_no_at t64
  have g47 : ∀ b ∈ d ++ portSuffix u.scheme u.port, b ≠ 47 ∧ b ≠ 63 := fun b hb => ⟨(g1 b hb).1.2.1, (g1 b hb).1.2.2⟩
  have g64 : (64 : UInt8) ∉ d ++ portSuffix u.scheme u.port := fun h => (g1 _ h).2 rfl
  have last : ∀ a : Bytes, a = userText u.username u.password ++ (d ++ portSuffix u.scheme u.port) → (∀ b ∈ a, b ≠ 47 ∧ b ≠ 63) → a.count 64 ≤ 1 →
      ∀ b ∈ u.path, b ∉ asciiBytes "?@" := by
    intro a ea h1 h2
    rw [e, ← ea] at hparse
    obtain ⟨-, -, -, -, r, -, hu'⟩ := (C49_absolute_partial _ a _ _ ht h1 h2 (.inr thead) t64).mp hparse
    have : PartIs _ (some u.path) := hu'.path
    unfold pathParts at this
    rw [if_neg (by intro e; rw [e] at thead; simp at thead)] at this
    exact path_clean (path_exact this) b1
  have hui : (u.username = none ∧ u.password = none) ∨ ∃ n w, u.username = some n ∧ u.password = some w := by
    unfold UserComplete at hcomplete
    cases hx : u.username <;> cases hy : u.password <;> simp_all
  rcases hui with ⟨h1, h2⟩ | ⟨n, w, h1, h2⟩
  · refine ⟨by simp [h1], by simp [h2], last _ (by rw [h1, h2]; rfl) g47 ?_, b2⟩
    rw [List.count_eq_zero_of_not_mem g64]; omega
  · have eu : userText (some n) (some w) = urlEncode n ++ 58 :: urlEncode w ++ [64] := by simp [userText]
    rw [h1, h2, eu] at hr
    have er : (urlEncode n ++ 58 :: urlEncode w ++ [64] ++ (d ++ portSuffix u.scheme u.port)) ++ (urlEncode u.path ++ queryText u.query) =
        urlEncode n ++ 58 :: urlEncode w ++ 64 :: ((d ++ portSuffix u.scheme u.port) ++ (urlEncode u.path ++ queryText u.query)) := by simp
    rw [er] at hr
    have n47 : (47 : UInt8) ∉ urlEncode n ++ 58 :: urlEncode w := by
      intro hm
      rcases late_at hr hm with h | ⟨h, -, -⟩
      · exact hdom h
      · have := hu1
        unfold UrlState.raw at this
        rw [h, hd] at this
        obtain ⟨v, v1, -, v2⟩ := this
        simp only [Option.some.injEq] at v2
        subst v2
        have h47 : (47 : UInt8) ∈ urlEncode u.path := by
          cases he : urlEncode u.path with
          | nil => rw [he] at hslash; simp at hslash
          | cons c r => rw [he] at hslash; simp only [List.head?_cons, Option.some.injEq] at hslash; simp [hslash]
        exact (hd' 47 (decodes_slash v1 (by simp [h47]))).2 (by decide)
    have hun := hu4
    have hpw := hu5
    unfold UrlState.raw at hun hpw
    rw [h1] at hun
    rw [h2] at hpw
    obtain ⟨s1, s2⟩ := user_exact hr n47 (by rw [List.mem_append, not_or]; exact ⟨g64, t64⟩) hun hpw
    rw [List.mem_append, List.mem_cons, not_or, not_or] at n47
    have clean : ∀ x : Bytes, (∀ b ∈ urlEncode x, isSep b = false) → (47 : UInt8) ∉ urlEncode x → ∀ b ∈ x, b ∉ asciiBytes ":@/?" := by
      intro x hx h47 b hb hm
      have := mem_encode hm hb
      have h3 := hx b this
      rw [show asciiBytes ":@/?" = [58, 64, 47, 63] by decide] at hm
      simp only [List.mem_cons, List.not_mem_nil, or_false] at hm
      rcases hm with rfl | rfl | rfl | rfl
      · simp [isSep] at h3
      · simp [isSep] at h3
      · exact h47 this
      · simp [isSep] at h3
    refine ⟨fun n' hn' => ?_, fun w' hw' => ?_, last _ rfl ?_ ?_, b2⟩
    · rw [h1, Option.some.injEq] at hn'; subst hn'; exact clean n s1 n47.1
    · rw [h2, Option.some.injEq] at hw'; subst hw'; exact clean w s2 n47.2.2
    · rw [h1, h2, eu]
      intro b hb
      simp only [List.append_assoc, List.cons_append, List.nil_append, List.mem_append, List.mem_cons] at hb
      have fact : ∀ x : Bytes, (∀ b ∈ urlEncode x, isSep b = false) → (47 : UInt8) ∉ urlEncode x → ∀ b ∈ urlEncode x, b ≠ 47 ∧ b ≠ 63 := by
        intro x hx h47 b hb
        exact ⟨by rintro rfl; exact h47 hb, by rintro rfl; exact absurd (hx _ hb) (by decide)⟩
      rcases hb with hb | rfl | hb | rfl | hb
      · exact fact n s1 n47.1 b hb
      · decide
      · exact fact w s2 n47.2.2 b hb
      · decide
      · exact g47 b (List.mem_append.mpr hb)
    · rw [h1, h2, eu]
      have z : ∀ x : Bytes, (∀ b ∈ urlEncode x, isSep b = false) → (urlEncode x).count 64 = 0 := fun x hx =>
        List.count_eq_zero_of_not_mem fun hm => absurd (hx _ hm) (by decide)
      rw [List.count_append, List.count_append, List.count_append, List.count_cons, z n s1, z w s2, List.count_eq_zero_of_not_mem g64]
      decide

/-- C48, exactly: a URL that text can carry is read back from its text if and only if its parts have no separators: user information
no `: @ / ?`, the path no `?` or `@`, the query no `@`. -/
theorem C48_roundtrip_iff_partial (u : Url) (hc : Carried u) : Url.parse u.display = .ok u ↔ NoSeparators u := by
  refine ⟨fun h => ?_, C48_roundtrip_partial u hc⟩
  have hslash := encode_slash hc.slash
  have thead : (urlEncode u.path ++ queryText u.query).head? = some 47 := by rw [List.head?_append, hslash]; rfl
  rcases hc.kind with ⟨hs, h1, h2, h3, h4⟩ | ⟨hs, ht, hx, ⟨d, hd, hd'⟩, ⟨p, hp, hp'⟩, hui⟩
  · have e : u.display = urlEncode u.path ++ queryText u.query := by
      unfold Url.display
      rw [hs, h1, h2, h3]
      rfl
    rw [e] at h
    obtain ⟨a1, -, -, -, -, -, a2, -⟩ := (C49_origin _ thead u).mp h
    obtain ⟨b1, b2⟩ := tail_no_at fun hm => (a1 _ hm).2 rfl
    exact ⟨by simp [h1], by simp [h2], path_clean (path_exact a2) b1, b2⟩
  · exact (absolute_exact u u.port hs ht hx hd hd' (fun q hq => by rw [hp, Option.some.injEq] at hq; omega) h).2.2

/-- A URL that text can carry, with an `@` in its path. -/
example : Carried urlAt ∧ ¬ NoSeparators urlAt :=
  ⟨C48_violated_host.1, fun h => h.path 64 (by decide +kernel) (by decide)⟩

/-- C87, exactly: the text of a built URL is read back as that URL, with the default port if it had none, if and only if its path starts
with `/`, it has a user name exactly if it has a password, and no part contains a character that ends it. -/
theorem C87_survives_iff_partial (calls : List UrlCall) (u : Url) (ht : ∀ c ∈ calls, UrlCall.Typed c)
    (hg : HostGiven calls) (hb : buildUrl calls = .ok u) :
    Url.parse u.display = .ok (withDefaultPort u) ↔ u.path.head? = some 47 ∧ UserComplete u ∧ NoSeparators u := by
  refine ⟨fun h => ?_, fun ⟨h1, h2, h3⟩ => C87_survives_partial calls u ht hg hb h1 h2 h3⟩
  obtain ⟨-, e1, -, -, e4, e5, -, -⟩ := (C87_built calls u).mp hb
  obtain ⟨⟨t, h1, h2⟩, d, h3, h4⟩ := hg
  rw [h1] at e1
  simp only [Option.map_some, Option.getD_some] at e1
  rw [h3] at e4
  obtain ⟨k1, k2, k3⟩ := schemeNamed_props t
  refine absolute_exact u _ (by rw [e1]; exact k1) (by rw [e1, k2]; exact h2) (by rw [e1]; exact k3) e4 h4 ?_ h
  intro p hp
  rw [e5] at hp
  obtain ⟨c, hc, e⟩ := lastOf_mem _ hp
  have := ht c hc
  cases c <;> cases e
  exact this

/-- C106, for text equal to a URL that text can carry: it is read as that URL if and only if its parts have no separators. -/
theorem C106_read_iff_partial (u : Url) (s : Bytes) (hc : Carried u) (h : u.eqText s = true) : Url.ofText s = .ok u ↔ NoSeparators u := by
  unfold Url.eqText at h
  rw [← eq_of_beq h]
  exact C48_roundtrip_iff_partial u hc

end Webparse
