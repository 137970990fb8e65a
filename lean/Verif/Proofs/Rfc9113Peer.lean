import Verif.Spec.Rfc9113Peer
import Verif.Proofs.Connection
import Verif.Proofs.Rfc9113
import Verif.Proofs.Utf8Spec
import Verif.Proofs.Lossy
import Verif.Proofs.HeaderMap
import Verif.Props.Rfc7541
import Verif.Proofs.Grammar

/-! Lemmas about header lists received over HTTP/2. -/

namespace Webparse
open Spec Spec.Rfc

/-- What the lossy conversion makes ASCII was ASCII. -/
theorem lossyAux_ascii (fuel : Nat) : ∀ b : Bytes, b.length ≤ fuel → (∀ x ∈ utf8LossyAux fuel b, x < 0x80) →
    utf8LossyAux fuel b = b := by
  induction fuel with
  | zero => intro b h _; cases b with
    | nil => rfl
    | cons x r => simp at h
  | succ fuel ih =>
    intro b h ha
    cases b with
    | nil => rfl
    | cons x r =>
      simp only [utf8LossyAux] at ha ⊢
      simp only [List.length_cons] at h
      split
      · rename_i n hn
        obtain ⟨c, -, -, h3, h4⟩ := next_scalar hn
        simp only [hn] at ha
        rw [ih _ (by simp only [List.length_drop, List.length_cons]; omega)
          (fun y hy => ha y (List.mem_append_right _ hy)), List.take_append_drop]
      · rename_i n hn
        simp only [hn] at ha
        exact absurd (ha 0xEF (by simp)) (by decide)

theorem lossy_ascii {b : Bytes} (h : ∀ x ∈ utf8Lossy b, x < 0x80) : utf8Lossy b = b :=
  lossyAux_ascii _ b (Nat.le_refl _) h

theorem lossy_to_ascii {b s : Bytes} (hs : ∀ x ∈ s, x < 0x80) : utf8Lossy b = s ↔ b = s := by
  constructor
  · intro h; rw [← h]; exact (lossy_ascii (by rw [h]; exact hs)).symm
  · intro h; rw [h]; exact utf8Lossy_valid (utf8Valid_ascii s hs)

theorem knownMethods_ascii : ∀ s ∈ knownMethods, ∀ x ∈ s, x < 0x80 := by
  unfold knownMethods; decide +kernel

theorem method_tryFrom_iff (s : Bytes) (m : Method) : Method.tryFrom s = .ok m ↔ s ∈ knownMethods ∧ m.asStr = s ∧ (∀ x, m ≠ .extension x) := by
  constructor
  · intro h
    unfold Method.tryFrom at h
    simp only [knownMethods, List.mem_cons, List.not_mem_nil, or_false]
    repeat' split at h
    all_goals first | (simp only [Res.ok.injEq] at h; subst h; subst_vars; simp [Method.asStr]) | cases h
  · rintro ⟨h, rfl, hx⟩
    cases m with
    | extension x => exact absurd rfl (hx x)
    | none => exact absurd h (by unfold knownMethods; decide +kernel)
    | _ => decide +kernel

theorem method_taken_iff (v : Bytes) : (∃ m, Method.tryFrom (utf8Lossy v) = .ok m) ↔ v ∈ knownMethods := by
  constructor
  · rintro ⟨m, h⟩
    have h1 := ((method_tryFrom_iff _ _).mp h).1
    have := lossy_ascii (knownMethods_ascii _ h1)
    rwa [this] at h1
  · intro h
    have e : utf8Lossy v = v := utf8Lossy_valid (utf8Valid_ascii v (knownMethods_ascii v h))
    rw [e]
    have : ∀ s ∈ knownMethods, Method.tryFrom s ∈ [.ok .get, .ok .post, .ok .put, .ok .delete, .ok .head, .ok .options, .ok .connect,
        .ok .patch, .ok .trace] := by unfold knownMethods; decide +kernel
    have := this v h
    simp only [List.mem_cons, List.not_mem_nil, or_false] at this
    rcases this with h | h | h | h | h | h | h | h | h <;> exact ⟨_, h⟩

theorem status_taken (v : Bytes) (n : Nat) : statusFromBytes (utf8Lossy v) = .ok n ↔ 100 ≤ n ∧ n ≤ 999 ∧ v = threeDigits n := by
  rw [status_iff, lossy_to_ascii (threeDigits_ascii n)]

theorem scheme_taken (v : Bytes) : (∃ s, Scheme.tryFrom v = .ok s) ↔ v.length ≤ 64 := by
  unfold Scheme.tryFrom
  constructor
  · rintro ⟨s, h⟩
    split at h
    · cases h
    · omega
  · intro h
    rw [if_neg (by omega)]
    repeat' split
    all_goals exact ⟨_, rfl⟩

theorem scheme_asStr {v : Bytes} {s : Scheme} (h : Scheme.tryFrom v = .ok s) : s.asStr = v := by
  unfold Scheme.tryFrom at h
  repeat' split at h
  all_goals first | (cases h; done) | (simp only [Res.ok.injEq] at h; subst h; subst_vars; rfl)

/-- What one header does. -/
structure AddedAs (f : HeadersFrame) (h : Header) (g : HeadersFrame) : Prop where
  method : g.parts.method.map Method.asStr = if h.1 = asciiBytes ":method" then some h.2 else f.parts.method.map Method.asStr
  scheme : g.parts.scheme.map Scheme.asStr = if h.1 = asciiBytes ":scheme" then some (utf8Lossy h.2) else f.parts.scheme.map Scheme.asStr
  authority : g.parts.authority = if h.1 = asciiBytes ":authority" then some (utf8Lossy h.2) else f.parts.authority
  path : g.parts.path = if h.1 = asciiBytes ":path" then some (utf8Lossy h.2) else f.parts.path
  status : g.parts.status.map threeDigits = if h.1 = asciiBytes ":status" then some h.2 else f.parts.status.map threeDigits
  fields : g.fields = if h.1 ∈ pseudoNames then f.fields else f.fields.insert h.1 h.2

theorem pseudo_distinct : asciiBytes ":method" ≠ asciiBytes ":authority" ∧ asciiBytes ":method" ≠ asciiBytes ":scheme" ∧
      asciiBytes ":method" ≠ asciiBytes ":path" ∧ asciiBytes ":method" ≠ asciiBytes ":status" ∧
      asciiBytes ":authority" ≠ asciiBytes ":scheme" ∧ asciiBytes ":authority" ≠ asciiBytes ":path" ∧
      asciiBytes ":authority" ≠ asciiBytes ":status" ∧ asciiBytes ":scheme" ≠ asciiBytes ":path" ∧
      asciiBytes ":scheme" ≠ asciiBytes ":status" ∧ asciiBytes ":path" ≠ asciiBytes ":status" := by
    decide +kernel

theorem addField_iff (f : HeadersFrame) (h : Header) : (∃ g, f.addField h = .ok g) ↔ PseudoTaken h := by
  obtain ⟨d1, d2, d3, d4, d5, d6, d7, d8, d9, d10⟩ := pseudo_distinct
  have s1 : isSpec (asciiBytes ":method") = true := by decide +kernel
  have s2 : isSpec (asciiBytes ":scheme") = true := by decide +kernel
  have s3 : isSpec (asciiBytes ":status") = true := by decide +kernel
  obtain ⟨n, v⟩ := h
  unfold HeadersFrame.addField
  simp only
  by_cases hs : isSpec n = true
  · rw [if_pos hs]
    by_cases h1 : n = asciiBytes ":authority"
    · rw [if_pos h1]
      exact ⟨fun _ => ⟨fun e => absurd (e.symm.trans h1) d1, fun e => absurd (h1.symm.trans e) d5,
        fun e => absurd (h1.symm.trans e) d7⟩, fun _ => ⟨_, rfl⟩⟩
    rw [if_neg h1]
    by_cases h2 : n = asciiBytes ":method"
    · rw [if_pos h2]
      constructor
      · rintro ⟨g, hg⟩
        rw [Res.bind_eq_ok] at hg
        obtain ⟨m, hm, -⟩ := hg
        exact ⟨fun _ => (method_taken_iff v).mp ⟨m, hm⟩, fun e => absurd (h2.symm.trans e) d2,
          fun e => absurd (h2.symm.trans e) d4⟩
      · intro hp
        obtain ⟨m, hm⟩ := (method_taken_iff v).mpr (hp.method h2)
        rw [hm]; exact ⟨_, rfl⟩
    rw [if_neg h2]
    by_cases h3 : n = asciiBytes ":path"
    · rw [if_pos h3]
      exact ⟨fun _ => ⟨fun e => absurd e h2, fun e => absurd (e.symm.trans h3) d8,
        fun e => absurd (h3.symm.trans e) d10⟩, fun _ => ⟨_, rfl⟩⟩
    rw [if_neg h3]
    by_cases h4 : n = asciiBytes ":scheme"
    · rw [if_pos h4]
      constructor
      · rintro ⟨g, hg⟩
        rw [Res.bind_eq_ok] at hg
        obtain ⟨m, hm, -⟩ := hg
        exact ⟨fun e => absurd e h2, fun _ => ⟨_, (textOf_iff _ _).mpr rfl, (scheme_taken _).mp ⟨m, hm⟩⟩, fun e => absurd (h4.symm.trans e) d9⟩
      · intro hp
        obtain ⟨t, ht, hl⟩ := hp.scheme h4
        rw [(textOf_iff _ _).mp ht] at hl
        obtain ⟨m, hm⟩ := (scheme_taken _).mpr hl
        rw [hm]; exact ⟨_, rfl⟩
    rw [if_neg h4]
    by_cases h5 : n = asciiBytes ":status"
    · rw [if_pos h5]
      constructor
      · rintro ⟨g, hg⟩
        rw [Res.bind_eq_ok] at hg
        obtain ⟨m, hm, -⟩ := hg
        exact ⟨fun e => absurd e h2, fun e => absurd e h4, fun _ => ⟨m, (status_taken v m).mp hm⟩⟩
      · intro hp
        obtain ⟨m, hm⟩ := hp.status h5
        rw [(status_taken v m).mpr hm]; exact ⟨_, rfl⟩
    rw [if_neg h5]
    exact ⟨fun _ => ⟨fun e => absurd e h2, fun e => absurd e h4, fun e => absurd e h5⟩, fun _ => ⟨_, rfl⟩⟩
  · rw [if_neg hs]
    exact ⟨fun _ => ⟨fun e => (hs ((show n = _ from e) ▸ s1)).elim, fun e => (hs ((show n = _ from e) ▸ s2)).elim, fun e => (hs ((show n = _ from e) ▸ s3)).elim⟩,
      fun _ => ⟨_, rfl⟩⟩

theorem addField_added {f g : HeadersFrame} {h : Header} (hg : f.addField h = .ok g) : AddedAs f h g := by
  obtain ⟨d1, d2, d3, d4, d5, d6, d7, d8, d9, d10⟩ := pseudo_distinct
  have i1 : asciiBytes ":method" ∈ pseudoNames := by simp [pseudoNames]
  have i2 : asciiBytes ":authority" ∈ pseudoNames := by simp [pseudoNames]
  have i3 : asciiBytes ":scheme" ∈ pseudoNames := by simp [pseudoNames]
  have i4 : asciiBytes ":path" ∈ pseudoNames := by simp [pseudoNames]
  have i5 : asciiBytes ":status" ∈ pseudoNames := by simp [pseudoNames]
  have rest : ∀ n v, n ∉ pseudoNames → AddedAs f (n, v) { f with fields := f.fields.insert n v } := by
    intro n v hn
    have a1 : n ≠ asciiBytes ":method" := fun e => hn (e ▸ i1)
    have a2 : n ≠ asciiBytes ":authority" := fun e => hn (e ▸ i2)
    have a3 : n ≠ asciiBytes ":scheme" := fun e => hn (e ▸ i3)
    have a4 : n ≠ asciiBytes ":path" := fun e => hn (e ▸ i4)
    have a5 : n ≠ asciiBytes ":status" := fun e => hn (e ▸ i5)
    exact ⟨(if_neg a1).symm, (if_neg a3).symm, (if_neg a2).symm, (if_neg a4).symm, (if_neg a5).symm, (if_neg hn).symm⟩
  obtain ⟨n, v⟩ := h
  unfold HeadersFrame.addField at hg
  simp only at hg
  by_cases hs : isSpec n = true
  · rw [if_pos hs] at hg
    by_cases h1 : n = asciiBytes ":authority"
    · rw [if_pos h1] at hg
      simp only [Res.ok.injEq] at hg; subst hg; subst h1
      exact ⟨(if_neg d1.symm).symm, (if_neg d5).symm, (if_pos rfl).symm, (if_neg d6).symm, (if_neg d7).symm, (if_pos i2).symm⟩
    rw [if_neg h1] at hg
    by_cases h2 : n = asciiBytes ":method"
    · rw [if_pos h2, Res.bind_eq_ok] at hg
      obtain ⟨m, hm, hg⟩ := hg
      simp only [Res.ok.injEq] at hg; subst hg; subst h2
      obtain ⟨k1, k2, -⟩ := (method_tryFrom_iff _ _).mp hm
      have := lossy_ascii (knownMethods_ascii _ k1)
      refine ⟨?_, (if_neg d2).symm, (if_neg d1).symm, (if_neg d3).symm, (if_neg d4).symm, (if_pos i1).symm⟩
      rw [if_pos rfl]; simp only [Option.map_some, k2, this]
    rw [if_neg h2] at hg
    by_cases h3 : n = asciiBytes ":path"
    · rw [if_pos h3] at hg
      simp only [Res.ok.injEq] at hg; subst hg; subst h3
      exact ⟨(if_neg d3.symm).symm, (if_neg d8.symm).symm, (if_neg d6.symm).symm, (if_pos rfl).symm, (if_neg d10).symm, (if_pos i4).symm⟩
    rw [if_neg h3] at hg
    by_cases h4 : n = asciiBytes ":scheme"
    · rw [if_pos h4, Res.bind_eq_ok] at hg
      obtain ⟨m, hm, hg⟩ := hg
      simp only [Res.ok.injEq] at hg; subst hg; subst h4
      refine ⟨(if_neg d2.symm).symm, ?_, (if_neg d5.symm).symm, (if_neg d8).symm, (if_neg d9).symm, (if_pos i3).symm⟩
      rw [if_pos rfl]; simp only [Option.map_some, scheme_asStr hm]
    rw [if_neg h4] at hg
    by_cases h5 : n = asciiBytes ":status"
    · rw [if_pos h5, Res.bind_eq_ok] at hg
      obtain ⟨m, hm, hg⟩ := hg
      simp only [Res.ok.injEq] at hg; subst hg; subst h5
      refine ⟨(if_neg d4.symm).symm, (if_neg d9.symm).symm, (if_neg d7.symm).symm, (if_neg d10.symm).symm, ?_, (if_pos i5).symm⟩
      rw [if_pos rfl]; simp only [Option.map_some, ((status_taken v m).mp hm).2.2]
    rw [if_neg h5] at hg
    simp only [Res.ok.injEq] at hg; subst hg
    exact rest n v (by simp only [pseudoNames, List.mem_cons, List.not_mem_nil, or_false, not_or]; exact ⟨h2, h1, h4, h3, h5⟩)
  · rw [if_neg hs] at hg
    simp only [Res.ok.injEq] at hg; subst hg
    exact rest n v (not_spec_not_pseudo (by simpa using hs))

/-- Which header lists are taken. -/
theorem addFields_iff (m : Nat) (hs : List Header) : ∀ (s : Nat) (f : HeadersFrame), s ≤ m →
    ((∃ g, HeadersFrame.addFields m s f hs = .ok g) ↔ s + headerListSize hs ≤ m ∧ ∀ h ∈ hs, PseudoTaken h) := by
  induction hs with
  | nil => intro s f hs; simp [HeadersFrame.addFields, headerListSize, hs]
  | cons h hs ih =>
    intro s f hsm
    have e : headerListSize (h :: hs) = (h.1.length + h.2.length + 32) + headerListSize hs := by
      simp [headerListSize]
    rw [e]
    unfold HeadersFrame.addFields
    simp only
    by_cases hl : s + (h.1.length + h.2.length + 32) > m
    · rw [if_pos hl]
      constructor
      · rintro ⟨g, hg⟩; cases hg
      · rintro ⟨h1, -⟩; omega
    rw [if_neg hl]
    constructor
    · rintro ⟨g, hg⟩
      rw [Res.bind_eq_ok] at hg
      obtain ⟨f1, h1, h2⟩ := hg
      obtain ⟨k1, k2⟩ := (ih _ f1 (by omega)).mp ⟨g, h2⟩
      refine ⟨by omega, ?_⟩
      intro x hx
      rcases List.mem_cons.mp hx with rfl | hx
      · exact (addField_iff f x).mp ⟨f1, h1⟩
      · exact k2 x hx
    · rintro ⟨h1, h2⟩
      obtain ⟨f1, hf⟩ := (addField_iff f h).mpr (h2 h (by simp))
      obtain ⟨g, hg⟩ := (ih (s + (h.1.length + h.2.length + 32)) f1 (by omega)).mpr ⟨by omega, fun x hx => h2 x (by simp [hx])⟩
      exact ⟨g, by rw [hf]; exact hg⟩

theorem lastField_cons (h : Header) (hs : List Header) (n : Bytes) :
    lastField (h :: hs) n = (lastField hs n).or (if h.1 = n then some h.2 else none) := by
  rw [lastField]
  cases lastField hs n <;> rfl

theorem lastField_absent {hs : List Header} {n : Bytes} (h : ∀ x ∈ hs, x.1 ≠ n) : lastField hs n = none := by
  induction hs with
  | nil => rfl
  | cons x hs ih =>
    rw [lastField_cons, ih (fun y hy => h y (by simp [hy])), if_neg (h x (by simp))]
    rfl

theorem clear_plain : Clear IsPlainName := fun _ _ ha hb => unambiguous_plain ha hb

/-- What is made of them. -/
theorem addFields_taken (m : Nat) (hs : List Header) : ∀ (s : Nat) (f g : HeadersFrame),
    HeadersFrame.addFields m s f hs = .ok g →
    g.parts.method.map Method.asStr = (lastField hs (asciiBytes ":method")).or (f.parts.method.map Method.asStr) ∧
    g.parts.scheme.map Scheme.asStr = ((lastField hs (asciiBytes ":scheme")).map utf8Lossy).or (f.parts.scheme.map Scheme.asStr) ∧
    g.parts.authority = ((lastField hs (asciiBytes ":authority")).map utf8Lossy).or f.parts.authority ∧
    g.parts.path = ((lastField hs (asciiBytes ":path")).map utf8Lossy).or f.parts.path ∧
    g.parts.status.map threeDigits = (lastField hs (asciiBytes ":status")).or (f.parts.status.map threeDigits) ∧
    ((∀ h ∈ hs, IsPlainName h.1) → (∀ e ∈ f.fields, IsPlainName e.1) → ∀ n, IsPlainName n → n.head? ≠ some 58 →
      g.fields.get? n = (lastField hs n).or (f.fields.get? n)) := by
  induction hs with
  | nil =>
    intro s f g hg
    simp only [HeadersFrame.addFields, Res.ok.injEq] at hg
    subst hg
    exact ⟨rfl, rfl, rfl, rfl, rfl, fun _ _ _ _ _ => rfl⟩
  | cons h hs ih =>
    intro s f g hg
    unfold HeadersFrame.addFields at hg
    simp only at hg
    split at hg
    · cases hg
    rw [Res.bind_eq_ok] at hg
    obtain ⟨f1, h1, h2⟩ := hg
    obtain ⟨a1, a2, a3, a4, a5, a6⟩ := ih _ _ _ h2
    have b := addField_added h1
    simp only [lastField_cons]
    refine ⟨?_, ?_, ?_, ?_, ?_, ?_⟩
    · rw [a1, b.method, Option.or_assoc]; congr 1; split <;> rfl
    · rw [a2, b.scheme]
      cases lastField hs (asciiBytes ":scheme") with
      | some v => rfl
      | none => simp only [Option.map_none, Option.none_or]; split <;> rfl
    · rw [a3, b.authority]
      cases lastField hs (asciiBytes ":authority") with
      | some v => rfl
      | none => simp only [Option.map_none, Option.none_or]; split <;> rfl
    · rw [a4, b.path]
      cases lastField hs (asciiBytes ":path") with
      | some v => rfl
      | none => simp only [Option.map_none, Option.none_or]; split <;> rfl
    · rw [a5, b.status, Option.or_assoc]; congr 1; split <;> rfl
    · intro hp hf n hn hc
      have hh := hp h (by simp)
      have hf1 : ∀ e ∈ f1.fields, IsPlainName e.1 := by
        rw [b.fields]
        split
        · exact hf
        · intro e he
          rcases mem_insert_name he with h | ⟨e', he', h⟩
          · rw [h]; exact hh
          · rw [← h]; exact hf e' he'
      rw [a6 (fun x hx => hp x (by simp [hx])) hf1 n hn hc, Option.or_assoc]
      congr 1
      rw [b.fields]
      split
      · rename_i hps
        rw [if_neg]
        · rfl
        · intro e
          have := (pseudoNames_plain _ hps).2.1
          unfold isSpec at this
          rw [e] at this
          exact hc (by simpa using this)
      · rw [get?_insert clear_plain f.fields hf hh hn, (plain_lower hh).1, (plain_lower hn).1]
        by_cases e : h.1 = n
        · rw [if_pos e, if_pos e.symm]; rfl
        · rw [if_neg e, if_neg (fun x => e x.symm)]; rfl

theorem addFields_names (m : Nat) (hs : List Header) : ∀ (s : Nat) (f g : HeadersFrame),
    HeadersFrame.addFields m s f hs = .ok g → ∀ e ∈ g.fields, (∃ h ∈ hs, h.1 = e.1) ∨ ∃ e' ∈ f.fields, e'.1 = e.1 := by
  induction hs with
  | nil =>
    intro s f g hg e he
    simp only [HeadersFrame.addFields, Res.ok.injEq] at hg
    subst hg
    exact .inr ⟨e, he, rfl⟩
  | cons h hs ih =>
    intro s f g hg e he
    unfold HeadersFrame.addFields at hg
    simp only at hg
    split at hg
    · cases hg
    rw [Res.bind_eq_ok] at hg
    obtain ⟨f1, h1, h2⟩ := hg
    rcases ih _ _ _ h2 e he with ⟨x, hx, h3⟩ | ⟨e', he', h3⟩
    · exact .inl ⟨x, by simp [hx], h3⟩
    · rw [(addField_added h1).fields] at he'
      split at he'
      · exact .inr ⟨e', he', h3⟩
      · rcases mem_insert_name he' with h4 | ⟨e'', he'', h4⟩
        · exact .inl ⟨h, by simp, by rw [← h4, h3]⟩
        · exact .inr ⟨e'', he'', by rw [h4, h3]⟩

/-- A header list within the limits, taken as a whole. -/
theorem parse_taken {t t' : HeaderIndex} {block : Bytes} {fields : List Header} (hd : decode t block = some (.ok (fields, t')))
    (id : Nat) (flags : UInt8) (hf : flags &&& 0x20 = 0) (m : Nat) :
    HeadersFrame.parse { streamId := id, flags } block t m =
      some ((HeadersFrame.addFields m 0 { streamId := id, flags } fields).bind fun x => .ok (x, t')) := by
  have : flagIsPriority flags = false := by unfold flagIsPriority; rw [hf]; decide
  unfold HeadersFrame.parse HeadersFrame.loadDep
  simp only [this, Bool.false_eq_true, if_false, hd]
  rfl

theorem readFrame_headers {t t' : HeaderIndex} {block : Bytes} {fields : List Header} (hd : decode t block = some (.ok (fields, t')))
    (id : Nat) (flags : UInt8) (hf : flags &&& 0xFA = 0) (hl : block.length < 2 ^ 24) (hi : id < 2 ^ 31) (m : Nat) (rest : Bytes) :
    readFrame t m (wireFrame 1 flags id block ++ rest) =
      some ((HeadersFrame.addFields m 0 { streamId := id, flags } fields).bind fun x => .ok (.headers x, t', rest)) := by
  have bits : flags &&& 0xD2 = 0 ∧ flags &&& 0x20 = 0 ∧ flagIsPadded flags = false := by
    revert flags; decide +kernel
  rw [readFrame_wire _ _ _ _ _ _ _ hl hi, if_pos bits.1]
  have hk : Kind.ofByte 1 = .headers := by decide
  unfold Frame.parse trimPadding
  simp only [bits.2.2, Bool.false_eq_true, if_false, hk]
  rw [parse_taken hd id flags bits.2.1 m]
  cases HeadersFrame.addFields m 0 { streamId := id, flags } fields <;> rfl

/-- Any header list that the block gives is taken like this. -/
theorem addFields_takenAs {m : Nat} {fields : List Header} {id : Nat} {flags : UInt8} {x : HeadersFrame}
    (h : HeadersFrame.addFields m 0 { streamId := id, flags } fields = .ok x) :
    x.streamId = id ∧ x.flags = flags ∧ TakenAs fields x := by
  obtain ⟨e1, e2⟩ := addFields_head h
  obtain ⟨a1, a2, a3, a4, a5, a6⟩ := addFields_taken _ _ _ _ _ h
  simp only [Option.map_none, Option.or_none] at a1 a2 a3 a4 a5
  refine ⟨e1, e2, a1, (textIs_iff _ _).mpr a2, (textIs_iff _ _).mpr a3, (textIs_iff _ _).mpr a4, a5, ?_, ?_⟩
  · intro e he
    rcases addFields_names _ _ _ _ _ h e he with h | ⟨e', he', -⟩
    · exact h
    · simp at he'
  · intro hp n hn hc
    rw [a6 hp (by simp) n hn hc]
    exact Option.or_none

theorem mem_insert_value {m : HeaderMap} {n v : Bytes} {e : Header} (h : e ∈ m.insert n v) : e.2 = v ∨ ∃ e' ∈ m, e'.2 = e.2 := by
  induction m with
  | nil => simp only [HeaderMap.insert, List.mem_singleton] at h; left; rw [h]
  | cons a m ih =>
    unfold HeaderMap.insert at h
    split at h
    · rcases List.mem_cons.mp h with rfl | h
      · exact .inl rfl
      · exact .inr ⟨e, by simp [h], rfl⟩
    · rcases List.mem_cons.mp h with rfl | h
      · exact .inr ⟨e, by simp, rfl⟩
      · rcases ih h with h | ⟨e', he', h⟩
        · exact .inl h
        · exact .inr ⟨e', by simp [he'], h⟩

/-- Where the fields come from: a history of insertions, names of fields that are not parts, values of fields. -/
theorem addFields_origin (m : Nat) (hs : List Header) : ∀ (s : Nat) (f g : HeadersFrame),
    HeadersFrame.addFields m s f hs = .ok g → (∃ ops : List HeaderOp, g.fields = ops.foldl HeaderOp.run f.fields) ∧
      ∀ e ∈ g.fields, ((∃ h ∈ hs, h.1 ∉ pseudoNames ∧ h.1 = e.1) ∨ ∃ e' ∈ f.fields, e'.1 = e.1) ∧
        ((∃ h ∈ hs, h.2 = e.2) ∨ ∃ e' ∈ f.fields, e'.2 = e.2) := by
  induction hs with
  | nil =>
    intro s f g hg
    simp only [HeadersFrame.addFields, Res.ok.injEq] at hg
    subst hg
    exact ⟨⟨[], rfl⟩, fun e he => ⟨.inr ⟨e, he, rfl⟩, .inr ⟨e, he, rfl⟩⟩⟩
  | cons h hs ih =>
    intro s f g hg
    unfold HeadersFrame.addFields at hg
    simp only at hg
    split at hg
    · cases hg
    rw [Res.bind_eq_ok] at hg
    obtain ⟨f1, h1, h2⟩ := hg
    obtain ⟨⟨ops, ho⟩, hall⟩ := ih _ _ _ h2
    have hf := (addField_added h1).fields
    by_cases hp : h.1 ∈ pseudoNames
    · rw [if_pos hp] at hf
      rw [hf] at ho hall
      refine ⟨⟨ops, ho⟩, fun e he => ?_⟩
      obtain ⟨k1, k2⟩ := hall e he
      refine ⟨k1.imp (fun ⟨x, hx, k⟩ => ⟨x, by simp [hx], k⟩) id, k2.imp (fun ⟨x, hx, k⟩ => ⟨x, by simp [hx], k⟩) id⟩
    · rw [if_neg hp] at hf
      rw [hf] at ho hall
      refine ⟨⟨.insert h.1 h.2 :: ops, ho⟩, fun e he => ?_⟩
      obtain ⟨k1, k2⟩ := hall e he
      constructor
      · rcases k1 with ⟨x, hx, k⟩ | ⟨e', he', k⟩
        · exact .inl ⟨x, by simp [hx], k⟩
        · rcases mem_insert_name he' with h3 | ⟨e'', he'', h3⟩
          · exact .inl ⟨h, by simp, hp, by rw [← h3, k]⟩
          · exact .inr ⟨e'', he'', by rw [h3, k]⟩
      · rcases k2 with ⟨x, hx, k⟩ | ⟨e', he', k⟩
        · exact .inl ⟨x, by simp [hx], k⟩
        · rcases mem_insert_value he' with h3 | ⟨e'', he'', h3⟩
          · exact .inl ⟨h, by simp, by rw [← h3, k]⟩
          · exact .inr ⟨e'', he'', by rw [h3, k]⟩

theorem literal_rep (n v : Bytes) (hn : n.length < 127) (hv : v.length < 127) :
    IsRep shortInteger (.literal .without (.text n) v) (literal n v) := by
  have str : ∀ s : Bytes, s.length < 127 → IsString shortInteger s ([UInt8.ofNat s.length] ++ s) := by
    intro s hs
    refine ⟨_, s, rfl, Or.inl ⟨⟨by simp [shortInteger], ?_, ?_⟩, rfl⟩⟩
    · simp only [List.headD_cons, UInt8.toNat_ofNat']
      omega
    · have : (UInt8.ofNat s.length).toNat = s.length := by rw [UInt8.toNat_ofNat']; omega
      simp only [intValue, this]
      rw [if_pos (by omega)]
      simp
      omega
  exact ⟨[0], _, _, by simp [literal], ⟨by simp [shortInteger], by decide, by decide⟩, str n hn, str v hv⟩

end Webparse
