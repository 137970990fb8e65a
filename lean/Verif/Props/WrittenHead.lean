import Verif.Spec.WrittenHead
import Verif.Props.Grammar
import Verif.Props.Http1

/-! # C134: a receiver that follows RFC 9112 hears what was written -/

namespace Webparse
open Spec

/-- C134: whatever response or request is written, the bytes are the head of that message as RFC 9112 has it. -/
def C134_statement : Prop :=
  (∀ (r : Response) (out : Bytes) (n : Nat), r.encodeHeader = .ok (out, n) → HeardResponse r out) ∧
  (∀ (r : Request) (out : Bytes) (n : Nat), r.encodeHeader = .ok (out, n) → HeardRequest r out)

theorem cut_unique (x : UInt8) {a b r s : Bytes} (ha : x ∉ a) (hb : x ∉ b) (h : a ++ x :: r = b ++ x :: s) : a = b ∧ r = s := by
  induction a generalizing b with
  | nil =>
    cases b with
    | nil => simpa using h
    | cons y b =>
      simp only [List.nil_append, List.cons_append, List.cons.injEq] at h
      exact absurd (h.1 ▸ List.mem_cons_self) hb
  | cons y a ih =>
    cases b with
    | nil =>
      simp only [List.nil_append, List.cons_append, List.cons.injEq] at h
      exact absurd (h.1 ▸ List.mem_cons_self) ha
    | cons z b =>
      simp only [List.cons_append, List.cons.injEq] at h
      obtain ⟨e1, e2⟩ := ih (fun k => ha (List.mem_cons_of_mem _ k)) (fun k => hb (List.mem_cons_of_mem _ k)) h.2
      exact ⟨by rw [h.1, e1], e2⟩

theorem blank_isOws (b : UInt8) : isOws b = true ↔ IsBlank b := by
  unfold IsBlank; revert b; decide +kernel

theorem dropOws_blank {u s : Bytes} (hu : IsOwsText u) : (u ++ s).dropWhile isOws = s.dropWhile isOws := by
  induction u with
  | nil => rfl
  | cons b u ih =>
    rw [List.cons_append, List.dropWhile_cons, if_pos ((blank_isOws b).mpr (hu b List.mem_cons_self))]
    exact ih fun x hx => hu x (List.mem_cons_of_mem _ hx)

theorem dropOws_start {s : Bytes} (h : ∀ b, s.head? = some b → ¬ IsBlank b) : s.dropWhile isOws = s := by
  cases s with
  | nil => rfl
  | cons b s => rw [List.dropWhile_cons, if_neg (fun k => h b rfl ((blank_isOws b).mp k))]

/-- The blanks around a value say nothing. -/
theorem trimOws_value {before v after : Bytes} (hv : IsFieldValue v) (hb : IsOwsText before) (ha : IsOwsText after) :
    trimOws (before ++ v ++ after) = v := by
  obtain ⟨-, h1, h2⟩ := hv
  have hra : IsOwsText after.reverse := fun b hb => ha b (List.mem_reverse.mp hb)
  unfold trimOws
  rw [List.append_assoc, dropOws_blank hb]
  cases v with
  | nil =>
    have : after.dropWhile isOws = [] := by
      have := dropOws_blank (s := []) ha
      simpa using this
    rw [List.nil_append, this]; rfl
  | cons c v =>
    rw [dropOws_start (s := c :: v ++ after) (fun b hb => h1 b (by simpa using hb)), List.reverse_append, dropOws_blank hra,
      dropOws_start (fun b hb => h2 b (by rwa [List.head?_reverse] at hb)), List.reverse_reverse]

theorem octet_no_cr (b : UInt8) : IsFieldVchar b ∨ IsBlank b → b ≠ 13 := by
  unfold IsFieldVchar IsBlank; revert b; decide +kernel

theorem tchar_no_colon (b : UInt8) : isTchar b = true → b ≠ 58 ∧ b ≠ 13 ∧ b ≠ 32 := by
  revert b; decide +kernel

/-- What is heard of a header map whose names are tokens and whose values have no CR, whatever follows it. -/
theorem section_unique {fields : List (Header × Bytes × Bytes)} {text : Bytes} (h : FieldSection fields text) :
    ∀ (m : HeaderMap) (r r' : Bytes), (∀ e ∈ m, LineHeader e) → text ++ r' = m.encode ++ r →
      fields.map (·.1) = m.map (fun e => (e.1, trimOws e.2)) ∧ (∀ e ∈ m, ValueOctets e.2) ∧ r' = r := by
  induction h with
  | done =>
    intro m r r' hm e
    cases m with
    | nil =>
      refine ⟨rfl, by simp, ?_⟩
      simpa [HeaderMap.encode] using e
    | cons x m =>
      exfalso
      obtain ⟨h1, h2, -⟩ := hm x List.mem_cons_self
      cases hn : x.1 with
      | nil => exact h1 hn
      | cons b bs =>
        simp only [HeaderMap.encode, hn, List.cons_append, List.nil_append, List.cons.injEq] at e
        exact (tchar_no_colon b (h2 b (by rw [hn]; exact List.mem_cons_self))).2.1 e.1.symm
  | @more h before after line fields text hl _ ih =>
    intro m r r' hm e
    obtain ⟨⟨n1, n2⟩, hv, hb, ha, rfl⟩ := hl
    cases m with
    | nil =>
      exfalso
      cases hn : h.1 with
      | nil => exact n1 hn
      | cons b bs =>
        simp only [HeaderMap.encode, hn, List.cons_append, List.nil_append, List.cons.injEq] at e
        exact (tchar_no_colon b (n2 b (by rw [hn]; exact List.mem_cons_self))).2.1 e.1
    | cons x m =>
      obtain ⟨h1, h2, h3⟩ := hm x List.mem_cons_self
      have e' : h.1 ++ 58 :: ((before ++ h.2 ++ after) ++ 13 :: (10 :: (text ++ r'))) =
          x.1 ++ 58 :: ((32 :: x.2) ++ 13 :: (10 :: (HeaderMap.encode m ++ r))) := by
        simpa [HeaderMap.encode] using e
      obtain ⟨e1, e2⟩ := cut_unique 58 (fun k => (tchar_no_colon _ (n2 _ k)).1 rfl) (fun k => (tchar_no_colon _ (h2 _ k)).1 rfl) e'
      have hoct : ValueOctets (before ++ h.2 ++ after) := by
        intro b hm'
        simp only [List.mem_append] at hm'
        rcases hm' with (k | k) | k
        · exact .inr (hb b k)
        · exact hv.1 b k
        · exact .inr (ha b k)
      obtain ⟨e3, e4⟩ := cut_unique 13 (fun k => octet_no_cr _ (hoct _ k) rfl) (fun k => by
        rcases List.mem_cons.mp k with k | k
        · exact absurd k (by decide)
        · exact h3 k) e2
      simp only [List.cons.injEq, true_and] at e4
      obtain ⟨i1, i2, i3⟩ := ih m r r' (fun y hy => hm y (List.mem_cons_of_mem _ hy)) e4
      have ht := trimOws_value hv hb ha
      rw [e3] at ht hoct
      have ht' : trimOws x.2 = h.2 := by
        rw [← ht]
        have := dropOws_blank (u := [32]) (s := x.2) (by intro b hb; simp only [List.mem_singleton] at hb; exact .inl hb)
        unfold trimOws
        rw [show (32 :: x.2) = [32] ++ x.2 from rfl, this]
      refine ⟨?_, ?_, i3⟩
      · simp only [List.map_cons, i1, List.cons.injEq, and_true]
        rw [ht', ← e1]
      · intro y hy
        rcases List.mem_cons.mp hy with rfl | hy
        · exact fun b hb => hoct b (List.mem_cons_of_mem _ hb)
        · exact i2 y hy

/-- The map as field lines. -/
theorem section_written : ∀ m : HeaderMap, (∀ e ∈ m, IsFieldName e.1 ∧ IsFieldValue e.2) →
    FieldSection (m.map fun e => (e, [32], [])) m.encode
  | [], _ => .done
  | e :: m, h => by
    have hm := section_written m fun x hx => h x (List.mem_cons_of_mem _ hx)
    have he := h e List.mem_cons_self
    refine .more (line := e.1 ++ [58, 32] ++ e.2 ++ [13, 10]) ⟨he.1, he.2, ?_, (fun b hb => by cases hb), by simp⟩ hm
    intro b hb
    simp only [List.mem_singleton] at hb
    exact .inl hb

theorem section_fields {fields : List (Header × Bytes × Bytes)} {text : Bytes} (h : FieldSection fields text) :
    ∀ e ∈ fields.map (·.1), IsFieldName e.1 ∧ IsFieldValue e.2 := by
  induction h with
  | done => simp
  | more hl _ ih =>
    intro e he
    rcases List.mem_cons.mp he with rfl | he
    · exact ⟨hl.1, hl.2.1⟩
    · exact ih e he

theorem statusTable_range : ∀ e ∈ statusTable, e.1 ≤ 599 := by decide +kernel

theorem statusEncode_range {n : Nat} {s : Bytes} (h : statusEncode n = .ok s) : n ≤ 599 := by
  unfold statusEncode canonicalReason at h
  cases hf : statusTable.find? (fun e => e.1 == n) with
  | none => rw [hf] at h; simp at h
  | some e =>
    have he : e.1 = n := by simpa using List.find?_some hf
    rw [← he]
    exact statusTable_range e (List.mem_of_find?_eq_some hf)

theorem reason_octets {s : Bytes} (h : s.all isStatusToken = true) : IsReason s := by
  have key : ∀ b : UInt8, isStatusToken b = true → IsFieldVchar b ∨ IsBlank b := by
    unfold IsFieldVchar IsBlank; decide +kernel
  intro b hb
  exact key b (List.all_eq_true.mp h b hb)

theorem responseHeader_ok {r : Response} {out : Bytes} {n : Nat} (h : r.encodeHeader = .ok (out, n)) :
    r.version ≠ .none ∧ ∃ reason, 100 ≤ r.status ∧ r.status ≤ 599 ∧ IsReason reason ∧
      out = r.version.asStr ++ [32] ++ threeDigits r.status ++ [32] ++ reason ++ [13, 10] ++ r.header.encode := by
  unfold Response.encodeHeader at h
  obtain ⟨v, hv, h⟩ := Res.bind_eq_ok.mp h
  obtain ⟨s, hs, h⟩ := Res.bind_eq_ok.mp h
  have hver : r.version ≠ .none ∧ v = r.version.asStr := by
    revert hv
    cases r.version <;> simp [Version.encode, eq_comm]
  obtain ⟨reason, h1, h2, -, -, h4, -⟩ := statusEncode_ok hs
  simp only [Res.ok.injEq, Prod.mk.injEq] at h
  refine ⟨hver.1, reason, h2, statusEncode_range hs, reason_octets h4, ?_⟩
  rw [← h.1, h1, hver.2]
  simp

theorem requestHeader_ok {r : Request} {out : Bytes} {n : Nat} (h : r.encodeHeader = .ok (out, n)) :
    r.version ≠ .none ∧ r.method ≠ .none ∧
      out = r.method.asStr ++ [32] ++ r.url.path ++ [32] ++ r.version.asStr ++ [13, 10] ++ r.header.encode := by
  unfold Request.encodeHeader at h
  obtain ⟨m, hm, h⟩ := Res.bind_eq_ok.mp h
  obtain ⟨v, hv, h⟩ := Res.bind_eq_ok.mp h
  have hver : r.version ≠ .none ∧ v = r.version.asStr := by
    revert hv
    cases r.version <;> simp [Version.encode, eq_comm]
  have hmet : r.method ≠ .none ∧ m = r.method.asStr := by
    revert hm
    cases r.method <;> simp [Method.encode, eq_comm]
  simp only [Res.ok.injEq, Prod.mk.injEq] at h
  exact ⟨hver.1, hmet.1, by rw [← h.1, hver.2, hmet.2]⟩

theorem http1Name_iff (v : Version) (s : Bytes) : (∃ e ∈ http1Name, e.1 = v ∧ asciiBytes e.2 = s) ↔
    (v = .http10 ∨ v = .http11) ∧ s = v.asStr := by
  unfold http1Name
  simp only [List.mem_cons, List.not_mem_nil, or_false, exists_eq_or_imp, exists_eq_left]
  constructor
  · rintro (⟨rfl, rfl⟩ | ⟨rfl, rfl⟩)
    · exact ⟨.inl rfl, rfl⟩
    · exact ⟨.inr rfl, rfl⟩
  · rintro ⟨rfl | rfl, rfl⟩
    · exact .inl ⟨rfl, rfl⟩
    · exact .inr ⟨rfl, rfl⟩

/-- C134, exact: a response that is written is heard as it is if and only if it is of HTTP/1.0 or HTTP/1.1 and its fields have
names and values that RFC 9110 allows. -/
theorem C134_response_iff_partial (r : Response) (out : Bytes) (n : Nat) (h : r.encodeHeader = .ok (out, n)) :
    HeardResponse r out ↔ (r.version = .http10 ∨ r.version = .http11) ∧ ∀ e ∈ r.header, IsFieldName e.1 ∧ IsFieldValue e.2 := by
  obtain ⟨-, reason, h1, h2, h3, rfl⟩ := responseHeader_ok h
  constructor
  · rintro ⟨reason', fields, ⟨-, -, -, e, he, hev, text, ht, -⟩, hf⟩
    refine ⟨((http1Name_iff _ _).mp ⟨e, he, hev, rfl⟩).1, ?_⟩
    rw [← hf]
    exact section_fields ht
  · rintro ⟨hv, hf⟩
    obtain ⟨e, he, hev, hes⟩ := (http1Name_iff _ _).mpr ⟨hv, rfl⟩
    exact ⟨reason, _, ⟨h1, h2, h3, e, he, hev, _, section_written r.header hf, by rw [hes]⟩, by simp [Function.comp_def]⟩

/-- C134, exact, for requests: also the method has to be a token and the path visible ASCII. -/
theorem C134_request_iff_partial (r : Request) (out : Bytes) (n : Nat) (h : r.encodeHeader = .ok (out, n)) :
    HeardRequest r out ↔ IsFieldName r.method.asStr ∧ (r.url.path ≠ [] ∧ ∀ b ∈ r.url.path, 0x21 ≤ b.toNat ∧ b.toNat ≤ 0x7e) ∧
      (r.version = .http10 ∨ r.version = .http11) ∧ ∀ e ∈ r.header, IsFieldName e.1 ∧ IsFieldValue e.2 := by
  obtain ⟨-, -, rfl⟩ := requestHeader_ok h
  constructor
  · rintro ⟨fields, ⟨h1, h2, h3, e, he, hev, text, ht, -⟩, hf⟩
    refine ⟨h1, ⟨h2, h3⟩, ((http1Name_iff _ _).mp ⟨e, he, hev, rfl⟩).1, ?_⟩
    rw [← hf]
    exact section_fields ht
  · rintro ⟨h1, ⟨h2, h3⟩, hv, hf⟩
    obtain ⟨e, he, hev, hes⟩ := (http1Name_iff _ _).mpr ⟨hv, rfl⟩
    exact ⟨_, ⟨h1, h2, h3, e, he, hev, _, section_written r.header hf, by rw [hes]⟩, by simp [Function.comp_def]⟩

theorem version_start {v w : Version} {x y : Bytes} (hv : v ≠ .none) (hw : w = .http10 ∨ w = .http11)
    (h : v.asStr ++ 32 :: x = w.asStr ++ 32 :: y) : v = w ∧ x = y := by
  cases v with
  | none => exact absurd rfl hv
  | http10 => rcases hw with rfl | rfl <;> (simp [Version.asStr, asciiBytes] at h; try exact ⟨rfl, h⟩)
  | http11 => rcases hw with rfl | rfl <;> (simp [Version.asStr, asciiBytes] at h; try exact ⟨rfl, h⟩)
  | http2 => rcases hw with rfl | rfl <;> simp [Version.asStr, asciiBytes] at h
  | http3 => rcases hw with rfl | rfl <;> simp [Version.asStr, asciiBytes] at h

/-- C134: nothing else is heard. If names are tokens and no value has a CR, whatever follows a written response, a reading of the
bytes by RFC 9112 has its version, its status and its fields without the blanks around the values, and stops where the head does;
and there is one only if the values have no octets that RFC 9110 forbids. -/
theorem C134_response_only_partial (r : Response) (out rest rest' : Bytes) (n : Nat) (h : r.encodeHeader = .ok (out, n))
    (hm : ∀ e ∈ r.header, LineHeader e) (v : Version) (code : Nat) (reason : Bytes) (fields : List (Header × Bytes × Bytes)) (head : Bytes)
    (hh : IsResponseHead v code reason fields head) (he : head ++ rest' = out ++ rest) :
    v = r.version ∧ code = r.status ∧ fields.map (·.1) = r.header.map (fun e => (e.1, trimOws e.2)) ∧
      (∀ e ∈ r.header, ValueOctets e.2) ∧ rest' = rest := by
  obtain ⟨hver, reason0, h1, h2, h3, rfl⟩ := responseHeader_ok h
  obtain ⟨c1, c2, c3, e, hmem, rfl, text, ht, rfl⟩ := hh
  obtain ⟨hw, hs⟩ := (http1Name_iff e.1 (asciiBytes e.2)).mp ⟨e, hmem, rfl, rfl⟩
  rw [hs] at he
  have he' : r.version.asStr ++ 32 :: (threeDigits r.status ++ (32 :: (reason0 ++ 13 :: (10 :: (r.header.encode ++ rest))))) =
      e.1.asStr ++ 32 :: (threeDigits code ++ (32 :: (reason ++ 13 :: (10 :: (text ++ rest'))))) := by
    simpa using he.symm
  obtain ⟨e1, e2⟩ := version_start hver hw he'
  obtain ⟨e3, e4⟩ := List.append_inj e2 (by simp [threeDigits])
  have hc : r.status = code := by
    have a := (status_iff (threeDigits r.status) r.status).mpr ⟨h1, by omega, rfl⟩
    have b := (status_iff (threeDigits r.status) code).mpr ⟨c1, by omega, e3⟩
    rw [a] at b
    exact Res.ok.inj b
  simp only [List.cons.injEq, true_and] at e4
  obtain ⟨-, e5⟩ := cut_unique 13 (fun k => octet_no_cr _ (h3 _ k) rfl) (fun k => octet_no_cr _ (c3 _ k) rfl) e4
  simp only [List.cons.injEq, true_and] at e5
  obtain ⟨g1, g2, g3⟩ := section_unique ht r.header rest rest' hm e5.symm
  exact ⟨e1.symm, hc.symm, g1, g2, g3⟩

/-- C134: nothing else is heard of a request whose method is a token and whose path is visible ASCII, names tokens and values
without CR, whatever follows. -/
theorem C134_request_only_partial (r : Request) (out rest rest' : Bytes) (n : Nat) (h : r.encodeHeader = .ok (out, n))
    (hmet : IsFieldName r.method.asStr) (hpath : ∀ b ∈ r.url.path, 0x21 ≤ b.toNat ∧ b.toNat ≤ 0x7e) (hm : ∀ e ∈ r.header, LineHeader e)
    (method target : Bytes) (v : Version) (fields : List (Header × Bytes × Bytes)) (head : Bytes)
    (hh : IsRequestHead method target v fields head) (he : head ++ rest' = out ++ rest) :
    method = r.method.asStr ∧ target = r.url.path ∧ v = r.version ∧ fields.map (·.1) = r.header.map (fun e => (e.1, trimOws e.2)) ∧
      (∀ e ∈ r.header, ValueOctets e.2) ∧ rest' = rest := by
  obtain ⟨hver, -, rfl⟩ := requestHeader_ok h
  obtain ⟨c1, -, c2, e, hmem, rfl, text, ht, rfl⟩ := hh
  obtain ⟨hw, hs⟩ := (http1Name_iff e.1 (asciiBytes e.2)).mp ⟨e, hmem, rfl, rfl⟩
  rw [hs] at he
  have he' : method ++ 32 :: (target ++ 32 :: (e.1.asStr ++ 13 :: (10 :: (text ++ rest')))) =
      r.method.asStr ++ 32 :: (r.url.path ++ 32 :: (r.version.asStr ++ 13 :: (10 :: (r.header.encode ++ rest)))) := by
    simpa using he
  have h32 : ∀ t : Bytes, (∀ b ∈ t, 0x21 ≤ b.toNat ∧ b.toNat ≤ 0x7e) → (32 : UInt8) ∉ t := by
    intro t ht hb
    have := ht 32 hb
    revert this
    decide
  have h13 : ∀ w : Version, (13 : UInt8) ∉ w.asStr := by intro w; cases w <;> decide +kernel
  obtain ⟨e1, e2⟩ := cut_unique 32 (fun k => (tchar_no_colon _ (c1.2 _ k)).2.2 rfl) (fun k => (tchar_no_colon _ (hmet.2 _ k)).2.2 rfl) he'
  obtain ⟨e3, e4⟩ := cut_unique 32 (h32 _ c2) (h32 _ hpath) e2
  obtain ⟨e5, e6⟩ := cut_unique 13 (h13 _) (h13 _) e4
  have e7 : e.1 = r.version := by
    revert e5 hw
    generalize e.1 = a
    generalize r.version = b
    cases a <;> cases b <;> decide +kernel
  simp only [List.cons.injEq, true_and] at e6
  obtain ⟨g1, g2, g3⟩ := section_unique ht r.header rest rest' hm e6
  exact ⟨e1, e3, e7, g1, g2, g3⟩

/-- C134, violated: a response with a value that has an octet RFC 9110 forbids (NUL, a lone LF and so on) and no CR is written, and
read back by the parser of the same crate if no value begins with a space, but no receiver that follows RFC 9112 can read it as a
head, whatever follows. -/
theorem C134_violated_octets (ops : List HeaderOp) (status : Nat) (version : Version) (p : Bool) (out rest : Bytes) (n : Nat)
    (h : Response.encodeHeader { status, version, header := runOps ops, isPartial := p } = .ok (out, n))
    (hc : ∀ e ∈ runOps ops, CleanHeader e) (hx : ∃ e ∈ runOps ops, ¬ ValueOctets e.2) :
    (∀ r0 : Response, r0.parseBuffer (out ++ rest) = (.ok out.length, { status, version, header := runOps ops, isPartial := false }, rest)) ∧
      ∀ v code reason fields head rest', IsResponseHead v code reason fields head → head ++ rest' ≠ out ++ rest := by
  constructor
  · intro r0
    have hs : Response.serialize { status, version, header := runOps ops, isPartial := p } rest =
        .ok (out ++ rest, n + rest.length) := by
      unfold Response.encodeHeader at h
      obtain ⟨v, hv, h⟩ := Res.bind_eq_ok.mp h
      obtain ⟨s, hs, h⟩ := Res.bind_eq_ok.mp h
      simp only [Res.ok.injEq, Prod.mk.injEq] at h
      unfold Response.serialize
      simp only at hv hs h ⊢
      rw [hv, Res.bind_ok, hs, Res.bind_ok, ← h.1, ← h.2]
    have := (C40_roundtrip_iff_partial ops status version p r0 rest _ _ hs).mpr hc
    rw [this]
    simp
  · intro v code reason fields head rest' hh he
    obtain ⟨e, he1, he2⟩ := hx
    exact he2 ((C134_response_only_partial _ out rest rest' n h
      (fun e he => ⟨(hc e he).name_ne, (hc e he).name, (hc e he).value⟩) v code reason fields head hh he).2.2.2.1 e he1)

/-- C134, violated: messages of HTTP/2 and HTTP/3 are written with a start line that no HTTP/1 receiver can read. -/
theorem C134_violated_version (r : Response) (out rest : Bytes) (n : Nat) (h : r.encodeHeader = .ok (out, n))
    (hv : r.version = .http2 ∨ r.version = .http3) :
    ∀ v code reason fields head rest', IsResponseHead v code reason fields head → head ++ rest' ≠ out ++ rest := by
  intro v code reason fields head rest' hh he
  obtain ⟨hver, reason0, h1, h2, h3, rfl⟩ := responseHeader_ok h
  obtain ⟨c1, c2, c3, e, hmem, rfl, text, ht, rfl⟩ := hh
  obtain ⟨hw, hs⟩ := (http1Name_iff e.1 (asciiBytes e.2)).mp ⟨e, hmem, rfl, rfl⟩
  rw [hs] at he
  have he' : r.version.asStr ++ 32 :: (threeDigits r.status ++ (32 :: (reason0 ++ 13 :: (10 :: (r.header.encode ++ rest))))) =
      e.1.asStr ++ 32 :: (threeDigits code ++ (32 :: (reason ++ 13 :: (10 :: (text ++ rest'))))) := by
    simpa using he.symm
  have := (version_start hver hw he').1
  rw [← this] at hw
  rcases hv with hv | hv <;> rw [hv] at hw <;> rcases hw with hw | hw <;> cases hw

/-- C134, violated: one field whose value is a value, CR LF and another field is heard as two, for all fields. -/
theorem C134_violated_injection (r : Response) (out : Bytes) (n : Nat) (a b : Header) (ha : IsFieldName a.1 ∧ IsFieldValue a.2)
    (hb : IsFieldName b.1 ∧ IsFieldValue b.2) (hv : r.version = .http10 ∨ r.version = .http11)
    (hr : r.header = [(a.1, a.2 ++ [13, 10] ++ b.1 ++ [58, 32] ++ b.2)]) (h : r.encodeHeader = .ok (out, n)) :
    HeardResponse { r with header := [a, b] } out ∧ ¬ HeardResponse r out := by
  constructor
  · obtain ⟨-, reason, h1, h2, h3, rfl⟩ := responseHeader_ok h
    obtain ⟨e, he, hev, hes⟩ := (http1Name_iff _ _).mpr ⟨hv, rfl⟩
    have := section_written [a, b] (by
      intro x hx
      simp only [List.mem_cons, List.not_mem_nil, or_false] at hx
      rcases hx with rfl | rfl
      · exact ha
      · exact hb)
    refine ⟨reason, _, ⟨h1, h2, h3, e, he, hev, _, this, ?_⟩, rfl⟩
    rw [hes, hr]
    simp [HeaderMap.encode]
  · intro k
    have := (((C134_response_iff_partial r out n h).mp k).2 _ (by rw [hr]; exact List.mem_cons_self)).2.1 13 (by simp)
    exact octet_no_cr 13 this rfl

theorem C134_violated : ¬ C134_statement := by
  intro h
  have hw : Response.encodeHeader ⟨200, .http11, [(asciiBytes "a", [0])], false⟩ =
      .ok (asciiBytes "HTTP/1.1 200 OK\r\na: " ++ [0] ++ asciiBytes "\r\n\r\n", 25) := by
    unfold Response.encodeHeader statusEncode
    simp only [statusAsStr_eq]
    decide +kernel
  have := (((C134_response_iff_partial _ _ _ hw).mp (h.1 _ _ _ hw)).2 _ List.mem_cons_self).2.1 0 (by simp)
  revert this
  unfold IsFieldVchar IsBlank
  decide

/-- C134, violated: a path that has a space, as one decoded from escapes may have (C109), ends the request line early: the
rest of it is heard as another field. -/
theorem C134_violated_path (r : Request) (out : Bytes) (n : Nat) (q name w : Bytes) (hm : IsFieldName r.method.asStr)
    (hq : q ≠ [] ∧ ∀ b ∈ q, 0x21 ≤ b.toNat ∧ b.toNat ≤ 0x7e) (hn : IsFieldName name) (hw : IsFieldValue (w ++ asciiBytes " HTTP/1.1"))
    (hf : ∀ e ∈ r.header, IsFieldName e.1 ∧ IsFieldValue e.2) (hv : r.version = .http11)
    (hp : r.url.path = q ++ asciiBytes " HTTP/1.1" ++ [13, 10] ++ name ++ [58, 32] ++ w) (h : r.encodeHeader = .ok (out, n)) :
    (∃ fields, IsRequestHead r.method.asStr q .http11 fields out ∧
      fields.map (·.1) = (name, w ++ asciiBytes " HTTP/1.1") :: r.header) ∧ ¬ HeardRequest r out := by
  constructor
  · obtain ⟨-, -, rfl⟩ := requestHeader_ok h
    have := section_written ((name, w ++ asciiBytes " HTTP/1.1") :: r.header) (by
      intro x hx
      rcases List.mem_cons.mp hx with rfl | hx
      · exact ⟨hn, hw⟩
      · exact hf x hx)
    refine ⟨_, ⟨hm, hq.1, hq.2, (.http11, "HTTP/1.1"), by simp [http1Name], rfl, _, this, ?_⟩, by simp [Function.comp_def]⟩
    rw [hp, hv]
    have e : asciiBytes " HTTP/1.1" = 32 :: asciiBytes "HTTP/1.1" := by decide +kernel
    have e' : Version.asStr .http11 = asciiBytes "HTTP/1.1" := rfl
    simp [HeaderMap.encode, e, e']
  · intro k
    have := ((C134_request_iff_partial r out n h).mp k).2.1.2 13 (by rw [hp]; simp)
    revert this
    decide

/-- Two fields, read as they are. -/
example : ∃ out n, Response.encodeHeader ⟨204, .http11, [(asciiBytes "Server", asciiBytes "x y"), (asciiBytes "a", [])], false⟩ = .ok (out, n) ∧
    HeardResponse ⟨204, .http11, [(asciiBytes "Server", asciiBytes "x y"), (asciiBytes "a", [])], false⟩ out := by
  have hw : Response.encodeHeader ⟨204, .http11, [(asciiBytes "Server", asciiBytes "x y"), (asciiBytes "a", [])], false⟩ =
      .ok (asciiBytes "HTTP/1.1 204 No Content\r\nServer: x y\r\na: \r\n\r\n", 45) := by
    unfold Response.encodeHeader statusEncode
    simp only [statusAsStr_eq]
    decide +kernel
  refine ⟨_, _, hw, (C134_response_iff_partial _ _ _ hw).mpr ⟨.inr rfl, ?_⟩⟩
  intro e he
  simp only [List.mem_cons, List.not_mem_nil, or_false] at he
  unfold IsFieldName IsFieldValue IsFieldVchar IsBlank
  rcases he with rfl | rfl
  · exact ⟨⟨by decide, by decide +kernel⟩, by decide +kernel, (fun b hb => by cases hb; decide), fun b hb => by
      have : b = 121 := by simpa [asciiBytes, eq_comm] using hb
      subst this; decide⟩
  · exact ⟨⟨by decide, by decide +kernel⟩, by decide +kernel, (fun b hb => by cases hb), (fun b hb => by cases hb)⟩

/-- A field that the crate reads back and RFC 9110 forbids. -/
example : CleanHeader (asciiBytes "a", asciiBytes "1\n2") ∧ ¬ ValueOctets (asciiBytes "1\n2") :=
  ⟨⟨by decide, by decide +kernel, by decide +kernel, by decide⟩, fun h => by
    have := h 10 (by decide)
    revert this
    unfold IsFieldVchar IsBlank
    decide⟩

end Webparse
