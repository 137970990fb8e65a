import Verif.Props.Url
import Verif.Props.Http1

/-! Lemmas about the text of requests. -/

namespace Webparse
open Spec

/-! ## The request line -/

theorem method_start {m : Method} {t : Bytes} (h : Method.tryFrom t = .ok m) :
    ∃ c r, t = c :: r ∧ c ≠ 13 ∧ c ≠ 10 ∧ t.all isToken = true := by
  obtain ⟨e, he, -, rfl⟩ := (C45_method t m).mp h
  have : ∀ e ∈ methodNames, (asciiBytes e.2).all isToken = true ∧ (asciiBytes e.2).head?.all (fun c => c ≠ 13 ∧ c ≠ 10) = true ∧ asciiBytes e.2 ≠ [] := by
    decide +kernel
  obtain ⟨h1, h2, h3⟩ := this e he
  obtain ⟨c, r, hc⟩ := List.exists_cons_of_ne_nil h3
  rw [hc] at h1 h2 ⊢
  simp only [List.head?_cons, Option.all_some, decide_eq_true_eq] at h2
  exact ⟨c, r, rfl, h2.1, h2.2, h1⟩

/-- Reading the text of a request up to its target. -/
theorem request_line (r0 : Request) {m : Method} {t : Bytes} (hm : Method.tryFrom t = .ok m) (rest : Bytes) :
    forget (r0.parseHead (t ++ 32 :: rest)) =
      thenRead (skipSpaces (32 :: rest)) fun _ buf =>
      thenRead (parseToken buf) fun path buf =>
      thenRead (skipSpaces buf) fun _ buf =>
      thenRead (parseVersion buf) fun version buf =>
      thenRead (skipNewLine buf) fun _ buf =>
      thenRead (forget (parseHeader [] buf)) fun p buf => (urlStep m version path p.2, buf) := by
  rw [forget_request]
  obtain ⟨c, r, rfl, h1, h2, h3⟩ := method_start hm
  rw [List.cons_append, skipEmptyLines_start _ h1 h2, ← List.cons_append]
  have e : parseMethod (c :: r ++ 32 :: rest) = (.ok m, 32 :: rest) := by
    unfold parseMethod onToken
    rw [parseToken_eq (by simp) h3 (by decide)]
    simp only [thenRead, hm]
  simp only [thenRead]
  rw [e]

/-- Reading the text of a request up to its headers. -/
theorem request_text (r0 : Request) {m : Method} {t p : Bytes} {v : Version} (hm : Method.tryFrom t = .ok m) (hv : v ≠ .none)
    (hp : p ≠ []) (hpt : p.all isToken = true) (rest : Bytes) :
    forget (r0.parseHead (t ++ 32 :: (p ++ 32 :: (v.asStr ++ 13 :: 10 :: rest)))) =
      thenRead (forget (parseHeader [] rest)) fun x buf => (urlStep m v p x.2, buf) := by
  rw [request_line r0 hm]
  obtain ⟨c, p', rfl⟩ := List.exists_cons_of_ne_nil hp
  have hc : c ≠ 32 := by
    rintro rfl
    simp [isToken] at hpt
  rw [List.cons_append, skipSpaces_one _ hc, ← List.cons_append]
  simp only [thenRead]
  rw [parseToken_eq hp hpt (by decide)]
  simp only
  obtain ⟨d, w, hw, hd⟩ : ∃ d w, v.asStr ++ 13 :: 10 :: rest = d :: w ∧ d ≠ 32 := by
    cases v with
    | none => exact absurd rfl hv
    | http10 => exact ⟨72, _, rfl, by decide⟩
    | http11 => exact ⟨72, _, rfl, by decide⟩
    | http2 => exact ⟨72, _, rfl, by decide⟩
    | http3 => exact ⟨72, _, rfl, by decide⟩
  rw [hw, skipSpaces_one _ hd, ← hw]
  simp only
  rw [parseVersion_eq hv (by decide)]
  simp only
  rw [skipNewLine_crlf']

/-! ## The host -/

theorem splitColon_none {d : Bytes} (h : (58 : UInt8) ∉ d) : splitColon d = [d] := by
  induction d with
  | nil => rfl
  | cons b r ih =>
    simp only [List.mem_cons, not_or] at h
    rw [splitColon, ih h.2]
    simp only
    rw [if_neg (fun e => h.1 e.symm)]

theorem splitColon_one {d : Bytes} (p : Bytes) (h : (58 : UInt8) ∉ d) (hp : (58 : UInt8) ∉ p) : splitColon (d ++ 58 :: p) = [d, p] := by
  induction d with
  | nil => rw [List.nil_append, splitColon, splitColon_none hp]; simp
  | cons b r ih =>
    simp only [List.mem_cons, not_or] at h
    rw [List.cons_append, splitColon, ih h.2]
    simp only
    rw [if_neg (fun e => h.1 e.symm)]

theorem numeral_no_colon {p : Bytes} {n : Nat} (h : IsNumeral p n ∨ ∃ t, p = 43 :: t ∧ IsNumeral t n) : (58 : UInt8) ∉ p := by
  have : ∀ t : Bytes, AllDigits t → (58 : UInt8) ∉ t := fun t ht hm => by
    have := (ht _ hm).2; revert this; decide
  rcases h with h | ⟨t, rfl, h⟩
  · exact this _ h.2.1
  · simp only [List.mem_cons, not_or]
    exact ⟨by decide, this _ h.2.1⟩

/-- The URL keeps its path and query whatever the host and scheme headers say. -/
theorem fill_keeps {header : HeaderMap} {url u' : Url} (h : fillHost header url = .ok u') :
    (fillScheme header u').path = url.path ∧ (fillScheme header u').query = url.query := by
  have h1 : ∀ u : Url, (fillScheme header u).path = u.path ∧ (fillScheme header u).query = u.query := by
    intro u
    unfold fillScheme
    (repeat' split) <;> exact ⟨rfl, rfl⟩
  have h2 : u'.path = url.path ∧ u'.query = url.query := by
    unfold fillHost at h
    split at h
    · split at h
      · unfold connectByHost at h
        (repeat' split at h) <;> first
          | (simp only [Res.ok.injEq] at h; subst h; exact ⟨rfl, rfl⟩)
          | simp at h
      · simp only [Res.ok.injEq] at h; subst h; exact ⟨rfl, rfl⟩
    · simp only [Res.ok.injEq] at h; subst h; exact ⟨rfl, rfl⟩
  rw [(h1 u').1, (h1 u').2]
  exact h2

/-- A `Host` of the form `name` or `name:port`. -/
theorem fillHost_ok {header : HeaderMap} (url : Url) (h : ∀ x, header.host = some x → HostValue x) :
    ∃ u', fillHost header url = .ok u' := by
  unfold fillHost
  split
  · cases hh : header.host with
    | none => exact ⟨_, rfl⟩
    | some x =>
      simp only
      unfold connectByHost
      rcases h x hh with hx | ⟨d, p, n, rfl, hd, hp, hn⟩
      · rw [splitColon_none hx]; exact ⟨_, rfl⟩
      · rw [splitColon_one p hd (numeral_no_colon hp)]
        simp only
        rw [(parseUnsigned_iff (2 ^ 16) p n).mpr ⟨hp, hn⟩]
        exact ⟨_, rfl⟩
  · exact ⟨_, rfl⟩

/-! ## Paths get no longer -/

theorem short_step (s s' : UrlState) (seen : Bytes) (b : UInt8)
    (h : s.val.length ≤ seen.length ∧ ∀ x, s.path = some x → x.length ≤ seen.length) (_ : True) (e : s.step b = .ok s') :
    s'.val.length ≤ (seen ++ [b]).length ∧ ∀ x, s'.path = some x → x.length ≤ (seen ++ [b]).length := by
  obtain ⟨h1, h2⟩ := h
  have h2' : ∀ x, s.path = some x → x.length ≤ (seen ++ [b]).length := fun x hx => by
    have := h2 x hx; simp; omega
  unfold UrlState.step at e
  (repeat' split at e) <;> first
    | (simp at e; done)
    | (simp only [Res.ok.injEq] at e; subst e
       refine ⟨by simp <;> omega, ?_⟩
       first
         | exact h2'
         | (intro x hx; simp only [Option.some.injEq] at hx; subst hx; simp; omega))

theorem short_run {s st : UrlState} {x : Bytes} (hv : s.val = []) (hp : s.path = none) (h : s.run x = .ok st) :
    ∀ y, st.path = some y → y.length ≤ x.length := by
  obtain ⟨s', h1, rfl⟩ := run_ok h
  have := steps_inv (P := fun s seen => s.val.length ≤ seen.length ∧ ∀ x, s.path = some x → x.length ≤ seen.length) (Q := fun _ _ => True)
    short_step x s s' [] (by rw [hv, hp]; simp) (fun _ _ _ _ _ _ => trivial) h1
  rw [List.nil_append] at this
  intro y hy
  unfold UrlState.finish at hy
  (repeat' split at hy) <;> first
    | exact this.2 y hy
    | (simp only [Option.some.injEq] at hy; subst hy; exact this.1)

theorem decodes_length {s v : Bytes} (h : Decodes s v) : v.length ≤ s.length := by
  induction h with
  | nil => simp
  | plain _ _ ih => simp; omega
  | escape _ _ _ ih => simp; omega

/-- A text that is its own decoding has no `%`. -/
theorem decodes_self {s v : Bytes} (h : Decodes s v) (hl : s.length ≤ v.length) : (37 : UInt8) ∉ s ∧ v = s := by
  induction h with
  | nil => simp
  | plain hb _ ih =>
    obtain ⟨h1, h2⟩ := ih (by simpa using hl)
    rw [h2]
    simp only [List.mem_cons, not_or]
    exact ⟨⟨fun e => hb e.symm, h1⟩, trivial⟩
  | escape h1 h2 h3 _ => have := decodes_length h3; simp at hl; omega

/-- The path of a URL is no longer than its text. -/
theorem parse_path_length {s : Bytes} {u : Url} (h : Url.parse s = .ok u) :
    (u.path = [47] ∧ s.head? ≠ some 47) ∨ u.path.length < s.length ∨ (s.head? = some 47 ∧ u.path.length ≤ s.length) := by
  have key : ∀ (sc : Scheme) (st : UrlState) (x : Bytes), IsUrl sc st.raw u → (∀ y, st.path = some y → y.length ≤ x.length) →
      u.path = [47] ∨ u.path.length ≤ x.length := by
    intro sc st x hu hx
    have hp := hu.path
    unfold UrlState.raw at hp
    cases hpath : st.path with
    | none =>
      rw [hpath] at hp
      obtain ⟨v, h1, -, h2⟩ := hp
      left
      rw [Option.some.injEq] at h2
      rw [h2]
      exact decodes_unique h1 (.plain (by decide) .nil)
    | some y =>
      rw [hpath] at hp
      obtain ⟨v, h1, -, h2⟩ := hp
      right
      rw [Option.some.injEq] at h2
      rw [h2]
      exact Nat.le_trans (decodes_length h1) (hx y hpath)
  rcases parse_forms h with ⟨t, rest, sc, st, ht, rfl, -, hrun, hu⟩ | ⟨h47, st, hrun, hu⟩
  · have hne : (t ++ [58, 47, 47] ++ rest).head? ≠ some 47 := by
      obtain ⟨c, r, rfl, hc⟩ := ht.head
      simp only [List.cons_append, List.head?_cons, ne_eq, Option.some.injEq]
      rintro rfl
      revert hc; decide
    rcases key sc st rest hu (short_run rfl rfl hrun) with h1 | h1
    · exact .inl ⟨h1, hne⟩
    · right; left; simp only [List.length_append, List.length_cons, List.length_nil]; omega
  · rcases key _ st s hu (short_run rfl rfl hrun) with h1 | h1
    · right; right
      refine ⟨h47, ?_⟩
      rw [h1]
      cases s with
      | nil => simp at h47
      | cons => simp
    · exact .inr (.inr ⟨h47, h1⟩)

theorem http1Data_eq {r : Request} {body out : Bytes} (h : r.http1Data body = .ok out) :
    r.method ≠ .none ∧ r.version ≠ .none ∧
    out = r.method.asStr ++ 32 :: (r.url.path ++ 32 :: (r.version.asStr ++ 13 :: 10 :: (r.header.encode ++ body))) := by
  unfold Request.http1Data Request.encodeHeader at h
  simp only [Res.bind_eq_ok] at h
  obtain ⟨x, ⟨m, hm, v, hv, h1⟩, h2⟩ := h
  simp only [Res.ok.injEq] at h1 h2
  subst h1
  obtain ⟨hv1, rfl⟩ := (version_encode _ _).mp hv
  have hm' : r.method ≠ .none ∧ m = r.method.asStr := by
    unfold Method.encode at hm
    split at hm
    · simp at hm
    · rename_i hn
      rw [Res.ok.injEq] at hm
      exact ⟨hn, hm.symm⟩
  refine ⟨hm'.1, hv1, ?_⟩
  rw [← h2, hm'.2]
  simp

/-- What the reader of the path sees. -/
theorem skipSpaces_path (p : Bytes) : ∃ k q, p = List.replicate k 32 ++ q ∧ q.head? ≠ some 32 ∧
    ∀ rest, q ≠ [] → skipSpaces (32 :: (p ++ rest)) = (.ok (), q ++ rest) := by
  induction p with
  | nil => exact ⟨0, [], by simp, by simp, by simp⟩
  | cons b p ih =>
    by_cases hb : b = 32
    · subst hb
      obtain ⟨k, q, e, h1, h2⟩ := ih
      refine ⟨k + 1, q, by rw [List.replicate_succ, List.cons_append, ← e], h1, fun rest hq => ?_⟩
      rw [List.cons_append, skipSpaces, if_pos rfl]
      exact h2 rest hq
    · refine ⟨0, b :: p, by simp, by simpa using hb, fun rest _ => ?_⟩
      rw [List.cons_append, skipSpaces_one _ hb]

theorem skipSpaces_all (k : Nat) {c : UInt8} (hc : c ≠ 32) (r : Bytes) : skipSpaces (List.replicate k 32 ++ c :: r) = (.ok (), c :: r) := by
  induction k with
  | zero => rw [List.replicate_zero, List.nil_append, skipSpaces, if_neg hc]
  | succ k ih => rw [List.replicate_succ, List.cons_append, skipSpaces, if_pos rfl]; exact ih

/-- The target that is read is the path, or it is shorter than the path, if the request is accepted. -/
theorem target_of_path {p v rest : Bytes} {f : Bytes → Version → Bytes → Res (Unit × Request) × Bytes} {a : Unit × Request} {w : Bytes}
    (hv : v ≠ []) (hvt : v.all isToken = true)
    (h : (thenRead (skipSpaces (32 :: (p ++ 32 :: (v ++ 13 :: 10 :: rest)))) fun _ buf =>
      thenRead (parseToken buf) fun path buf =>
      thenRead (skipSpaces buf) fun _ buf =>
      thenRead (parseVersion buf) fun version buf => f path version buf) = (.ok a, w)) :
    ∃ q version buf, f q version buf = (.ok a, w) ∧ (q.length < p.length ∨ (q = p ∧ p ≠ [] ∧ p.all isToken = true)) := by
  obtain ⟨k, q, e, h1, h2⟩ := skipSpaces_path p
  cases hq : q with
  | nil =>
    exfalso
    subst hq
    obtain ⟨c, v', rfl⟩ := List.exists_cons_of_ne_nil hv
    have hc : c ≠ 32 := by rintro rfl; simp [isToken] at hvt
    rw [e, List.append_nil, show (32 : UInt8) :: (List.replicate k 32 ++ 32 :: (c :: v' ++ 13 :: 10 :: rest)) =
      List.replicate (k + 2) 32 ++ c :: (v' ++ 13 :: 10 :: rest) by
        rw [show k + 2 = (k + 1) + 1 from rfl, List.replicate_succ, List.replicate_succ']; simp, skipSpaces_all _ hc, ← List.cons_append] at h
    simp only [thenRead] at h
    rw [parseToken_eq (by simp) hvt (by decide)] at h
    simp only at h
    rw [show skipSpaces (13 :: 10 :: rest) = (.ok (), 13 :: 10 :: rest) by simp [skipSpaces]] at h
    simp only at h
    have : parseVersion (13 :: 10 :: rest) = (.err .token, 13 :: 10 :: rest) := by
      unfold parseVersion onToken parseToken parseTokenBy
      rw [show (13 :: 10 :: rest : Bytes) = [] ++ 13 :: 10 :: rest from rfl, parseTokenEmpty_eq _ _ (by rfl) (by decide)]
      rfl
    rw [this] at h
    simp at h
  | cons c q' =>
    have hqne : q ≠ [] := by rw [hq]; simp
    clear hq
    rw [h2 _ hqne] at h
    simp only [thenRead] at h
    by_cases hall : q.all isToken = true
    · rw [parseToken_eq hqne hall (by decide)] at h
      obtain ⟨_, b1, -, h⟩ := thenRead_ok (f := fun _ buf => thenRead (parseVersion buf) fun version buf => f q version buf) h
      obtain ⟨version, b2, -, h⟩ := thenRead_ok h
      refine ⟨q, version, b2, h, ?_⟩
      cases k with
      | zero => right; rw [List.replicate_zero, List.nil_append] at e; rw [e]; exact ⟨rfl, hqne, hall⟩
      | succ k => left; rw [e]; simp only [List.length_append, List.length_replicate]; omega
    · obtain ⟨t, b, s, e2, g1, g2, -⟩ := scan_spec hall
      rw [e2, List.append_assoc, List.cons_append] at h
      by_cases ht : t = []
      · exfalso
        unfold parseToken parseTokenBy at h
        rw [parseTokenEmpty_eq _ _ g1 g2, if_pos ht] at h
        simp at h
      · rw [parseToken_eq ht g1 g2] at h
        obtain ⟨_, b1, -, h⟩ := thenRead_ok (f := fun _ buf => thenRead (parseVersion buf) fun version buf => f t version buf) h
        obtain ⟨version, b2, -, h⟩ := thenRead_ok h
        refine ⟨t, version, b2, h, .inl ?_⟩
        rw [e, e2]; simp only [List.length_append, List.length_cons]; omega

end Webparse
