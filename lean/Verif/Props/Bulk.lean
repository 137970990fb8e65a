import Verif.Spec.Bulk
import Verif.Proofs.Amplify
import Verif.Props.Grammar
import Verif.Props.Url
import Verif.Proofs.WsReader
import Verif.Props.Target
import Verif.Props.Chunk
import Verif.Props.Rfc6455
import Verif.Props.UrlEqExact

/-!
# C113: what is read is bounded by what it was read from

A URL is no larger than its text, the headers of a message are no larger than its head and at most a quarter as many as it has bytes, and a
request with its URL is at most four times as large as its head.
-/

namespace Webparse
open Spec

/-! ### URLs -/

theorem bulk_step (s s' : UrlState) (b : UInt8) (h : s.step b = .ok s') :
    (s'.username.getD []).length + (s'.password.getD []).length + (s'.domain.getD []).length + (s'.path.getD []).length + (s'.query.getD []).length + s'.val.length ≤
    (s.username.getD []).length + (s.password.getD []).length + (s.domain.getD []).length + (s.path.getD []).length + (s.query.getD []).length + s.val.length + 1 := by
  unfold UrlState.step at h
  (repeat' split at h) <;> first
    | (simp at h; done)
    | (simp only [Res.ok.injEq] at h; subst h; simp_all; done)
    | (simp only [Res.ok.injEq] at h; subst h; simp_all; omega)

theorem bulk_steps (x : Bytes) : ∀ (s s' : UrlState), s.steps x = .ok s' →
    (s'.username.getD []).length + (s'.password.getD []).length + (s'.domain.getD []).length + (s'.path.getD []).length + (s'.query.getD []).length + s'.val.length ≤
    (s.username.getD []).length + (s.password.getD []).length + (s.domain.getD []).length + (s.path.getD []).length + (s.query.getD []).length + s.val.length + x.length := by
  induction x with
  | nil =>
    intro s s' h
    simp only [UrlState.steps, Res.ok.injEq] at h
    subst h
    simp
  | cons b r ih =>
    intro s s' h
    rw [UrlState.steps, Res.bind_eq_ok] at h
    obtain ⟨t, h1, h2⟩ := h
    have a := ih t s' h2
    have b := bulk_step s t b h1
    rw [List.length_cons]
    omega

theorem bulk_finish (s : UrlState) :
    (s.finish.username.getD []).length + (s.finish.password.getD []).length + (s.finish.domain.getD []).length + (s.finish.path.getD []).length + (s.finish.query.getD []).length ≤
    (s.username.getD []).length + (s.password.getD []).length + (s.domain.getD []).length + (s.path.getD []).length + (s.query.getD []).length + s.val.length := by
  unfold UrlState.finish
  (repeat' split) <;> simp_all <;> try omega

theorem bulk_part {r v : Option Bytes} (h : PartIs r v) : (v.getD []).length ≤ (r.getD []).length := by
  cases r with
  | none => rw [show v = none from h]
  | some x => obtain ⟨y, hy, -, rfl⟩ := h; exact (decodes_len hy).1

theorem bulk_build {s : UrlState} {sc : Scheme} {u : Url} (h : s.build sc = .ok u) :
    urlBytes u ≤ sc.asStr.length + (s.username.getD []).length + (s.password.getD []).length + (s.domain.getD []).length +
      ((s.path.getD [47]).length) + (s.query.getD []).length := by
  have hi := (build_iff _ _ _).mp h
  have h1 := bulk_part hi.username
  have h2 := bulk_part hi.password
  have h3 := bulk_part hi.domain
  have h4 : u.path.length ≤ (s.path.getD [47]).length := bulk_part hi.path
  have h5 := bulk_part hi.query
  unfold UrlState.raw at h1 h2 h3 h5
  simp only [] at h1 h2 h3 h5
  unfold urlBytes
  rw [hi.scheme]
  omega

/-- A URL is no larger than the text it was read from. -/
theorem C113_url (s : Bytes) (u : Url) (h : Url.parse s = .ok u) : urlBytes u ≤ s.length := by
  have hpath : ∀ st : UrlState, (st.path.getD [47]).length ≤ (st.path.getD []).length + 1 := by
    intro st; cases st.path <;> simp
  cases s with
  | nil => simp [Url.parse] at h
  | cons b r =>
    have h0 := h
    rw [Url.parse] at h
    split at h
    · rename_i hb
      rw [Res.bind_eq_ok] at h
      obtain ⟨sc, h1, h⟩ := h
      rw [Res.bind_eq_ok] at h
      obtain ⟨st, h2, h3⟩ := h
      have hpre : parseSchemePrefix (b :: r) = (.ok sc, (parseSchemePrefix (b :: r)).2) := Prod.ext h1 rfl
      obtain ⟨t, -, e, ht⟩ := schemePrefix_inv (c := b) rfl (by rw [← isAlpha_eq]; exact hb) hpre
      obtain ⟨s', h4, rfl⟩ := run_ok h2
      have k1 := bulk_build h3
      have k2 := bulk_finish s'
      have k3 := bulk_steps _ _ _ h4
      have k4 := hpath s'.finish
      have k5 := congrArg List.length e
      rw [(tryFrom_asStr ht).1] at k1
      simp only [Option.getD_none, List.length_nil] at k3
      simp only [List.length_append, List.length_cons, List.length_nil] at k5 ⊢
      omega
    · split at h
      · rename_i hb
        have hb : b = 47 := hb
        obtain ⟨-, a1, a2, a3, a4, -, a5, a6⟩ := (C49_origin (b :: r) (by rw [hb]; rfl) u).mp h0
        have k1 : u.path.length ≤ (cut 63 (b :: r)).1.length := bulk_part a5
        have k2 := bulk_part a6
        have k3 : (cut 63 (b :: r)).1.length + ((cut 63 (b :: r)).2.getD []).length ≤ (b :: r).length := by
          cases hc : cut 63 (b :: r) with
          | mk x o =>
            cases o with
            | none => rw [(cut_none hc).1]; simp
            | some y => rw [(cut_some hc).1]; simp
        have hs : Scheme.none.asStr.length = 0 := rfl
        unfold urlBytes
        rw [a1, a2, a3, a4, hs]
        simp only [Option.getD_none, List.length_nil]
        omega
      · simp at h

/-! ### Headers -/

theorem headerBytes_insert (m : HeaderMap) (n v : Bytes) : headerBytes (m.insert n v) ≤ headerBytes m + (n.length + v.length) := by
  induction m with
  | nil => simp [HeaderMap.insert, headerBytes]
  | cons e m ih =>
    rw [HeaderMap.insert]
    split
    · simp only [headerBytes, List.map_cons, List.sum_cons]; omega
    · simp only [headerBytes, List.map_cons, List.sum_cons] at ih ⊢; omega

theorem length_insert (m : HeaderMap) (n v : Bytes) : (m.insert n v).length ≤ m.length + 1 := by
  induction m with
  | nil => simp [HeaderMap.insert]
  | cons e m ih =>
    rw [HeaderMap.insert]
    split
    · simp
    · simp only [List.length_cons]; omega

theorem storeAll_bytes (hs : List Header) : headerBytes (storeAll hs) ≤ headerBytes hs ∧ (storeAll hs).length ≤ hs.length := by
  unfold storeAll
  have key : ∀ (hs : List Header) (m : HeaderMap), headerBytes (hs.foldl (fun m h => m.insert h.1 h.2) m) ≤ headerBytes m + headerBytes hs ∧
      (hs.foldl (fun m h => m.insert h.1 h.2) m).length ≤ m.length + hs.length := by
    intro hs
    induction hs with
    | nil => intro m; simp [headerBytes]
    | cons h hs ih =>
      intro m
      obtain ⟨a, b⟩ := ih (m.insert h.1 h.2)
      have c := headerBytes_insert m h.1 h.2
      have d := length_insert m h.1 h.2
      have e : headerBytes (h :: hs) = h.1.length + h.2.length + headerBytes hs := by simp [headerBytes]
      rw [List.foldl_cons, List.length_cons, e]
      exact ⟨by omega, by omega⟩
  have := key hs []
  simpa [headerBytes] using this

theorem fields_bytes {hs : List Header} {text : Bytes} (h : AcceptedFields hs text) : headerBytes hs + 3 * hs.length + 1 ≤ text.length ∧ 4 * hs.length + 1 ≤ text.length := by
  induction h with
  | done he => rcases he with rfl | rfl <;> simp [headerBytes]
  | @more h line hs text hl _ ih =>
    obtain ⟨⟨hn, -⟩, a, b, e, -, -, -, -, he, rfl⟩ := hl
    have e2 : 2 ≤ e.length := by rcases he with rfl | ⟨-, rfl | rfl⟩ <;> simp
    have h1 : 0 < h.1.length := List.length_pos_iff.mpr hn
    have e3 : headerBytes (h :: hs) = h.1.length + h.2.length + headerBytes hs := by simp [headerBytes]
    rw [e3]
    simp only [List.length_append, List.length_cons, List.length_nil]
    omega

/-- The headers of a response are no larger than its head, and there are at most a quarter as many as the head has bytes. -/
theorem C113_response (r r' : Response) (buf rest : Bytes) (n : Nat) (h : r.parseBuffer buf = (.ok n, r', rest)) :
    headerBytes r'.header ≤ n ∧ 4 * r'.header.length ≤ n := by
  obtain ⟨v, code, hs, head, ⟨lines, a, b, reason, e, text, -, -, -, -, -, -, -, -, -, -, -, hf, vn, -, -, rfl⟩, -, rfl, rfl⟩ :=
    (C74_response_iff_partial r r' buf rest n).mp h
  obtain ⟨f1, f2⟩ := fields_bytes hf
  obtain ⟨g1, g2⟩ := storeAll_bytes hs
  simp only [List.length_append]
  omega

/-! ### Requests -/

theorem get_mem {m : HeaderMap} {n v : Bytes} (h : m.get? n = some v) : ∃ e ∈ m, e.2 = v ∧ e.1.length = n.length := by
  unfold HeaderMap.get? at h
  rw [Option.map_eq_some_iff] at h
  obtain ⟨e, h1, h2⟩ := h
  refine ⟨e, List.mem_of_find?_eq_some h1, h2, ?_⟩
  have h3 := List.find?_some h1
  unfold nameEq at h3
  by_cases hl : e.1.length = n.length
  · exact hl
  · rw [if_pos hl] at h3; cases h3

theorem one_bytes {m : HeaderMap} {a : Header} (ha : a ∈ m) : a.1.length + a.2.length ≤ headerBytes m := by
  induction m with
  | nil => simp at ha
  | cons e m ih =>
    have e3 : headerBytes (e :: m) = e.1.length + e.2.length + headerBytes m := by simp [headerBytes]
    rw [e3]
    rcases List.mem_cons.mp ha with rfl | ha
    · omega
    · have := ih ha; omega

theorem two_bytes {m : HeaderMap} {a b : Header} (ha : a ∈ m) (hb : b ∈ m) (hne : a ≠ b) : a.2.length + b.2.length ≤ headerBytes m := by
  induction m with
  | nil => simp at ha
  | cons e m ih =>
    have e3 : headerBytes (e :: m) = e.1.length + e.2.length + headerBytes m := by simp [headerBytes]
    rw [e3]
    rcases List.mem_cons.mp ha with h1 | h1 <;> rcases List.mem_cons.mp hb with h2 | h2
    · exact absurd (h1.trans h2.symm) hne
    · subst h1; have := one_bytes h2; omega
    · subst h2; have := one_bytes h1; omega
    · have := ih h1 h2; omega

theorem host_mem {m : HeaderMap} {x : Bytes} (h : m.host = some x) : ∃ e ∈ m, x.length ≤ 3 * e.2.length ∧ e.1.length ≠ 7 := by
  have l1 : List.length (asciiBytes "host" : Bytes) = 4 := by decide
  have l2 : List.length (asciiBytes ":authority" : Bytes) = 10 := by decide
  unfold HeaderMap.host at h
  split at h
  · rename_i v hv
    simp only [Option.some.injEq] at h
    obtain ⟨e, he, rfl, hl⟩ := get_mem hv
    exact ⟨e, he, by rw [← h]; exact utf8Lossy_length _, by omega⟩
  · split at h
    · rename_i v hv
      simp only [Option.some.injEq] at h
      obtain ⟨e, he, rfl, hl⟩ := get_mem hv
      exact ⟨e, he, by rw [← h]; exact utf8Lossy_length _, by omega⟩
    · cases h

theorem hostIs_len {x d : Bytes} {p : Nat} (h : HostIs x d p) : d.length ≤ x.length := by
  rcases h with ⟨-, rfl, -⟩ | ⟨q, rfl, -⟩
  · exact Nat.le_refl _
  · simp

theorem fillHost_bytes {m : HeaderMap} {u u' : Url} (h : fillHost m u = .ok u') : u' = u ∨
    ∃ e ∈ m, urlBytes u' ≤ urlBytes u + 3 * e.2.length ∧ e.1.length ≠ 7 := by
  unfold fillHost at h
  split at h
  · rename_i hd
    split at h
    · rename_i x hx
      obtain ⟨d, p, h1, rfl⟩ := (connectByHost_iff _ _ _).mp h
      obtain ⟨e, he, hl, hn⟩ := host_mem hx
      have := hostIs_len h1
      refine .inr ⟨e, he, ?_, hn⟩
      unfold urlBytes
      simp only [Option.getD_some]
      omega
    · left; cases h; rfl
  · left; cases h; rfl

theorem fillScheme_bytes (m : HeaderMap) (u : Url) : urlBytes (fillScheme m u) ≤ urlBytes u + 4 ∨
    ∃ e ∈ m, urlBytes (fillScheme m u) ≤ urlBytes u + 3 * e.2.length ∧ e.1.length = 7 := by
  have l1 : List.length (asciiBytes ":scheme" : Bytes) = 7 := by decide
  have l2 : Scheme.http.asStr.length = 4 := by decide
  unfold fillScheme
  split
  · split
    · rename_i v hv
      split
      · rename_i s hs
        obtain ⟨e, he, rfl, hl⟩ := get_mem hv
        refine .inr ⟨e, he, ?_, by omega⟩
        have := utf8Lossy_length e.2
        rw [← (tryFrom_asStr hs).1] at this
        unfold urlBytes
        simp only []
        omega
      · left; unfold urlBytes; simp only [l2]; omega
    · left; unfold urlBytes; simp only [l2]; omega
  · left; omega

theorem requestUrl_bytes {me : Method} {m : HeaderMap} {target : Bytes} {u : Url} (h : requestUrl me m target = .ok u) :
    urlBytes u ≤ target.length + 4 + 3 * headerBytes m := by
  unfold requestUrl at h
  split at h
  · obtain ⟨d, p, h1, rfl⟩ := (connectByHost_iff _ _ _).mp h
    have := hostIs_len h1
    have l : Scheme.none.asStr.length = 0 := rfl
    unfold urlBytes Url.new
    simp only [Option.getD_some, Option.getD_none, List.length_nil, l, List.length_cons]
    omega
  · rw [Res.bind_eq_ok] at h
    obtain ⟨u0, h0, h⟩ := h
    rw [Res.bind_eq_ok] at h
    obtain ⟨u1, h1, h⟩ := h
    cases h
    have k0 := C113_url _ _ h0
    rcases fillHost_bytes h1 with rfl | ⟨e, he, ha, hb⟩ <;> rcases fillScheme_bytes m u1 with hs | ⟨e', he', hc, hd⟩
    · omega
    · have := one_bytes he'; omega
    · have := one_bytes he; omega
    · have := two_bytes he he' (by rintro rfl; exact hb hd); omega

/-- The headers of a request are no larger than its head, there are at most a quarter as many as the head has bytes, and the URL
(with the host and the scheme copied from the headers) brings it to at most four times the head. -/
theorem C113_request (r r' : Request) (buf rest : Bytes) (n : Nat) (h : r.parseBuffer buf = (.ok n, r', rest)) :
    headerBytes r'.header ≤ n ∧ 4 * r'.header.length ≤ n ∧ headerBytes r'.header + urlBytes r'.url ≤ 4 * n := by
  obtain ⟨m, target, v, hs, head, url, ⟨lines, a, b, e, text, -, -, ha, -, hb, -, -, he, hf, vn, -, -, k, -, -, rfl⟩, -, rfl, hu, rfl⟩ :=
    (C74_request_iff_partial r r' buf rest n).mp h
  obtain ⟨f1, f2⟩ := fields_bytes hf
  obtain ⟨g1, g2⟩ := storeAll_bytes hs
  have k1 := requestUrl_bytes hu
  have k2 := List.length_pos_iff.mpr ha
  have k3 := List.length_pos_iff.mpr hb
  simp only [List.length_append]
  exact ⟨by omega, by omega, by omega⟩

/-- The replacement character, so many times. -/
def replacements : Nat → Bytes
  | 0 => []
  | k + 1 => [239, 191, 189] ++ replacements k

theorem lossy_replicate : ∀ k, utf8LossyAux k (List.replicate k 255) = replacements k
  | 0 => rfl
  | k + 1 => by
    have h1 : utf8Next 255 (List.replicate k 255) = .inr 1 := rfl
    rw [List.replicate_succ, utf8LossyAux, h1, replacements]
    simp only [List.drop_succ_cons, List.drop_zero]
    rw [lossy_replicate k]

theorem replacements_spec : ∀ k, (replacements k).length = 3 * k ∧ (58 : UInt8) ∉ replacements k
  | 0 => by simp [replacements]
  | k + 1 => by
    obtain ⟨a, b⟩ := replacements_spec k
    rw [replacements]
    refine ⟨by simp only [List.length_append, a, List.length_cons, List.length_nil]; omega, ?_⟩
    simp only [List.mem_append, not_or]
    exact ⟨by decide, b⟩

/-- The factor four cannot be improved: a host of bytes that are not UTF-8 is kept as it is among the headers and three times as long
in the URL. -/
theorem C113_sharp (r : Request) (k : Nat) : ∃ buf r', r.parseBuffer buf = (.ok (k + 25), r', []) ∧
    headerBytes r'.header + urlBytes r'.url + 91 = 4 * (k + 25) := by
  obtain ⟨hl, hc⟩ := replacements_spec k
  have hm : ∀ x ∈ List.replicate k (255 : UInt8), x = 255 := fun x hx => List.eq_of_mem_replicate hx
  have hu : requestUrl .get (storeAll [(asciiBytes "Host", List.replicate k 255)]) [47] =
      .ok ⟨.http, [47], none, none, some (replacements k), some 80, none⟩ := by
    have h0 : Url.parse [47] = .ok ⟨.none, [47], none, none, none, some 0, none⟩ := by decide +kernel
    have h1 : nameEq (asciiBytes "Host") (asciiBytes "host") = true := by decide +kernel
    have h2 : nameEq (asciiBytes "Host") (asciiBytes ":scheme") = false := by decide +kernel
    have h3 : (storeAll [(asciiBytes "Host", List.replicate k 255)]) = [(asciiBytes "Host", List.replicate k 255)] := rfl
    have h4 : HeaderMap.host [(asciiBytes "Host", List.replicate k 255)] = some (replacements k) := by
      unfold HeaderMap.host HeaderMap.get?
      simp only [List.find?_cons, h1, Option.map_some, utf8Lossy, List.length_replicate, lossy_replicate]
    have h5 : HeaderMap.get? [(asciiBytes "Host", List.replicate k 255)] (asciiBytes ":scheme") = none := by
      unfold HeaderMap.get?
      simp only [List.find?_cons, h2, List.find?_nil, Option.map_none]
    rw [h3]
    unfold requestUrl
    rw [if_neg (by decide), h0]
    simp only [bind, Res.bind, fillHost, h4, connectByHost, splitColon_none hc, Option.isNone_none, if_true, fillScheme, h5]
  refine ⟨_, _, (C74_request_iff_partial r _ _ [] (k + 25)).mpr ⟨.get, [47], .http11, [(asciiBytes "Host", List.replicate k 255)],
    asciiBytes "" ++ asciiBytes "GET" ++ [32] ++ [47] ++ [32] ++ asciiBytes "HTTP/1.1" ++ [13, 10] ++
      ((asciiBytes "Host" ++ [] ++ [58] ++ [] ++ List.replicate k 255 ++ [13, 10]) ++ [13, 10]), _, ?_, rfl, ?_, hu, rfl⟩, ?_⟩
  · refine ⟨asciiBytes "", [32], [32], [13, 10], _, .nil, by decide +kernel, by decide, by decide +kernel, by decide, by decide, by decide +kernel, .inl rfl,
      .more ⟨⟨show asciiBytes "Host" ≠ [] by decide, show ∀ b ∈ asciiBytes "Host", isTchar b = true by decide +kernel⟩, [], [], [13, 10], by simp [Spaces], by simp [Spaces], ?_, ?_, .inl rfl, rfl⟩ (.done (.inl rfl)),
      (.http11, "HTTP/1.1"), by decide, rfl, (.get, "GET"), by decide, rfl, rfl⟩
    · intro h; exact absurd (hm _ h) (by decide)
    · intro h; exact absurd (hm _ (List.mem_of_mem_head? h)) (by decide)
  · have l1 : List.length (asciiBytes "GET" : Bytes) = 3 := by decide
    have l2 : List.length (asciiBytes "HTTP/1.1" : Bytes) = 8 := by decide
    have l3 : List.length (asciiBytes "Host" : Bytes) = 4 := by decide
    have l4 : List.length (asciiBytes "" : Bytes) = 0 := by decide
    simp only [List.length_append, List.length_cons, List.length_nil, List.length_replicate, l1, l2, l3, l4]
    omega
  · have l3 : List.length (asciiBytes "Host" : Bytes) = 4 := by decide
    have l2 : Scheme.http.asStr.length = 4 := by decide
    have h3 : (storeAll [(asciiBytes "Host", List.replicate k 255)]) = [(asciiBytes "Host", List.replicate k 255)] := rfl
    simp only [h3, headerBytes, urlBytes, List.map_cons, List.map_nil, List.sum_cons, List.sum_nil, l3, l2, hl, List.length_replicate, Option.getD_some,
      Option.getD_none, List.length_cons, List.length_nil]
    omega

/-! ### Chunks and WebSocket frames -/

/-- A chunk lies within the bytes given, with room for the line end after it. -/
theorem C113_chunk (buf : Bytes) (off num : Nat) (h : parseChunkData buf = .ok (off, num)) : off + num + 2 ≤ buf.length := by
  obtain ⟨size, e, rest, -, -, rfl, -, -, h1, rfl⟩ := (C81_taken_iff_partial buf off num).mp h
  simp only [List.length_append]
  omega

/-- The payload of a WebSocket frame is at least two bytes shorter than what is taken for it. -/
theorem C113_frame (masked : Bool) (buf rest : Bytes) (f : WsFrame) (h : readFrameSt masked buf = (.ok f, rest)) :
    f.data.length + 2 + rest.length ≤ buf.length := by
  obtain ⟨-, key, rfl⟩ := (C83_taken_iff_partial masked buf rest f).mp h
  have h1 : 2 ≤ (wsWireHeader (wsFlagBits f) f.opcode.toByte.toNat key f.data.length).length := by
    unfold wsWireHeader
    simp only [List.length_append, List.length_cons, List.length_nil]
    (repeat' split) <;> simp
  have h2 := maskedOpt_length key f.data
  unfold wsWireFrame
  simp only [List.length_append]
  omega

/-! ### Cases that meet the hypotheses -/

/-- Percent-encoding makes the URL smaller than its text. -/
example : Url.parse (asciiBytes "http://u:p@h:1/%41?%42") = .ok ⟨.http, asciiBytes "/A", some [117], some [112], some [104], some 1, some [66]⟩ ∧
    urlBytes ⟨.http, asciiBytes "/A", some [117], some [112], some [104], some 1, some [66]⟩ = 10 := by decide +kernel

/-- A host that is not UTF-8: each of its bytes becomes the three of U+FFFD, so the request is larger than its head. -/
example : (Request.parseBuffer {} (asciiBytes "GET / HTTP/1.1\r\nHost: " ++ List.replicate 4 255 ++ asciiBytes "\r\n\r\n")).1 = .ok 30 ∧
    headerBytes (Request.parseBuffer {} (asciiBytes "GET / HTTP/1.1\r\nHost: " ++ List.replicate 4 255 ++ asciiBytes "\r\n\r\n")).2.1.header = 8 ∧
    urlBytes (Request.parseBuffer {} (asciiBytes "GET / HTTP/1.1\r\nHost: " ++ List.replicate 4 255 ++ asciiBytes "\r\n\r\n")).2.1.url = 17 := by
  decide +kernel

/-- Two headers of one name: the second replaces the first. -/
example : (Response.parseBuffer {} (asciiBytes "HTTP/1.1 200 OK\r\na: 1\r\nA: 2\r\n\r\n")) =
      (.ok 31, ⟨200, .http11, [(asciiBytes "a", asciiBytes "2")], false⟩, []) ∧
    headerBytes [(asciiBytes "a", asciiBytes "2")] = 2 := by decide +kernel

example : parseChunkData (asciiBytes "3\r\nabc\r\n") = .ok (3, 3) := by decide +kernel

example : readFrameSt false [129, 1, 65, 7] = (.ok ⟨true, (false, false, false), .text, [65]⟩, [7]) := by decide +kernel

end Webparse
