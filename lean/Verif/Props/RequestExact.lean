import Verif.Spec.RequestExact
import Verif.Props.Rewrite

/-! # C41 and C71, exactly: the requests that are read as they were written -/

namespace Webparse

open Spec

theorem hostValue_of {x d : Bytes} {p : Nat} (h : HostIs x d p) : HostValue x := by
  rcases h with ⟨h, -, -⟩ | ⟨q, h1, h2, h3, h4⟩
  · exact .inl h
  · exact .inr ⟨d, q, p, h1, h2, h3, h4⟩

/-- A request line that is well formed: what is read is what the header parser reads after it, and the URL worked out from both. -/
theorem request_well {r r0 r' : Request} {body out rest : Bytes} {n : Nat} (hreg : ∃ e ∈ methodNames, e.1 = r.method)
    (h47 : r.url.path.head? = some 47) (hp : ∀ b ∈ r.url.path, IsPrint b) (h : r.http1Data body = .ok out)
    (h1 : r0.parseBuffer out = (.ok n, r', rest)) :
    parseHeader [] (r.header.encode ++ body) = (.ok (), r'.header, rest) ∧ requestUrl r.method r'.header r.url.path = .ok r'.url ∧
      r'.method = r.method ∧ r'.version = r.version := by
  obtain ⟨hm0, hv0, eout⟩ := http1Data_eq h
  have hmt : Method.tryFrom r.method.asStr = .ok r.method := by
    obtain ⟨e, he, h1⟩ := hreg
    rw [← h1]
    clear h1
    revert e; decide +kernel
  have hne : r.url.path ≠ [] := by intro e; rw [e] at h47; simp at h47
  unfold Request.parseBuffer at h1
  rw [countRead_ok, ← forget_ok, eout, request_text r0 hmt hv0 hne (List.all_eq_true.mpr fun b hb => (isPrint_iff b).mp (hp b hb))] at h1
  obtain ⟨⟨_, p⟩, b2, h9, h10⟩ := thenRead_ok h1.1
  simp only [Prod.mk.injEq] at h10
  obtain ⟨h10, rfl⟩ := h10
  unfold urlStep at h10
  split at h10
  · rename_i url hurl
    simp only [Res.ok.injEq, Prod.mk.injEq, true_and] at h10
    subst h10
    exact ⟨forget_ok.mp h9, hurl, rfl, rfl⟩
  · simp at h10
  · simp at h10

/-- What is read back with its method, path, query and headers was one of the requests that text carries. -/
theorem carried_needed {r r0 r' : Request} {body out rest : Bytes} {n : Nat} (h : r.http1Data body = .ok out)
    (h1 : r0.parseBuffer out = (.ok n, r', rest)) (hs : SameRequest r r') : CarriedRequest r := by
  obtain ⟨m, target, v, hs', head, url, ha, -, -, hu, e⟩ := (C74_request_iff_partial _ _ _ _ _).mp h1
  obtain ⟨_, _, _, _, text, -, -, -, -, -, -, -, -, ht, _, -, -, k, hk1, hk2, -⟩ := ha
  have em : m = r.method := by rw [← hs.1, e]
  have hreg : ∃ e ∈ methodNames, e.1 = r.method := ⟨k, hk1, by rw [hk2]; exact em⟩
  by_cases hm : r.method = .connect
  · unfold requestUrl at hu
    rw [if_pos (em.trans hm), connectByHost_iff] at hu
    obtain ⟨d, q, -, eu⟩ := hu
    have hp : r.url.path = [47] := by rw [← hs.2.1, e, eu]; rfl
    have hq : r.url.query = none := by rw [← hs.2.2.1, e, eu]; rfl
    refine ⟨hreg, by rw [hp]; rfl, ?_, hq, fun _ => hp, fun h => absurd hm h⟩
    intro b hb
    rw [hp, List.mem_singleton] at hb
    subst hb
    unfold IsPrint; decide
  · obtain ⟨g1, g2, g3⟩ := request_path_needed hm hreg h h1 hs
    refine ⟨hreg, g1, g2, g3, fun h => absurd h hm, fun _ x hx => ?_⟩
    obtain ⟨-, hu, -⟩ := request_well hreg g1 (fun b hb => (g2 b hb).1) h h1
    unfold requestUrl at hu
    rw [if_neg hm] at hu
    simp only [Res.bind_eq_ok, Res.ok.injEq] at hu
    obtain ⟨u1, hu1, u2, hu2, -⟩ := hu
    obtain ⟨-, -, -, -, hd, -⟩ := (C49_origin _ g1 u1).mp hu1
    unfold fillHost at hu2
    rw [hs.2.2.2.2, hd, hx] at hu2
    simp only [Option.isNone_none, if_true] at hu2
    obtain ⟨d, p, hdp, -⟩ := (connectByHost_iff _ _ _).mp hu2
    exact hostValue_of hdp

/-- C41, exactly: a request, its headers made with the operations of a header map, is read back as it was written, with what was
its body left, exactly if it is one of those that text carries and its headers are clean. -/
theorem C41_exact_partial (r r0 : Request) (ops : List HeaderOp) (body out : Bytes) (hh : r.header = runOps ops)
    (h : r.http1Data body = .ok out) :
    (∃ n r', r0.parseBuffer out = (.ok n, r', body) ∧ SameRequest r r') ↔ CarriedRequest r ∧ ∀ e ∈ r.header, CleanHeader e := by
  constructor
  · rintro ⟨n, r', h1, hs⟩
    have hc := carried_needed h h1 hs
    obtain ⟨g, -⟩ := request_well hc.method hc.slash (fun b hb => (hc.path b hb).1) h h1
    rw [hs.2.2.2.2, hh] at g
    exact ⟨hc, hh ▸ (C37_roundtrip_iff ops [] body).mp g⟩
  · rintro ⟨hc, hcl⟩
    by_cases hm : r.method = .connect
    · obtain ⟨-, hv, e⟩ := http1Data_eq h
      have et : out = requestText (asciiBytes "CONNECT") [47] r.version.asStr (headerText (runOps ops) ++ body) := by
        rw [e, requestText, headerText_eq, hm, hc.connect hm, hh]
        simp [Method.asStr]
      obtain ⟨n, r', h1, h2⟩ := (C62_connect r0 [47] body r.version ops ⟨.none, [47], none, none, some [47], some 80, none⟩ (hh ▸ hcl) hv (by simp)
        (by intro b hb; rw [List.mem_singleton] at hb; subst hb; unfold IsPrint; decide)).mpr
          ⟨[47], 80, .inl ⟨by decide, rfl, rfl⟩, rfl⟩
      rw [← et] at h1
      obtain ⟨g, -, g1, g2⟩ := request_well hc.method hc.slash (fun b hb => (hc.path b hb).1) h h1
      rw [hh, (C37_roundtrip_iff ops [] body).mpr (hh ▸ hcl)] at g
      simp only [Prod.mk.injEq, true_and, and_true] at g
      refine ⟨n, r', h1, g1, by rw [h2, hc.connect hm], by rw [h2, hc.query], g2, by rw [hh, g]⟩
    · obtain ⟨r', h1, h2⟩ := (C41_roundtrip_iff_partial r r0 ops body out hh hcl (hc.host hm) hm hc.method h).mpr ⟨hc.slash, hc.path, hc.query⟩
      exact ⟨_, r', h1, h2⟩

/-- Where an accepted request came from does not matter: written again, it is read back as it was exactly if it is one of those that text
carries (its headers are clean). -/
theorem C109_iff_partial (object o : Request) (buf rest body wire : Bytes) (n : Nat) (r : Request)
    (h : object.parseBuffer buf = (.ok n, r, rest)) (hw : r.http1Data body = .ok wire) :
    (∃ n' r', o.parseBuffer wire = (.ok n', r', body) ∧ SameRequest r r') ↔ CarriedRequest r := by
  obtain ⟨m, target, v, hs, head, url, ha, -, -, -, rfl⟩ := (C74_request_iff_partial _ _ _ _ _).mp h
  obtain ⟨_, _, _, _, text, -, -, -, -, -, -, -, -, ht, _, -, -, k, hk1, hk2, -⟩ := ha
  rw [C41_exact_partial _ o (hs.map fun e => .insert e.1 e.2) body wire (storeAll_ops hs) hw]
  exact and_iff_left (C37_accepts_clean [] _ _ [] ((parseHeader_iff [] _ _ _).mpr ⟨hs, text, ht, rfl, rfl⟩))

/-- The bytes of a request with more after them are those of the request with a longer body. -/
theorem http1Data_more {r : Request} {body out : Bytes} (h : r.http1Data body = .ok out) (x : Bytes) :
    r.http1Data (body ++ x) = .ok (out ++ x) := by
  unfold Request.http1Data at h ⊢
  simp only [Res.bind_eq_ok, Res.ok.injEq] at h ⊢
  obtain ⟨a, h1, rfl⟩ := h
  exact ⟨a, h1, by simp⟩

theorem carried_carries {s : SentRequest} {wire : Bytes} (h : s.Sends wire) (hc : CarriedRequest s.request) :
    ∃ r, SameRequest s.request r ∧ Carries Request.parseBuffer (·.header) wire r s.body := by
  obtain ⟨n, r, h1, hr⟩ := (C41_exact_partial s.request {} s.ops s.wireBody wire h.header h.bytes).mpr ⟨hc, h.clean⟩
  refine ⟨r, hr, ?_⟩
  obtain ⟨e, h2, -⟩ := C39_request _ {} _ _ _ _ h1
  refine ⟨wire.take n, s.wireBody, ?_, ?_, fun o x => ⟨_, (C39_request _ o _ _ _ _ h1).2.2 x⟩, ?_⟩
  · conv_lhs => rw [← List.take_append_drop n wire, ← h2]
  · show Framed r.header _ _
    rw [hr.2.2.2.2]; exact h.framed
  · intro o k hk
    rw [List.length_take] at hk
    rw [List.take_take, Nat.min_eq_left (by omega)]
    exact C38_request _ o _ _ _ _ h1 k (by omega)

/-- C71 for requests, exactly: pipelined requests with clean headers and framed bodies are read back in order, each as it was written
and with its own body, after which the receiver is told to wait, exactly if each of them is one of those that text carries. -/
theorem C71_requests_iff_partial (sent : List (SentRequest × Bytes)) (h : ∀ s ∈ sent, s.1.Sends s.2) (object : Request) (fuel : Nat)
    (hf : sent.length < fuel) :
    (∃ received, converse Request.parseBuffer (·.header) fuel object (sent.map (·.2)).flatten = (received, .err .partialData) ∧
      Zip (fun s m => SameRequest s.1.request m.1 ∧ m.2 = s.1.body) sent received) ↔ ∀ s ∈ sent, CarriedRequest s.1.request := by
  induction sent generalizing object fuel with
  | nil =>
    obtain ⟨k, rfl⟩ : ∃ i, fuel = i + 1 := ⟨fuel - 1, by simp at hf; omega⟩
    refine ⟨fun _ => by simp, fun _ => ⟨[], ?_, .nil⟩⟩
    simp [converse, receive, Request.parseBuffer, Request.parseHead, skipEmptyLines, thenDo, countRead]
  | cons s sent ih =>
    obtain ⟨k, rfl⟩ : ∃ i, fuel = i + 1 := ⟨fuel - 1, by simp at hf; omega⟩
    have hs := h s (by simp)
    have hk : sent.length < k := by simpa using hf
    have ih := fun o => ih (fun x hx => h x (by simp [hx])) o k hk
    have step : CarriedRequest s.1.request → ∃ r, SameRequest s.1.request r ∧ receive Request.parseBuffer (·.header) object
        ((s :: sent).map (·.2)).flatten = .ok (r, s.1.body, (sent.map (·.2)).flatten) := by
      intro hc
      obtain ⟨r, hr, hcar⟩ := carried_carries hs hc
      exact ⟨r, hr, by simpa using carries_read hcar object (sent.map (·.2)).flatten⟩
    constructor
    · rintro ⟨received, h1, h2⟩
      cases h2 with
      | cons h3 h4 =>
        rename_i m ms
        have hc : CarriedRequest s.1.request := by
          simp only [converse] at h1
          split at h1
          · rename_i m' body rest hrec
            simp only [Prod.mk.injEq, List.cons.injEq] at h1
            obtain ⟨⟨rfl, -⟩, -⟩ := h1
            unfold receive at hrec
            split at hrec
            · rename_i n m2 rest2 hparse
              have e : m2 = m' := by
                split at hrec
                · simp only [Res.bind_eq_ok, Res.ok.injEq, Prod.mk.injEq] at hrec
                  obtain ⟨_, -, e, -⟩ := hrec
                  exact e
                · simp only [Res.bind_eq_ok] at hrec
                  obtain ⟨_, -, hrec⟩ := hrec
                  (repeat' split at hrec) <;> simp at hrec
                  exact hrec.1
              subst e
              refine carried_needed (http1Data_more hs.bytes (sent.map (·.2)).flatten) (by simpa using hparse) h3.1
            · simp at hrec
            · simp at hrec
          · simp at h1
          · simp at h1
        obtain ⟨r, hr, hrec⟩ := step hc
        simp only [converse, hrec, Prod.mk.injEq, List.cons.injEq] at h1
        intro x hx
        rcases List.mem_cons.mp hx with rfl | hx
        · exact hc
        · exact (ih r).mp ⟨ms, Prod.ext h1.1.2 h1.2, h4⟩ x hx
    · intro hc
      obtain ⟨r, hr, hrec⟩ := step (hc s (by simp))
      obtain ⟨ms, h1, h2⟩ := (ih r).mpr fun x hx => hc x (by simp [hx])
      exact ⟨(r, s.1.body) :: ms, by simp only [converse, hrec, h1], .cons ⟨hr, rfl⟩ h2⟩

/-- `POST /a` with two bytes is carried; `GET` with the path `/a b` is sent as well and is not. -/
example : CarriedRequest sentRequest.request ∧ (⟨requestSpace, [], [], []⟩ : SentRequest).Sends (asciiBytes "GET /a b HTTP/1.1\r\n\r\n") ∧
    ¬ CarriedRequest requestSpace := by
  refine ⟨⟨by decide +kernel, by decide +kernel, by unfold IsPrint; decide +kernel, by decide +kernel, by decide +kernel, ?_⟩,
    ⟨rfl, by intro e he; simp [requestSpace] at he, .none rfl rfl, by decide +kernel⟩, fun h => ?_⟩
  · intro _ x hx
    rw [show sentRequest.request.header.host = none by decide +kernel] at hx
    simp at hx
  · have := (h.path 32 (by decide +kernel)).1
    unfold IsPrint at this
    exact absurd this (by decide)

/-- `CONNECT` is carried with the path `/` only; what it connects to is not in its path. -/
example : CarriedRequest { method := .connect, url := Url.new } ∧
    ({ method := .connect, url := Url.new } : Request).http1Data [] = .ok (asciiBytes "CONNECT / HTTP/1.1\r\n\r\n") :=
  ⟨⟨by decide +kernel, by decide +kernel, by unfold IsPrint; decide +kernel, by decide +kernel, by decide +kernel, fun h => absurd rfl h⟩,
    by decide +kernel⟩

end Webparse
