import Verif.Spec.Builder
import Verif.Props.HttpSettings
import Verif.Props.HeaderMap
import Verif.Props.Safety
import Verif.Props.Url

/-! # Builders: C63, C64, C65 -/

namespace Webparse
open Spec

/-! ## C64 -/

theorem insertAll_ops (hs : HeaderMap) : ∀ m : HeaderMap,
    m.insertAll hs = (hs.map fun e => HeaderOp.insert e.1 e.2).foldl HeaderOp.run m := by
  induction hs with
  | nil => intro m; rfl
  | cons e hs ih => intro m; exact ih _

theorem putUrl_eq (r : Request) (u : Url) : r.putUrl u = { r with url := u, header := (hostOps u).foldl HeaderOp.run r.header } := by
  unfold Request.putUrl Url.connectUrl hostOps
  cases u.domain <;> cases u.port <;> rfl

/-- What one call does to parts, if it does not fail. -/
def RequestCall.on (c : RequestCall) (r : Request) : Request :=
  ⟨c.methodSet.getD r.method, c.headerOps.foldl HeaderOp.run r.header, c.versionSet.getD r.version,
    c.urlSet.getD r.url, r.isPartial⟩

theorem method_no_panic (t : Bytes) : Method.tryFrom t ≠ .panic := method_tryFrom_no_panic t

theorem call_ok (c : RequestCall) (r : Request) (h : ∀ e, ¬ c.Fails e) :
    c.run (.ok r) = .ok (RequestCall.on c r) := by
  cases c with
  | method t =>
    simp only [RequestCall.run, RequestBuilder.method, RequestBuilder.andThen, RequestCall.on,
      RequestCall.methodSet, RequestCall.headerOps, RequestCall.versionSet, RequestCall.urlSet]
    cases hm : Method.tryFrom t with
    | ok m => rfl
    | err e => exact absurd (Or.inl ⟨t, rfl, hm⟩) (h e)
    | panic => exact absurd hm (method_no_panic t)
  | methodIs m => rfl
  | url t =>
    simp only [RequestCall.run, RequestBuilder.url, RequestBuilder.andThen, RequestCall.on,
      RequestCall.methodSet, RequestCall.headerOps, RequestCall.versionSet, RequestCall.urlSet]
    cases hm : Url.parse t with
    | ok u => show Res.ok (r.putUrl u) = _; rw [putUrl_eq]; rfl
    | err e => exact absurd (Or.inr ⟨t, rfl, hm⟩) (h e)
    | panic => exact absurd hm (C59_url t)
  | urlIs u =>
    simp only [RequestCall.run, RequestBuilder.urlIs, RequestBuilder.andThen, putUrl_eq]
    rfl
  | version v => rfl
  | header n v => rfl
  | headers hs =>
    simp only [RequestCall.run, RequestBuilder.headers, RequestBuilder.andThen, insertAll_ops]
    rfl

theorem call_err (c : RequestCall) (r : Request) (e : Error) (h : c.Fails e) : c.run (.ok r) = .err e := by
  rcases h with ⟨t, rfl, h⟩ | ⟨t, rfl, h⟩
  · simp only [RequestCall.run, RequestBuilder.method, RequestBuilder.andThen, h]
    rfl
  · simp only [RequestCall.run, RequestBuilder.url, RequestBuilder.andThen, h]
    rfl

theorem calls_err (e : Error) (calls : List RequestCall) : calls.foldl RequestCall.run (.err e) = .err e := by
  induction calls with
  | nil => rfl
  | cons c cs ih =>
    rw [List.foldl_cons]
    have : c.run (.err e) = .err e := by cases c <;> rfl
    rw [this, ih]

theorem calls_ok (calls : List RequestCall) : ∀ r, (∀ c ∈ calls, ∀ e, ¬ c.Fails e) →
    calls.foldl RequestCall.run (.ok r) = .ok (calls.foldl (fun r c => RequestCall.on c r) r) := by
  induction calls with
  | nil => intro r _; rfl
  | cons c cs ih =>
    intro r h
    rw [List.foldl_cons, call_ok c r (h c (by simp)), ih _ fun c hc => h c (by simp [hc]), List.foldl_cons]

theorem lastOf_cons {α β : Type} (f : α → Option β) (c : α) (cs : List α) (x : β) :
    (lastOf f (c :: cs)).getD x = (lastOf f cs).getD ((f c).getD x) := by
  unfold lastOf
  cases h : f c with
  | none => rw [List.filterMap_cons_none h]; rfl
  | some y =>
    rw [List.filterMap_cons_some h, List.getLast?_cons]
    cases (cs.filterMap f).getLast? <;> rfl

theorem calls_parts (calls : List RequestCall) : ∀ r,
    calls.foldl (fun r c => RequestCall.on c r) r =
      ⟨(lastOf RequestCall.methodSet calls).getD r.method, (calls.flatMap RequestCall.headerOps).foldl HeaderOp.run r.header,
        (lastOf RequestCall.versionSet calls).getD r.version, (lastOf RequestCall.urlSet calls).getD r.url, r.isPartial⟩ := by
  induction calls with
  | nil => intro r; rfl
  | cons c cs ih =>
    intro r
    rw [List.foldl_cons, ih, lastOf_cons, lastOf_cons, lastOf_cons, List.flatMap_cons, List.foldl_append]
    rfl

/-- C64: a chain of calls fails exactly with the error of the first call that fails; later calls do not
hide it. -/
theorem C64_error (calls : List RequestCall) (e : Error) : buildRequest calls = .err e ↔
    ∃ pre c post, calls = pre ++ c :: post ∧ c.Fails e ∧ ∀ c' ∈ pre, ∀ e', ¬ c'.Fails e' := by
  have key : ∀ (calls : List RequestCall) (r : Request),
      (calls.foldl RequestCall.run (.ok r)).body = .err e ↔
      ∃ pre c post, calls = pre ++ c :: post ∧ c.Fails e ∧ ∀ c' ∈ pre, ∀ e', ¬ c'.Fails e' := by
    intro calls
    induction calls with
    | nil =>
      intro r
      simp [RequestBuilder.body, Res.bind]
    | cons c cs ih =>
      intro r
      rw [List.foldl_cons]
      by_cases hf : ∃ e', c.Fails e'
      · obtain ⟨e', hf⟩ := hf
        rw [call_err c r e' hf, calls_err]
        have uniq : ∀ e'', c.Fails e'' → e'' = e' := by
          intro e'' h
          have h1 := call_err c r e' hf
          rw [call_err c r e'' h] at h1
          exact Res.err.inj h1
        constructor
        · intro h
          have : e' = e := Res.err.inj h
          subst this
          exact ⟨[], c, cs, rfl, hf, by simp⟩
        · rintro ⟨pre, c', post, h1, h2, h3⟩
          cases pre with
          | nil =>
            simp only [List.nil_append, List.cons.injEq] at h1
            rw [← h1.1] at h2
            rw [uniq e h2]; rfl
          | cons d pre =>
            simp only [List.cons_append, List.cons.injEq] at h1
            exact absurd hf (h3 c (by simp [h1.1]) e')
      · have hc : ∀ e', ¬ c.Fails e' := fun e' h => hf ⟨e', h⟩
        rw [call_ok c r hc, ih]
        constructor
        · rintro ⟨pre, c', post, h1, h2, h3⟩
          refine ⟨c :: pre, c', post, by rw [h1]; rfl, h2, ?_⟩
          intro d hd
          rcases List.mem_cons.mp hd with rfl | hd
          · exact hc
          · exact h3 d hd
        · rintro ⟨pre, c', post, h1, h2, h3⟩
          cases pre with
          | nil =>
            simp only [List.nil_append, List.cons.injEq] at h1
            rw [← h1.1] at h2
            exact absurd h2 (hc e)
          | cons d pre =>
            simp only [List.cons_append, List.cons.injEq] at h1
            exact ⟨pre, c', post, h1.2, h2, fun x hx => h3 x (by simp [hx])⟩
  exact key calls _

/-- The history of the header map of a built message: the calls, and a default header if they set none of
that name. -/
def withDefault (name : String) (ops : List HeaderOp) : List HeaderOp :=
  if (absOps ops (lower (asciiBytes name))).isSome then ops else ops ++ [.insert (asciiBytes name) (asciiBytes "wenmeng")]

theorem insertMissing_ops (ops : List HeaderOp) (n v : Bytes) :
    (runOps ops).insertMissing n v = runOps (if (runOps ops).contains n then ops else ops ++ [.insert n v]) := by
  unfold HeaderMap.insertMissing
  split
  · rfl
  · unfold runOps
    rw [List.foldl_append]
    rfl

theorem default_lookup (ops : List HeaderOp) (name : String) (n : Bytes)
    (hu : ∀ a ∈ n :: asciiBytes name :: opNames ops, ∀ b ∈ n :: asciiBytes name :: opNames ops, Unambiguous a b) :
    ((runOps ops).insertMissing (asciiBytes name) (asciiBytes "wenmeng")).get? n = absOps (withDefault name ops) (lower n) := by
  rw [insertMissing_ops]
  have h1 := (C35_map_partial ops (asciiBytes name) (by
    intro a ha b hb
    exact hu a (List.mem_cons_of_mem _ ha) b (List.mem_cons_of_mem _ hb))).2.1
  rw [h1]
  unfold withDefault
  have names : ∀ ops : List HeaderOp, ∀ x y, opNames (ops ++ [.insert x y]) = opNames ops ++ [x] := by
    intro ops x y
    induction ops with
    | nil => rfl
    | cons op ops ih => cases op <;> simp [opNames, ih]
  split
  · refine (C35_map_partial ops n ?_).1
    intro a ha b hb
    refine hu a ?_ b ?_
    · simp only [List.mem_cons] at ha ⊢; rcases ha with h | h <;> simp [h]
    · simp only [List.mem_cons] at hb ⊢; rcases hb with h | h <;> simp [h]
  · refine (C35_map_partial _ n ?_).1
    rw [names]
    intro a ha b hb
    refine hu a ?_ b ?_
    · simp only [List.mem_cons, List.mem_append, List.not_mem_nil, or_false] at ha ⊢; rcases ha with h | h | h <;> simp [h]
    · simp only [List.mem_cons, List.mem_append, List.not_mem_nil, or_false] at hb ⊢; rcases hb with h | h | h <;> simp [h]

theorem built_parts (calls : List RequestCall) (h : ∀ c ∈ calls, ∀ e, ¬ c.Fails e) :
    buildRequest calls = .ok ⟨(lastOf RequestCall.methodSet calls).getD .get,
      (runOps (calls.flatMap RequestCall.headerOps)).insertMissing (asciiBytes "User-Agent") (asciiBytes "wenmeng"),
      (lastOf RequestCall.versionSet calls).getD .http11, (lastOf RequestCall.urlSet calls).getD Url.new, true⟩ := by
  unfold buildRequest RequestBuilder.new
  rw [calls_ok calls _ h, calls_parts]
  rfl

/-- C64: if no call fails, method, version and URL are the last ones set (GET, HTTP/1.1 and `/` otherwise). -/
theorem C64_built (calls : List RequestCall) (h : ∀ c ∈ calls, ∀ e, ¬ c.Fails e) :
    ∃ r, buildRequest calls = .ok r ∧ r.method = (lastOf RequestCall.methodSet calls).getD .get ∧
      r.version = (lastOf RequestCall.versionSet calls).getD .http11 ∧
      r.url = (lastOf RequestCall.urlSet calls).getD Url.new :=
  ⟨_, built_parts calls h, rfl, rfl, rfl⟩

/-- C64, headers: looking a name up, in any case, gives the last value set for it (`url` sets `Host`), and a
`User-Agent` if none was set. -/
def C64_lookup_statement : Prop :=
  ∀ (calls : List RequestCall) (n : Bytes) (r : Request), buildRequest calls = .ok r →
    r.header.get? n = absOps (withDefault "User-Agent" (calls.flatMap RequestCall.headerOps)) (lower n)

/-- Fails for names that the code confuses: `UserMAgent` counts as a `User-Agent`. -/
theorem C64_violated_lookup : ¬ C64_lookup_statement := by
  intro h
  have := h [.header (asciiBytes "UserMAgent") (asciiBytes "1")] (asciiBytes "user-agent")
    ⟨.get, [(asciiBytes "UserMAgent", asciiBytes "1")], .http11, Url.new, true⟩ (by decide +kernel)
  revert this
  decide +kernel

/-- C64, headers, for unambiguous names. -/
theorem C64_lookup_partial (calls : List RequestCall) (n : Bytes) (r : Request) (h : buildRequest calls = .ok r)
    (hu : ∀ a ∈ n :: asciiBytes "User-Agent" :: opNames (calls.flatMap RequestCall.headerOps),
      ∀ b ∈ n :: asciiBytes "User-Agent" :: opNames (calls.flatMap RequestCall.headerOps), Unambiguous a b) :
    r.header.get? n = absOps (withDefault "User-Agent" (calls.flatMap RequestCall.headerOps)) (lower n) := by
  have hf : ∀ c ∈ calls, ∀ e, ¬ c.Fails e := by
    intro c hc e he
    have key : ∀ (calls : List RequestCall) (q : Request), c ∈ calls → ∃ e', (calls.foldl RequestCall.run (.ok q)).body = .err e' := by
      intro calls
      induction calls with
      | nil => intro q h; simp at h
      | cons d ds ih =>
        intro q hm
        rw [List.foldl_cons]
        by_cases hd : ∃ e', d.Fails e'
        · obtain ⟨e', hd⟩ := hd
          rw [call_err d q e' hd, calls_err]
          exact ⟨e', rfl⟩
        · rw [call_ok d q fun e' h => hd ⟨e', h⟩]
          rcases List.mem_cons.mp hm with rfl | hm
          · exact absurd ⟨e, he⟩ hd
          · exact ih _ hm
    obtain ⟨e', he'⟩ := key calls _ hc
    have he' : buildRequest calls = .err e' := he'
    rw [h] at he'
    simp at he'
  rw [built_parts calls hf] at h
  simp only [Res.ok.injEq] at h
  subst h
  exact default_lookup _ _ _ hu

/-- C64 for responses: the chain fails exactly if a number that is no status code was given. -/
theorem C64_response_ok (calls : List ResponseCall) :
    (∃ r, buildResponse calls = .ok r) ↔ ∀ n, ResponseCall.status n ∈ calls → 100 ≤ n ∧ n < 1000 := by
  have err : ∀ (e : Error) (calls : List ResponseCall), calls.foldl ResponseCall.run (.err e) = .err e := by
    intro e calls
    induction calls with
    | nil => rfl
    | cons c cs ih => rw [List.foldl_cons, show c.run (.err e) = .err e by cases c <;> rfl, ih]
  have key : ∀ (calls : List ResponseCall) (q : Response),
      (∃ r, (calls.foldl ResponseCall.run (.ok q)).body = .ok r) ↔ ∀ n, ResponseCall.status n ∈ calls → 100 ≤ n ∧ n < 1000 := by
    intro calls
    induction calls with
    | nil => intro q; simp [ResponseBuilder.body, Res.bind]
    | cons c cs ih =>
      intro q
      rw [List.foldl_cons]
      by_cases hc : ∃ n, c = .status n ∧ ¬ (100 ≤ n ∧ n < 1000)
      · obtain ⟨n, rfl, hn⟩ := hc
        have : ResponseCall.run (.ok q) (.status n) = .err .invalidStatusCode := by
          simp only [ResponseCall.run, ResponseBuilder.status, ResponseBuilder.andThen, Res.bind, statusFromU16]
          rw [if_pos (by omega)]; rfl
        rw [this, err]
        constructor
        · rintro ⟨r, h⟩; simp [ResponseBuilder.body, Res.bind] at h
        · intro h; exact absurd (h n (by simp)) hn
      · have : ∃ q', c.run (.ok q) = .ok q' := by
          cases c with
          | status n =>
            have hn : 100 ≤ n ∧ n < 1000 := Classical.byContradiction fun h => hc ⟨n, rfl, h⟩
            refine ⟨{ q with status := n }, ?_⟩
            simp only [ResponseCall.run, ResponseBuilder.status, ResponseBuilder.andThen, Res.bind, statusFromU16]
            rw [if_neg (by omega)]; rfl
          | statusIs s => exact ⟨_, rfl⟩
          | method m => exact ⟨_, rfl⟩
          | version v => exact ⟨_, rfl⟩
          | header n v => exact ⟨_, rfl⟩
          | headers hs => exact ⟨_, rfl⟩
        obtain ⟨q', hq⟩ := this
        rw [hq, ih]
        constructor
        · intro h n hn
          rcases List.mem_cons.mp hn with h' | hn
          · exact Classical.byContradiction fun h => hc ⟨n, h'.symm, h⟩
          · exact h n hn
        · intro h n hn; exact h n (by simp [hn])
  exact key calls _

theorem response_parts (calls : List ResponseCall) (r : Response) (h : buildResponse calls = .ok r) :
    r.status = (lastOf ResponseCall.statusSet calls).getD 200 ∧
    r.version = (lastOf ResponseCall.versionSet calls).getD .http11 ∧
    r.header = (runOps (calls.flatMap ResponseCall.headerOps)).insertMissing (asciiBytes "Server") (asciiBytes "wenmeng") := by
  have key : ∀ (calls : List ResponseCall) (q q' : Response), calls.foldl ResponseCall.run (.ok q) = .ok q' →
      q'.status = (lastOf ResponseCall.statusSet calls).getD q.status ∧
      q'.version = (lastOf ResponseCall.versionSet calls).getD q.version ∧
      q'.header = (calls.flatMap ResponseCall.headerOps).foldl HeaderOp.run q.header := by
    intro calls
    induction calls with
    | nil =>
      intro q q' h
      simp only [List.foldl_nil, Res.ok.injEq] at h
      subst h
      exact ⟨rfl, rfl, rfl⟩
    | cons c cs ih =>
      intro q q' h
      rw [List.foldl_cons] at h
      have err : ∀ (e : Error) (calls : List ResponseCall), calls.foldl ResponseCall.run (.err e) = .err e := by
        intro e calls
        induction calls with
        | nil => rfl
        | cons c cs ih => rw [List.foldl_cons, show c.run (.err e) = .err e by cases c <;> rfl, ih]
      rw [lastOf_cons, lastOf_cons, List.flatMap_cons, List.foldl_append]
      cases c with
      | status n =>
        simp only [ResponseCall.run, ResponseBuilder.status, ResponseBuilder.andThen, Res.bind, statusFromU16] at h
        split at h
        · rw [show ((Res.err Error.invalidStatusCode : Res Nat) >>= fun s => (.ok { q with status := s } : Res Response)) = .err .invalidStatusCode from rfl, err] at h
          simp at h
        · exact ih _ _ h
      | statusIs s => exact ih _ _ h
      | method m => exact ih _ _ h
      | version v => exact ih _ _ h
      | header n v => exact ih _ _ h
      | headers hs =>
        obtain ⟨h1, h2, h3⟩ := ih _ _ h
        refine ⟨h1, h2, ?_⟩
        rw [h3]
        simp only [insertAll_ops]
        rfl
  unfold buildResponse at h
  cases hb : calls.foldl ResponseCall.run ResponseBuilder.new with
  | err e => rw [hb] at h; simp [ResponseBuilder.body, Res.bind] at h
  | panic => rw [hb] at h; simp [ResponseBuilder.body, Res.bind] at h
  | ok q =>
    obtain ⟨h1, h2, h3⟩ := key calls {} q hb
    rw [hb] at h
    simp only [ResponseBuilder.body, Res.bind, Res.ok.injEq] at h
    subst h
    refine ⟨h1, h2, ?_⟩
    rw [h3]
    rfl

/-- C64 for responses: status and version are the last ones set (200 and HTTP/1.1 otherwise). -/
theorem C64_response_built (calls : List ResponseCall) (r : Response) (h : buildResponse calls = .ok r) :
    r.status = (lastOf ResponseCall.statusSet calls).getD 200 ∧
    r.version = (lastOf ResponseCall.versionSet calls).getD .http11 :=
  ⟨(response_parts calls r h).1, (response_parts calls r h).2.1⟩

/-- C64, headers of responses, for unambiguous names: the last value set, and a `Server` if none was set. -/
theorem C64_response_lookup_partial (calls : List ResponseCall) (n : Bytes) (r : Response) (h : buildResponse calls = .ok r)
    (hu : ∀ a ∈ n :: asciiBytes "Server" :: opNames (calls.flatMap ResponseCall.headerOps),
      ∀ b ∈ n :: asciiBytes "Server" :: opNames (calls.flatMap ResponseCall.headerOps), Unambiguous a b) :
    r.header.get? n = absOps (withDefault "Server" (calls.flatMap ResponseCall.headerOps)) (lower n) := by
  rw [(response_parts calls r h).2.2]
  exact default_lookup _ _ _ hu

/-- C64: a builder made from a request has its method, version and URL (GET and HTTP/1.1 for one that has
none), and no headers. -/
theorem C64_from_request (q : Request) : RequestBuilder.fromReq q = .ok
    ⟨if q.method = .none then .get else q.method, [], if q.version = .none then .http11 else q.version, q.url, false⟩ := by
  unfold RequestBuilder.fromReq
  by_cases h1 : q.method = .none <;> by_cases h2 : q.version = .none <;> simp [h1, h2]

/-- A chain with repeated settings, and one that fails early. -/
example : buildRequest [.method (asciiBytes "PUT"), .url (asciiBytes "http://a.com/x"), .header (asciiBytes "A") (asciiBytes "1"),
      .method (asciiBytes "POST"), .header (asciiBytes "a") (asciiBytes "2")] =
    .ok ⟨.post, [(asciiBytes "Host", asciiBytes "a.com:80"), (asciiBytes "A", asciiBytes "2"),
      (asciiBytes "User-Agent", asciiBytes "wenmeng")], .http11,
      ⟨.http, asciiBytes "/x", none, none, some (asciiBytes "a.com"), some 80, none⟩, true⟩ ∧
    buildRequest [.method (asciiBytes "BAD"), .url (asciiBytes "::"), .method (asciiBytes "GET")] = .err .httpMethod ∧
    buildResponse [.status 99, .status 200] = .err .invalidStatusCode := by
  refine ⟨by decide +kernel, by decide +kernel, by decide +kernel⟩

/-- The names of the hypotheses of the lookup theorems: letters and `-`, as in `User-Agent`. -/
example : ∀ a ∈ asciiBytes "accept" :: asciiBytes "User-Agent" :: opNames (([.header (asciiBytes "Accept") [49]] : List RequestCall).flatMap RequestCall.headerOps),
    ∀ b ∈ asciiBytes "accept" :: asciiBytes "User-Agent" :: opNames (([.header (asciiBytes "Accept") [49]] : List RequestCall).flatMap RequestCall.headerOps),
      Unambiguous a b := by
  intro a ha b hb
  refine unambiguous_of_bytes (fun x => (asciiBytes "acceptAcceptUser-Agent").contains x) (by decide +kernel) ?_ ?_
  · revert a; decide +kernel
  · revert b; decide +kernel

/-! ## C63 -/

/-- C63: the host and port of a request made from a received HEADERS frame are settled by `:scheme` and
`:authority`; `:path` has no say in them. -/
def C63_host_statement : Prop :=
  ∀ (f f' : HeadersFrame) (r r' : Request), f.parts.authority = f'.parts.authority → f.parts.scheme = f'.parts.scheme →
    requestOf f = .ok r → requestOf f' = .ok r' → r.url.domain = r'.url.domain ∧ r.url.port = r'.url.port

/-- C63 is false: `:authority good.com` with `:path /x@evil.com` is a request to `evil.com`. -/
theorem C63_violated_host : ¬ C63_host_statement := by
  intro h
  have := (h ⟨1, none, [], ⟨some .get, some .http, some (asciiBytes "good.com"), some (asciiBytes "/x"), none⟩, 4⟩
    ⟨1, none, [], ⟨some .get, some .http, some (asciiBytes "good.com"), some (asciiBytes "/x@evil.com"), none⟩, 4⟩
    ⟨.get, [(asciiBytes "Host", asciiBytes "good.com:80"), (asciiBytes "User-Agent", asciiBytes "wenmeng")], .http11,
      ⟨.http, asciiBytes "/x", none, none, some (asciiBytes "good.com"), some 80, none⟩, true⟩
    ⟨.get, [(asciiBytes "Host", asciiBytes "evil.com:80"), (asciiBytes "User-Agent", asciiBytes "wenmeng")], .http11,
      ⟨.http, asciiBytes "/", some (asciiBytes "good.com"), some (asciiBytes "/x"), some (asciiBytes "evil.com"), some 80, none⟩, true⟩
    rfl rfl (by decide +kernel) (by decide +kernel)).1
  revert this
  decide +kernel

/-- A frame without `:authority` makes no request. -/
theorem C63_no_authority (f : HeadersFrame) (h : f.parts.authority = none) : requestOf f = .err .invalidRequestUrl := by
  simp only [requestOf, HeadersFrame.intoRequest, Parts.buildUrl, h]
  rfl

theorem requestOf_eq (f : HeadersFrame) : requestOf f = f.parts.buildUrl.bind fun u =>
    buildRequest ([.urlIs u] ++ f.parts.method.toList.map .methodIs ++ [.headers f.fields]) := by
  simp only [requestOf, HeadersFrame.intoRequest]
  cases f.parts.buildUrl with
  | err e => rfl
  | panic => rfl
  | ok u => cases hm : f.parts.method <;> rfl

/-- C63: the request has the frame's method (GET if it has none), and otherwise it is made from the URL and
the fields by `url` and `headers` of the builder (see C64). -/
theorem C63_request (f : HeadersFrame) (r : Request) (h : requestOf f = .ok r) :
    r.method = f.parts.method.getD .get ∧
    buildRequest [.methodIs r.method, .urlIs r.url, .headers f.fields] = .ok r := by
  rw [requestOf_eq] at h
  cases hu : f.parts.buildUrl with
  | err e => rw [hu] at h; simp [Res.bind] at h
  | panic => rw [hu] at h; simp [Res.bind] at h
  | ok u =>
    rw [hu] at h
    simp only [Res.bind] at h
    have nf : ∀ c ∈ [RequestCall.urlIs u] ++ f.parts.method.toList.map RequestCall.methodIs ++ [RequestCall.headers f.fields],
        ∀ e, ¬ c.Fails e := by
      intro c hc e he
      cases hm : f.parts.method <;> rw [hm] at hc <;> simp at hc <;> rcases he with ⟨t, rfl, -⟩ | ⟨t, rfl, -⟩ <;> simp at hc
    rw [built_parts _ nf, Res.ok.injEq] at h
    have nf' : ∀ c ∈ [RequestCall.methodIs r.method, .urlIs r.url, .headers f.fields], ∀ e, ¬ c.Fails e := by
      intro c hc e he
      simp at hc
      rcases he with ⟨t, rfl, -⟩ | ⟨t, rfl, -⟩ <;> simp at hc
    rw [built_parts _ nf', Res.ok.injEq]
    subst h
    cases hm : f.parts.method <;> exact ⟨rfl, rfl⟩

/-- C63, partial, exact: an authority without `/` and `?` and with at most one `@`, and a path that begins
with `/` and has no `@`, give a request exactly if they are printable and have the parts of an authority
and of a path and query, and then the URL has just these.  Missing: other authorities and paths, for which
the code may take the host from the path. -/
theorem C63_url_partial (f : HeadersFrame) (a : Bytes) (u : Url) (hA : f.parts.authority = some a)
    (hs : SchemeText (f.parts.scheme.getD .http).asStr) (ha : ∀ b ∈ a, b ≠ 47 ∧ b ≠ 63) (h64 : a.count 64 ≤ 1)
    (h47 : f.parts.path.getD [47] = [] ∨ (f.parts.path.getD [47]).head? = some 47)
    (hat : (64 : UInt8) ∉ f.parts.path.getD [47]) :
    (∃ r, requestOf f = .ok r ∧ r.url = u) ↔
      (∀ b ∈ a ++ f.parts.path.getD [47], IsPrint b) ∧ u.scheme.asStr = (f.parts.scheme.getD .http).asStr ∧
      u.scheme ≠ .none ∧ (∀ x, u.scheme = .extension x → ∀ e ∈ schemeNames, x ≠ asciiBytes e.2) ∧
      ∃ r, authorityParts a = some r ∧ IsUrl u.scheme (pathParts (f.parts.path.getD [47]) r) u := by
  rw [← C49_absolute_partial _ a _ u hs ha h64 h47 hat]
  have hb : f.parts.buildUrl = Url.parse ((f.parts.scheme.getD .http).asStr ++ [58, 47, 47] ++ (a ++ f.parts.path.getD [47])) := by
    simp only [Parts.buildUrl, hA, List.append_assoc]
  rw [← hb, requestOf_eq]
  have nf : ∀ (u : Url), ∀ c ∈ [RequestCall.urlIs u] ++ f.parts.method.toList.map RequestCall.methodIs ++ [RequestCall.headers f.fields],
      ∀ e, ¬ c.Fails e := by
    intro u c hc e he
    cases hm : f.parts.method <;> rw [hm] at hc <;> simp at hc <;> rcases he with ⟨t, rfl, -⟩ | ⟨t, rfl, -⟩ <;> simp at hc
  have hl : ∀ v : Url, (lastOf RequestCall.urlSet ([RequestCall.urlIs v] ++ f.parts.method.toList.map RequestCall.methodIs ++ [RequestCall.headers f.fields])).getD Url.new = v := by
    intro v
    cases f.parts.method <;> rfl
  cases hu : f.parts.buildUrl with
  | err e => simp [Res.bind]
  | panic => simp [Res.bind]
  | ok v =>
    simp only [Res.bind]
    rw [built_parts _ (nf v)]
    simp only [Res.ok.injEq, exists_eq_left']
    rw [hl]

/-- The response made from a received HEADERS frame has the frame's status (200 if it has none) and the
fields; a `:method` becomes a header. -/
theorem C63_response (f : HeadersFrame) : ∃ r, responseOf f = .ok r ∧ r.status = f.parts.status.getD 200 ∧
    buildResponse (.statusIs r.status :: f.parts.method.toList.map (fun m => .method m.asStr) ++ [.headers f.fields]) = .ok r := by
  cases hm : f.parts.method <;> cases hst : f.parts.status <;>
    exact ⟨_, by simp only [responseOf, HeadersFrame.intoResponse, hm, hst]; rfl, rfl, rfl⟩

/-- A frame that meets the hypotheses of the partial theorem. -/
example : (∃ r, requestOf ⟨1, none, [(asciiBytes "a", asciiBytes "b")], ⟨some .post, some .https, some (asciiBytes "u:p@h:81"), some (asciiBytes "/x?y"), none⟩, 4⟩ = .ok r ∧
      r.url.domain = some (asciiBytes "h") ∧ r.url.port = some 81 ∧ r.method = .post) ∧
    SchemeText Scheme.https.asStr ∧ (∀ b ∈ asciiBytes "u:p@h:81", b ≠ 47 ∧ b ≠ 63) ∧ (asciiBytes "u:p@h:81").count 64 ≤ 1 ∧
    (asciiBytes "/x?y").head? = some 47 ∧ (64 : UInt8) ∉ asciiBytes "/x?y" :=
  ⟨⟨⟨.post, [(asciiBytes "Host", asciiBytes "h:81"), (asciiBytes "a", asciiBytes "b"), (asciiBytes "User-Agent", asciiBytes "wenmeng")], .http11,
      ⟨.https, asciiBytes "/x", some (asciiBytes "u"), some (asciiBytes "p"), some (asciiBytes "h"), some 81, some (asciiBytes "y")⟩, true⟩,
      by decide +kernel, rfl, rfl, rfl⟩,
    ⟨⟨104, asciiBytes "ttps", rfl, by decide⟩, by decide +kernel, by decide⟩, by decide +kernel, by decide +kernel, by decide +kernel, by decide +kernel⟩

/-! ## C65 -/

theorem contains_eq (m : HeaderMap) (n : Bytes) : m.contains n = (m.get? n).isSome := by
  rw [HeaderMap.get?, Option.isSome_map, HeaderMap.contains, Bool.eq_iff_iff, List.find?_isSome, List.any_eq_true]

/-- C65: after a URL with host and port is given to a builder, `Host` is that host and port, whatever was
there. -/
theorem C65_builder (r : Request) (u : Url) (d : Bytes) (p : Nat) (hd : u.domain = some d) (hp : u.port = some p) :
    ∃ r', RequestBuilder.urlIs (.ok r) u = .ok r' ∧ r'.url = u ∧
      r'.header.get? (asciiBytes "Host") = some (d ++ [58] ++ decimal p) := by
  refine ⟨r.putUrl u, rfl, rfl, ?_⟩
  simp only [Request.putUrl, Url.connectUrl, hd, hp]
  exact get?_insert_same _ _ _ _ (by decide +kernel) fun _ _ => rfl

/-- C65 for `Request::set_url`. -/
def C65_set_url_statement : Prop :=
  ∀ (r : Request) (u : Url) (d : Bytes) (p : Nat), u.domain = some d → u.port = some p →
    (r.setUrl u).header.get? (asciiBytes "Host") = some (d ++ [58] ++ decimal p)

/-- It is false: a `Host` that is there stays. -/
theorem C65_violated_set_url : ¬ C65_set_url_statement := by
  intro h
  have := h ⟨.get, [(asciiBytes "Host", asciiBytes "a:80")], .http11, Url.new, false⟩
    ⟨.http, asciiBytes "/", none, none, some (asciiBytes "b"), some 80, none⟩ (asciiBytes "b") 80 rfl rfl
  revert this
  decide +kernel

/-- C65 for `set_url`, exact: `Host` follows the URL if and only if there was none or it already had that
value; one that is there is kept. -/
theorem C65_set_url_partial (r : Request) (u : Url) (d : Bytes) (p : Nat) (hd : u.domain = some d) (hp : u.port = some p) :
    (r.setUrl u).url = u ∧
    (r.setUrl u).header.get? (asciiBytes "Host") =
      some ((r.header.get? (asciiBytes "Host")).getD (d ++ [58] ++ decimal p)) := by
  refine ⟨rfl, ?_⟩
  simp only [Request.setUrl, Url.connectUrl, hd, hp, HeaderMap.insertMissing]
  cases hc : r.header.get? (asciiBytes "Host") with
  | none =>
    rw [if_neg (by rw [contains_eq, hc]; simp)]
    exact get?_insert_same _ _ _ _ (by decide +kernel) fun _ _ => rfl
  | some v => rw [if_pos (by rw [contains_eq, hc]; rfl), hc]; rfl

/-- C65: the host a request reports is that of its URL if it has one. -/
theorem C65_get_host (r : Request) (u : Url) (d : Bytes) (hd : u.domain = some d) : (r.setUrl u).getHost = some d := by
  simp [Request.getHost, Request.setUrl, hd]

example : (⟨.get, [(asciiBytes "A", asciiBytes "1")], .http11, Url.new, false⟩ : Request).setUrl
      ⟨.http, asciiBytes "/", none, none, some (asciiBytes "b"), some 80, none⟩ =
    ⟨.get, [(asciiBytes "A", asciiBytes "1"), (asciiBytes "Host", asciiBytes "b:80")], .http11,
      ⟨.http, asciiBytes "/", none, none, some (asciiBytes "b"), some 80, none⟩, false⟩ := by decide +kernel

end Webparse
