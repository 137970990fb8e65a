import Verif.Proofs.Verdict
import Verif.Props.Reuse
import Verif.Props.Safety
import Verif.Spec.Pieces

/-! # Heads that arrive in pieces -/

namespace Webparse
open Spec

/-! ## C69 -/

theorem feed_spec {σ : Type} {parse : σ → Bytes → Res Nat × σ × Bytes}
    (same : ∀ s s' b, SameOutcome (parse s b) (parse s' b))
    (safe : ∀ s b, (parse s b).1 ≠ .panic)
    (ok : ∀ s b n m r x, parse s b = (.ok n, m, r) → parse s (b ++ x) = (.ok n, m, r ++ x))
    (err : ∀ s b e x, (parse s b).1 = .err e → e ≠ .partialData → (parse s (b ++ x)).1 = .err e)
    (s s0 : σ) (received : Bytes) (pieces : List Bytes) :
    (feed parse s received pieces).1 = (parse s0 (received ++ pieces.flatten)).1 ∧
      ∀ n, (parse s0 (received ++ pieces.flatten)).1 = .ok n →
        (feed parse s received pieces).2 = (parse s0 (received ++ pieces.flatten)).2.1 := by
  induction pieces generalizing s received with
  | nil =>
    have h := same s s0 received
    simp only [feed, List.flatten_nil, List.append_nil]
    exact ⟨h.1, fun n hn => h.2.2 n (by rw [h.1]; exact hn)⟩
  | cons c cs ih =>
    simp only [feed, List.flatten_cons, ← List.append_assoc]
    have h := same s s0 (received ++ c)
    by_cases hp : (parse s (received ++ c)).1 = .err .partialData
    · rw [if_pos hp]; exact ih _ _
    · rw [if_neg hp]
      cases hv : (parse s (received ++ c)).1 with
      | panic => exact absurd hv (safe _ _)
      | err e =>
        have h1 := err s0 (received ++ c) e cs.flatten (by rw [← h.1]; exact hv) (fun he => hp (by rw [hv, he]))
        rw [h1]
        exact ⟨rfl, fun n hn => by simp at hn⟩
      | ok n =>
        have h0 : (parse s0 (received ++ c)).1 = .ok n := by rw [← h.1]; exact hv
        have h1 := ok s0 (received ++ c) n (parse s0 (received ++ c)).2.1 (parse s0 (received ++ c)).2.2 cs.flatten
          (by rw [← h0])
        rw [h1]
        exact ⟨rfl, fun m _ => h.2.2 n hv⟩

/-- An answer other than `Partial` is final: a rejected request head stays rejected, for the same reason,
whatever follows, and an accepted one gives the same message. -/
theorem C69_request_final (r : Request) (buf x : Bytes) (e : Error) (h : (r.parseBuffer buf).1 = .err e) (he : e ≠ .partialData) :
    (r.parseBuffer (buf ++ x)).1 = .err e :=
  count_final (p := r.parseHead) (final_request r) h he x

/-- The same for responses. -/
theorem C69_response_final (r : Response) (buf x : Bytes) (e : Error) (h : (r.parseBuffer buf).1 = .err e) (he : e ≠ .partialData) :
    (r.parseBuffer (buf ++ x)).1 = .err e :=
  count_final (p := r.parseHead) (final_response r) h he x

/-- A request head that arrives in pieces, cut anywhere and parsed again after each piece, gives the
same result and the same message as one parsed at once, with any message objects. -/
theorem C69_request (r r0 : Request) (pieces : List Bytes) :
    (feed Request.parseBuffer r [] pieces).1 = (r0.parseBuffer pieces.flatten).1 ∧
      ∀ n, (r0.parseBuffer pieces.flatten).1 = .ok n →
        (feed Request.parseBuffer r [] pieces).2 = (r0.parseBuffer pieces.flatten).2.1 :=
  feed_spec request_sameOutcome C59_request (fun s _ _ _ _ x h => count_ok_ext (p := s.parseHead) (streams_request s) h x)
    (fun s b e x h he => C69_request_final s b x e h he) r r0 [] pieces

/-- The same for responses. -/
theorem C69_response (r r0 : Response) (pieces : List Bytes) :
    (feed Response.parseBuffer r [] pieces).1 = (r0.parseBuffer pieces.flatten).1 ∧
      ∀ n, (r0.parseBuffer pieces.flatten).1 = .ok n →
        (feed Response.parseBuffer r [] pieces).2 = (r0.parseBuffer pieces.flatten).2.1 :=
  feed_spec response_sameOutcome C59_response (fun s _ _ _ _ x h => count_ok_ext (p := s.parseHead) (streams_response s) h x)
    (fun s b e x h he => C69_response_final s b x e h he) r r0 [] pieces

/-- Three pieces with a cut inside a name and inside a line end; a bad head is known to be bad early. -/
example : (feed Response.parseBuffer {} [] [asciiBytes "HTTP/1.1 20", asciiBytes "0 OK\r", asciiBytes "\nA: b\r\n\r\nrest"]) =
      (.ok 25, { header := [(asciiBytes "A", asciiBytes "b")] }) ∧
    (({} : Request).parseBuffer (asciiBytes "GET / HTTQ/1.1\r")).1 = .err .httpVersion := by decide +kernel

/-! ## C70 -/

/-- While a request head is incomplete, something can still complete or refute it. -/
def C70_request_statement : Prop :=
  ∀ (r : Request) (buf : Bytes), (r.parseBuffer buf).1 = .err .partialData → ∃ x, (r.parseBuffer (buf ++ x)).1 ≠ .err .partialData

/-- The same for response heads. -/
def C70_response_statement : Prop :=
  ∀ (r : Response) (buf : Bytes), (r.parseBuffer buf).1 = .err .partialData → ∃ x, (r.parseBuffer (buf ++ x)).1 ≠ .err .partialData

/-- No continuation brings a verdict. -/
def Hopeless {α : Type} (p : Bytes → Res α × Bytes) (buf : Bytes) : Prop := ∀ x, (p (buf ++ x)).1 = .err .partialData

theorem hopeless_then {α β : Type} {p : Bytes → Res α × Bytes} {f : α → Bytes → Res β × Bytes} {buf r : Bytes} {a : α} (hp : Streams p)
    (h : p buf = (.ok a, r)) (hf : Hopeless (f a) r) : Hopeless (fun b => thenRead (p b) f) buf := by
  intro x
  show (thenRead (p (buf ++ x)) f).1 = _
  rw [(hp.ext _ _ _ h).2 x]
  exact hf x

theorem hopeless_count {σ : Type} {p : Bytes → Res Unit × σ × Bytes} {buf : Bytes} (h : Hopeless (fun b => forget (p b)) buf) (x : Bytes) :
    (countRead (buf ++ x) (p (buf ++ x))).1 = .err .partialData :=
  count_err.mpr ⟨_, Prod.ext (h x) rfl⟩

theorem hopeless_newLine : Hopeless skipNewLine [9] := fun x => by simp [skipNewLine, thenRead, nextByte]

/-- A complete request whose target is a word: no continuation brings a verdict. -/
theorem C70_violated_target (r : Request) (x : Bytes) :
    (r.parseBuffer (asciiBytes "GET x HTTP/1.1\r\n\r\n" ++ x)).1 = .err .partialData := by
  refine hopeless_count (p := r.parseHead) ?_ x
  rw [funext (request_split r)]
  exact hopeless_then (a := (Method.get, [120])) (r := asciiBytes " HTTP/1.1\r\n\r\n") streams_requestFront (by decide +kernel)
    (hopeless_then (a := ()) (r := asciiBytes "HTTP/1.1\r\n\r\n") streams_skipSpaces (by decide +kernel)
    (hopeless_then (a := Version.http11) (r := asciiBytes "\r\n") (streams_tokenLine _ _ _) (by decide +kernel)
    (hopeless_then (a := ((), [])) (r := []) (streams_parseHeader []) (by decide +kernel) (fun _ => show urlStep .get .http11 [120] [] = _ by decide +kernel))))

/-- A complete request whose target ends in half an escape. -/
theorem C70_violated_escape (r : Request) (x : Bytes) :
    (r.parseBuffer (asciiBytes "GET /%4 HTTP/1.1\r\n\r\n" ++ x)).1 = .err .partialData := by
  refine hopeless_count (p := r.parseHead) ?_ x
  rw [funext (request_split r)]
  exact hopeless_then (a := (Method.get, asciiBytes "/%4")) (r := asciiBytes " HTTP/1.1\r\n\r\n") streams_requestFront (by decide +kernel)
    (hopeless_then (a := ()) (r := asciiBytes "HTTP/1.1\r\n\r\n") streams_skipSpaces (by decide +kernel)
    (hopeless_then (a := Version.http11) (r := asciiBytes "\r\n") (streams_tokenLine _ _ _) (by decide +kernel)
    (hopeless_then (a := ((), [])) (r := []) (streams_parseHeader []) (by decide +kernel) (fun _ => show urlStep .get .http11 (asciiBytes "/%4") [] = _ by decide +kernel))))

/-- A tab after the version. -/
theorem C70_violated_tab (r : Request) (x : Bytes) :
    (r.parseBuffer (asciiBytes "GET / HTTP/1.1\t" ++ x)).1 = .err .partialData := by
  refine hopeless_count (p := r.parseHead) ?_ x
  rw [funext (request_split r)]
  refine hopeless_then (a := (Method.get, [47])) (r := asciiBytes " HTTP/1.1\t") streams_requestFront (by decide +kernel)
    (hopeless_then (a := ()) (r := asciiBytes "HTTP/1.1\t") streams_skipSpaces (by decide +kernel) ?_)
  simp only [tokenLine, thenRead_then]
  exact hopeless_then (a := Version.http11) (r := [9]) (streams_onToken (streams_token _ _ _) _) (by decide +kernel)
    fun x => by simp [skipNewLine, thenRead, nextByte]

/-- A tab after the reason of a response. -/
theorem C70_violated_response_tab (r : Response) (x : Bytes) :
    (r.parseBuffer (asciiBytes "HTTP/1.1 200 OK\t" ++ x)).1 = .err .partialData := by
  refine hopeless_count (p := r.parseHead) ?_ x
  rw [funext (forget_response r)]
  exact hopeless_then (a := ()) (r := asciiBytes "HTTP/1.1 200 OK\t") streams_skipEmptyLines (by decide +kernel)
    (hopeless_then (a := Version.http11) (r := asciiBytes " 200 OK\t") (streams_onToken (streams_token _ _ _) _) (by decide +kernel)
    (hopeless_then (a := ()) (r := asciiBytes "200 OK\t") streams_skipSpaces (by decide +kernel)
    (hopeless_then (a := 200) (r := asciiBytes " OK\t") (streams_onToken (streams_token _ _ _) _) (by decide +kernel)
    (hopeless_then (a := ()) (r := asciiBytes "OK\t") streams_skipSpaces (by decide +kernel)
    (hopeless_then (a := asciiBytes "OK") (r := [9]) (streams_token _ _ _) (by decide +kernel)
      fun x => by simp [skipNewLine, thenRead, nextByte])))))

/-- So it is false for both. -/
theorem C70_request_violated : ¬ C70_request_statement := fun h => by
  obtain ⟨x, hx⟩ := h {} (asciiBytes "GET x HTTP/1.1\r\n\r\n") (by decide +kernel)
  exact hx (C70_violated_target {} x)

theorem C70_response_violated : ¬ C70_response_statement := fun h => by
  obtain ⟨x, hx⟩ := h {} (asciiBytes "HTTP/1.1 200 OK\t") (by decide +kernel)
  exact hx (C70_violated_response_tab {} x)

/-- Response heads of printable bytes in which LF follows each CR: there is always a continuation that brings
a verdict.  Missing: other bytes, lone CRs. -/
theorem C70_response_partial (r : Response) (buf : Bytes) (hb : Orderly buf) : ∃ x, (r.parseBuffer (buf ++ x)).1 ≠ .err .partialData := by
  obtain ⟨x, -, hx⟩ := helps_response r buf hb
  refine ⟨x, fun h => ?_⟩
  obtain ⟨q, hq⟩ := count_err.mp h
  exact hx (congrArg Prod.fst hq)

/-- The same for request heads whose target begins with `/` and that have no `%`. -/
theorem C70_request_partial (r : Request) (buf : Bytes) (hb : Orderly buf) (hs : SlashTarget buf) :
    ∃ x, (r.parseBuffer (buf ++ x)).1 ≠ .err .partialData := by
  obtain ⟨x, hx⟩ := request_verdict r buf hb hs
  refine ⟨x, fun h => ?_⟩
  obtain ⟨q, hq⟩ := count_err.mp h
  exact hx (congrArg Prod.fst hq)

/-- An incomplete head in a header line meets the hypotheses. -/
example : Orderly (asciiBytes "GET /a HTTP/1.1\r\nHost: exam") ∧ (({} : Request).parseBuffer (asciiBytes "GET /a HTTP/1.1\r\nHost: exam")).1 = .err .partialData := by
  refine ⟨?_, by decide +kernel⟩
  simp [Orderly, asciiBytes, PlainByte]

example : SlashTarget (asciiBytes "GET /a HTTP/1.1\r\nHost: exam") := by
  refine ⟨fun a b c h ha => ?_, by decide +kernel⟩
  have h1 := congrArg (List.dropWhile (fun x : UInt8 => x ≠ 32)) h
  rw [List.dropWhile_append_of_pos (by intro x hx; simp; rintro rfl; exact ha hx)] at h1
  have h2 : List.dropWhile (fun x : UInt8 => x ≠ 32) (asciiBytes "GET /a HTTP/1.1\r\nHost: exam") = asciiBytes " /a HTTP/1.1\r\nHost: exam" := by decide +kernel
  rw [h2] at h1
  have h3 := congrArg (fun l => l[1]?) h1
  simp [asciiBytes] at h3
  exact h3.symm

end Webparse
