import Verif.Proofs.Streams

/-! # Reusing a message object -/

namespace Webparse

/-! ## C60 -/

/-- A request object after parsing the given buffers one after the other, whatever the results were. -/
def requestAfter (r : Request) (bufs : List Bytes) : Request := bufs.foldl (fun r b => (r.parseBuffer b).2.1) r

/-- A response object after parsing the given buffers one after the other, whatever the results were. -/
def responseAfter (r : Response) (bufs : List Bytes) : Response := bufs.foldl (fun r b => (r.parseBuffer b).2.1) r

/-- Two outcomes a caller cannot tell apart: same result, same unread bytes, and the same message if
the parse succeeded. -/
def SameOutcome {σ : Type} (x y : Res Nat × σ × Bytes) : Prop :=
  x.1 = y.1 ∧ x.2.2 = y.2.2 ∧ ∀ n, x.1 = .ok n → x.2.1 = y.2.1

theorem sameOutcome_of_forget {σ : Type} {x y : Res Unit × σ × Bytes} (buf : Bytes) (h : forget x = forget y) :
    SameOutcome (countRead buf x) (countRead buf y) := by
  obtain ⟨x1, x2, x3⟩ := x
  obtain ⟨y1, y2, y3⟩ := y
  cases x1 <;> cases y1 <;> simp_all [forget, SameOutcome, countRead]

theorem request_sameOutcome (r r' : Request) (buf : Bytes) : SameOutcome (r.parseBuffer buf) (r'.parseBuffer buf) := by
  refine sameOutcome_of_forget buf ?_
  rw [forget_request, forget_request]

theorem response_sameOutcome (r r' : Response) (buf : Bytes) : SameOutcome (r.parseBuffer buf) (r'.parseBuffer buf) := by
  refine sameOutcome_of_forget buf ?_
  rw [forget_response, forget_response]

/-- Parsing with a request object used before, any number of times, with any input and any outcome,
gives what a new object gives: nothing of the earlier messages is left. -/
theorem C60_request (r : Request) (bufs : List Bytes) (buf : Bytes) :
    ((requestAfter r bufs).parseBuffer buf).1 = (({} : Request).parseBuffer buf).1 ∧
      ((requestAfter r bufs).parseBuffer buf).2.2 = (({} : Request).parseBuffer buf).2.2 ∧
      ∀ n, (({} : Request).parseBuffer buf).1 = .ok n →
        ((requestAfter r bufs).parseBuffer buf).2.1 = (({} : Request).parseBuffer buf).2.1 := by
  have h := request_sameOutcome (requestAfter r bufs) {} buf
  exact ⟨h.1, h.2.1, fun n hn => h.2.2 n (by rw [h.1]; exact hn)⟩

/-- The same for responses. -/
theorem C60_response (r : Response) (bufs : List Bytes) (buf : Bytes) :
    ((responseAfter r bufs).parseBuffer buf).1 = (({} : Response).parseBuffer buf).1 ∧
      ((responseAfter r bufs).parseBuffer buf).2.2 = (({} : Response).parseBuffer buf).2.2 ∧
      ∀ n, (({} : Response).parseBuffer buf).1 = .ok n →
        ((responseAfter r bufs).parseBuffer buf).2.1 = (({} : Response).parseBuffer buf).2.1 := by
  have h := response_sameOutcome (responseAfter r bufs) {} buf
  exact ⟨h.1, h.2.1, fun n hn => h.2.2 n (by rw [h.1]; exact hn)⟩

/-- An object that has read a head with other headers, then half a head, then a whole one. -/
example :
    let used := requestAfter {} [asciiBytes "PUT /x HTTP/1.0\r\nHost: old:99\r\nCookie: s\r\n\r\n", asciiBytes "GET / HTTP/1.1\r\nA: b\r\n"]
    used ≠ {} ∧ (used.parseBuffer (asciiBytes "GET / HTTP/1.1\r\n\r\n")) =
      (.ok 18, { method := .get, url := { Url.new with scheme := .http, port := some 0 } }, []) := by decide +kernel

example :
    let used := responseAfter {} [asciiBytes "HTTP/1.0 404 N\r\nA: b\r\n\r\n", asciiBytes "HTTP/1.1 200 OK\r\nC: d\r\n"]
    used ≠ {} ∧ (used.parseBuffer (asciiBytes "HTTP/1.1 200 OK\r\n\r\n")) = (.ok 19, {}, []) := by decide +kernel

end Webparse
