import Verif.Spec.RequestStream
import Verif.Spec.ResponseBody

/-! RFC 9112: the responses on a connection, each with its body. -/

namespace Webparse.Spec

/-- What a client learns of a response. -/
structure HeardAnswer where
  version : Version
  code : Nat
  fields : List Header
  body : Bytes

/-- RFC 9112 6.3: the bytes `text` on the wire are a body that ends before the connection does. -/
def AnswerBodyBy : ResponseBodyKind → (body text : Bytes) → Prop
  | .none, body, text => body = [] ∧ text = []
  | .chunked, body, text => ∃ ds trailers, ChunkedBody ds trailers text ∧ body = ds.flatten
  | .length n, body, text => text = body ∧ body.length = n
  | .untilClose, _, _ => False
  | .invalid, _, _ => False

/-- All bytes until the connection is closed are these responses to requests other than HEAD and CONNECT. -/
inductive ResponseStream : List HeardAnswer → Bytes → Prop
  | done : ResponseStream [] []
  | more {reason head body text rest : Bytes} {v : Version} {code : Nat} {fields : List (Header × Bytes × Bytes)} {l : List HeardAnswer} :
      IsResponseHead v code reason fields head → AnswerBodyBy (responseBody code fields) body text → ResponseStream l rest →
      ResponseStream (⟨v, code, fields.map (·.1), body⟩ :: l) (head ++ (text ++ rest))
  | close {reason head body : Bytes} {v : Version} {code : Nat} {fields : List (Header × Bytes × Bytes)} :
      IsResponseHead v code reason fields head → responseBody code fields = .untilClose →
      ResponseStream [⟨v, code, fields.map (·.1), body⟩] (head ++ body)

/-- The response that the caller means. -/
def meantAnswer (s : Response × SentBody) : HeardAnswer := ⟨s.1.version, s.1.status, s.1.header, s.2.data⟩

/-- Responses written with `serialize`, one after the other. -/
inductive WroteResponses : List (Response × SentBody) → Bytes → Prop
  | done : WroteResponses [] []
  | more {r : Response} {b : SentBody} {out w : Bytes} {n : Nat} {l : List (Response × SentBody)} :
      r.serialize b.wire = .ok (out, n) → WroteResponses l w → WroteResponses ((r, b) :: l) (out ++ w)

/-- The head can be written by RFC 9112 (C134). -/
def AnswerAllowed (r : Response) : Prop :=
  (r.version = .http10 ∨ r.version = .http11) ∧ ∀ e ∈ r.header, IsFieldName e.1 ∧ IsFieldValue e.2

/-- Status and fields announce the body that is sent, and no piece is empty. -/
def AnswerAnnounced (r : Response) : SentBody → Prop
  | .whole d => responseBody r.status (spaced r.header) = .length d.length ∨ (responseBody r.status (spaced r.header) = .none ∧ d = [])
  | .pieces l => responseBody r.status (spaced r.header) = .chunked ∧ ∀ d ∈ l, d ≠ []

/-- So does each response; the last one may also have a body that ends with the connection. -/
def AnswersAnnounced : List (Response × SentBody) → Prop
  | [] => True
  | s :: l => (AnswerAnnounced s.1 s.2 ∧ AnswersAnnounced l) ∨
      (responseBody s.1.status (spaced s.1.header) = .untilClose ∧ s.2.wire = s.2.data ∧ l = [])

end Webparse.Spec
