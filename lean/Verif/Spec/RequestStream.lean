import Verif.Spec.WrittenChunks
import Verif.Spec.BodyKind

/-! RFC 9112: the requests on a connection, each with its body. -/

namespace Webparse.Spec

/-- What a server learns of a request. -/
structure HeardMessage where
  method : Bytes
  target : Bytes
  version : Version
  fields : List Header
  body : Bytes

/-- RFC 9112 6.3 and 7.1: the bytes `text` on the wire are the body. -/
def BodyBy : BodyKind → (body text : Bytes) → Prop
  | .chunked, body, text => ∃ ds trailers, ChunkedBody ds trailers text ∧ body = ds.flatten
  | .length n, body, text => text = body ∧ body.length = n
  | .invalid, _, _ => False

/-- All of the bytes are these requests, one after the other. -/
inductive RequestStream : List HeardMessage → Bytes → Prop
  | done : RequestStream [] []
  | more {method target head body text rest : Bytes} {v : Version} {fields : List (Header × Bytes × Bytes)} {l : List HeardMessage} :
      IsRequestHead method target v fields head → BodyBy (requestBody fields) body text → RequestStream l rest →
      RequestStream (⟨method, target, v, fields.map (·.1), body⟩ :: l) (head ++ (text ++ rest))

/-- A body that is sent as it is, or in pieces with `encode_chunk_data`. -/
inductive SentBody where
  | whole (data : Bytes)
  | pieces (l : List Bytes)

def SentBody.data : SentBody → Bytes
  | .whole d => d
  | .pieces l => l.flatten

def SentBody.wire : SentBody → Bytes
  | .whole d => d
  | .pieces l => writeChunked l

/-- The request that the caller means. -/
def meant (s : Request × SentBody) : HeardMessage := ⟨s.1.method.asStr, s.1.url.path, s.1.version, s.1.header, s.2.data⟩

/-- Requests written with `http1_data`, one after the other. -/
inductive WroteRequests : List (Request × SentBody) → Bytes → Prop
  | done : WroteRequests [] []
  | more {r : Request} {b : SentBody} {out w : Bytes} {l : List (Request × SentBody)} :
      r.http1Data b.wire = .ok out → WroteRequests l w → WroteRequests ((r, b) :: l) (out ++ w)

/-- The head can be written by RFC 9112 (C134). -/
def HeadAllowed (r : Request) : Prop :=
  IsFieldName r.method.asStr ∧ (r.url.path ≠ [] ∧ ∀ b ∈ r.url.path, 0x21 ≤ b.toNat ∧ b.toNat ≤ 0x7e) ∧
    (r.version = .http10 ∨ r.version = .http11) ∧ ∀ e ∈ r.header, IsFieldName e.1 ∧ IsFieldValue e.2

/-- The fields announce the body that is sent, and no piece is empty. -/
def Announced (r : Request) : SentBody → Prop
  | .whole d => requestBody (spaced r.header) = .length d.length
  | .pieces l => requestBody (spaced r.header) = .chunked ∧ ∀ d ∈ l, d ≠ []

end Webparse.Spec
