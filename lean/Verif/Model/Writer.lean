import Verif.Model.Http1

/-! # Encoders of HTTP/1 as they write to a buffer

`Model/Http1.lean` gives the bytes that the encoders append.  Here they are modelled call by call:
the buffer before, the size returned and the buffer after. -/

namespace Webparse

/-- An encoder: from the buffer before to the result and the buffer after
(`fn encode<B: BtMut>(&self, buffer: &mut B) -> WebResult<usize>`, e.g. src/http/header.rs:287). -/
abbrev Put := Bytes → Res Nat × Bytes

/-- `BtMut::put_slice` (external crate), e.g. src/http/header.rs:291: append, return the count. -/
def putSlice (s : Bytes) : Put := fun buf => (.ok s.length, buf ++ s)

/-- `BtMut::put_u8` (external crate), e.g. src/http/request.rs:643. -/
def putByte (b : UInt8) : Put := fun buf => (.ok 1, buf ++ [b])

/-- `size += x?` and then the next statement, e.g. src/http/request.rs:642. -/
def addSize (x : Put) (next : Nat → Put) (size : Nat) : Put := fun buf =>
  match x buf with
  | (.ok n, buf) => next (size + n) buf
  | (.err e, buf) => (.err e, buf)
  | (.panic, buf) => (.panic, buf)

/-- `Ok(size)`, e.g. src/http/request.rs:649. -/
def done (size : Nat) : Put := fun buf => (.ok size, buf)

/-- src/http/header.rs:287-297 (`encode`), from the round of the loop with the given entries. -/
def HeaderMap.putLoop : HeaderMap → (size : Nat) → Put
  | [] => addSize (putSlice (asciiBytes "\r\n")) done
  | (name, value) :: rest =>
    addSize (putSlice name) <| addSize (putSlice (asciiBytes ": ")) <| addSize (putSlice value) <|
      addSize (putSlice (asciiBytes "\r\n")) <| HeaderMap.putLoop rest

/-- src/http/header.rs:287-297 (`encode`). -/
def HeaderMap.put (m : HeaderMap) : Put := m.putLoop 0

/-- src/http/method.rs:108-113 (`encode`). -/
def methodPut (m : Method) : Put := fun buf =>
  match m with
  | .none => (.err .serialize, buf)
  | m => putSlice m.asStr buf

/-- src/http/version.rs:49-54 (`encode`). -/
def versionPut (v : Version) : Put := fun buf =>
  match v with
  | .none => (.err .serialize, buf)
  | v => putSlice v.asStr buf

/-- src/http/status.rs:204-209 (`encode`). -/
def statusPut (code : Nat) : Put := fun buf =>
  match canonicalReason code with
  | some reason =>
    match statusAsStr code with
    | .ok digits => putSlice (digits ++ asciiBytes " " ++ reason ++ asciiBytes "\r\n") buf
    | .err e => (.err e, buf)
    | .panic => (.panic, buf)
  | none => (.err .invalidStatusCode, buf)

/-- src/http/request.rs:640-650 (`encode_header`). -/
def Request.putHeader (r : Request) : Put :=
  (addSize (methodPut r.method) <| addSize (putByte 32) <| addSize (putSlice r.url.path) <| addSize (putByte 32) <|
    addSize (versionPut r.version) <| addSize (putSlice (asciiBytes "\r\n")) <| addSize r.header.put done) 0

/-- src/http/response.rs:691-698 (`encode_header`). -/
def Response.putHeader (r : Response) : Put :=
  (addSize (versionPut r.version) <| addSize (putSlice (asciiBytes " ")) <| addSize (statusPut r.status) <| addSize r.header.put done) 0

/-- src/http/response.rs:782-790 (`serialize`); the body is any of the byte strings of
src/serialize.rs:22-66. -/
def Response.put (r : Response) (body : Bytes) : Put :=
  (addSize (versionPut r.version) <| addSize (putSlice (asciiBytes " ")) <| addSize (statusPut r.status) <|
    addSize r.header.put <| addSize (putSlice body) done) 0

/-- src/helper.rs:409-416 (`encode_chunk_data`). -/
def putChunk (data : Bytes) : Put :=
  (addSize (putSlice (hexLower data.length)) <| addSize (putSlice (asciiBytes "\r\n")) <| addSize (putSlice data) <|
    addSize (putSlice (asciiBytes "\r\n")) done) 0

end Webparse
