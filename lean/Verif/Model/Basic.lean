/-!
# Basic vocabulary of the model

Byte strings, results with an explicit panic outcome, and the reads and writes of the
buffer crate (`algorithm::buf`, external to /repo; its behaviour is part of the trusted base).
-/

namespace Webparse

/-- A byte string.  A `Bt` reader is the list of bytes still unread, a `BtMut` writer the list of
bytes written so far. -/
abbrev Bytes := List UInt8

/-- The error values of the crate that the properties talk about.
src/error.rs:18-27 (`WebError`), /repo/src/http/error.rs (`HttpError`),
/repo/src/http/http2/error.rs (`Http2Error`), /repo/src/ws/error.rs (`WsError`).
Simplified: the payload of an error (message text, offending byte) is dropped. -/
inductive Error where
  -- HttpError
  | partialData | newLine | headerName | headerValue | token | httpVersion | httpMethod
  | invalidStatusCode | schemeTooLong
  -- UrlError
  | urlInvalid | urlCodeInvalid
  -- WebError
  | intoError | serialize | extension | io
  -- Http2Error
  | short | badFlag | tooMuchPadding | invalidPayloadLength | badFrameSize | invalidStreamId
  | invalidSettingValue | invalidWindowUpdateValue | invalidDependencyId | invalidRequestUrl
  | payloadLengthTooShort
  -- HPACK
  | headerIndexOutOfBounds
  | intTooManyOctets | intNotEnoughOctets | intInvalidPrefix
  | strNotEnoughOctets | huffPaddingTooLarge
  -- WsError
  | wsDataFrame | wsProtocol
  deriving DecidableEq, Repr

/-- Outcome of a Rust call: `Ok`, `Err`, or a panic. -/
inductive Res (α : Type) where
  | ok (a : α)
  | err (e : Error)
  | panic
  deriving DecidableEq, Repr

namespace Res

/-- The `?` operator. -/
@[inline] def bind {α β : Type} (x : Res α) (f : α → Res β) : Res β :=
  match x with
  | .ok a => f a
  | .err e => .err e
  | .panic => .panic

instance : Monad Res where
  pure := Res.ok
  bind := Res.bind

@[simp] theorem bind_ok {α β : Type} (a : α) (f : α → Res β) : (Res.ok a >>= f) = f a := rfl
@[simp] theorem bind_err {α β : Type} (e : Error) (f : α → Res β) :
    ((Res.err e : Res α) >>= f) = .err e := rfl
@[simp] theorem bind_panic {α β : Type} (f : α → Res β) :
    ((Res.panic : Res α) >>= f) = .panic := rfl
@[simp] theorem pure_eq {α : Type} (a : α) : (pure a : Res α) = .ok a := rfl

theorem bind_eq_ok {α β : Type} {x : Res α} {f : α → Res β} {b : β} :
    (x >>= f) = .ok b ↔ ∃ a, x = .ok a ∧ f a = .ok b := by
  cases x <;> simp

/-- `Result::ok_or` on an `Option`. -/
def ofOption {α : Type} (o : Option α) (e : Error) : Res α :=
  match o with
  | some a => .ok a
  | none => .err e

end Res

/-! ## Big-endian numbers -/

/-- The low `8*k` bits of `n`, most significant byte first: `put_u8`, `put_u16`, `put_u32`,
`put_u64` for `k = 1, 2, 4, 8` (external crate). -/
def beBytes : Nat → Nat → Bytes
  | 0, _ => []
  | k + 1, n => UInt8.ofNat (n / 256 ^ k) :: beBytes k n

/-- The number written most significant byte first: `get_u8`, `get_u16`, `get_u32`, `get_u64`
(external crate). -/
def beNat (bs : Bytes) : Nat := bs.foldl (fun a b => a * 256 + b.toNat) 0

/-- The bytes of a Rust string literal (ASCII only in this model). -/
def asciiBytes (s : String) : Bytes := s.toList.map fun c => UInt8.ofNat c.toNat

end Webparse
