import Verif.Model.Basic

/-!
# UTF-8 as checked by the Rust standard library

`std::str::from_utf8`, `String::from_utf8`, `String::from_utf8_lossy`: external, modelled from
their documentation (RFC 3629 well-formedness; the lossy conversion replaces each maximal
ill-formed subpart by U+FFFD).
-/

namespace Webparse

/-- For `from_utf8` (std), used at src/url/url.rs:99 and src/ws/message.rs:215: a continuation byte. -/
def isCont (b : UInt8) : Bool := 0x80 ≤ b && b ≤ 0xBF

/-- For `from_utf8` (std), used at src/url/url.rs:99: allowed second bytes for a lead byte of a two, three or four byte sequence. -/
def secondOk (lead second : UInt8) : Bool :=
  if 0xC2 ≤ lead && lead ≤ 0xDF then isCont second
  else if lead = 0xE0 then 0xA0 ≤ second && second ≤ 0xBF
  else if lead = 0xED then 0x80 ≤ second && second ≤ 0x9F
  else if 0xE1 ≤ lead && lead ≤ 0xEF then isCont second
  else if lead = 0xF0 then 0x90 ≤ second && second ≤ 0xBF
  else if lead = 0xF4 then 0x80 ≤ second && second ≤ 0x8F
  else if 0xF1 ≤ lead && lead ≤ 0xF3 then isCont second
  else false

/-- For `from_utf8` (std), used at src/url/url.rs:99: number of bytes of the sequence announced by a lead byte; 0 for an invalid lead byte. -/
def seqLen (lead : UInt8) : Nat :=
  if lead < 0x80 then 1
  else if 0xC2 ≤ lead && lead ≤ 0xDF then 2
  else if 0xE0 ≤ lead && lead ≤ 0xEF then 3
  else if 0xF0 ≤ lead && lead ≤ 0xF4 then 4
  else 0

/-- For `from_utf8_lossy` (std), used at src/url/url.rs:271, 300: the next piece of the input: a well-formed sequence of `n` bytes (`.inl n`) or an ill-formed
maximal subpart of `n` bytes (`.inr n`); `n ≥ 1` in both cases. -/
def utf8Next (b : UInt8) (rest : Bytes) : Nat ⊕ Nat :=
  match seqLen b with
  | 1 => .inl 1
  | 2 => match rest with
    | c :: _ => if secondOk b c then .inl 2 else .inr 1
    | [] => .inr 1
  | 3 => match rest with
    | c :: rest => if secondOk b c then
        match rest with
        | d :: _ => if isCont d then .inl 3 else .inr 2
        | [] => .inr 2
      else .inr 1
    | [] => .inr 1
  | 4 => match rest with
    | c :: rest => if secondOk b c then
        match rest with
        | d :: rest => if isCont d then
            match rest with
            | e :: _ => if isCont e then .inl 4 else .inr 3
            | [] => .inr 3
          else .inr 2
        | [] => .inr 2
      else .inr 1
    | [] => .inr 1
  | _ => .inr 1

/-- src/url/url.rs:99, src/ws/message.rs:215, 230: `from_utf8` (std) succeeds. Fuel: the length of the input suffices. -/
def utf8ValidAux : Nat → Bytes → Bool
  | _, [] => true
  | 0, _ :: _ => false
  | fuel + 1, b :: rest =>
    match utf8Next b rest with
    | .inl n => utf8ValidAux fuel ((b :: rest).drop n)
    | .inr _ => false

/-- src/url/url.rs:99, src/ws/message.rs:215, 230: `std::str::from_utf8(b).is_ok()`. -/
def utf8Valid (b : Bytes) : Bool := utf8ValidAux b.length b

/-- src/url/url.rs:271, 300, src/http/name.rs:174: `String::from_utf8_lossy`, with fuel. -/
def utf8LossyAux : Nat → Bytes → Bytes
  | _, [] => []
  | 0, _ :: _ => []
  | fuel + 1, b :: rest =>
    match utf8Next b rest with
    | .inl n => (b :: rest).take n ++ utf8LossyAux fuel ((b :: rest).drop n)
    | .inr n => [0xEF, 0xBF, 0xBD] ++ utf8LossyAux fuel ((b :: rest).drop n)

/-- src/url/url.rs:271, 300, src/http/name.rs:174: `String::from_utf8_lossy(b)`, as bytes. -/
def utf8Lossy (b : Bytes) : Bytes := utf8LossyAux b.length b

end Webparse
