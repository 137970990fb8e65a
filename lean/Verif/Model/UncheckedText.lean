import Verif.Model.Http1

/-!
# The bytes given to `from_utf8_unchecked`

/repo/src/helper.rs:266-268 makes a `str` of the bytes of a token without looking whether they are UTF-8.  Here is which bytes these
are when a head, a URL or a chunk is parsed.
-/

namespace Webparse

/-- src/helper.rs:246-272 (`parse_token_by_func_empty`): the bytes of the token, if there is one, and those of what is done next. -/
def withText (func : UInt8 → Bool) (empty : Bool) (buf : Bytes) (next : Bytes → List Bytes) : List Bytes :=
  match parseTokenEmpty func .token empty buf with
  | (.ok v, rest) => (if v = [] then [] else [v]) ++ next rest
  | _ => []

/-- The `?` operator (src/http/request.rs:552-598): nothing more is read after an error. -/
def afterRead {α : Type} (x : Res α × Bytes) (next : Bytes → List Bytes) : List Bytes :=
  match x with
  | (.ok _, rest) => next rest
  | _ => []

/-- src/helper.rs:370-389, one round of the loop of `parse_header`. -/
def lineTexts (buf : Bytes) (next : Bytes → List Bytes) : List Bytes :=
  afterRead (peekByte buf) fun buf =>
    if buf.head? = some 13 ∨ buf.head? = some 10 then []
    else
      withText isHeaderNameToken false buf fun buf =>
        afterRead (skipSpaces buf) fun buf =>
          afterRead (expectByte 58 .headerName buf) fun buf =>
            afterRead (skipSpaces buf) fun buf =>
              withText isHeaderValueToken true buf fun buf => afterRead (skipNewLine buf) next

/-- src/helper.rs:367-390 (`parse_header`), with fuel as in `parseHeaderLoop`. -/
def headerTexts : (fuel : Nat) → Bytes → List Bytes
  | 0, _ => []
  | fuel + 1, buf => lineTexts buf (headerTexts fuel)

/-- src/http/response.rs:706-722 (`Response::parse_buffer`). -/
def responseTexts (buf : Bytes) : List Bytes :=
  afterRead (skipEmptyLines buf) fun buf =>
  withText isToken false buf fun _ =>
  afterRead (parseVersion buf) fun buf =>
  afterRead (skipSpaces buf) fun buf =>
  withText isToken false buf fun _ =>
  afterRead (parseStatus buf) fun buf =>
  afterRead (skipSpaces buf) fun buf =>
  withText isStatusToken false buf fun buf =>
  afterRead (skipNewLine buf) fun buf => headerTexts (buf.length + 1) buf

/-- src/http/request.rs:552-561 (`Request::parse_buffer`), up to the URL. -/
def requestTexts (buf : Bytes) : List Bytes :=
  afterRead (skipEmptyLines buf) fun buf =>
  withText isToken false buf fun _ =>
  afterRead (parseMethod buf) fun buf =>
  afterRead (skipSpaces buf) fun buf =>
  withText isToken false buf fun buf =>
  afterRead (skipSpaces buf) fun buf =>
  withText isToken false buf fun _ =>
  afterRead (parseVersion buf) fun buf =>
  afterRead (skipNewLine buf) fun buf => headerTexts (buf.length + 1) buf

/-- src/url/url.rs:105-118 (`Url::parse`): the scheme. -/
def urlTexts (url : Bytes) : List Bytes :=
  match url with
  | [] => []
  | b :: _ => if isAlpha b then withText isSchemeToken false url fun _ => [] else []

/-- src/helper.rs:392-396 (`parse_chunk_data`): the size. -/
def chunkTexts (buf : Bytes) : List Bytes := withText isHex false buf fun _ => []

end Webparse
