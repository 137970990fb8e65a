import Verif.Model.Basic

/-!
# Status codes

/repo/src/http/status.rs
-/

namespace Webparse

/-- src/http/status.rs:333-525 (`status_codes!`): the known codes and reason phrases, transcribed
mechanically. -/
def statusTable : List (Nat × String) := [
  (100, "Continue"),
  (101, "Switching Protocols"),
  (102, "Processing"),
  (200, "OK"),
  (201, "Created"),
  (202, "Accepted"),
  (203, "Non Authoritative Information"),
  (204, "No Content"),
  (205, "Reset Content"),
  (206, "Partial Content"),
  (207, "Multi-Status"),
  (208, "Already Reported"),
  (226, "IM Used"),
  (300, "Multiple Choices"),
  (301, "Moved Permanently"),
  (302, "Found"),
  (303, "See Other"),
  (304, "Not Modified"),
  (305, "Use Proxy"),
  (307, "Temporary Redirect"),
  (308, "Permanent Redirect"),
  (400, "Bad Request"),
  (401, "Unauthorized"),
  (402, "Payment Required"),
  (403, "Forbidden"),
  (404, "Not Found"),
  (405, "Method Not Allowed"),
  (406, "Not Acceptable"),
  (407, "Proxy Authentication Required"),
  (408, "Request Timeout"),
  (409, "Conflict"),
  (410, "Gone"),
  (411, "Length Required"),
  (412, "Precondition Failed"),
  (413, "Payload Too Large"),
  (414, "URI Too Long"),
  (415, "Unsupported Media Type"),
  (416, "Range Not Satisfiable"),
  (417, "Expectation Failed"),
  (418, "I'm a teapot"),
  (421, "Misdirected Request"),
  (422, "Unprocessable Entity"),
  (423, "Locked"),
  (424, "Failed Dependency"),
  (426, "Upgrade Required"),
  (428, "Precondition Required"),
  (429, "Too Many Requests"),
  (431, "Request Header Fields Too Large"),
  (451, "Unavailable For Legal Reasons"),
  (500, "Internal Server Error"),
  (501, "Not Implemented"),
  (502, "Bad Gateway"),
  (503, "Service Unavailable"),
  (504, "Gateway Timeout"),
  (505, "HTTP Version Not Supported"),
  (506, "Variant Also Negotiates"),
  (507, "Insufficient Storage"),
  (508, "Loop Detected"),
  (510, "Not Extended"),
  (511, "Network Authentication Required")]

/-- src/http/status.rs:529-574 (`CODE_DIGITS`), transcribed mechanically, in pieces of thirty codes. -/
def codeDigits : List String := [
  "100101102103104105106107108109110111112113114115116117118119120121122123124125126127128129",
  "130131132133134135136137138139140141142143144145146147148149150151152153154155156157158159",
  "160161162163164165166167168169170171172173174175176177178179180181182183184185186187188189",
  "190191192193194195196197198199200201202203204205206207208209210211212213214215216217218219",
  "220221222223224225226227228229230231232233234235236237238239240241242243244245246247248249",
  "250251252253254255256257258259260261262263264265266267268269270271272273274275276277278279",
  "280281282283284285286287288289290291292293294295296297298299300301302303304305306307308309",
  "310311312313314315316317318319320321322323324325326327328329330331332333334335336337338339",
  "340341342343344345346347348349350351352353354355356357358359360361362363364365366367368369",
  "370371372373374375376377378379380381382383384385386387388389390391392393394395396397398399",
  "400401402403404405406407408409410411412413414415416417418419420421422423424425426427428429",
  "430431432433434435436437438439440441442443444445446447448449450451452453454455456457458459",
  "460461462463464465466467468469470471472473474475476477478479480481482483484485486487488489",
  "490491492493494495496497498499500501502503504505506507508509510511512513514515516517518519",
  "520521522523524525526527528529530531532533534535536537538539540541542543544545546547548549",
  "550551552553554555556557558559560561562563564565566567568569570571572573574575576577578579",
  "580581582583584585586587588589590591592593594595596597598599600601602603604605606607608609",
  "610611612613614615616617618619620621622623624625626627628629630631632633634635636637638639",
  "640641642643644645646647648649650651652653654655656657658659660661662663664665666667668669",
  "670671672673674675676677678679680681682683684685686687688689690691692693694695696697698699",
  "700701702703704705706707708709710711712713714715716717718719720721722723724725726727728729",
  "730731732733734735736737738739740741742743744745746747748749750751752753754755756757758759",
  "760761762763764765766767768769770771772773774775776777778779780781782783784785786787788789",
  "790791792793794795796797798799800801802803804805806807808809810811812813814815816817818819",
  "820821822823824825826827828829830831832833834835836837838839840841842843844845846847848849",
  "850851852853854855856857858859860861862863864865866867868869870871872873874875876877878879",
  "880881882883884885886887888889890891892893894895896897898899900901902903904905906907908909",
  "910911912913914915916917918919920921922923924925926927928929930931932933934935936937938939",
  "940941942943944945946947948949950951952953954955956957958959960961962963964965966967968969",
  "970971972973974975976977978979980981982983984985986987988989990991992993994995996997998999"]

/-- src/http/status.rs:529-574, `CODE_DIGITS` as bytes. -/
def codeDigitsBytes : Bytes := codeDigits.flatMap asciiBytes

/-- src/http/status.rs:63-71 (`StatusCode::from_u16`).  A status code is its number. -/
def statusFromU16 (src : Nat) : Res Nat :=
  if src < 100 ∨ src ≥ 1000 then .err .invalidStatusCode else .ok src

/-- src/http/status.rs:74-91 (`StatusCode::from_bytes`); `wrapping_sub` is `UInt8` subtraction. -/
def statusFromBytes : Bytes → Res Nat
  | [x, y, z] =>
    let a := (x - 48).toNat
    let b := (y - 48).toNat
    let c := (z - 48).toNat
    if a = 0 ∨ a > 9 ∨ b > 9 ∨ c > 9 then .err .invalidStatusCode
    else .ok (a * 100 + b * 10 + c)
  | _ => .err .invalidStatusCode

/-- src/http/status.rs:125-142 (`StatusCode::as_str`): three bytes of `CODE_DIGITS`.  A slice out of range
is a panic. -/
def statusAsStr (code : Nat) : Res Bytes :=
  if code < 100 then .panic
  else
    let offset := (code - 100) * 3
    if offset + 3 ≤ codeDigitsBytes.length then .ok ((codeDigitsBytes.drop offset).take 3)
    else .panic

/-- src/http/status.rs:160-162, 318-326 (`canonical_reason`). -/
def canonicalReason (code : Nat) : Option Bytes :=
  (statusTable.find? fun e => e.1 == code).map fun e => asciiBytes e.2

/-- src/http/status.rs:165-167. -/
def isInformational (c : Nat) : Bool := 200 > c && c ≥ 100
/-- src/http/status.rs:171-173. -/
def isSuccess (c : Nat) : Bool := 300 > c && c ≥ 200
/-- src/http/status.rs:177-179. -/
def isRedirection (c : Nat) : Bool := 400 > c && c ≥ 300
/-- src/http/status.rs:183-185. -/
def isClientError (c : Nat) : Bool := 500 > c && c ≥ 400
/-- src/http/status.rs:189-191. -/
def isServerError (c : Nat) : Bool := 600 > c && c ≥ 500

/-- src/http/status.rs:204-209 (`StatusCode::encode`): the bytes appended. -/
def statusEncode (code : Nat) : Res Bytes :=
  match canonicalReason code with
  | some reason => do
    let digits ← statusAsStr code
    .ok (digits ++ [32] ++ reason ++ [13, 10])
  | none => .err .invalidStatusCode

end Webparse
