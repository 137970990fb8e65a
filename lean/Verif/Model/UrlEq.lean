import Verif.Model.Url

/-! # URLs and text: conversions and comparison -/

namespace Webparse

/-- src/url/url.rs:374-400 (`FromStr`, `TryFrom<&[u8]>`, `TryFrom<&str>` and `TryFrom<String>` for `Url`): all four are
`Url::parse` of the bytes. -/
def Url.ofText (s : Bytes) : Res Url := Url.parse s

/-- src/url/url.rs:402-412 (`PartialEq<str> for Url`, `PartialEq<Url> for str`): the text written by `Display` is compared. -/
def Url.eqText (u : Url) (s : Bytes) : Bool := u.display == s

end Webparse
