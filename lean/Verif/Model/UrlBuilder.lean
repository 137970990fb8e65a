import Verif.Model.Url

/-! The builder of URLs: src/url/builder.rs. -/

namespace Webparse

/-- src/url/builder.rs:15-17 (`Builder`): a URL or the first error. -/
structure UrlBuilder where
  inner : Res Url

namespace UrlBuilder

/-- src/url/builder.rs:21-23, 109-116 (`new`, `default`); `Url::default` is `Url::new`
(src/url/url.rs:39-49). -/
def new : UrlBuilder := ⟨.ok Url.new⟩

/-- src/url/builder.rs:95-102 (`map`). -/
def map (b : UrlBuilder) (f : Url → Res Url) : UrlBuilder := ⟨b.inner >>= f⟩

/-- src/url/builder.rs:34-44 (`scheme`), called with a text. -/
def scheme (b : UrlBuilder) (t : Bytes) : UrlBuilder :=
  b.map fun u => do
    let s ← Scheme.tryFrom t
    .ok { u with scheme := s }

/-- src/url/builder.rs:46-52 (`username`). -/
def username (b : UrlBuilder) (t : Bytes) : UrlBuilder := b.map fun u => .ok { u with username := some t }

/-- src/url/builder.rs:54-60 (`password`). -/
def password (b : UrlBuilder) (t : Bytes) : UrlBuilder := b.map fun u => .ok { u with password := some t }

/-- src/url/builder.rs:62-69 (`domain`). -/
def domain (b : UrlBuilder) (t : Bytes) : UrlBuilder := b.map fun u => .ok { u with domain := some t }

/-- src/url/builder.rs:71-77 (`port`). -/
def port (b : UrlBuilder) (n : Nat) : UrlBuilder := b.map fun u => .ok { u with port := some n }

/-- src/url/builder.rs:79-85 (`path`). -/
def path (b : UrlBuilder) (t : Bytes) : UrlBuilder := b.map fun u => .ok { u with path := t }

/-- src/url/builder.rs:87-93 (`query`). -/
def query (b : UrlBuilder) (t : Bytes) : UrlBuilder := b.map fun u => .ok { u with query := some t }

/-- src/url/builder.rs:104-106 (`build`). -/
def build (b : UrlBuilder) : Res Url := b.inner

end UrlBuilder

end Webparse
