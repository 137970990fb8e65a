import Verif.Spec.Url

/-! # Which absolute URLs are read, and as what: the whole language

An absolute URL is a scheme, `://`, an authority that ends before the first `/`, and the rest. -/

namespace Webparse.Spec

/-- `name`, or `name:word`.  A `?` may stand for the colon, and is left out of the word. -/
def Section (d : Bytes) (p : Option Bytes) (a : Bytes) : Prop :=
  (∀ b ∈ d, b ∉ asciiBytes ":@/?") ∧
  ((p = none ∧ a = d) ∨
    ∃ c w, (c = 58 ∨ c = 63) ∧ a = d ++ c :: w ∧ (∀ b ∈ w, b ∉ asciiBytes ":@/") ∧ p = some (w.filter (· ≠ 63)))

/-- An authority: any number of `user:password@`, of which the last counts, then `host` or `host:port`. -/
inductive Authority : (before user : Option (Bytes × Bytes)) → (host : Bytes) → (port : Option Bytes) → (text : Bytes) → Prop
  | host {u : Option (Bytes × Bytes)} {d : Bytes} {p : Option Bytes} {a : Bytes} : Section d p a → Authority u u d p a
  | user {u u' : Option (Bytes × Bytes)} {n w d s rest : Bytes} {p : Option Bytes} : Section n (some w) s →
      Authority (some (n, w)) u' d p rest → Authority u u' d p (s ++ 64 :: rest)

/-- What is after the authority, `t`, empty or beginning with `/`.  Without an `@` it is the path and the query.  One `@` makes the host
the user name and the text before it the password; the text after it is the host unless there is a `?`. -/
def tailParts (t : Bytes) (r : RawParts) : Option RawParts :=
  match cut 64 t with
  | (_, none) => some (pathParts t r)
  | (x, some y) =>
    if 64 ∈ y then none
    else match cut 63 x with
      | (p, some w) => some { r with username := r.domain, password := some w, domain := none, path := some p, query := some y }
      | (_, none) =>
        match cut 63 y with
        | (p, some q) => some { r with username := r.domain, password := some x, domain := none, path := some p, query := some q }
        | (_, none) => some { r with username := r.domain, password := some x, domain := some y }

/-- The parts of an authority. -/
def authorityRaw (user : Option (Bytes × Bytes)) (d : Bytes) (p : Option Bytes) : RawParts :=
  { username := user.map (·.1), password := user.map (·.2), domain := some d, port := p }

end Webparse.Spec
