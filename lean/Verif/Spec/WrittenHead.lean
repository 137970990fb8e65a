import Verif.Spec.Grammar
import Verif.Spec.Options

/-! What a receiver that follows RFC 9112 hears of a head. -/

namespace Webparse.Spec

/-- These bytes are the head of this response: its version, its status and its fields, each as it is. -/
def HeardResponse (r : Response) (head : Bytes) : Prop :=
  ∃ reason fields, IsResponseHead r.version r.status reason fields head ∧ fields.map (·.1) = r.header

/-- These bytes are the head of this request: its method, the path of its URL (how a target stands for a URL is the subject of
C41 and C109), its version and its fields, each as it is. -/
def HeardRequest (r : Request) (head : Bytes) : Prop :=
  ∃ fields, IsRequestHead r.method.asStr r.url.path r.version fields head ∧ fields.map (·.1) = r.header

/-- RFC 9110 5.5: the octets of a value, blanks around it included. -/
def ValueOctets (v : Bytes) : Prop := ∀ b ∈ v, IsFieldVchar b ∨ IsBlank b

end Webparse.Spec
