import Verif.Spec.Rfc7541
import Verif.Spec.Lossy

/-!
# The header blocks this decoder reads

RFC 7541 (`Spec/Rfc7541.lean`) with five changes: integers of at most five octets, an index of one octet, the static
entry 15, EOS allowed in Huffman coded strings (as octet 0), names made UTF-8; and no table size update.
-/

namespace Webparse.Spec.Rfc

/-- A string literal: as in RFC 7541 5.2, but the Huffman coded ones may have EOS, read as octet 0. -/
def LooseString (s bs : Bytes) : Prop :=
  ∃ l d, bs = l ++ d ∧
    ((IsInteger shortInteger 7 0 d.length l ∧ d = s) ∨
     (IsInteger shortInteger 7 1 d.length l ∧ ∃ syms, (∀ x ∈ syms, x < 257) ∧ IsHuffmanOf d syms ∧ s = syms.map UInt8.ofNat))

/-- The entry at an index: entry 15 is `accept-`, not `accept-charset`. -/
def looseEntry (t : Table) (i : Nat) : Option (Bytes × Bytes) :=
  if i = 15 then some (asciiBytes "accept-", []) else entry t i

/-- The octets of a literal up to its value, and its name. -/
inductive LooseName (t : Table) (m : Mode) : Bytes → Bytes → Prop
  | index {i a e} : i ≠ 0 → IsInteger shortInteger m.bits m.top i a → looseEntry t i = some e → LooseName t m a e.1
  | text {a b n s} : IsInteger shortInteger m.bits m.top 0 a → LooseString n b → TextOf n s → LooseName t m (a ++ b) s

/-- The octets of one representation, the table after it and the header it gives. -/
inductive LooseRep (t : Table) : Bytes → Table → Bytes × Bytes → Prop
  | indexed {o : UInt8} {h} : 128 ≤ o.toNat → looseEntry t (o.toNat - 128) = some h → LooseRep t [o] t h
  | incremental {a b n v kept} : LooseName t .incremental a n → LooseString v b →
      IsEviction ((n, v) :: t.entries) kept t.limit → LooseRep t (a ++ b) ⟨kept, t.limit⟩ (n, v)
  | plain {m a b n v} : m ≠ .incremental → LooseName t m a n → LooseString v b → LooseRep t (a ++ b) t (n, v)

/-- Representations one after the other. -/
inductive LooseReads : Table → Bytes → Table → List (Bytes × Bytes) → Prop
  | nil {t} : LooseReads t [] t []
  | cons {t a t' h bs t'' hs} : LooseRep t a t' h → LooseReads t' bs t'' hs → LooseReads t (a ++ bs) t'' (h :: hs)

end Webparse.Spec.Rfc
