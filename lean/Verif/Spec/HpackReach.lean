import Verif.Spec.HpackState

/-! Which headers an encoder can write so that the decoder, whose indices have seven bits, can read them. -/

namespace Webparse.Spec

/-- The static table has the name. -/
def StaticName (n : Bytes) : Prop := ∃ e ∈ staticTable, e.1 = lower n

instance (n : Bytes) : Decidable (StaticName n) := by unfold StaticName; infer_instance

/-- Among the first `k` entries (newest first) there is this header, up to the case of its name. -/
def Among (entries : List Header) (k : Nat) (h : Header) : Prop := lowerHeader h ∈ (entries.take k).map lowerHeader

instance (entries : List Header) (k : Nat) (h : Header) : Decidable (Among entries k h) := by unfold Among; infer_instance

/-- A header is in reach unless it is in the dynamic table, but not among the 65 newest entries.  (61 static
entries and 65 dynamic ones make 126 indices.)  Headers whose name the static table has are never taken from
the dynamic table. -/
def Reachable (entries : List Header) (h : Header) : Prop :=
  StaticName h.1 ∨ (Among entries entries.length h → Among entries 65 h)

instance (entries : List Header) (h : Header) : Decidable (Reachable entries h) := by unfold Reachable; infer_instance

/-- Written one after the other, each header is in reach when its turn comes. -/
def AllReachable (t : HeaderIndex) : List Header → Prop
  | [] => True
  | h :: hs => Reachable t.table h ∧
    match encodeHeader t h with
    | .ok (_, t') => AllReachable t' hs
    | _ => True

instance decAllReachable : (t : HeaderIndex) → (hs : List Header) → Decidable (AllReachable t hs)
  | _, [] => .isTrue trivial
  | t, h :: hs => by
    unfold AllReachable
    have : Decidable (match encodeHeader t h with
      | .ok (_, t') => AllReachable t' hs
      | _ => True) := by
      split
      · exact decAllReachable _ hs
      · exact .isTrue trivial
    infer_instance

/-- In the dynamic table as one of the entries 98 to 129, counted from the newest, and not before. -/
def InHangingRange (entries : List Header) (h : Header) : Prop :=
  ¬ StaticName h.1 ∧ ¬ Among entries 97 h ∧ Among entries 129 h

end Webparse.Spec
