import Verif.Spec.HpackTable
import Verif.Spec.HpackDecode
import Verif.Spec.Ascii

/-! Conditions on the states of an HPACK encoder and decoder. -/

namespace Webparse.Spec

/-- The recorded size is the real one. -/
def SizeOk (t : HeaderIndex) : Prop := t.size = tableSize t.table

/-- The table invariant. -/
def TableInv (t : HeaderIndex) : Prop := SizeOk t ∧ t.size ≤ t.maxSize

/-- The decoder's table is the encoder's with names lower-cased. -/
structure Sync (te td : HeaderIndex) : Prop where
  table : td.table = te.table.map lowerHeader
  size : td.size = te.size
  max : td.maxSize = te.maxSize

/-- Room for the decoder's seven-bit indices: a small limit, or few headers still to come. -/
def RoomFor (t : HeaderIndex) (k : Nat) : Prop := t.maxSize < 2112 ∨ t.table.length + k ≤ 65

/-- The state of the two ends of a connection between two frames. -/
structure Conn (te td : HeaderIndex) (k : Nat) : Prop where
  sync : Sync te td
  inv : TableInv te
  plain : ∀ e ∈ te.table, IsPlainName e.1
  room : RoomFor te k

end Webparse.Spec
