import Verif.Spec.HpackInt
import Verif.Spec.Huffman
import Verif.Spec.HpackTable
import Verif.Spec.HpackDecode

/-!
# RFC 7541: header blocks and what they mean

Written from the RFC (sections 2.3, 3.2, 4, 5 and 6), independently of the code; only the Huffman code
table is shared (see C03).
-/

namespace Webparse.Spec.Rfc

/-- Section 6.2: the three kinds of literal. -/
inductive Mode where
  | incremental | without | never
  deriving DecidableEq

/-- The number of prefix bits left for the index. -/
def Mode.bits : Mode → Nat
  | .incremental => 6
  | .without => 4
  | .never => 4

/-- The bits above the prefix: `01`, `0000`, `0001`. -/
def Mode.top : Mode → Nat
  | .incremental => 1
  | .without => 0
  | .never => 1

/-- A name given by an index or as a string. -/
inductive RepName where
  | index (i : Nat)
  | text (s : Bytes)
  deriving DecidableEq

/-- Section 6: a field representation. -/
inductive Rep where
  | indexed (i : Nat)
  | literal (m : Mode) (name : RepName) (value : Bytes)
  | sizeUpdate (limit : Nat)
  deriving DecidableEq

/-- Section 5.1: the octets are the integer `v` with an `N`-bit prefix below the bits `top`.  `ok` restricts
the octets (RFC: no restriction; an implementation may limit their number). -/
def IsInteger (ok : Bytes → Prop) (N top v : Nat) (bs : Bytes) : Prop :=
  ok bs ∧ (bs.headD 0).toNat / 2 ^ N = top ∧ intValue N bs = some v

/-- Section 5.2: a string literal, raw or Huffman coded. -/
def IsString (ok : Bytes → Prop) (s bs : Bytes) : Prop :=
  ∃ l d, bs = l ++ d ∧
    ((IsInteger ok 7 0 d.length l ∧ d = s) ∨ (IsInteger ok 7 1 d.length l ∧ IsHuffmanOf d (byteSyms s)))

/-- Section 6: the octets of a representation. -/
def IsRep (ok : Bytes → Prop) : Rep → Bytes → Prop
  | .indexed i, bs => IsInteger ok 7 1 i bs
  | .literal m (.index i) v, bs => i ≠ 0 ∧ ∃ a b, bs = a ++ b ∧ IsInteger ok m.bits m.top i a ∧ IsString ok v b
  | .literal m (.text n) v, bs =>
    ∃ a b c, bs = a ++ (b ++ c) ∧ IsInteger ok m.bits m.top 0 a ∧ IsString ok n b ∧ IsString ok v c
  | .sizeUpdate n, bs => IsInteger ok 5 1 n bs

/-- A header block: representations one after the other. -/
inductive IsBlock (ok : Bytes → Prop) : List Rep → Bytes → Prop
  | nil : IsBlock ok [] []
  | cons {r bs rs cs} : IsRep ok r bs → IsBlock ok rs cs → IsBlock ok (r :: rs) (bs ++ cs)

/-- The octets of any integer. -/
def anyLength : Bytes → Prop := fun _ => True

/-- The dynamic table: entries, newest first, and the limit in force. -/
structure Table where
  entries : List (Bytes × Bytes)
  limit : Nat

/-- Section 2.3.3: the entry at an index. -/
def entry (t : Table) (i : Nat) : Option (Bytes × Bytes) :=
  if i = 0 then none
  else if i ≤ 61 then (rfcStaticTable[i - 1]?).map fun e => (asciiBytes e.1, asciiBytes e.2)
  else t.entries[i - 62]?

/-- The name meant. -/
def nameMeans (t : Table) : RepName → Option Bytes
  | .index i => (entry t i).map (·.1)
  | .text s => some s

/-- Section 3.2: what a representation does to the table and which header it emits. -/
inductive RepMeans (t : Table) : Rep → Table → List (Bytes × Bytes) → Prop
  | indexed {i h} : entry t i = some h → RepMeans t (.indexed i) t [h]
  | incremental {name n v kept} : nameMeans t name = some n → IsEviction ((n, v) :: t.entries) kept t.limit →
      RepMeans t (.literal .incremental name v) ⟨kept, t.limit⟩ [(n, v)]
  | without {name n v} : nameMeans t name = some n → RepMeans t (.literal .without name v) t [(n, v)]
  | never {name n v} : nameMeans t name = some n → RepMeans t (.literal .never name v) t [(n, v)]
  | sizeUpdate {limit kept} : IsEviction t.entries kept limit → RepMeans t (.sizeUpdate limit) ⟨kept, limit⟩ []

/-- What a block does to the table and which headers it emits. -/
inductive Means : Table → List Rep → Table → List (Bytes × Bytes) → Prop
  | nil {t} : Means t [] t []
  | cons {t r t' hs rs t'' hs'} : RepMeans t r t' hs → Means t' rs t'' hs' → Means t (r :: rs) t'' (hs ++ hs')

/-- A block read as the RFC says. -/
def Reads (t : Table) (bs : Bytes) (t' : Table) (hs : List (Bytes × Bytes)) : Prop :=
  ∃ reps, IsBlock anyLength reps bs ∧ Means t reps t' hs

/-- Blocks read one after the other. -/
inductive ReadsBlocks : Table → List Bytes → Table → List (List (Bytes × Bytes)) → Prop
  | nil {t} : ReadsBlocks t [] t []
  | cons {t b t' hs bs t'' hss} : Reads t b t' hs → ReadsBlocks t' bs t'' hss → ReadsBlocks t (b :: bs) t'' (hs :: hss)

/-! ## The code's side -/

/-- A table of the code as the RFC sees it. -/
def toTable (t : HeaderIndex) : Table := ⟨t.table, t.maxSize⟩

/-- An encoder's table as the peer's decoder holds it: names arrive in lower case. -/
def peerTable (t : HeaderIndex) : Table := ⟨t.table.map lowerHeader, t.maxSize⟩

/-- The representations the code reads as the RFC says: indices of one octet, not the wrong entry 15 of the
static table, names that are UTF-8, and no table size updates. -/
def Rep.Plain : Rep → Prop
  | .indexed i => i ≤ 126 ∧ i ≠ 15
  | .literal _ (.index i) _ => i ≠ 15
  | .literal _ (.text n) _ => utf8Valid n = true
  | .sizeUpdate _ => False

/-- At most five octets, as many as the code reads. -/
def shortInteger (bs : Bytes) : Prop := bs.length ≤ 5

/-- A Huffman coded string that contains the EOS code word, which RFC 7541 5.2 forbids. -/
def HasEos (bs : Bytes) : Prop :=
  ∃ l d syms, bs = l ++ d ∧ IsInteger shortInteger 7 1 d.length l ∧ 256 ∈ syms ∧ IsHuffmanOf d syms

/-- Octets that the code accepts though the RFC does not read them so: the octet 255 (taken for index 127),
a use of static entry 15, a name that is not UTF-8, a string with EOS as name or value. -/
inductive Deviant : Bytes → Prop
  | index {rest} : Deviant (0xff :: rest)
  | static {a rest} : IsRep shortInteger (.indexed 15) a → Deviant (a ++ rest)
  | staticName {m v a rest} : IsRep shortInteger (.literal m (.index 15) v) a → Deviant (a ++ rest)
  | name {m n v a rest} : IsRep shortInteger (.literal m (.text n) v) a → utf8Valid n = false → Deviant (a ++ rest)
  | eosName {m a b rest} : IsInteger shortInteger (Mode.bits m) (Mode.top m) 0 a → HasEos b → Deviant (a ++ (b ++ rest))
  | eosValue {m i a b rest} : i ≠ 0 → IsInteger shortInteger (Mode.bits m) (Mode.top m) i a → HasEos b → Deviant (a ++ (b ++ rest))
  | eosNamedValue {m n a b c rest} : IsInteger shortInteger (Mode.bits m) (Mode.top m) 0 a → IsString shortInteger n b → HasEos c →
      Deviant (a ++ (b ++ (c ++ rest)))

/-- After some representations read as the RFC says, there are such octets. -/
def Deviates (t : Table) (bs : Bytes) : Prop := ∃ a c t' hs, bs = a ++ c ∧ Reads t a t' hs ∧ Deviant c

end Webparse.Spec.Rfc
