import Verif.Model.HpackPrim
import Verif.Spec.Huffman

/-! The Huffman code tree, checked once by the kernel. -/

namespace Webparse
open Spec

/-! ### The decoder -/

/-- The code tree. -/
inductive HTree where
  | bad
  | leaf (sym : Nat)
  | node (l r : HTree)

/-- Keep the entries whose next bit is `b`, without that bit. -/
def branch (b : Bool) : List (Nat × List Bool) → List (Nat × List Bool)
  | [] => []
  | (_, []) :: es => branch b es
  | (s, c :: cs) :: es => if c = b then (s, cs) :: branch b es else branch b es

/-- The tree of a list of code words. -/
def buildTree : Nat → List (Nat × List Bool) → HTree
  | 0, _ => .bad
  | _ + 1, [] => .bad
  | _ + 1, [(s, [])] => .leaf s
  | f + 1, es => .node (buildTree f (branch false es)) (buildTree f (branch true es))

/-- The tree of the table. -/
def huffTree : HTree :=
  buildTree 31 (huffmanCodeArray.zipIdx.map fun e => (e.2, toBits e.1.2 e.1.1))

/-- Every path of the tree agrees with the decoder's lookup: inner nodes are not code words, a
leaf is the code word of its symbol; the tree is complete and no deeper than 30. -/
def checkTree : HTree → (val len : Nat) → Bool
  | .bad, _, _ => false
  | .leaf s, val, len =>
    s < 257 && huffmanCodeArray.getD s (0, 0) == (val, len) && huffLookup val len == some (UInt8.ofNat s)
      && len ≤ 30
  | .node l r, val, len =>
    (len == 0 || huffLookup val len == none) && val < 2 ^ 30 && len < 30 &&
      checkTree l (2 * val) (len + 1) && checkTree r (2 * val + 1) (len + 1)

theorem huffTree_ok : checkTree huffTree 0 0 = true := by decide +kernel

theorem huffTree_node : ∃ l r, huffTree = .node l r := ⟨_, _, rfl⟩

/-- Follow a path. -/
def walk : HTree → List Bool → HTree
  | t, [] => t
  | .node l r, b :: bs => walk (if b then r else l) bs
  | t, _ :: _ => t

/-- Every symbol's code word leads to its leaf. -/
theorem walk_code : ∀ s < 257, (match walk huffTree (codeBits s) with | .leaf s' => s' == s | _ => false) = true := by
  decide +kernel

/-- The table is the canonical code of its lengths. -/
theorem huff_canonical : ∀ s < 257,
    (huffmanCodeArray.getD s (0, 0)).1 = canonicalCode (huffmanCodeArray.map (·.2)) s := by
  decide +kernel

end Webparse
