import Verif.Model.Http1

/-! # A caller that reads from a network -/

namespace Webparse.Spec

/-- Keep all bytes received so far; after each piece that arrives parse all of them, with the same message
object; stop when the answer is not `Partial`. -/
def feed {σ : Type} (parse : σ → Bytes → Res Nat × σ × Bytes) : (object : σ) → (received : Bytes) → (pieces : List Bytes) → Res Nat × σ
  | s, received, [] => ((parse s received).1, (parse s received).2.1)
  | s, received, piece :: pieces =>
    if (parse s (received ++ piece)).1 = .err .partialData then
      feed parse (parse s (received ++ piece)).2.1 (received ++ piece) pieces
    else ((parse s (received ++ piece)).1, (parse s (received ++ piece)).2.1)

/-- Printable ASCII, CR and LF. -/
def PlainByte (b : UInt8) : Prop := (32 ≤ b.toNat ∧ b.toNat < 127) ∨ b = 13 ∨ b = 10

/-- Plain bytes, in which nothing but LF follows a CR. -/
def Orderly : Bytes → Prop
  | [] => True
  | b :: r => PlainByte b ∧ (b = 13 → r.head? = none ∨ r.head? = some 10) ∧ Orderly r

/-- What follows the first space begins with `/` (if it is there already), and there is no `%`. -/
def SlashTarget (buf : Bytes) : Prop :=
  (∀ a b c, buf = a ++ 32 :: b :: c → 32 ∉ a → b = 47) ∧ 37 ∉ buf

end Webparse.Spec
