import Verif.Spec.UrlEq
import Verif.Proofs.Url

namespace Webparse
open Spec

theorem decodes_append {a b v w : Bytes} (h : Decodes a v) (h' : Decodes b w) : Decodes (a ++ b) (v ++ w) := by
  induction h with
  | nil => exact h'
  | plain hb _ ih => exact .plain hb ih
  | escape h1 h2 _ ih => exact .escape h1 h2 ih

theorem toHex_upper (b : UInt8) : isUpperHex (toHex (b / 16)) = true ∧ isUpperHex (toHex (b % 16)) = true := by
  revert b; decide +kernel

theorem encode_canonical (v : Bytes) : Canonical (urlEncode v) := by
  rw [urlEncode_eq]
  induction v with
  | nil => exact .nil
  | cons b s ih =>
    rw [List.flatMap_cons]
    unfold encodeByte
    split
    · rename_i h
      rw [isNotUritrans_eq] at h
      exact .kept h ih
    · rename_i h
      rw [isNotUritrans_eq] at h
      obtain ⟨-, -, -, -, -, -, h1, h2, h3⟩ := toHex_facts b
      refine .escape (toHex_upper b).1 (toHex_upper b).2 h1 h2 ?_ ih
      rw [h3]
      simpa using h

theorem upper_digit (x : UInt8) (t : Nat) (h : isUpperHex x = true) (hx : hexDigit? x = some t) : t < 16 ∧ x = toHex (UInt8.ofNat t) := by
  have : ∀ x : UInt8, isUpperHex x = true → ∀ t ∈ hexDigit? x, t < 16 ∧ x = toHex (UInt8.ofNat t) := by decide +kernel
  exact this x h t hx

theorem toHex_parts (t u : Nat) (ht : t < 16) (hu : u < 16) :
    toHex (UInt8.ofNat (16 * t + u) / 16) = toHex (UInt8.ofNat t) ∧ toHex (UInt8.ofNat (16 * t + u) % 16) = toHex (UInt8.ofNat u) := by
  have : ∀ t : Fin 16, ∀ u : Fin 16, toHex (UInt8.ofNat (16 * t.val + u.val) / 16) = toHex (UInt8.ofNat t.val) ∧
      toHex (UInt8.ofNat (16 * t.val + u.val) % 16) = toHex (UInt8.ofNat u.val) := by decide +kernel
  exact this ⟨t, ht⟩ ⟨u, hu⟩

theorem canonical_encode {s : Bytes} (h : Canonical s) : ∀ v, Decodes s v → urlEncode v = s := by
  induction h with
  | nil => intro v hv; cases hv; exact urlEncode_eq []
  | @kept b s hb _ ih =>
    intro v hv
    obtain ⟨w, rfl, hw⟩ := (decodes_not_escape (kept_facts b hb).1).mp hv
    have := ih w hw
    rw [urlEncode_eq] at this ⊢
    rw [List.flatMap_cons, this, encodeByte, isNotUritrans_eq, if_pos hb]
    rfl
  | @escape x y t u s hx hy ht hu hk _ ih =>
    intro v hv
    have hv' : ∃ w, v = UInt8.ofNat (16 * t + u) :: w ∧ Decodes s w := by
      cases hv with
      | plain hne => exact absurd rfl hne
      | escape h1 h2 h3 =>
        rw [ht, Option.some.injEq] at h1
        rw [hu, Option.some.injEq] at h2
        subst h1 h2
        exact ⟨_, rfl, h3⟩
    obtain ⟨w, rfl, hw⟩ := hv'
    have := ih w hw
    obtain ⟨t1, t2⟩ := upper_digit x t hx ht
    obtain ⟨u1, u2⟩ := upper_digit y u hy hu
    obtain ⟨e1, e2⟩ := toHex_parts t u t1 u1
    rw [urlEncode_eq] at this ⊢
    rw [List.flatMap_cons, this, encodeByte, isNotUritrans_eq, if_neg (by rw [hk]; decide), e1, e2, ← t2, ← u2]
    rfl

/-- A text that stands for `v` is how `v` is written exactly if its spelling is canonical. -/
theorem encode_eq_iff {s v : Bytes} (h : Decodes s v) : urlEncode v = s ↔ Canonical s :=
  ⟨fun e => e ▸ encode_canonical v, fun hc => canonical_encode hc v h⟩

theorem encode_append (a b : Bytes) : urlEncode (a ++ b) = urlEncode a ++ urlEncode b := by
  simp only [urlEncode_eq, List.flatMap_append]

theorem query_encode (q : Option Bytes) : queryText q = urlEncode (match q with | some q => 63 :: q | none => []) := by
  cases q with
  | none => rw [urlEncode_eq]; rfl
  | some q =>
    simp only [queryText]
    rw [urlEncode_eq, urlEncode_eq, List.flatMap_cons, show encodeByte 63 = [63] by decide +kernel]

end Webparse
