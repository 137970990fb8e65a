import Verif.Spec.Url
import Verif.Proofs.Utf8
import Verif.Proofs.Numbers
import Verif.Proofs.Streams

/-! Lemmas about percent-encoding and URL parsing. -/

namespace Webparse
open Spec

/-! ## Percent-encoding -/

theorem convertHex_eq (b : UInt8) : convertHex b = (hexDigit? b).map UInt8.ofNat := by
  revert b; decide +kernel

theorem hexDigit_ne {b : UInt8} (h : (hexDigit? b).isSome = true) : b ≠ 37 := by
  revert h; revert b; decide +kernel

theorem escape_byte (t u : Nat) : UInt8.ofNat t * 16 + UInt8.ofNat u = UInt8.ofNat (16 * t + u) := by
  rw [show (16 : UInt8) = UInt8.ofNat 16 from rfl, ← UInt8.ofNat_mul, ← UInt8.ofNat_add, Nat.mul_comm]

theorem decodes_not_escape {b : UInt8} {s v : Bytes} (hb : b ≠ 37) :
    Decodes (b :: s) v ↔ ∃ w, v = b :: w ∧ Decodes s w := by
  constructor
  · intro h
    cases h with
    | plain _ h => exact ⟨_, rfl, h⟩
    | escape => exact absurd rfl hb
  · rintro ⟨w, rfl, h⟩; exact .plain hb h

theorem decodes_escape {x y : UInt8} {s v : Bytes} :
    Decodes (37 :: x :: y :: s) v ↔ ∃ t u w, hexDigit? x = some t ∧ hexDigit? y = some u ∧
      v = UInt8.ofNat (16 * t + u) :: w ∧ Decodes s w := by
  constructor
  · intro h
    cases h with
    | plain h => exact absurd rfl h
    | escape h1 h2 h3 => exact ⟨_, _, _, h1, h2, rfl, h3⟩
  · rintro ⟨t, u, w, h1, h2, rfl, h3⟩; exact .escape h1 h2 h3

theorem decodes_short {s v : Bytes} (hs : s.length < 2) : ¬ Decodes (37 :: s) v := by
  intro h
  cases h with
  | plain h => exact h rfl
  | escape => simp at hs; omega

theorem urlDecodeLoop_plain {b : UInt8} (r : Bytes) (hb : b ≠ 37) :
    urlDecodeLoop (b :: r) = urlDecodeLoop r >>= fun v => .ok (b :: v) := by
  rw [urlDecodeLoop.eq_def]; simp only [if_neg hb]

theorem urlTokenLoop_plain {b : UInt8} (r : Bytes) (hb : b ≠ 37) :
    urlTokenLoop (b :: r) = urlTokenLoop r >>= fun v => .ok (b :: v) := by
  rw [urlTokenLoop.eq_def]; simp only [if_neg hb]

theorem urlDecodeLoop_short {r : Bytes} (h : ∀ (x y : UInt8) (t : List UInt8), r = x :: y :: t → False) :
    urlDecodeLoop (37 :: r) = .err .urlCodeInvalid := by
  rcases r with _ | ⟨x, _ | ⟨y, r⟩⟩
  · rfl
  · rfl
  · exact absurd rfl (h x y r)

theorem urlTokenLoop_short {r : Bytes} (h : ∀ (x y : UInt8) (t : List UInt8), r = x :: y :: t → False) :
    urlTokenLoop (37 :: r) = .err .partialData := by
  rcases r with _ | ⟨x, _ | ⟨y, r⟩⟩
  · rfl
  · rfl
  · exact absurd rfl (h x y r)

theorem urlDecodeLoop_iff (s v : Bytes) : urlDecodeLoop s = .ok v ↔ Decodes s v := by
  induction s using urlDecodeLoop.induct generalizing v with
  | case1 =>
    rw [urlDecodeLoop]
    constructor
    · rintro ⟨⟩; exact .nil
    · intro h; cases h; rfl
  | case2 x y r t u h2 h1 ih =>
    rw [urlDecodeLoop, if_pos rfl]
    simp only [h1, h2]
    rw [decodes_escape]
    rw [convertHex_eq, Option.map_eq_some_iff] at h1 h2
    obtain ⟨t', ht, rfl⟩ := h1
    obtain ⟨u', hu, rfl⟩ := h2
    rw [Res.bind_eq_ok]
    constructor
    · rintro ⟨w, hw, e⟩
      simp only [Res.ok.injEq] at e
      exact ⟨t', u', w, ht, hu, by rw [← e, escape_byte], (ih w).mp hw⟩
    · rintro ⟨t2, u2, w, ht2, hu2, rfl, hw⟩
      rw [ht, Option.some.injEq] at ht2
      rw [hu, Option.some.injEq] at hu2
      subst ht2 hu2
      exact ⟨w, (ih w).mpr hw, by rw [escape_byte]⟩
  | case3 x y r h =>
    rw [urlDecodeLoop, if_pos rfl]
    rw [decodes_escape]
    constructor
    · intro h'
      split at h'
      · exact absurd ‹_› (h _ _ ‹_›)
      · simp at h'
    · rintro ⟨t, u, w, h1, h2, -⟩
      exact absurd (by rw [convertHex_eq, h2]; rfl) (h (UInt8.ofNat t) (UInt8.ofNat u) (by rw [convertHex_eq, h1]; rfl))
  | case4 r h =>
    rw [urlDecodeLoop_short h]
    have hl : r.length < 2 := by
      rcases r with _ | ⟨x, _ | ⟨y, r⟩⟩
      · simp
      · simp
      · exact absurd rfl (h x y r)
    constructor
    · intro h'; simp at h'
    · intro h'; exact absurd h' (decodes_short hl)
  | case5 b r hb ih =>
    rw [urlDecodeLoop_plain r hb, Res.bind_eq_ok, decodes_not_escape hb]
    constructor
    · rintro ⟨w, hw, e⟩; simp only [Res.ok.injEq] at e; exact ⟨w, e.symm, (ih w).mp hw⟩
    · rintro ⟨w, rfl, hw⟩; exact ⟨w, (ih w).mpr hw, rfl⟩

/-- The two decoders read the same escapes. -/
theorem urlTokenLoop_iff (s v : Bytes) : urlTokenLoop s = .ok v ↔ Decodes s v := by
  rw [← urlDecodeLoop_iff]
  induction s using urlDecodeLoop.induct generalizing v with
  | case1 => rw [urlDecodeLoop, urlTokenLoop]
  | case2 x y r t u h2 h1 ih =>
    rw [urlDecodeLoop, urlTokenLoop, if_pos rfl, if_pos rfl]
    simp only [h1, h2]
    rw [Res.bind_eq_ok, Res.bind_eq_ok]
    exact exists_congr fun w => and_congr_left fun _ => ih w
  | case3 x y r h =>
    rw [urlDecodeLoop, urlTokenLoop, if_pos rfl, if_pos rfl]
    simp
  | case4 r h =>
    rw [urlDecodeLoop_short h, urlTokenLoop_short h]
    simp
  | case5 b r hb ih =>
    rw [urlDecodeLoop_plain r hb, urlTokenLoop_plain r hb, Res.bind_eq_ok, Res.bind_eq_ok]
    exact exists_congr fun w => and_congr_left fun _ => ih w

theorem decodes_unique {s v w : Bytes} (h1 : Decodes s v) (h2 : Decodes s w) : v = w := by
  rw [← urlDecodeLoop_iff] at h1 h2
  rw [h1] at h2
  exact Res.ok.inj h2

theorem urlDecodeLoop_fails (s : Bytes) : (∃ v, urlDecodeLoop s = .ok v) ∨ urlDecodeLoop s = .err .urlCodeInvalid := by
  induction s using urlDecodeLoop.induct with
  | case1 => exact .inl ⟨_, rfl⟩
  | case2 x y r t u h2 h1 ih =>
    rw [urlDecodeLoop, if_pos rfl]
    simp only [h1, h2]
    rcases ih with ⟨v, h⟩ | h <;> rw [h] <;> simp
  | case3 x y r h =>
    right
    rw [urlDecodeLoop, if_pos rfl]
    split
    · exact (h _ _ ‹_› ‹_›).elim
    · rfl
  | case4 r h =>
    exact .inr (urlDecodeLoop_short h)
  | case5 b r hb ih =>
    rw [urlDecodeLoop_plain r hb]
    rcases ih with ⟨v, h⟩ | h <;> rw [h] <;> simp

theorem wellEscaped_cons {b : UInt8} {s : Bytes} (hb : b ≠ 37) : WellEscaped (b :: s) ↔ WellEscaped s := by
  constructor
  · intro h i hi
    exact h (i + 1) (by simpa using hi)
  · intro h i hi
    cases i with
    | zero => simp at hi; exact absurd hi hb
    | succ i => exact h i (by simpa using hi)

theorem wellEscaped_iff (s : Bytes) : WellEscaped s ↔ ∃ v, Decodes s v := by
  induction s using urlDecodeLoop.induct with
  | case1 => exact ⟨fun _ => ⟨_, .nil⟩, fun _ i hi => by simp at hi⟩
  | case2 x y r t u h2 h1 ih =>
    rw [convertHex_eq, Option.map_eq_some_iff] at h1 h2
    obtain ⟨t', ht, rfl⟩ := h1
    obtain ⟨u', hu, rfl⟩ := h2
    have hx : x ≠ 37 := hexDigit_ne (by rw [ht]; rfl)
    have hy : y ≠ 37 := hexDigit_ne (by rw [hu]; rfl)
    have key : WellEscaped (37 :: x :: y :: r) ↔ WellEscaped r := by
      rw [← wellEscaped_cons (s := r) hy, ← wellEscaped_cons (s := y :: r) hx]
      constructor
      · intro h i hi
        exact h (i + 1) (by simpa using hi)
      · intro h i hi
        cases i with
        | zero => exact ⟨x, y, by simp, by simp, by rw [ht]; rfl, by rw [hu]; rfl⟩
        | succ i => exact h i (by simpa using hi)
    rw [key, ih]
    constructor
    · rintro ⟨v, hv⟩; exact ⟨_, .escape ht hu hv⟩
    · rintro ⟨v, hv⟩
      obtain ⟨_, _, w, -, -, -, hw⟩ := decodes_escape.mp hv
      exact ⟨w, hw⟩
  | case3 x y r h =>
    constructor
    · intro hw
      obtain ⟨x', y', hx, hy, h1, h2⟩ := hw 0 (by simp)
      simp at hx hy
      subst hx hy
      obtain ⟨t, ht⟩ := Option.isSome_iff_exists.mp h1
      obtain ⟨u, hu⟩ := Option.isSome_iff_exists.mp h2
      exact absurd (by rw [convertHex_eq, hu]; rfl) (h (UInt8.ofNat t) (UInt8.ofNat u) (by rw [convertHex_eq, ht]; rfl))
    · rintro ⟨v, hv⟩
      obtain ⟨t, u, w, h1, h2, -⟩ := decodes_escape.mp hv
      exact absurd (by rw [convertHex_eq, h2]; rfl) (h (UInt8.ofNat t) (UInt8.ofNat u) (by rw [convertHex_eq, h1]; rfl))
  | case4 r h =>
    have hl : r.length < 2 := by
      rcases r with _ | ⟨x, _ | ⟨y, r⟩⟩
      · simp
      · simp
      · exact absurd rfl (h x y r)
    constructor
    · intro hw
      obtain ⟨x', y', hx, hy, -⟩ := hw 0 (by simp)
      have := (List.getElem?_eq_some_iff.mp hy).1
      simp at this; omega
    · rintro ⟨v, hv⟩; exact absurd hv (decodes_short hl)
  | case5 b r hb ih =>
    rw [wellEscaped_cons hb, ih]
    constructor
    · rintro ⟨v, hv⟩; exact ⟨_, .plain hb hv⟩
    · rintro ⟨v, hv⟩
      obtain ⟨w, -, hw⟩ := (decodes_not_escape hb).mp hv
      exact ⟨w, hw⟩

/-! ## The encoder -/

/-- One byte, encoded. -/
def encodeByte (b : UInt8) : Bytes := if isNotUritrans b then [b] else [37, toHex (b / 16), toHex (b % 16)]

theorem isNotUritrans_eq (b : UInt8) : isNotUritrans b = isKept b := by
  revert b; decide +kernel

theorem kept_facts (b : UInt8) (h : isKept b = true) : b ≠ 37 ∧ b < 0x80 ∧ isToken b = true := by
  revert h; revert b; decide +kernel

theorem toHex_facts (b : UInt8) : toHex (b / 16) < 0x80 ∧ toHex (b % 16) < 0x80 ∧ isToken (toHex (b / 16)) = true ∧
    isToken (toHex (b % 16)) = true ∧ (hexDigit? (toHex (b / 16))).isSome ∧ (hexDigit? (toHex (b % 16))).isSome ∧
    hexDigit? (toHex (b / 16)) = some (b / 16).toNat ∧ hexDigit? (toHex (b % 16)) = some (b % 16).toNat ∧
    UInt8.ofNat (16 * (b / 16).toNat + (b % 16).toNat) = b := by
  revert b; decide +kernel

theorem toHex_not_sep (b c : UInt8) (h : c ∈ asciiBytes ":@/?") : toHex (b / 16) ≠ c ∧ toHex (b % 16) ≠ c := by
  have : ∀ b : UInt8, ∀ c ∈ asciiBytes ":@/?", toHex (b / 16) ≠ c ∧ toHex (b % 16) ≠ c := by decide +kernel
  exact this b c h

theorem encode_ascii (s : Bytes) : ∀ b ∈ s.flatMap encodeByte, b < 0x80 := by
  intro b hb
  obtain ⟨a, -, ha⟩ := List.mem_flatMap.mp hb
  unfold encodeByte at ha
  split at ha
  · rename_i h
    rw [isNotUritrans_eq] at h
    rw [List.mem_singleton] at ha
    subst ha
    exact (kept_facts _ h).2.1
  · obtain ⟨h1, h2, -⟩ := toHex_facts a
    rcases List.mem_cons.mp ha with rfl | ha
    · decide
    · rcases List.mem_cons.mp ha with rfl | ha
      · exact h1
      · rw [List.mem_singleton] at ha; rw [ha]; exact h2

theorem urlEncode_eq (s : Bytes) : urlEncode s = s.flatMap encodeByte :=
  utf8Lossy_valid (utf8Valid_ascii (s.flatMap encodeByte) (encode_ascii s))

theorem decodes_encode (s : Bytes) : Decodes (urlEncode s) s := by
  rw [urlEncode_eq]
  induction s with
  | nil => exact .nil
  | cons b s ih =>
    rw [List.flatMap_cons]
    unfold encodeByte
    split
    · rename_i h
      rw [isNotUritrans_eq] at h
      exact .plain (kept_facts b h).1 ih
    · obtain ⟨-, -, -, -, -, -, h1, h2, h3⟩ := toHex_facts b
      have := Decodes.escape h1 h2 ih
      rw [h3] at this
      exact this

theorem safe_encode (s : Bytes) : SafeText (urlEncode s) := by
  rw [urlEncode_eq]
  induction s with
  | nil => exact .nil
  | cons b s ih =>
    rw [List.flatMap_cons]
    unfold encodeByte
    split
    · rename_i h
      rw [isNotUritrans_eq] at h
      exact .kept h ih
    · obtain ⟨-, -, -, -, h1, h2, -⟩ := toHex_facts b
      exact .escape h1 h2 ih

theorem encode_token (s : Bytes) : ∀ b ∈ urlEncode s, isToken b = true := by
  rw [urlEncode_eq]
  intro b hb
  obtain ⟨a, -, ha⟩ := List.mem_flatMap.mp hb
  unfold encodeByte at ha
  split at ha
  · rename_i h
    rw [isNotUritrans_eq] at h
    rw [List.mem_singleton] at ha
    subst ha
    exact (kept_facts _ h).2.2
  · obtain ⟨-, -, h1, h2, -⟩ := toHex_facts a
    rcases List.mem_cons.mp ha with rfl | ha
    · decide
    · rcases List.mem_cons.mp ha with rfl | ha
      · exact h1
      · rw [List.mem_singleton] at ha; rw [ha]; exact h2

/-- A separator in the encoding is one of the text. -/
theorem encode_sep {s : Bytes} {c : UInt8} (hc : c ∈ asciiBytes ":@/?") (h : c ∈ urlEncode s) : c ∈ s := by
  rw [urlEncode_eq] at h
  obtain ⟨a, h1, ha⟩ := List.mem_flatMap.mp h
  unfold encodeByte at ha
  split at ha
  · rw [List.mem_singleton] at ha; rw [ha]; exact h1
  · obtain ⟨h2, h3⟩ := toHex_not_sep a c hc
    rcases List.mem_cons.mp ha with rfl | ha
    · exact absurd hc (by decide)
    · rcases List.mem_cons.mp ha with e | ha
      · exact absurd e.symm h2
      · rw [List.mem_singleton] at ha; exact absurd ha.symm h3

end Webparse
