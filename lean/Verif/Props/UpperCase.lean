import Verif.Proofs.Basic
import Verif.Props.Http1
import Verif.Spec.UpperCase

/-! C57, C116: methods and schemes read from any text with `str::parse`. -/

namespace Webparse

open Spec

theorem char_ext {c d : Char} (h : c.toNat = d.toNat) : c = d := by
  have : c.val.toNat = d.val.toNat := h
  exact Char.ext (UInt32.toNat_inj.mp this)

theorem utf8Char_ascii {c : Char} (h : c.toNat < 128) : utf8Char c = [UInt8.ofNat c.toNat] := by
  unfold utf8Char; simp only; rw [if_pos h]

/-- The first byte of a character outside ASCII is no ASCII byte. -/
theorem utf8Char_other {c : Char} (h : 128 ≤ c.toNat) : ∃ b ∈ utf8Char c, 128 ≤ b := by
  have hv : c.toNat < 0x110000 := by
    have := c.valid
    have e : c.toNat = c.val.toNat := rfl
    rcases this with h | h
    · rw [e]; have : c.val.toNat < 0xd800 := h; omega
    · rw [e]; exact h.2
  have key : ∀ n, 128 ≤ n → n < 256 → (128 : UInt8) ≤ UInt8.ofNat n := by
    intro n h1 h2
    rw [UInt8.le_iff_toNat_le, UInt8.toNat_ofNat_of_lt' (by show n < 256; omega)]
    exact h1
  unfold utf8Char; simp only
  rw [if_neg (by omega)]
  split
  · exact ⟨_, List.mem_cons_self, key _ (by omega) (by omega)⟩
  · split
    · exact ⟨_, List.mem_cons_self, key _ (by omega) (by omega)⟩
    · exact ⟨_, List.mem_cons_self, key _ (by omega) (by omega)⟩

theorem utf8Text_ascii {s : List Char} (h : ∀ c ∈ s, c.toNat < 128) : utf8Text s = s.map fun c => UInt8.ofNat c.toNat := by
  induction s with
  | nil => rfl
  | cons c s ih =>
    rw [utf8Text, List.flatMap_cons, utf8Char_ascii (h c List.mem_cons_self), List.map_cons, ← ih fun d hd => h d (List.mem_cons_of_mem _ hd)]
    rfl

/-- A text whose bytes are those of an ASCII word is that word. -/
theorem utf8Text_word {s w : List Char} (hw : ∀ c ∈ w, c.toNat < 128) :
    utf8Text s = w.map (fun c => UInt8.ofNat c.toNat) ↔ s = w := by
  constructor
  · intro h
    have hs : ∀ c ∈ s, c.toNat < 128 := by
      intro c hc
      apply Classical.byContradiction
      intro hn
      obtain ⟨b, hb, hb'⟩ := utf8Char_other (c := c) (by omega)
      have : b ∈ utf8Text s := List.mem_flatMap.mpr ⟨c, hc, hb⟩
      rw [h, List.mem_map] at this
      obtain ⟨d, hd, rfl⟩ := this
      rw [UInt8.le_iff_toNat_le, UInt8.toNat_ofNat_of_lt' (by show d.toNat < 256; have := hw d hd; omega)] at hb'
      have := hw d hd
      have e : (128 : UInt8).toNat = 128 := rfl
      omega
    rw [utf8Text_ascii hs] at h
    induction s generalizing w with
    | nil => cases w with
      | nil => rfl
      | cons d w => simp at h
    | cons c s ih =>
      cases w with
      | nil => simp at h
      | cons d w =>
        rw [List.map_cons, List.map_cons, List.cons.injEq] at h
        have h1 := hs c List.mem_cons_self
        have h2 := hw d List.mem_cons_self
        have e := congrArg UInt8.toNat h.1
        rw [UInt8.toNat_ofNat_of_lt' (by show c.toNat < 256; omega), UInt8.toNat_ofNat_of_lt' (by show d.toNat < 256; omega)] at e
        rw [char_ext e, ih (fun c hc => hw c (List.mem_cons_of_mem _ hc)) h.2 (fun c hc => hs c (List.mem_cons_of_mem _ hc))]
  · intro h; subst h; exact utf8Text_ascii hw

/-- The upper case of a text is an ASCII word exactly if the text spells the word. -/
theorem upper_spells {up : Char → List Char} (hu : UnicodeUpper up) {s w : List Char} (hw : ∀ c ∈ w, c.toNat < 128) :
    s.flatMap up = w ↔ Spells s w := by
  constructor
  · intro h
    induction s generalizing w with
    | nil => rw [List.flatMap_nil] at h; subst h; exact .nil
    | cons c s ih =>
      rw [List.flatMap_cons] at h
      subst h
      have hs := ih (w := s.flatMap up) (fun d hd => hw d (List.mem_append_right _ hd)) rfl
      by_cases hc : c.toNat < 128
      · rw [hu.ascii c hc]; exact .letter hc hs
      · by_cases hk : ∃ e ∈ asciiUppers, e.1 = c
        · obtain ⟨e, he, rfl⟩ := hk
          rw [hu.into e he]; exact .special he hs
        · obtain ⟨d, hd, hd'⟩ := hu.other c (by omega) (fun e he hec => hk ⟨e, he, hec⟩)
          have := hw d (List.mem_append_left _ hd)
          omega
  · intro h
    induction h with
    | nil => rfl
    | letter hc _ ih => rw [List.flatMap_cons, hu.ascii _ hc, ih fun d hd => hw d (List.mem_cons_of_mem _ hd)]; rfl
    | special he _ ih => rw [List.flatMap_cons, hu.into _ he, ih fun d hd => hw d (List.mem_append_right _ hd)]

theorem methodNames_ascii : ∀ e ∈ methodNames, ∀ c ∈ e.2.toList, c.toNat < 128 := by decide +kernel

/-- C116: a text is read as a method exactly if it is its name but for the case of letters. -/
def C116_statement : Prop := ∀ up, UnicodeUpper up → ∀ (s : List Char) (m : Method),
  Method.parseText up s = .ok m ↔ ∃ e ∈ methodNames, e.1 = m ∧ EqIgnoreAsciiCase s e.2.toList

/-- C116, exactly: a text is read as a method if and only if it spells its name, where some characters outside ASCII may stand for letters. -/
theorem C116_iff_partial (up : Char → List Char) (hu : UnicodeUpper up) (s : List Char) (m : Method) :
    Method.parseText up s = .ok m ↔ ∃ e ∈ methodNames, e.1 = m ∧ Spells s e.2.toList := by
  unfold Method.parseText
  rw [C45_method]
  constructor
  · rintro ⟨e, he, h1, h2⟩
    exact ⟨e, he, h1, (upper_spells hu (methodNames_ascii e he)).mp ((utf8Text_word (methodNames_ascii e he)).mp h2.symm)⟩
  · rintro ⟨e, he, h1, h2⟩
    exact ⟨e, he, h1, ((utf8Text_word (methodNames_ascii e he)).mpr ((upper_spells hu (methodNames_ascii e he)).mpr h2)).symm⟩

/-! ## The mapping exists -/

/-- A mapping as `UnicodeUpper` wants it: characters outside ASCII other than the ten are kept. -/
def someUpper (c : Char) : List Char :=
  if c.toNat < 128 then [c.toUpper] else ((asciiUppers.find? fun e => e.1 == c).map (·.2)).getD [c]

theorem toUpper_ascii {c : Char} (h : c.toNat < 128) : c.toUpper.toNat < 128 ∧ ¬ (97 ≤ c.toUpper.toNat ∧ c.toUpper.toNat ≤ 122) := by
  have : ∀ n : Fin 128, (Char.ofNat n).toUpper.toNat < 128 ∧ ¬ (97 ≤ (Char.ofNat n).toUpper.toNat ∧ (Char.ofNat n).toUpper.toNat ≤ 122) := by
    decide +kernel
  have e : c = Char.ofNat c.toNat := (Char.ofNat_toNat c).symm
  rw [e]
  exact this ⟨c.toNat, h⟩

theorem asciiUppers_find {c : Char} {e : Char × List Char} (h : asciiUppers.find? (fun e => e.1 == c) = some e) :
    e ∈ asciiUppers ∧ e.1 = c := by
  have h1 := List.find?_some h
  exact ⟨List.mem_of_find?_eq_some h, by simpa using h1⟩

theorem someUpper_unicode : UnicodeUpper someUpper where
  ascii c h := if_pos h
  into := by decide +kernel
  other c h hn := by
    refine ⟨c, ?_, h⟩
    unfold someUpper
    rw [if_neg (by omega), List.find?_eq_none.mpr]
    · simp
    · intro e he; simpa using hn e he
  upper c d hd := by
    unfold someUpper at hd
    split at hd
    · rename_i h
      rw [List.mem_singleton] at hd; subst hd
      exact (toUpper_ascii h).2
    · rename_i h
      cases hf : asciiUppers.find? (fun e => e.1 == c) with
      | none => rw [hf] at hd; simp at hd; subst hd; omega
      | some e =>
        rw [hf] at hd
        have : ∀ e ∈ asciiUppers, ∀ d ∈ e.2, ¬ (97 ≤ d.toNat ∧ d.toNat ≤ 122) := by decide +kernel
        exact this e (asciiUppers_find hf).1 d (by simpa using hd)

/-! ## ASCII texts -/

theorem spells_ascii {s w : List Char} (hs : ∀ c ∈ s, c.toNat < 128) : Spells s w ↔ s.map Char.toUpper = w := by
  constructor
  · intro h
    induction h with
    | nil => rfl
    | letter _ _ ih => rw [List.map_cons, ih fun d hd => hs d (List.mem_cons_of_mem _ hd)]
    | @special e _ _ he _ _ =>
      have h1 : ∀ e ∈ asciiUppers, 128 ≤ e.1.toNat := by decide +kernel
      have := hs e.1 List.mem_cons_self
      have := h1 e he
      omega
  · intro h
    subst h
    induction s with
    | nil => exact .nil
    | cons c s ih => exact .letter (hs c List.mem_cons_self) (ih fun d hd => hs d (List.mem_cons_of_mem _ hd))

theorem methodNames_upper : ∀ e ∈ methodNames, e.2.toList.map Char.toUpper = e.2.toList := by decide +kernel

/-- C116 for texts in ASCII. -/
theorem C116_ascii_partial (up : Char → List Char) (hu : UnicodeUpper up) (s : List Char) (hs : ∀ c ∈ s, c.toNat < 128) (m : Method) :
    Method.parseText up s = .ok m ↔ ∃ e ∈ methodNames, e.1 = m ∧ EqIgnoreAsciiCase s e.2.toList := by
  rw [C116_iff_partial up hu]
  constructor
  · rintro ⟨e, he, h1, h2⟩
    exact ⟨e, he, h1, hs, by rw [methodNames_upper e he]; exact (spells_ascii hs).mp h2⟩
  · rintro ⟨e, he, h1, _, h2⟩
    exact ⟨e, he, h1, (spells_ascii hs).mpr (by rw [methodNames_upper e he] at h2; exact h2)⟩

/-- A word without I, S and F has no other spellings. -/
theorem spells_plain {s w : List Char} (h : Spells s w) (hw : ∀ c ∈ w, c ≠ 'I' ∧ c ≠ 'S' ∧ c ≠ 'F') : ∀ c ∈ s, c.toNat < 128 := by
  induction h with
  | nil => intro c hc; simp at hc
  | letter hc _ ih =>
    intro d hd
    rcases List.mem_cons.mp hd with rfl | hd
    · exact hc
    · exact ih (fun c hc => hw c (List.mem_cons_of_mem _ hc)) d hd
  | @special e _ _ he _ _ =>
    have h1 : ∀ e ∈ asciiUppers, ∃ c ∈ e.2, c = 'I' ∨ c = 'S' ∨ c = 'F' := by decide +kernel
    obtain ⟨c, hc, hc'⟩ := h1 e he
    have := hw c (List.mem_append_left _ hc)
    rcases hc' with rfl | rfl | rfl <;> simp at this

/-- C116 for all methods but POST and OPTIONS: no other text is read as one of them. -/
theorem C116_others_partial (up : Char → List Char) (hu : UnicodeUpper up) (s : List Char) (m : Method) (hm : m ≠ .post ∧ m ≠ .options) :
    Method.parseText up s = .ok m ↔ ∃ e ∈ methodNames, e.1 = m ∧ EqIgnoreAsciiCase s e.2.toList := by
  constructor
  · intro h
    obtain ⟨e, he, h1, h2⟩ := (C116_iff_partial up hu s m).mp h
    have hp : ∀ e ∈ methodNames, e.1 ≠ .post ∧ e.1 ≠ .options → ∀ c ∈ e.2.toList, c ≠ 'I' ∧ c ≠ 'S' ∧ c ≠ 'F' := by decide +kernel
    exact (C116_ascii_partial up hu s (spells_plain h2 (hp e he (h1 ▸ hm))) m).mp h
  · rintro ⟨e, he, h1, h2⟩
    exact (C116_ascii_partial up hu s h2.1 m).mpr ⟨e, he, h1, h2⟩

/-- `"poſt".parse::<Method>()` is POST. -/
theorem C116_violated : ¬ C116_statement := by
  intro h
  have h1 : Method.parseText someUpper ['p', 'o', 'ſ', 't'] = .ok .post := by decide +kernel
  obtain ⟨e, _, _, h2, _⟩ := (h someUpper someUpper_unicode _ _).mp h1
  exact absurd (h2 'ſ' (by simp)) (by decide)

/-- Every known method is read back from its own text, and nothing is read as `None` or as an extension. -/
theorem C116_roundtrip (up : Char → List Char) (hu : UnicodeUpper up) :
    (∀ e ∈ methodNames, Method.parseText up e.2.toList = .ok e.1 ∧ e.1.asStr = asciiBytes e.2) ∧
    ∀ s m, Method.parseText up s = .ok m → ∃ e ∈ methodNames, e.1 = m := by
  refine ⟨fun e he => ⟨(C116_ascii_partial up hu _ (methodNames_ascii e he) _).mpr ⟨e, he, rfl, methodNames_ascii e he, rfl⟩, ?_⟩, ?_⟩
  · revert e; decide +kernel
  · intro s m h
    obtain ⟨e, he, h1, _⟩ := (C116_iff_partial up hu s m).mp h
    exact ⟨e, he, h1⟩

example : Spells ['O', 'p', 't', 'ı', 'o', 'n', 'ſ'] "OPTIONS".toList :=
  .letter (by decide) (.letter (by decide) (.letter (by decide) (.special (e := ('ı', ['I'])) (by decide) (.letter (by decide) (.letter (by decide)
    (.special (e := ('ſ', ['S'])) (by decide) .nil))))))

example : Method.parseText someUpper "pATch".toList = .ok .patch := by decide +kernel

/-! ## C57 -/

/-- C57: no text whatever is read as a known scheme; the scheme is the text in upper case, if that has at most 64 bytes. -/
theorem C57_any_text (up : Char → List Char) (hu : UnicodeUpper up) (t : List Char) (s : Scheme) :
    Scheme.parseText up t = .ok s ↔ (utf8Text (t.flatMap up)).length ≤ 64 ∧ s = .extension (utf8Text (t.flatMap up)) := by
  have ne : ∀ w : String, (∀ c ∈ w.toList, c.toNat < 128) → (∃ c ∈ w.toList, 97 ≤ c.toNat ∧ c.toNat ≤ 122) →
      utf8Text (t.flatMap up) ≠ asciiBytes w := by
    intro w hw hc h
    rw [asciiBytes, utf8Text_word hw] at h
    obtain ⟨c, hc, hc'⟩ := hc
    rw [← h, List.mem_flatMap] at hc
    obtain ⟨d, _, hd⟩ := hc
    exact hu.upper d c hd hc'
  unfold Scheme.parseText Scheme.tryFrom
  split
  · rename_i h
    constructor
    · intro h'; simp at h'
    · rintro ⟨h', _⟩; omega
  · rename_i h
    rw [if_neg (ne "http" (by decide) (by decide)), if_neg (ne "https" (by decide) (by decide)),
      if_neg (ne "ws" (by decide) (by decide)), if_neg (ne "wss" (by decide) (by decide)),
      if_neg (ne "ftp" (by decide) (by decide)), Res.ok.injEq]
    constructor
    · rintro rfl; exact ⟨by omega, rfl⟩
    · rintro ⟨_, rfl⟩; rfl

example : Scheme.parseText someUpper "wß".toList = .ok (.extension (asciiBytes "WSS")) := by decide +kernel

end Webparse
