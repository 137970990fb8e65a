import Verif.Proofs.Lossy
import Verif.Props.Url
import Verif.Model.HeaderVariants
import Verif.Model.Ws

/-! # C128: text made of bytes -/

namespace Webparse
open Spec

/-! ## What the text is -/

/-- The specification leaves no choice: bytes have one text. -/
theorem C128_one_text (b : Bytes) : ∃ t, TextOf b t ∧ ∀ t', TextOf b t' → t' = t :=
  ⟨utf8Lossy b, (textOf_iff _ _).mpr rfl, fun t' h => (textOf_iff b t').mp h⟩

/-- The text is UTF-8, and is the bytes themselves exactly if these are UTF-8. -/
theorem C128_text_utf8 (b t : Bytes) (h : TextOf b t) : IsUtf8 t ∧ (t = b ↔ IsUtf8 b) := by
  rw [(textOf_iff b t).mp h]
  exact ⟨lossy_isUtf8 b, lossy_eq_iff b⟩

/-- `from_utf8` succeeds exactly on UTF-8, which is what the check means where statements ask for it. -/
theorem C128_check (b : Bytes) : utf8Valid b = true ↔ IsUtf8 b := utf8Valid_iff b

/-- `url_decode` gives the text of the bytes that the string stands for. -/
theorem C128_url_decode (s v t : Bytes) (h : Decodes s v) : urlDecode s = .ok t ↔ TextOf v t := by
  rw [C47_result_partial s v h, textOf_iff, Res.ok.injEq, eq_comm]

/-- A header value that was read gives its text, as a `String` and when displayed. -/
theorem C128_header_value (v t : Bytes) :
    ((HeaderValue.value v).toText = t ↔ TextOf v t) ∧ ((HeaderValue.value v).display = t ↔ TextOf v t) := by
  rw [textOf_iff]
  exact ⟨eq_comm, eq_comm⟩

/-- A header name made of bytes is their text. -/
theorem C128_header_name (n t : Bytes) : headerNameFromBytes n = t ↔ TextOf n t := by
  rw [textOf_iff]
  exact eq_comm

/-- `get_host` gives the text of the `host` field, and without it that of `:authority`. -/
theorem C128_host (m : HeaderMap) (v t : Bytes)
    (h : m.get? (asciiBytes "host") = some v ∨ (m.get? (asciiBytes "host") = none ∧ m.get? (asciiBytes ":authority") = some v)) :
    m.host = some t ↔ TextOf v t := by
  rw [textOf_iff]
  rcases h with h | ⟨h, h'⟩
  · simp only [HeaderMap.host, h, Option.some.injEq]; exact eq_comm
  · simp only [HeaderMap.host, h, h', Option.some.injEq]; exact eq_comm

/-- A text message taken over as an owned one carries the text of its payload, a close message with a
status that of its reason. -/
theorem C128_message (m : Message) (t : Bytes) :
    (m.opcode = .text → (OwnedMessage.ofMessage m = .text t ↔ TextOf m.payload t)) ∧
    (∀ c, m.opcode = .close → m.status = some c → (OwnedMessage.ofMessage m = .close (some ⟨c, t⟩) ↔ TextOf m.payload t)) := by
  constructor
  · intro h
    simp only [OwnedMessage.ofMessage, h, OwnedMessage.text.injEq, textOf_iff]
    exact eq_comm
  · intro c h hs
    simp only [OwnedMessage.ofMessage, h, hs, OwnedMessage.close.injEq, Option.some.injEq, CloseData.mk.injEq, true_and, textOf_iff]
    exact eq_comm

/-! ## What the text tells -/

/-- C128: strings that stand for different bytes are decoded to different text. -/
def C128_statement : Prop :=
  ∀ s s' v v', Decodes s v → Decodes s' v' → urlDecode s = urlDecode s' → v = v'

/-- `%FF` and `%FE` are decoded to the same text. -/
theorem C128_violated : ¬ C128_statement := by
  intro h
  have h1 : Decodes (asciiBytes "%FF") [0xFF] :=
    Decodes.escape (x := 70) (y := 70) (t := 15) (u := 15) (by decide) (by decide) .nil
  have h2 : Decodes (asciiBytes "%FE") [0xFE] :=
    Decodes.escape (x := 70) (y := 69) (t := 15) (u := 14) (by decide) (by decide) .nil
  exact absurd (h _ _ _ _ h1 h2 (by decide +kernel)) (by decide)

theorem textOf_append {a : Bytes} (ha : IsUtf8 a) {s t : Bytes} (h : TextOf s t) : TextOf (a ++ s) (a ++ t) := by
  obtain ⟨cs, hc, rfl⟩ := ha
  induction cs with
  | nil => exact h
  | cons c cs ih =>
    rw [List.flatMap_cons, List.append_assoc, List.append_assoc]
    exact .scalar (hc c (by simp)) (ih (fun d hd => hc d (List.mem_cons_of_mem _ hd)))

/-- The text of bytes that are not UTF-8 has the replacement character. -/
theorem textOf_scalars {b t : Bytes} (h : TextOf b t) :
    ∃ cs : List Nat, (∀ c ∈ cs, IsScalar c) ∧ t = cs.flatMap encodeScalar ∧ (0xFFFD ∉ cs → b = t) := by
  induction h with
  | nil => exact ⟨[], by simp, rfl, fun _ => rfl⟩
  | @scalar c s t hc _ ih =>
    obtain ⟨cs, h1, h2, h3⟩ := ih
    refine ⟨c :: cs, ?_, by rw [List.flatMap_cons, h2], fun hn => by rw [h3 (fun hm => hn (List.mem_cons_of_mem _ hm))]⟩
    intro x hx
    rcases List.mem_cons.mp hx with rfl | hx
    · exact hc
    · exact h1 x hx
  | @bad p s t _ _ ih =>
    obtain ⟨cs, h1, h2, -⟩ := ih
    refine ⟨0xFFFD :: cs, ?_, by rw [List.flatMap_cons, h2], fun hn => absurd (by simp) hn⟩
    intro x hx
    rcases List.mem_cons.mp hx with rfl | hx
    · exact fffd_scalar
    · exact h1 x hx

theorem byte_bad (s : Bytes) : MaximalSubpart [0xFF] s := by
  have hn : utf8Next 0xFF s = .inr 1 := by unfold utf8Next; rw [show seqLen 0xFF = 0 by decide]; rfl
  exact (next_bad hn).2.2

/-- No other bytes have the text exactly for UTF-8 without the replacement character; missing for
C128: all other bytes. -/
theorem C128_apart_partial (v : Bytes) : (∀ w t, TextOf v t → TextOf w t → w = v) ↔ IsCleanText v := by
  constructor
  · intro h
    have ht := (textOf_iff v _).mpr rfl
    have hu : IsUtf8 v := by
      have h2 : TextOf (utf8Lossy v) (utf8Lossy v) :=
        (textOf_iff _ _).mpr ((lossy_eq_iff _).mpr (lossy_isUtf8 v)).symm
      rw [← h _ _ ht h2]
      exact lossy_isUtf8 v
    obtain ⟨cs, hc, hv⟩ := hu
    refine ⟨cs, fun c hm => ⟨hc c hm, ?_⟩, hv⟩
    rintro rfl
    obtain ⟨as, bs, rfl⟩ := List.append_of_mem hm
    have ha : IsUtf8 (as.flatMap encodeScalar) := ⟨as, fun c h => hc c (by simp [h]), rfl⟩
    have hb : IsUtf8 (bs.flatMap encodeScalar) := ⟨bs, fun c h => hc c (by simp [h]), rfl⟩
    have hbt : TextOf (bs.flatMap encodeScalar) (bs.flatMap encodeScalar) := (textOf_iff _ _).mpr ((lossy_eq_iff _).mpr hb).symm
    have e1 : v = as.flatMap encodeScalar ++ (encodeScalar 0xFFFD ++ bs.flatMap encodeScalar) := by
      rw [hv, List.flatMap_append, List.flatMap_cons]
    have t1 : TextOf v v := by
      rw [e1]; exact textOf_append ha (.scalar fffd_scalar hbt)
    have t2 : TextOf (as.flatMap encodeScalar ++ ([0xFF] ++ bs.flatMap encodeScalar)) v := by
      rw [e1]; exact textOf_append ha (.bad (byte_bad _) hbt)
    have := h _ _ t1 t2
    rw [e1, List.append_cancel_left_eq, List.append_cancel_right_eq, fffd] at this
    exact absurd this (by decide)
  · rintro ⟨cs, hc, rfl⟩ w t h1 h2
    have hu : IsUtf8 (cs.flatMap encodeScalar) := ⟨cs, fun c h => (hc c h).1, rfl⟩
    rw [(textOf_iff _ _).mp h1, (lossy_eq_iff _).mpr hu] at h2
    obtain ⟨ds, hd, he, hw⟩ := textOf_scalars h2
    have := scalars_injective _ _ (fun c h => (hc c h).1) hd he
    subst this
    exact hw (fun hm => (hc _ hm).2 rfl)

/-- A decoded string tells the bytes that were written exactly if these are UTF-8 without the
replacement character. -/
theorem C128_url_apart_partial (s v : Bytes) (h : Decodes s v) :
    (∀ s' v', Decodes s' v' → urlDecode s' = urlDecode s → v' = v) ↔ IsCleanText v := by
  rw [← C128_apart_partial]
  constructor
  · intro hh w t h1 h2
    refine hh (urlEncode w) w (C46_stands_for w) ?_
    rw [(C128_url_decode _ _ t (C46_stands_for w)).mpr h2, (C128_url_decode _ _ t h).mpr h1]
  · intro hh s' v' hd he
    obtain ⟨t, ht, -⟩ := C128_one_text v
    refine hh v' t ht ((C128_url_decode _ _ t hd).mp ?_)
    rw [he, (C128_url_decode _ _ t h).mpr ht]

example : TextOf [0x61, 0xE2, 0x82, 0x62] [0x61, 0xEF, 0xBF, 0xBD, 0x62] := (textOf_iff _ _).mpr (by decide +kernel)
example : TextOf [0xE0, 0x80] [0xEF, 0xBF, 0xBD, 0xEF, 0xBF, 0xBD] := (textOf_iff _ _).mpr (by decide +kernel)
example : IsCleanText (asciiBytes "a") := ⟨[97], by simp [IsScalar], by decide +kernel⟩
example : ¬ IsCleanText [0xFF] := by
  rw [← C128_apart_partial]
  intro h
  exact absurd (h [0xFE] [0xEF, 0xBF, 0xBD] ((textOf_iff _ _).mpr (by decide +kernel)) ((textOf_iff _ _).mpr (by decide +kernel))) (by decide)
example : HeaderMap.host [(asciiBytes "host", [0x61, 0xFF])] = some [0x61, 0xEF, 0xBF, 0xBD] := by decide +kernel
example : HeaderMap.host [(asciiBytes ":authority", [0x61, 0xFF])] = some [0x61, 0xEF, 0xBF, 0xBD] := by decide +kernel

end Webparse
