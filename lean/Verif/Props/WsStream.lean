import Verif.Spec.WsStream
import Verif.Props.WsSender
import Verif.Props.Rfc6455

/-! # C138: a conforming WebSocket peer hears the messages that were sent -/

namespace Webparse
open Spec

/-- C138: messages written one after the other, masked as the peer expects, are for a peer that follows RFC 6455 these messages
and no others. -/
def C138_statement : Prop :=
  ∀ (masked : Bool) (sent : List (Message × Option MaskKey)) (wire : Bytes), WroteMessages sent wire →
    (∀ s ∈ sent, s.2.isSome = masked ∧ (messagePayload s.1).length < 2 ^ 63) →
    ∀ heard, WsHeard masked none heard wire ↔ heard = sent.map fun s => (s.1.opcode, messagePayload s.1)

theorem wireFrame_ne (key : Option MaskKey) (f : WsFrame) : wsWireFrame key f ≠ [] := by
  intro h
  have := congrArg List.length h
  simp [wsWireFrame, wsWireHeader] at this

theorem rfcFrame_ok {masked : Bool} {key : Option MaskKey} {f : WsFrame} (h : Rfc6455Frame masked key f) : WsFrameOk f :=
  ⟨by have := h.len; omega, h.control⟩

/-- Bytes begin with one frame only. -/
theorem frame_only {key key' : Option MaskKey} {f g : WsFrame} {r r' : Bytes} (hf : WsFrameOk f) (hg : WsFrameOk g)
    (h : wsWireFrame key f ++ r = wsWireFrame key' g ++ r') : f = g ∧ r = r' := by
  have h1 := (C83_taken_iff_partial true (wsWireFrame key f ++ r) r f).mpr ⟨hf, key, rfl⟩
  have h2 := (C83_taken_iff_partial true (wsWireFrame key f ++ r) r' g).mpr ⟨hg, key', h⟩
  rw [h1] at h2
  simp only [Prod.mk.injEq, Res.ok.injEq] at h2
  exact h2

theorem typeOpcode_inj {t u : MsgType} (h : typeOpcode t = typeOpcode u) : t = u := by
  cases t <;> cases u <;> first | rfl | cases h

theorem nothing_heard {masked : Bool} {heard : List (MsgType × Bytes)} (h : WsHeard masked none heard []) : heard = [] := by
  generalize hz : ([] : Bytes) = z at h
  cases h with
  | done => rfl
  | control => exact absurd (List.append_eq_nil_iff.mp hz.symm).1 (wireFrame_ne _ _)
  | whole => exact absurd (List.append_eq_nil_iff.mp hz.symm).1 (wireFrame_ne _ _)
  | first => exact absurd (List.append_eq_nil_iff.mp hz.symm).1 (wireFrame_ne _ _)

/-- C138, exact: a peer hears something if and only if every message is masked as it expects and has a payload that may be sent,
and then it hears these messages and no others. -/
theorem C138_heard_iff_partial (masked : Bool) {sent : List (Message × Option MaskKey)} {wire : Bytes} (hw : WroteMessages sent wire)
    (hl : ∀ s ∈ sent, (messagePayload s.1).length < 2 ^ 63) (heard : List (MsgType × Bytes)) :
    WsHeard masked none heard wire ↔ heard = sent.map (fun s => (s.1.opcode, messagePayload s.1)) ∧
      ∀ s ∈ sent, s.2.isSome = masked ∧ RfcPayload s.1.opcode (messagePayload s.1) := by
  induction hw generalizing heard with
  | done =>
    constructor
    · intro h; exact ⟨nothing_heard h, by simp⟩
    · rintro ⟨rfl, -⟩; exact .done
  | @more m key out w n l h1 h2 ih =>
    have ih' := ih fun s hs => hl s (List.mem_cons_of_mem _ hs)
    have hlen : (messagePayload m).length < 2 ^ 63 := hl (m, key) List.mem_cons_self
    rcases (C133_message_written_partial m key _).mp h1 with ⟨-, h⟩ | ⟨hs, h⟩
    · simp at h
    cases h
    have hr : Rfc6455Frame key.isSome key ⟨true, (false, false, false), typeOpcode m.opcode, messagePayload m⟩ := by
      refine ⟨rfl, rfl, ?_, fun hc => ⟨hs ?_, rfl⟩, hlen⟩
      · show typeOpcode m.opcode ∈ _
        generalize m.opcode = t
        cases t <;> decide
      · replace hc : 8 ≤ (typeOpcode m.opcode).toByte := hc
        revert hc
        generalize m.opcode = t
        cases t <;> decide
    have key_only : ∀ {key' : Option MaskKey} {f : WsFrame} {r : Bytes}, Rfc6455Frame masked key' f →
        wsWireFrame key ⟨true, (false, false, false), typeOpcode m.opcode, messagePayload m⟩ ++ w = wsWireFrame key' f ++ r →
        f = ⟨true, (false, false, false), typeOpcode m.opcode, messagePayload m⟩ ∧ r = w ∧ key.isSome = masked := by
      intro key' f r hf e
      obtain ⟨rfl, rfl⟩ := frame_only (rfcFrame_ok hr) (rfcFrame_ok hf) e
      refine ⟨rfl, rfl, ?_⟩
      by_cases hk : key.isSome = masked
      · exact hk
      · exact absurd ⟨key', hf, e⟩ (C83_violated_mask key _ masked hk hr w).2
    constructor
    · intro h
      generalize hz : wsWireFrame key ⟨true, (false, false, false), typeOpcode m.opcode, messagePayload m⟩ ++ w = z at h
      have fin : ∀ {t : MsgType} {l' : List (MsgType × Bytes)}, typeOpcode m.opcode = typeOpcode t → RfcPayload t (messagePayload m) →
          WsHeard masked none l' w → key.isSome = masked →
          (t, messagePayload m) :: l' = ((m, key) :: l).map (fun s => (s.1.opcode, messagePayload s.1)) ∧
            ∀ s ∈ (m, key) :: l, s.2.isSome = masked ∧ RfcPayload s.1.opcode (messagePayload s.1) := by
        intro t l' ht hp hrest hk
        obtain rfl := typeOpcode_inj ht
        obtain ⟨e, hall⟩ := (ih' _).mp hrest
        refine ⟨by rw [e]; rfl, fun s hs => ?_⟩
        rcases List.mem_cons.mp hs with rfl | hs
        · exact ⟨hk, hp⟩
        · exact hall s hs
      cases h with
      | done => exact absurd (List.append_eq_nil_iff.mp hz).1 (wireFrame_ne _ _)
      | control hf hc ho hp hrest =>
        obtain ⟨rfl, rfl, hk⟩ := key_only hf hz
        exact fin ho hp hrest hk
      | whole hf hc ho hfin hp hrest =>
        obtain ⟨rfl, rfl, hk⟩ := key_only hf hz
        exact fin ho hp hrest hk
      | first hf hc ho hfin hrest =>
        obtain ⟨rfl, -, -⟩ := key_only hf hz
        cases hfin
    · rintro ⟨rfl, hall⟩
      obtain ⟨hk, hp⟩ := hall (m, key) List.mem_cons_self
      have hrest := (ih' _).mpr ⟨rfl, fun s hs => hall s (List.mem_cons_of_mem _ hs)⟩
      simp only at hk hp
      rw [hk] at hr
      by_cases hc : IsControl (typeOpcode m.opcode)
      · exact .control hr hc rfl hp hrest
      · exact .whole hr hc rfl rfl hp hrest

/-- C138, violated: one message that must not be sent, and the peer can make nothing of all the bytes. -/
theorem C138_violated_payload (masked : Bool) {sent : List (Message × Option MaskKey)} {wire : Bytes} (hw : WroteMessages sent wire)
    (hl : ∀ s ∈ sent, (messagePayload s.1).length < 2 ^ 63) {m : Message} {key : Option MaskKey} (hm : (m, key) ∈ sent)
    (hp : ¬ RfcPayload m.opcode (messagePayload m)) (heard : List (MsgType × Bytes)) : ¬ WsHeard masked none heard wire :=
  fun h => hp (((C138_heard_iff_partial masked hw hl heard).mp h).2 _ hm).2

theorem C138_violated : ¬ C138_statement := by
  intro h
  have w : (Message.closeBecause 1005 []).toFrameable.writeTo none = .ok ([0x88, 2, 3, 237], 0) := by decide +kernel
  have hw : WroteMessages [(Message.closeBecause 1005 [], none)] _ := .more w .done
  have hl : ∀ s ∈ [(Message.closeBecause 1005 [], (none : Option MaskKey))], s.2.isSome = false ∧ (messagePayload s.1).length < 2 ^ 63 := by
    intro s hs
    rw [List.mem_singleton.mp hs]
    exact ⟨rfl, by decide⟩
  refine C138_violated_payload false hw (fun s hs => (hl s hs).2) List.mem_cons_self ?_ _ ((h false _ _ hw hl _).mpr rfl)
  rintro (h | ⟨c, r, h1, h2, h3, h4, h5, -, h6, -⟩)
  · cases h
  · simp only [messagePayload, Message.closeBecause, List.cons.injEq] at h6
    have e1 := congrArg UInt8.toNat h6.1
    have e2 := congrArg UInt8.toNat h6.2.1
    simp at e1 e2
    omega

/-- A text, a ping and a close message that are written; a message in fragments is heard, too. -/
example : (∃ wire, WroteMessages [(⟨.text, none, asciiBytes "hi"⟩, none), (⟨.ping, none, [7]⟩, none), (Message.closeBecause 1000 [], none)] wire ∧
      WsHeard false none [(.text, asciiBytes "hi"), (.ping, [7]), (.close, [3, 232])] wire) ∧
    WsHeard false none [(.pong, []), (.binary, [1, 2])] [0x02, 1, 1, 0x8a, 0, 0x80, 1, 2] := by
  constructor
  · have w : WroteMessages [(⟨.text, none, asciiBytes "hi"⟩, none), (⟨.ping, none, [7]⟩, none), (Message.closeBecause 1000 [], none)] _ :=
      .more (out := [0x81, 2, 104, 105]) (n := 0) (by decide +kernel) (.more (out := [0x89, 1, 7]) (n := 0) (by decide +kernel)
        (.more (out := [0x88, 2, 3, 232]) (n := 0) (by decide +kernel) .done))
    refine ⟨_, w, (C138_heard_iff_partial false w ?_ _).mpr ⟨by decide +kernel, ?_⟩⟩
    · intro s hs
      simp only [List.mem_cons, List.not_mem_nil, or_false] at hs
      rcases hs with rfl | rfl | rfl <;> decide
    · intro s hs
      simp only [List.mem_cons, List.not_mem_nil, or_false] at hs
      rcases hs with rfl | rfl | rfl
      · exact ⟨rfl, ⟨[104, 105], by simp [IsScalar], by decide +kernel⟩⟩
      · exact ⟨rfl, by show _ < 126; decide⟩
      · exact ⟨rfl, .inr ⟨1000, [], by decide, by decide, by decide, by decide, by decide, isUtf8_nil, by decide +kernel, by decide⟩⟩
  · exact .first (key := none) (f := ⟨false, (false, false, false), .binary, [1]⟩) (t := .binary) (rest := [0x8a, 0, 0x80, 1, 2])
      ⟨rfl, rfl, by decide, fun h => absurd h (by unfold IsControl; decide), by decide⟩ (by unfold IsControl; decide) rfl rfl
      (.control (key := none) (f := ⟨true, (false, false, false), .pong, []⟩) (t := .pong) (rest := [0x80, 1, 2])
        ⟨rfl, rfl, by decide, fun _ => by decide, by decide⟩ (by unfold IsControl; decide) rfl (by show _ < 126; decide)
        (.last (key := none) (f := ⟨true, (false, false, false), .continuation, [2]⟩) (t := .binary) (d := [1]) (rest := [])
          ⟨rfl, rfl, by decide, fun h => absurd h (by unfold IsControl; decide), by decide⟩ rfl rfl trivial .done))

end Webparse
