import Verif.Props.WsStream
import Verif.Props.WsConnection

/-! # C141: what a conforming WebSocket peer sends is heard -/

namespace Webparse
open Spec

/-- A payload that may be sent is the payload of a message of the code. -/
theorem payload_message {t : MsgType} {d : Bytes} (h : RfcPayload t d) :
    ∃ m : OwnedMessage, MsgTyped m ∧ msgOpcode m = typeOpcode t ∧ msgPayload m = d ∧ CodeAllowed m := by
  cases t with
  | text => exact ⟨.text d, (utf8Valid_iff d).mpr h, rfl, rfl, trivial⟩
  | binary => exact ⟨.binary d, trivial, rfl, rfl, trivial⟩
  | ping => exact ⟨.ping d, trivial, rfl, rfl, trivial⟩
  | pong => exact ⟨.pong d, trivial, rfl, rfl, trivial⟩
  | close =>
    rcases h with rfl | ⟨c, r, h1, k1, k2, k3, k4, h2, rfl, -⟩
    · exact ⟨.close none, trivial, rfl, rfl, trivial⟩
    · refine ⟨.close (some ⟨c, r⟩), ⟨(utf8Valid_iff r).mpr h2, h1⟩, rfl, ?_, k1, k2, k3, k4⟩
      have : c / 256 % 256 = c / 256 := Nat.mod_eq_of_lt (by omega)
      simp only [msgPayload, this]

/-- The frames held are those of the part of the message that came before. -/
def HeldFrames : Option (MsgType × Bytes) → List WsFrame → Prop
  | none, fs => fs = []
  | some (t, d), fs => ∃ f rest, fs = f :: rest ∧ f.reserved = (false, false, false) ∧
      (∀ g ∈ rest, g.opcode = .continuation ∧ g.reserved = (false, false, false)) ∧
      f.opcode = typeOpcode t ∧ (fs.map (·.data)).flatten = d

theorem held_message {t : MsgType} {d : Bytes} {fs : List WsFrame} (hf : HeldFrames (some (t, d)) fs) (hp : RfcPayload t d) :
    ∃ m, OwnedMessage.fromFrames (fs.map WsFrame.toFrameable) = .ok m ∧ msgOpcode m = typeOpcode t ∧ msgPayload m = d ∧
      CodeAllowed m := by
  obtain ⟨m, h1, h2, h3, h4⟩ := payload_message hp
  obtain ⟨f, rest, e, hr, hg, ho, hd⟩ := hf
  exact ⟨m, (C32_accepts_iff fs m).mpr ⟨h1, f, rest, e, hr, hg, ho.trans h2.symm, hd.trans h3.symm⟩, h2, h3, h4⟩

theorem held_one {masked : Bool} {key : Option MaskKey} {f : WsFrame} {t : MsgType} (h : Rfc6455Frame masked key f)
    (ho : f.opcode = typeOpcode t) : HeldFrames (some (t, f.data)) [f] :=
  ⟨f, [], rfl, h.reserved, by simp, ho, by simp⟩

theorem held_more {masked : Bool} {key : Option MaskKey} {f : WsFrame} {t : MsgType} {d : Bytes} {fs : List WsFrame}
    (hf : HeldFrames (some (t, d)) fs) (h : Rfc6455Frame masked key f) (ho : f.opcode = .continuation) :
    HeldFrames (some (t, d ++ f.data)) (fs ++ [f]) := by
  obtain ⟨g, rest, rfl, hr, hg, h1, rfl⟩ := hf
  refine ⟨g, rest ++ [f], rfl, hr, ?_, h1, by simp⟩
  intro x hx
  rcases List.mem_append.mp hx with hx | hx
  · exact hg x hx
  · rw [List.mem_singleton.mp hx]; exact ⟨ho, h.reserved⟩

theorem rfcFrame_read {masked : Bool} {key : Option MaskKey} {f : WsFrame} (h : Rfc6455Frame masked key f) (rest : Bytes) :
    wsRead (wsWireFrame key f ++ rest) = .ok (f, rest) :=
  (readFrameSt_ok_iff masked _ rest f).mp (C83_conforming_partial masked key f h rest)

/-- Messages as their opcode and payload. -/
def SameMessages (ms : List OwnedMessage) (heard : List (MsgType × Bytes)) : Prop :=
  ms.map (fun m => (msgOpcode m, msgPayload m)) = heard.map fun h => (typeOpcode h.1, h.2)

theorem heard_received {masked : Bool} {held : Option (MsgType × Bytes)} {heard : List (MsgType × Bytes)} {wire : Bytes}
    (h : WsHeard masked held heard wire) : ∀ fs, HeldFrames held fs →
    ∃ n ms, wsReceive n fs wire = .ok (ms, [], []) ∧ SameMessages ms heard ∧ ∀ m ∈ ms, CodeAllowed m := by
  induction h with
  | done => rintro fs rfl; exact ⟨0, [], rfl, rfl, by simp⟩
  | control h hc ho hp _ ih =>
    intro fs hf
    obtain ⟨n, ms, h1, h2, h6⟩ := ih fs hf
    obtain ⟨m, h3, h4, h5, h7⟩ := held_message (held_one h ho) hp
    refine ⟨n + 1, m :: ms, ?_, ?_, List.forall_mem_cons.mpr ⟨h7, h6⟩⟩
    · have hc' := hc
      unfold IsControl at hc'
      simp only [List.map_cons, List.map_nil] at h3
      simp [wsReceive, rfcFrame_read h, hc', h3, h1]
    · unfold SameMessages at h2 ⊢
      simp [h2, h4, h5]
  | whole h hc ho hfin hp _ ih =>
    rintro fs rfl
    obtain ⟨n, ms, h1, h2, h6⟩ := ih [] rfl
    obtain ⟨m, h3, h4, h5, h7⟩ := held_message (held_one h ho) hp
    refine ⟨n + 1, m :: ms, ?_, ?_, List.forall_mem_cons.mpr ⟨h7, h6⟩⟩
    · have hc' := hc
      unfold IsControl at hc'
      simp only [List.map_cons, List.map_nil] at h3
      simp [wsReceive, rfcFrame_read h, hc', hfin, h3, h1]
    · unfold SameMessages at h2 ⊢
      simp [h2, h4, h5]
  | first h hc ho hfin _ ih =>
    rintro fs rfl
    obtain ⟨n, ms, h1, h2, h6⟩ := ih _ (held_one h ho)
    refine ⟨n + 1, ms, ?_, h2, h6⟩
    have hc' := hc
    unfold IsControl at hc'
    simp [wsReceive, rfcFrame_read h, hc', hfin, h1]
  | next h ho hfin _ ih =>
    intro fs hf
    obtain ⟨n, ms, h1, h2, h6⟩ := ih _ (held_more hf h ho)
    refine ⟨n + 1, ms, ?_, h2, h6⟩
    have hc' : ¬ (8 ≤ Opcode.continuation.toByte) := by decide
    simp [wsReceive, rfcFrame_read h, ho, hc', hfin, h1]
  | last h ho hfin hp _ ih =>
    intro fs hf
    obtain ⟨n, ms, h1, h2, h6⟩ := ih [] rfl
    obtain ⟨m, h3, h4, h5, h7⟩ := held_message (held_more hf h ho) hp
    refine ⟨n + 1, m :: ms, ?_, ?_, List.forall_mem_cons.mpr ⟨h7, h6⟩⟩
    · have hc' : ¬ (8 ≤ Opcode.continuation.toByte) := by decide
      simp only [List.map_append, List.map_cons, List.map_nil] at h3
      simp [wsReceive, rfcFrame_read h, ho, hc', hfin, h3, h1]
    · unfold SameMessages at h2 ⊢
      simp [h2, h4, h5]

/-- C141: whatever a peer that follows RFC 6455 sends, in fragments and with control messages between them, is read to the end as
the same messages in the same order, and no fragment is left over. -/
theorem C141_conforming_peer_heard {masked : Bool} {heard : List (MsgType × Bytes)} {wire : Bytes} (h : WsHeard masked none heard wire) :
    ∃ n ms, wsReceive n [] wire = .ok (ms, [], []) ∧
      ms.map (fun m => (msgOpcode m, msgPayload m)) = heard.map fun h => (typeOpcode h.1, h.2) :=
  have ⟨n, ms, h1, h2, _⟩ := heard_received h [] rfl
  ⟨n, ms, h1, h2⟩

theorem nothing_received (k : Nat) (held : List WsFrame) (r) : wsReceive (k + 1) held [] ≠ .ok r := by
  have h : ∀ x, wsRead [] ≠ .ok x := by
    rintro ⟨f, rest⟩ h
    obtain ⟨-, key, e⟩ := (C83_taken_iff_partial true [] rest f).mp ((readFrameSt_ok_iff true [] rest f).mpr h)
    exact wireFrame_ne _ _ (List.append_eq_nil_iff.mp e.symm).1
  unfold wsReceive
  cases hw : wsRead [] with
  | ok x => exact absurd hw (h x)
  | err e => simp
  | panic => simp

/-- C141: and it is read as nothing else. A receiver that has taken all the bytes, however many frames it asked for, has these
messages and holds no fragment. -/
theorem C141_nothing_else_heard {masked : Bool} {heard : List (MsgType × Bytes)} {wire : Bytes} (h : WsHeard masked none heard wire)
    {n : Nat} {ms : List OwnedMessage} {held : List WsFrame} (hr : wsReceive n [] wire = .ok (ms, held, [])) :
    held = [] ∧ ms.map (fun m => (msgOpcode m, msgPayload m)) = heard.map fun h => (typeOpcode h.1, h.2) := by
  obtain ⟨n', ms', h1, h2⟩ := C141_conforming_peer_heard h
  rcases Nat.lt_trichotomy n n' with hlt | rfl | hlt
  · obtain ⟨k, rfl⟩ := Nat.exists_eq_add_of_lt hlt
    rw [Nat.add_assoc, wsReceive_add, hr] at h1
    cases hk : wsReceive (k + 1) held [] with
    | ok r => exact absurd hk (nothing_received k held r)
    | err e => simp [Res.bind, hk] at h1
    | panic => simp [Res.bind, hk] at h1
  · rw [hr] at h1
    simp only [Res.ok.injEq, Prod.mk.injEq, and_true] at h1
    exact ⟨h1.2, h1.1 ▸ h2⟩
  · obtain ⟨k, rfl⟩ := Nat.exists_eq_add_of_lt hlt
    rw [Nat.add_assoc, wsReceive_add, h1] at hr
    cases hk : wsReceive (k + 1) [] [] with
    | ok r => exact absurd hk (nothing_received k [] r)
    | err e => simp [Res.bind, hk] at hr
    | panic => simp [Res.bind, hk] at hr

/-- A binary message in two fragments with a pong between them. -/
example : WsHeard false none [(.pong, []), (.binary, [1, 2])] [0x02, 1, 1, 0x8a, 0, 0x80, 1, 2] ∧
    wsReceive 3 [] [0x02, 1, 1, 0x8a, 0, 0x80, 1, 2] = .ok ([.pong [], .binary [1, 2]], [], []) :=
  ⟨.first (key := none) (f := ⟨false, (false, false, false), .binary, [1]⟩) (t := .binary) (rest := [0x8a, 0, 0x80, 1, 2])
      ⟨rfl, rfl, by decide, fun h => absurd h (by unfold IsControl; decide), by decide⟩ (by unfold IsControl; decide) rfl rfl
      (.control (key := none) (f := ⟨true, (false, false, false), .pong, []⟩) (t := .pong) (rest := [0x80, 1, 2])
        ⟨rfl, rfl, by decide, fun _ => by decide, by decide⟩ (by unfold IsControl; decide) rfl (by show _ < 126; decide)
        (.last (key := none) (f := ⟨true, (false, false, false), .continuation, [2]⟩) (t := .binary) (d := [1]) (rest := [])
          ⟨rfl, rfl, by decide, fun h => absurd h (by unfold IsControl; decide), by decide⟩ rfl rfl trivial .done)),
    by decide +kernel⟩

/-- The bytes are these frames, each one that may be sent. -/
def FramesOn (masked : Bool) (fs : List (Option MaskKey × WsFrame)) (wire : Bytes) : Prop :=
  (∀ p ∈ fs, Rfc6455Frame masked p.1 p.2) ∧ wire = (fs.map fun p => wsWireFrame p.1 p.2).flatten

/-- C142: whatever is read to the end as messages is for a peer that follows RFC 6455 the same messages. -/
def C142_statement : Prop :=
  ∀ (masked : Bool) (n : Nat) (wire : Bytes) (ms : List OwnedMessage), wsReceive n [] wire = .ok (ms, [], []) →
    ∃ heard, WsHeard masked none heard wire ∧
      ms.map (fun m => (msgOpcode m, msgPayload m)) = heard.map fun h => (typeOpcode h.1, h.2)

theorem heard_frames {masked : Bool} {held : Option (MsgType × Bytes)} {heard : List (MsgType × Bytes)} {wire : Bytes}
    (h : WsHeard masked held heard wire) : ∃ fs, FramesOn masked fs wire := by
  have step : ∀ {key : Option MaskKey} {f : WsFrame} {rest : Bytes}, Rfc6455Frame masked key f → (∃ fs, FramesOn masked fs rest) →
      ∃ fs, FramesOn masked fs (wsWireFrame key f ++ rest) := by
    rintro key f rest h ⟨fs, h1, rfl⟩
    exact ⟨(key, f) :: fs, List.forall_mem_cons.mpr ⟨h, h1⟩, by simp⟩
  induction h with
  | done => exact ⟨[], by simp [FramesOn]⟩
  | control h _ _ _ _ ih => exact step h ih
  | whole h _ _ _ _ _ ih => exact step h ih
  | first h _ _ _ _ ih => exact step h ih
  | next h _ _ _ ih => exact step h ih
  | last h _ _ _ _ ih => exact step h ih

/-- The type of a message. -/
def ownedType : OwnedMessage → MsgType
  | .text _ => .text
  | .binary _ => .binary
  | .close _ => .close
  | .ping _ => .ping
  | .pong _ => .pong

theorem ownedType_opcode (m : OwnedMessage) : typeOpcode (ownedType m) = msgOpcode m := by cases m <;> rfl

theorem message_payload {m : OwnedMessage} (h1 : MsgTyped m) (h2 : CodeAllowed m)
    (h3 : IsControl (msgOpcode m) → (msgPayload m).length < 126) : RfcPayload (ownedType m) (msgPayload m) := by
  cases m with
  | text s => exact (utf8Valid_iff s).mp h1
  | binary b => trivial
  | ping b => exact h3 (by show 8 ≤ _; simp only [msgOpcode]; decide)
  | pong b => exact h3 (by show 8 ≤ _; simp only [msgOpcode]; decide)
  | close c =>
    cases c with
    | none => exact .inl rfl
    | some c =>
      have hl := h3 (by show 8 ≤ _; simp only [msgOpcode]; decide)
      have : c.status / 256 % 256 = c.status / 256 := Nat.mod_eq_of_lt (by have := h1.2; omega)
      refine .inr ⟨c.status, c.reason, h1.2, h2.1, h2.2.1, h2.2.2.1, h2.2.2.2, (utf8Valid_iff _).mp h1.1, ?_, hl⟩
      simp only [msgPayload, this]

theorem received_heard {masked : Bool} (n : Nat) : ∀ (held : List WsFrame) (fs : List (Option MaskKey × WsFrame)) (wire : Bytes)
    (ms : List OwnedMessage), FramesOn masked fs wire → (∀ g ∈ held, ¬ IsControl g.opcode) →
    wsReceive n held wire = .ok (ms, [], []) → (∀ m ∈ ms, CodeAllowed m) →
    ∃ h heard, HeldFrames h held ∧ SameMessages ms heard ∧ WsHeard masked h heard wire := by
  induction n with
  | zero =>
    intro held fs wire ms _ _ hr _
    simp only [wsReceive, Res.ok.injEq, Prod.mk.injEq] at hr
    obtain ⟨rfl, rfl, rfl⟩ := hr
    exact ⟨none, [], rfl, rfl, .done⟩
  | succ n ih =>
    intro held fs wire ms hfs hh hr hc
    obtain ⟨hall, rfl⟩ := hfs
    cases fs with
    | nil => exact absurd hr (nothing_received n held _)
    | cons p fs =>
      obtain ⟨key, f⟩ := p
      obtain ⟨hf, hall'⟩ := List.forall_mem_cons.mp hall
      simp only [List.map_cons, List.flatten_cons] at hr ⊢
      have hfs' : FramesOn masked fs (fs.map fun p => wsWireFrame p.1 p.2).flatten := ⟨hall', rfl⟩
      unfold wsReceive at hr
      simp only [rfcFrame_read hf, Res.bind_ok] at hr
      by_cases hctl : IsControl f.opcode
      · have hctl' := hctl
        unfold IsControl at hctl'
        rw [if_pos hctl'] at hr
        cases hm : OwnedMessage.fromFrames [f.toFrameable] with
        | err e => simp [hm] at hr
        | panic => simp [hm] at hr
        | ok m =>
          cases hw : wsReceive n held (fs.map fun p => wsWireFrame p.1 p.2).flatten with
          | err e => simp [hm, hw] at hr
          | panic => simp [hm, hw] at hr
          | ok r =>
            obtain ⟨ms', held', buf'⟩ := r
            simp only [hm, hw, Res.bind_ok, Res.ok.injEq, Prod.mk.injEq] at hr
            obtain ⟨rfl, rfl, rfl⟩ := hr
            obtain ⟨hcm, hcs⟩ := List.forall_mem_cons.mp hc
            obtain ⟨h, heard, h1, h2, h3⟩ := ih held fs _ ms' hfs' hh hw hcs
            obtain ⟨ht, g, rest, e, -, -, ho, hd⟩ := (C32_accepts_iff [f] m).mp hm
            obtain ⟨rfl, rfl⟩ := List.cons.inj e
            simp only [List.map_cons, List.map_nil, List.flatten_cons, List.flatten_nil, List.append_nil] at hd
            have hp := message_payload ht hcm (fun _ => hd ▸ (hf.control hctl).1)
            rw [← hd] at hp
            refine ⟨h, (ownedType m, f.data) :: heard, h1, ?_, .control hf hctl (by rw [ownedType_opcode]; exact ho) hp h3⟩
            unfold SameMessages at h2 ⊢
            simp [h2, ownedType_opcode, hd]
      · have hctl' := hctl
        unfold IsControl at hctl'
        rw [if_neg hctl'] at hr
        cases hfin : f.finished with
        | true =>
          rw [if_pos hfin] at hr
          cases hm : OwnedMessage.fromFrames ((held ++ [f]).map WsFrame.toFrameable) with
          | err e => rw [hm] at hr; simp at hr
          | panic => rw [hm] at hr; simp at hr
          | ok m =>
            rw [hm] at hr
            cases hw : wsReceive n [] (fs.map fun p => wsWireFrame p.1 p.2).flatten with
            | err e => simp [hw] at hr
            | panic => simp [hw] at hr
            | ok r =>
              obtain ⟨ms', held', buf'⟩ := r
              simp only [hw, Res.bind_ok, Res.ok.injEq, Prod.mk.injEq] at hr
              obtain ⟨rfl, rfl, rfl⟩ := hr
              obtain ⟨hcm, hcs⟩ := List.forall_mem_cons.mp hc
              obtain ⟨h, heard, h1, h2, h3⟩ := ih [] fs _ ms' hfs' (by simp) hw hcs
              have hn : h = none := by
                cases h with
                | none => rfl
                | some x => obtain ⟨_, _, e, _⟩ := h1; cases e
              subst hn
              obtain ⟨ht, g, rest, e, hr1, hr2, ho, hd⟩ := (C32_accepts_iff (held ++ [f]) m).mp hm
              have hng : ¬ IsControl g.opcode := by
                have : g ∈ held ++ [f] := by rw [e]; exact List.mem_cons_self
                rcases List.mem_append.mp this with hx | hx
                · exact hh g hx
                · rw [List.mem_singleton.mp hx]; exact hctl
              have hp := message_payload ht hcm (fun hi => absurd (ho ▸ hi) hng)
              have hsame : SameMessages (m :: ms') ((ownedType m, msgPayload m) :: heard) := by
                unfold SameMessages at h2 ⊢
                simp [h2, ownedType_opcode]
              cases held with
              | nil =>
                obtain ⟨rfl, rfl⟩ := List.cons.inj e
                simp only [List.nil_append, List.map_cons, List.map_nil, List.flatten_cons, List.flatten_nil, List.append_nil] at hd
                rw [← hd] at hp hsame
                exact ⟨none, _, rfl, hsame, .whole hf hctl (by rw [ownedType_opcode]; exact ho) hfin hp h3⟩
              | cons g' r' =>
                obtain ⟨rfl, rfl⟩ := List.cons.inj e
                have hd' : ((g' :: r').map (·.data)).flatten ++ f.data = msgPayload m := by rw [← hd]; simp
                rw [← hd'] at hp hsame
                exact ⟨some (ownedType m, _), _, ⟨g', r', rfl, hr1, fun x hx => hr2 x (List.mem_append_left _ hx),
                  by rw [ownedType_opcode]; exact ho, rfl⟩, hsame,
                  .last hf (hr2 f (by simp)).1 hfin hp h3⟩
        | false =>
          rw [if_neg (by simp [hfin])] at hr
          obtain ⟨h, heard, h1, h2, h3⟩ := ih (held ++ [f]) fs _ ms hfs' (by
            intro x hx
            rcases List.mem_append.mp hx with hx | hx
            · exact hh x hx
            · rw [List.mem_singleton.mp hx]; exact hctl) hr hc
          cases h with
          | none => exact absurd h1 (by simp [HeldFrames])
          | some x =>
            obtain ⟨t, d⟩ := x
            obtain ⟨g, rest, e, hr1, hr2, ho, hd⟩ := h1
            cases held with
            | nil =>
              obtain ⟨rfl, rfl⟩ := List.cons.inj e
              simp only [List.nil_append, List.map_cons, List.map_nil, List.flatten_cons, List.flatten_nil, List.append_nil] at hd
              subst hd
              exact ⟨none, heard, rfl, h2, .first hf hctl ho hfin h3⟩
            | cons g' r' =>
              obtain ⟨rfl, rfl⟩ := List.cons.inj e
              have hd' : ((g' :: r').map (·.data)).flatten ++ f.data = d := by rw [← hd]; simp
              subst hd'
              exact ⟨some (t, _), heard, ⟨g', r', rfl, hr1, fun x hx => hr2 x (List.mem_append_left _ hx), ho, rfl⟩, h2,
                .next hf (hr2 f (by simp)).1 hfin h3⟩

theorem sameMessages_only {ms : List OwnedMessage} {a b : List (MsgType × Bytes)} (h1 : SameMessages ms a) (h2 : SameMessages ms b) : a = b := by
  have h := h1.symm.trans h2
  refine List.map_inj_right ?_ |>.mp h
  rintro ⟨t, d⟩ ⟨u, e⟩ h
  simp only [Prod.mk.injEq] at h
  rw [typeOpcode_inj h.1, h.2]

/-- C142, exact: bytes are messages for a peer that follows RFC 6455 if and only if they are frames that may be sent one by one, the
receiver reads them to the end as these messages, and no close message has a code that must not be sent. What is not looked at is
in single frames and in the codes; the order of fragments is. -/
theorem C142_heard_iff_partial (masked : Bool) (heard : List (MsgType × Bytes)) (wire : Bytes) :
    WsHeard masked none heard wire ↔ (∃ fs, FramesOn masked fs wire) ∧
      ∃ n ms, wsReceive n [] wire = .ok (ms, [], []) ∧ (∀ m ∈ ms, CodeAllowed m) ∧
        ms.map (fun m => (msgOpcode m, msgPayload m)) = heard.map fun h => (typeOpcode h.1, h.2) := by
  constructor
  · intro h
    obtain ⟨n, ms, h1, h2, h3⟩ := heard_received h [] rfl
    exact ⟨heard_frames h, n, ms, h1, h3, h2⟩
  · rintro ⟨⟨fs, hfs⟩, n, ms, h1, h2, h3⟩
    obtain ⟨h, heard', k1, k2, k3⟩ := received_heard n [] fs wire ms hfs (by simp) h1 h2
    cases h with
    | some x => obtain ⟨_, _, e, _⟩ := k1; cases e
    | none => rw [sameMessages_only h3 k2]; exact k3

/-- The mask bit is in the second byte. -/
theorem mask_bit (key : Option MaskKey) (f : WsFrame) (r : Bytes) :
    ∃ a b t, wsWireFrame key f ++ r = a :: b :: t ∧ (128 ≤ b.toNat ↔ key.isSome = true) := by
  unfold wsWireFrame wsWireHeader
  by_cases h1 : f.data.length < 126
  · simp only [if_pos h1]
    refine ⟨_, _, _, rfl, ?_⟩
    cases key <;> simp <;> omega
  · by_cases h2 : f.data.length < 2 ^ 16
    · simp only [if_neg h1, if_pos h2]
      refine ⟨_, _, _, rfl, ?_⟩
      cases key <;> simp
    · simp only [if_neg h1, if_neg h2]
      refine ⟨_, _, _, rfl, ?_⟩
      cases key <;> simp

/-- C142, violated: messages masked as they must not be are read all the same; an endpoint that follows RFC 6455 (5.1) hears
nothing in the same bytes. -/
theorem C142_violated_mask {masked : Bool} {heard : List (MsgType × Bytes)} {wire : Bytes} (h : WsHeard masked none heard wire)
    (hne : heard ≠ []) : (∃ n ms, wsReceive n [] wire = .ok (ms, [], []) ∧ SameMessages ms heard) ∧
      ∀ heard', ¬ WsHeard (!masked) none heard' wire := by
  refine ⟨C141_conforming_peer_heard h, fun heard' h' => ?_⟩
  obtain ⟨fs, h1, h2⟩ := heard_frames h
  obtain ⟨gs, g1, g2⟩ := heard_frames h'
  cases fs with
  | nil =>
    simp only [List.map_nil, List.flatten_nil] at h2
    subst h2
    exact hne (nothing_heard h)
  | cons p fs =>
    cases gs with
    | nil =>
      simp only [List.map_nil, List.flatten_nil] at g2
      subst g2
      exact hne (nothing_heard h)
    | cons q gs =>
      have e : wsWireFrame p.1 p.2 ++ _ = wsWireFrame q.1 q.2 ++ _ := h2.symm.trans g2
      have hp := h1 p List.mem_cons_self
      have hq := g1 q List.mem_cons_self
      obtain ⟨a, b, t, e1, k1⟩ := mask_bit p.1 p.2 (fs.map fun p => wsWireFrame p.1 p.2).flatten
      obtain ⟨a', b', t', e2, k2⟩ := mask_bit q.1 q.2 (gs.map fun p => wsWireFrame p.1 p.2).flatten
      rw [e1, e2] at e
      simp only [List.cons.injEq] at e
      rw [e.2.1, k2, hp.mask, hq.mask] at k1
      cases masked <;> simp at k1

theorem C142_violated : ¬ C142_statement := by
  intro h
  have hh : WsHeard false none [(.pong, [])] [0x8a, 0] :=
    .control (key := none) (f := ⟨true, (false, false, false), .pong, []⟩) (t := .pong) (rest := [])
      ⟨rfl, rfl, by decide, fun _ => by decide, by decide⟩ (by unfold IsControl; decide) rfl (by show _ < 126; decide) .done
  obtain ⟨⟨n, ms, h1, -⟩, h2⟩ := C142_violated_mask hh (by simp)
  obtain ⟨heard, h3, -⟩ := h true n _ ms h1
  exact h2 heard h3

/-- C142, violated: a close message with a code that must not be sent is read as a message, and to no peer that follows RFC 6455 are
these bytes messages, whatever follows. -/
theorem C142_violated_code (masked : Bool) (key : Option MaskKey) (f : WsFrame) (c : CloseData) (ho : WsFrameOk f)
    (hm : OwnedMessage.fromFrames [f.toFrameable] = .ok (.close (some c))) (hc : ¬ CodeAllowed (.close (some c))) (rest : Bytes) :
    wsReceive 1 [] (wsWireFrame key f ++ rest) = .ok ([.close (some c)], [], rest) ∧
      ∀ heard, ¬ WsHeard masked none heard (wsWireFrame key f ++ rest) := by
  obtain ⟨-, g, r, e, -, -, hop, -⟩ := (C32_accepts_iff [f] _).mp hm
  obtain ⟨rfl, rfl⟩ := List.cons.inj e
  have hop : f.opcode = .close := hop
  have hr : wsRead (wsWireFrame key f ++ rest) = .ok (f, rest) :=
    (readFrameSt_ok_iff masked _ rest f).mp ((C83_taken_iff_partial masked _ rest f).mpr ⟨ho, key, rfl⟩)
  have h8 : 8 ≤ Opcode.close.toByte := by decide
  have h1 : ∀ n, wsReceive (n + 1) [] (wsWireFrame key f ++ rest) =
      (wsReceive n [] rest >>= fun r => .ok (.close (some c) :: r.1, r.2.1, r.2.2)) := by
    intro n
    conv => lhs; unfold wsReceive
    simp [hr, hop, h8, hm]
  refine ⟨by rw [h1]; rfl, fun heard hh => ?_⟩
  obtain ⟨-, n, ms, h2, h3, -⟩ := (C142_heard_iff_partial masked heard _).mp hh
  cases n with
  | zero =>
    simp only [wsReceive, Res.ok.injEq, Prod.mk.injEq] at h2
    exact wireFrame_ne _ _ (List.append_eq_nil_iff.mp h2.2.2).1
  | succ n =>
    rw [h1] at h2
    cases hw : wsReceive n [] rest with
    | ok r =>
      simp only [hw, Res.bind_ok, Res.ok.injEq, Prod.mk.injEq] at h2
      exact hc (h3 _ (by rw [← h2.1]; exact List.mem_cons_self))
    | err e => simp [hw] at h2
    | panic => simp [hw] at h2

/-- A close message with code 1005, and a conforming stream that is not empty. -/
example : WsFrameOk ⟨true, (false, false, false), .close, [3, 237]⟩ ∧
    OwnedMessage.fromFrames [WsFrame.toFrameable ⟨true, (false, false, false), .close, [3, 237]⟩] = .ok (.close (some ⟨1005, []⟩)) ∧
    ¬ CodeAllowed (.close (some ⟨1005, []⟩)) :=
  ⟨⟨by decide, fun _ => by decide⟩, by decide +kernel, fun h => h.2.1 rfl⟩

end Webparse
