import Verif.Spec.WsConnection
import Verif.Props.Ws

/-! C82: a WebSocket connection. -/

namespace Webparse
open Spec

/-- The frames are written, and the receiver reads the messages from them, whatever follows. -/
def Passes (fs : List (Frameable × Option MaskKey)) (held : List WsFrame) (ms : List OwnedMessage)
    (held' : List WsFrame) : Prop :=
  ∃ out, wsWriteFrames fs = .ok out ∧
    ∀ rest, wsReceive fs.length held (out ++ rest) = .ok (ms, held', rest)

theorem wsReceive_add (a b : Nat) : ∀ (held : List WsFrame) (buf : Bytes),
    wsReceive (a + b) held buf = (wsReceive a held buf).bind fun r =>
      (wsReceive b r.2.1 r.2.2).bind fun r' => .ok (r.1 ++ r'.1, r'.2.1, r'.2.2) := by
  induction a with
  | zero =>
    intro held buf
    rw [Nat.zero_add]
    simp only [wsReceive, Res.bind]
    cases wsReceive b held buf <;> rfl
  | succ a ih =>
    intro held buf
    rw [Nat.add_right_comm]
    simp only [wsReceive]
    cases wsRead buf with
    | err e => rfl
    | panic => rfl
    | ok r =>
      obtain ⟨f, buf⟩ := r
      simp only [Res.bind_ok]
      split
      · cases OwnedMessage.fromFrames [f.toFrameable] with
        | err e => rfl
        | panic => rfl
        | ok m =>
          simp only [Res.bind_ok]
          rw [ih]
          cases wsReceive a held buf with
          | err e => rfl
          | panic => rfl
          | ok r =>
            obtain ⟨ms, h, rest⟩ := r
            simp only [Res.bind, Res.bind_ok]
            cases wsReceive b h rest <;> rfl
      · split
        · cases OwnedMessage.fromFrames ((held ++ [f]).map WsFrame.toFrameable) with
          | err e => rfl
          | panic => rfl
          | ok m =>
            simp only [Res.bind_ok]
            rw [ih]
            cases wsReceive a [] buf with
            | err e => rfl
            | panic => rfl
            | ok r =>
              obtain ⟨ms, h, rest⟩ := r
              simp only [Res.bind, Res.bind_ok]
              cases wsReceive b h rest <;> rfl
        · exact ih _ _

theorem wsWriteFrames_append (fs gs : List (Frameable × Option MaskKey)) (a b : Bytes) (h1 : wsWriteFrames fs = .ok a)
    (h2 : wsWriteFrames gs = .ok b) : wsWriteFrames (fs ++ gs) = .ok (a ++ b) := by
  induction fs generalizing a with
  | nil =>
    simp only [wsWriteFrames, Res.ok.injEq] at h1
    subst h1
    exact h2
  | cons f fs ih =>
    obtain ⟨f, k⟩ := f
    simp only [wsWriteFrames] at h1
    rw [Res.bind_eq_ok] at h1
    obtain ⟨⟨x, n⟩, hx, h1⟩ := h1
    rw [Res.bind_eq_ok] at h1
    obtain ⟨y, hy, h1⟩ := h1
    simp only [Res.ok.injEq] at h1
    subst h1
    simp only [List.cons_append, wsWriteFrames, hx, Res.bind_ok, ih y hy, List.append_assoc]

theorem Passes.append {fs gs : List (Frameable × Option MaskKey)} {h h' h'' : List WsFrame}
    {ms ms' : List OwnedMessage} (p : Passes fs h ms h') (q : Passes gs h' ms' h'') :
    Passes (fs ++ gs) h (ms ++ ms') h'' := by
  obtain ⟨a, a1, a2⟩ := p
  obtain ⟨b, b1, b2⟩ := q
  refine ⟨a ++ b, wsWriteFrames_append _ _ _ _ a1 b1, fun rest => ?_⟩
  rw [List.length_append, wsReceive_add, List.append_assoc, a2]
  simp only [Res.bind, b2]

theorem Passes.nil (h : List WsFrame) : Passes [] h [] h := ⟨[], rfl, fun _ => rfl⟩

theorem passes_control (m : OwnedMessage) (key : Option MaskKey) (ok : ControlOk m) (held : List WsFrame) :
    Passes [(m.toFrameable, key)] held [m] held := by
  obtain ⟨hc, ht, hs⟩ := ok
  obtain ⟨out, n, f, h1, -, -⟩ := C33_roundtrip m ht hs key []
  refine ⟨out, by simp [wsWriteFrames, h1], fun rest => ?_⟩
  obtain ⟨out', n', f, h1', h2, h3⟩ := C33_roundtrip m ht hs key rest
  rw [h1] at h1'
  cases h1'
  obtain ⟨-, g, r, e, -, -, ho, -⟩ := (C32_accepts_iff [f] m).mp h3
  cases e
  have hop : 8 ≤ f.opcode.toByte := by rw [ho]; exact hc
  simp only [List.length_cons, List.length_nil, wsReceive, h2, Res.bind_ok, if_pos hop, h3]

theorem passes_controls (cs : List (OwnedMessage × Option MaskKey)) (ok : ∀ c ∈ cs, ControlOk c.1)
    (held : List WsFrame) : Passes (cs.map fun c => (c.1.toFrameable, c.2)) held (cs.map (·.1)) held := by
  induction cs with
  | nil => exact Passes.nil held
  | cons c cs ih =>
    exact (passes_control c.1 c.2 (ok c (by simp)) held).append (ih fun x hx => ok x (by simp [hx]))

theorem passes_piece (o : Opcode) (p : Bytes) (key : Option MaskKey) (hl : p.length < 2 ^ 64) (ho : ¬ IsControl o)
    (held : List WsFrame) :
    Passes [(WsFrame.toFrameable ⟨false, (false, false, false), o, p⟩, key)] held []
      (held ++ [⟨false, (false, false, false), o, p⟩]) := by
  have ok : WsFrameOk ⟨false, (false, false, false), o, p⟩ := ⟨hl, fun h => absurd h ho⟩
  obtain ⟨out, n, h1, -⟩ := C29_roundtrip _ ok key []
  refine ⟨out, by simp [wsWriteFrames, h1], fun rest => ?_⟩
  obtain ⟨out', n', h1', h2⟩ := C29_roundtrip _ ok key rest
  rw [h1] at h1'
  cases h1'
  simp only [List.length_cons, List.length_nil, wsReceive, h2, Res.bind_ok, if_neg (show ¬ 8 ≤ o.toByte from ho),
    Bool.false_eq_true, if_false]

theorem passes_last (o : Opcode) (p : Bytes) (key : Option MaskKey) (hl : p.length < 2 ^ 64) (ho : ¬ IsControl o)
    (held : List WsFrame) (m : OwnedMessage)
    (hm : OwnedMessage.fromFrames ((held ++ [(⟨true, (false, false, false), o, p⟩ : WsFrame)]).map WsFrame.toFrameable) = .ok m) :
    Passes [(WsFrame.toFrameable ⟨true, (false, false, false), o, p⟩, key)] held [m] [] := by
  have ok : WsFrameOk ⟨true, (false, false, false), o, p⟩ := ⟨hl, fun h => absurd h ho⟩
  obtain ⟨out, n, h1, -⟩ := C29_roundtrip _ ok key []
  refine ⟨out, by simp [wsWriteFrames, h1], fun rest => ?_⟩
  obtain ⟨out', n', h1', h2⟩ := C29_roundtrip _ ok key rest
  rw [h1] at h1'
  cases h1'
  simp only [List.length_cons, List.length_nil, wsReceive, h2, Res.bind_ok, if_neg (show ¬ 8 ≤ o.toByte from ho),
    if_true, hm]

/-- The frames already held are the first ones of the message. -/
theorem passes_later (m : OwnedMessage) (ht : MsgTyped m) (more : List WsLater) (hne : more ≠ [])
    (hl : ∀ l ∈ more, l.piece.length < 2 ^ 64) (hc : ∀ l ∈ more, ∀ c ∈ l.between, ControlOk c.1) :
    ∀ (f : WsFrame) (held : List WsFrame), f.opcode = msgOpcode m → f.reserved = (false, false, false) →
    (∀ g ∈ held, g.opcode = .continuation ∧ g.reserved = (false, false, false)) →
    ((f :: held).map (·.data)).flatten ++ (more.map (·.piece)).flatten = msgPayload m →
    Passes (laterFrames more) (f :: held) ((more.map fun l => l.between.map (·.1)).flatten ++ [m]) [] := by
  induction more with
  | nil => exact absurd rfl hne
  | cons l ls ih =>
    intro f held hf hr hh hp
    have p1 := passes_controls l.between (hc l (by simp)) (f :: held)
    have hcont : ¬ IsControl .continuation := by unfold IsControl; decide
    by_cases hls : ls = []
    · subst hls
      have p2 := passes_last .continuation l.piece l.key (hl l (by simp)) hcont (f :: held) m (by
        rw [List.cons_append]
        refine (C32_accepts_iff _ m).mpr ⟨ht, f, _, rfl, hr, ?_, hf, ?_⟩
        · intro g hg
          simp only [List.mem_append, List.mem_singleton] at hg
          rcases hg with hg | rfl
          · exact hh g hg
          · exact ⟨rfl, rfl⟩
        · simpa using hp)
      have := p1.append p2
      simpa [laterFrames] using this
    · have he : ls.isEmpty = false := by cases ls <;> simp_all
      have p2 := passes_piece .continuation l.piece l.key (hl l (by simp)) hcont (f :: held)
      have p3 := ih hls (fun x hx => hl x (by simp [hx])) (fun x hx => hc x (by simp [hx])) f
        (held ++ [⟨false, (false, false, false), .continuation, l.piece⟩]) hf hr (by
          intro g hg
          simp only [List.mem_append, List.mem_singleton] at hg
          rcases hg with hg | rfl
          · exact hh g hg
          · exact ⟨rfl, rfl⟩) (by simpa using hp)
      have := p1.append (p2.append p3)
      simpa [laterFrames, he] using this

theorem passes_sent (s : WsSent) (ok : s.Ok) : Passes s.frames [] s.arrives [] := by
  cases s with
  | control m key => exact passes_control m key ok []
  | data m key first more =>
    obtain ⟨hd, ht, hs, hp, hc⟩ := ok
    have hlen := congrArg List.length hp
    rw [List.length_append] at hlen
    have hfirst : first.length < 2 ^ 64 := by have := hs.1; omega
    have hpieces : ∀ l ∈ more, l.piece.length < 2 ^ 64 := by
      intro l hl
      have : l.piece.length ≤ (more.map (·.piece)).flatten.length :=
        (List.sublist_flatten_of_mem (List.mem_map_of_mem hl)).length_le
      have := hs.1
      omega
    by_cases hm : more = []
    · subst hm
      have := passes_last (msgOpcode m) first key hfirst hd [] m (by
        refine (C32_accepts_iff _ m).mpr ⟨ht, _, _, rfl, rfl, by simp, rfl, ?_⟩
        simpa using hp)
      simpa [WsSent.frames, WsSent.arrives, laterFrames] using this
    · have he : more.isEmpty = false := by cases more <;> simp_all
      have p1 := passes_piece (msgOpcode m) first key hfirst hd []
      have p2 := passes_later m ht more hm hpieces hc ⟨false, (false, false, false), msgOpcode m, first⟩ [] rfl rfl
        (by simp) (by simpa using hp)
      have := p1.append p2
      simpa [WsSent.frames, WsSent.arrives, he] using this

/-- C82: whatever is sent over a connection, data messages cut anywhere with control messages between the
fragments, is received in the order in which it is complete, and bytes after it are left. -/
theorem C82_connection (sent : List WsSent) (ok : ∀ s ∈ sent, s.Ok) :
    ∃ out, wsWriteFrames (sent.map WsSent.frames).flatten = .ok out ∧ ∀ rest,
      wsReceive (sent.map WsSent.frames).flatten.length [] (out ++ rest) =
        .ok ((sent.map WsSent.arrives).flatten, [], rest) := by
  show Passes (sent.map WsSent.frames).flatten [] (sent.map WsSent.arrives).flatten []
  induction sent with
  | nil => exact Passes.nil []
  | cons s ss ih =>
    simp only [List.map_cons, List.flatten_cons]
    exact (passes_sent s (ok s (by simp))).append (ih fun x hx => ok x (by simp [hx]))

/-- A text in three fragments, masked and not, with a ping and a pong before the last, then a close message. -/
def sampleSent : List WsSent :=
  [.data (.text (asciiBytes "hello")) none (asciiBytes "he")
    [⟨[], some ⟨1, 2, 3, 4⟩, asciiBytes ""⟩,
     ⟨[(.ping [7], none), (.pong [], some ⟨9, 9, 9, 9⟩)], none, asciiBytes "llo"⟩],
   .control (.close (some ⟨1000, []⟩)) none]

example : ∀ s ∈ sampleSent, s.Ok := by
  intro s hs
  simp only [sampleSent, List.mem_cons, List.not_mem_nil, or_false] at hs
  rcases hs with rfl | rfl
  · refine ⟨by unfold IsControl; decide, by unfold MsgTyped; decide +kernel, ?_, by decide +kernel, ?_⟩
    · unfold MsgSendable IsControl; decide +kernel
    · intro l hl c hc
      simp only [List.mem_cons, List.not_mem_nil, or_false] at hl
      rcases hl with rfl | rfl
      · simp at hc
      · simp only [List.mem_cons, List.not_mem_nil, or_false] at hc
        rcases hc with rfl | rfl <;>
        · unfold ControlOk IsControl MsgTyped MsgSendable IsControl
          decide +kernel
  · show ControlOk _
    unfold ControlOk IsControl MsgTyped MsgSendable IsControl
    decide +kernel

example : (sampleSent.map WsSent.arrives).flatten =
    [.ping [7], .pong [], .text (asciiBytes "hello"), .close (some ⟨1000, []⟩)] := rfl

end Webparse
