import Verif.Proofs.WsReader
import Verif.Props.Ws

/-! C83: the frames, C84: the messages, C85: frames that arrive in pieces (RFC 6455). -/

namespace Webparse
open Spec

/-! ## C83 -/

/-- C83, the full claim: exactly the frames that may be received are accepted. -/
def C83_statement : Prop :=
  ∀ (masked : Bool) (buf rest : Bytes) (f : WsFrame), readFrameSt masked buf = (.ok f, rest) ↔
    ∃ key, Rfc6455Frame masked key f ∧ buf = wsWireFrame key f ++ rest

/-- C83, exact: what is accepted is every frame with a minimal length, short unfragmented control frames, any
reserved bits, any opcode, masked or not; the flag "should be masked" changes nothing. -/
theorem C83_taken_iff_partial (masked : Bool) (buf rest : Bytes) (f : WsFrame) :
    readFrameSt masked buf = (.ok f, rest) ↔ WsFrameOk f ∧ ∃ key, buf = wsWireFrame key f ++ rest := by
  rw [readFrameSt_ok_iff]
  constructor
  · intro h
    obtain ⟨ok, key, out, n, h1, h2⟩ := C29_read_exact buf rest f h
    rw [wire_writeTo f ok] at h1
    cases h1
    exact ⟨ok, key, h2⟩
  · rintro ⟨ok, key, rfl⟩
    obtain ⟨out, n, h1, h2⟩ := C29_roundtrip f ok key rest
    rw [wire_writeTo f ok] at h1
    cases h1
    exact h2

/-- C83: every frame that may be received is accepted. -/
theorem C83_conforming_partial (masked : Bool) (key : Option MaskKey) (f : WsFrame)
    (h : Rfc6455Frame masked key f) (rest : Bytes) :
    readFrameSt masked (wsWireFrame key f ++ rest) = (.ok f, rest) :=
  (C83_taken_iff_partial masked _ rest f).mpr ⟨⟨by have := h.len; omega, h.control⟩, key, rfl⟩

example : Rfc6455Frame true (some ⟨1, 2, 3, 4⟩) ⟨true, (false, false, false), .ping, [7]⟩ :=
  ⟨rfl, rfl, by decide, fun _ => by decide, by decide⟩

/-- C83: a frame accepted from a peer that masks as it has to is one that may be received, if it has no reserved
bits and a known opcode. -/
theorem C83_sound_partial (masked : Bool) (key : Option MaskKey) (f : WsFrame) (rest : Bytes)
    (hk : key.isSome = masked) (hl : f.data.length < 2 ^ 63)
    (h : readFrameSt masked (wsWireFrame key f ++ rest) = (.ok f, rest)) :
    Rfc6455Frame masked key f ↔ f.reserved = (false, false, false) ∧
      f.opcode ∈ [Opcode.continuation, .text, .binary, .close, .ping, .pong] := by
  obtain ⟨ok, -⟩ := (C83_taken_iff_partial masked _ rest f).mp h
  exact ⟨fun h => ⟨h.reserved, h.opcode⟩, fun ⟨h1, h2⟩ => ⟨hk, h1, h2, ok.control, hl⟩⟩

/-- C83, violated: masked frames are accepted by who expects unmasked ones, and the other way round, always. -/
theorem C83_violated_mask (key : Option MaskKey) (f : WsFrame) (masked : Bool) (hk : key.isSome ≠ masked)
    (h : Rfc6455Frame key.isSome key f) (rest : Bytes) :
    readFrameSt masked (wsWireFrame key f ++ rest) = (.ok f, rest) ∧
      ¬ ∃ key', Rfc6455Frame masked key' f ∧ wsWireFrame key f ++ rest = wsWireFrame key' f ++ rest := by
  refine ⟨(C83_taken_iff_partial masked _ rest f).mpr ⟨⟨by have := h.len; omega, h.control⟩, key, rfl⟩, ?_⟩
  rintro ⟨key', h', e⟩
  have e := List.append_cancel_right e
  have ok' : WsFrameOk f := ⟨by have := h.len; omega, h.control⟩
  have r1 := read_write_header (f.header key) (frame_header_ok f ok' key) (maskedOpt key f.data)
  have r2 := read_write_header (f.header key') (frame_header_ok f ok' key') (maskedOpt key' f.data)
  rw [← wire_header] at r1 r2
  rw [e, r2] at r1
  have : key' = key := congrArg (fun x => match x with | Res.ok (h, _) => h.mask | _ => none) r1
  subst this
  exact hk h'.mask

example : readFrameSt true [0x81, 1, 65] = (.ok ⟨true, (false, false, false), .text, [65]⟩, []) := by decide

/-- C83, violated: so are frames with reserved bits and frames with an opcode that means nothing. -/
theorem C83_violated_reserved (f : WsFrame) (ok : WsFrameOk f) (masked : Bool) (key : Option MaskKey) (rest : Bytes)
    (hr : f.reserved ≠ (false, false, false) ∨
      f.opcode ∉ [Opcode.continuation, .text, .binary, .close, .ping, .pong]) :
    readFrameSt masked (wsWireFrame key f ++ rest) = (.ok f, rest) ∧ ∀ key', ¬ Rfc6455Frame masked key' f := by
  refine ⟨(C83_taken_iff_partial masked _ rest f).mpr ⟨ok, key, rfl⟩, fun key' h => ?_⟩
  rcases hr with hr | hr
  · exact hr h.reserved
  · exact hr h.opcode

/-- C83 does not hold of the code. -/
theorem C83_violated : ¬ C83_statement := by
  intro h
  obtain ⟨key, h1, h2⟩ := (h true [0x81, 0] [] ⟨true, (false, false, false), .text, []⟩).mp (by decide)
  cases key with
  | none => exact absurd h1.mask (by decide)
  | some k => simp [wsWireFrame, wsWireHeader] at h2

/-! ## C84 -/

/-- C84, the full claim: exactly the frame sequences that are a message are accepted, as that message. -/
def C84_statement : Prop :=
  ∀ (fs : List WsFrame) (m : OwnedMessage), (∀ f ∈ fs, WsFrameOk f) →
    (OwnedMessage.fromFrames (fs.map WsFrame.toFrameable) = .ok m ↔ Rfc6455Message fs m)

theorem rfcFragments_fin (o : Opcode) (pieces : List Bytes) : FinOnLast (rfcFragments o pieces) := by
  induction pieces generalizing o with
  | nil => trivial
  | cons p ps ih =>
    cases ps with
    | nil => rfl
    | cons q ps =>
      have := ih .continuation
      cases ps with
      | nil => exact ⟨rfl, this⟩
      | cons r ps => exact ⟨rfl, this⟩

theorem rfcFragments_data (o : Opcode) (pieces : List Bytes) : (rfcFragments o pieces).map (·.data) = pieces := by
  induction pieces generalizing o with
  | nil => rfl
  | cons p ps ih =>
    cases ps with
    | nil => rfl
    | cons q ps =>
      simp only [rfcFragments, List.map_cons]
      rw [ih]

theorem rfcFragments_cont (pieces : List Bytes) :
    ∀ g ∈ rfcFragments .continuation pieces, g.opcode = .continuation ∧ g.reserved = (false, false, false) := by
  induction pieces with
  | nil => simp [rfcFragments]
  | cons p ps ih =>
    cases ps with
    | nil => simp [rfcFragments]
    | cons q ps =>
      simp only [rfcFragments, List.forall_mem_cons]
      exact ⟨⟨trivial, trivial⟩, ih⟩

theorem rfcFragments_eq (o : Opcode) (f : WsFrame) (rest : List WsFrame) (hf : FinOnLast (f :: rest))
    (ho : f.opcode = o) (hr : f.reserved = (false, false, false))
    (hc : ∀ g ∈ rest, g.opcode = .continuation ∧ g.reserved = (false, false, false)) :
    f :: rest = rfcFragments o ((f :: rest).map (·.data)) := by
  induction rest generalizing f o with
  | nil =>
    obtain ⟨fin, r, op, d⟩ := f
    have hf : fin = true := hf
    subst hf ho hr
    rfl
  | cons g gs ih =>
    obtain ⟨fin, r, op, d⟩ := f
    obtain ⟨h1, h2⟩ := hf
    have h1 : fin = false := h1
    subst h1 ho hr
    simp only [List.map_cons, rfcFragments, List.cons.injEq, true_and]
    have := ih .continuation g h2 (hc g (by simp)).1 (hc g (by simp)).2 fun x hx => hc x (by simp [hx])
    simpa using this

/-- C84: on frames with FIN where it has to be, for unfragmented control messages and allowed codes, exactly the
messages are accepted. -/
theorem C84_accepts_iff_partial (fs : List WsFrame) (m : OwnedMessage) (hf : FinOnLast fs)
    (hc : IsControl (msgOpcode m) → fs.length = 1) (hm : CodeAllowed m) :
    OwnedMessage.fromFrames (fs.map WsFrame.toFrameable) = .ok m ↔ Rfc6455Message fs m := by
  rw [C32_accepts_iff]
  constructor
  · rintro ⟨ht, f, rest, rfl, h1, h2, h3, h4⟩
    exact ⟨ht, hm, _, by simp, h4, rfcFragments_eq _ f rest hf h3 h1 h2, by simpa using hc⟩
  · rintro ⟨ht, -, pieces, hne, hp, rfl, -⟩
    refine ⟨ht, ?_⟩
    match pieces, hne with
    | [p], _ => exact ⟨_, [], rfl, rfl, by simp, rfl, by rw [rfcFragments_data]; exact hp⟩
    | p :: q :: ps, _ => exact ⟨_, _, rfl, rfl, rfcFragments_cont _, rfl, by rw [rfcFragments_data]; exact hp⟩

/-- C84: everything that is a message is accepted. -/
theorem C84_conforming_partial (fs : List WsFrame) (m : OwnedMessage) (h : Rfc6455Message fs m) :
    OwnedMessage.fromFrames (fs.map WsFrame.toFrameable) = .ok m := by
  refine (C84_accepts_iff_partial fs m ?_ ?_ h.2.1).mpr h
  · obtain ⟨-, -, ps, -, -, rfl, -⟩ := h
    exact rfcFragments_fin _ ps
  · obtain ⟨-, -, ps, -, -, rfl, hc⟩ := h
    intro hi
    rw [← List.length_map (f := fun g : WsFrame => g.data), rfcFragments_data]
    exact hc hi

example : Rfc6455Message [⟨false, (false, false, false), .text, [104]⟩, ⟨false, (false, false, false), .continuation, []⟩,
    ⟨true, (false, false, false), .continuation, [105]⟩] (.text (asciiBytes "hi")) :=
  ⟨by unfold MsgTyped; decide +kernel, trivial, [[104], [], [105]], by simp, by decide +kernel, rfl,
    fun h => absurd h (by unfold IsControl; decide)⟩

/-- C84, violated: the FIN bits are not looked at, so a message that is not finished, or one after whose end more
comes, is accepted as if it were. -/
theorem C84_violated_fin (fs gs : List WsFrame) (m : OwnedMessage)
    (h : OwnedMessage.fromFrames (fs.map WsFrame.toFrameable) = .ok m)
    (hg : gs.map (fun f => (f.reserved, f.opcode, f.data)) = fs.map (fun f => (f.reserved, f.opcode, f.data))) :
    OwnedMessage.fromFrames (gs.map WsFrame.toFrameable) = .ok m := by
  have hd : gs.map (·.data) = fs.map (·.data) := by
    have := congrArg (List.map fun t => t.2.2) hg
    simpa [List.map_map, Function.comp_def] using this
  rw [C32_accepts_iff] at h ⊢
  obtain ⟨ht, f, rest, rfl, h1, h2, h3, h4⟩ := h
  match gs, hg, hd with
  | g :: gs, hg, hd =>
    simp only [List.map_cons, List.cons.injEq, Prod.mk.injEq] at hg
    simp only [List.map_cons, List.cons.injEq] at hd
    obtain ⟨⟨e1, e2, e3⟩, hg⟩ := hg
    refine ⟨ht, g, gs, rfl, e1.trans h1, ?_, e2.trans h3, by rw [List.map_cons, hd.1, hd.2]; exact h4⟩
    intro x hx
    have : (x.reserved, x.opcode, x.data) ∈ rest.map (fun f : WsFrame => (f.reserved, f.opcode, f.data)) := by
      rw [← hg]
      exact List.mem_map_of_mem (f := fun f : WsFrame => (f.reserved, f.opcode, f.data)) hx
    obtain ⟨y, hy, e⟩ := List.mem_map.mp this
    simp only [Prod.mk.injEq] at e
    have := h2 y hy
    exact ⟨e.2.1 ▸ this.1, e.1 ▸ this.2⟩

/-- C84, violated: a control message in any number of fragments is accepted (each frame with FIN, so that they can
all be read). -/
theorem C84_violated_control (m : OwnedMessage) (ht : MsgTyped m) (hc : IsControl (msgOpcode m))
    (pieces : List Bytes) (h2 : 2 ≤ pieces.length) (hp : pieces.flatten = msgPayload m) :
    OwnedMessage.fromFrames ((fragments (msgOpcode m) (pieces.map fun p => (true, p))).map WsFrame.toFrameable) =
        .ok m ∧
      ¬ Rfc6455Message (fragments (msgOpcode m) (pieces.map fun p => (true, p))) m := by
  refine ⟨C32_reassemble m ht _ ?_ ?_, ?_⟩
  · intro e
    rw [List.map_eq_nil_iff] at e
    subst e
    simp at h2
  · simpa [List.map_map, Function.comp_def] using hp
  · rintro ⟨-, -, ps, -, -, e, h1⟩
    have e := congrArg List.length e
    have hl : ∀ o (ps : List (Bool × Bytes)), (fragments o ps).length = ps.length := by
      intro o ps
      induction ps generalizing o with
      | nil => rfl
      | cons p ps ih => simp [fragments, ih]
    rw [hl, List.length_map, ← List.length_map (f := fun g : WsFrame => g.data) (as := rfcFragments _ _),
      rfcFragments_data, h1 hc] at e
    omega

/-- C84, violated: every code is accepted in a close message. -/
theorem C84_violated_code (code : Nat) (hc : code < 2 ^ 16) :
    OwnedMessage.fromFrames
      ([(⟨true, (false, false, false), .close, msgPayload (.close (some ⟨code, []⟩))⟩ : WsFrame)].map
        WsFrame.toFrameable) = .ok (.close (some ⟨code, []⟩)) :=
  C32_reassemble (.close (some ⟨code, []⟩)) ⟨rfl, hc⟩ [(true, _)] (by simp) (by simp)

/-- C84 does not hold of the code. -/
theorem C84_violated : ¬ C84_statement := by
  intro h
  obtain ⟨-, h1, -⟩ := (h _ _ (by
    intro f hf
    simp only [List.mem_singleton] at hf
    subst hf
    exact ⟨by decide, fun _ => by decide⟩)).mp (C84_violated_code 1005 (by decide))
  exact h1.2.1 rfl

/-! ## C85 -/

/-- C85, the full claim: a frame of which only a part has arrived gives an error and can be read when the rest has
arrived. -/
def C85_statement : Prop :=
  ∀ (masked : Bool) (key : Option MaskKey) (f : WsFrame), WsFrameOk f → ∀ a b, wsWireFrame key f = a ++ b → b ≠ [] →
    ∃ e left, readFrameSt masked a = (.err e, left) ∧ readFrameSt masked (left ++ b) = (.ok f, [])

/-- C85: a part of a frame gives the I/O error that stands for missing bytes, never another one. -/
theorem C85_waits_partial (masked : Bool) (key : Option MaskKey) (f : WsFrame) (ok : WsFrameOk f) (a b : Bytes)
    (h : wsWireFrame key f = a ++ b) (hb : b ≠ []) : (readFrameSt masked a).1 = .err .io := by
  rw [readFrameSt_err_iff]
  rw [wire_header] at h
  have hok := frame_header_ok f ok key
  rcases List.append_eq_append_iff.mp h with ⟨c, h1, h2⟩ | ⟨c, h1, h2⟩
  · unfold wsRead
    rw [h1, read_write_header _ hok]
    have hl : c.length < f.data.length := by
      rw [← maskedOpt_length key f.data, h2, List.length_append]
      have := List.length_pos_iff.mpr hb
      omega
    simp only [Res.bind_ok]
    rw [if_pos (show c.length < (f.header key).len from hl)]
  · by_cases hc : c = []
    · subst hc
      unfold wsRead
      rw [List.append_nil] at h1
      have := read_write_header _ hok []
      rw [List.append_nil, h1] at this
      rw [this]
      simp only [Res.bind_ok]
      have hd : 0 < f.data.length := by
        rw [← maskedOpt_length key f.data]
        rw [List.nil_append] at h2
        rw [← h2]
        exact List.length_pos_iff.mpr hb
      rw [if_pos (show ([] : Bytes).length < (f.header key).len from hd)]
    · unfold wsRead
      rw [readHeader_prefix _ hok a c hc h1]
      rfl

/-- C85: a caller that keeps the bytes itself and starts again when more have arrived gets the frame. -/
theorem C85_again_partial (masked : Bool) (key : Option MaskKey) (f : WsFrame) (ok : WsFrameOk f) (a b rest : Bytes)
    (h : wsWireFrame key f = a ++ b) : readFrameSt masked (a ++ b ++ rest) = (.ok f, rest) := by
  rw [← h]
  exact (C83_taken_iff_partial masked _ rest f).mpr ⟨ok, key, rfl⟩

/-- C85, violated: what was read of the header is gone.  For frames that are not masked, whatever their part that
arrived first, and for masked ones if their header arrived, going on with the reader never gives the frame. -/
theorem C85_violated_always (masked : Bool) (key : Option MaskKey) (f : WsFrame) (ok : WsFrameOk f) (a b : Bytes)
    (h : wsWireFrame key f = a ++ b) (ha : a ≠ []) (hb : b ≠ [])
    (hk : key = none ∨ (wsWireFrame key f).length - f.data.length ≤ a.length) (left rest : Bytes) (e : Error)
    (hl : readFrameSt masked a = (.err e, left)) : readFrameSt masked (left ++ b) ≠ (.ok f, rest) := by
  intro hr
  obtain ⟨-, key', hw⟩ := (C83_taken_iff_partial masked _ rest f).mp hr
  have hlen := congrArg List.length hw
  have hlen2 := congrArg List.length h
  rw [List.length_append, List.length_append] at hlen
  rw [List.length_append] at hlen2
  rcases hk with rfl | hk
  · have h1 := wire_length_none_le f key'
    have h2 : left.length < a.length := by
      match a, ha with
      | x :: xs, _ =>
        have := readFrameSt_lt masked x xs
        rw [hl] at this
        simp only [List.length_cons]
        exact Nat.lt_succ_of_le this
    omega
  · have h1 := wsFrame_wire_length f key'
    have hok := frame_header_ok f ok key
    rw [wire_header] at h
    have hh : (wsWireHeader (f.header key).flags.toNat (f.header key).opcode.toNat (f.header key).mask
        (f.header key).len).length ≤ a.length := by
      rw [wire_header, List.length_append, maskedOpt_length] at hk
      omega
    have : ∃ c, a = wsWireHeader (f.header key).flags.toNat (f.header key).opcode.toNat (f.header key).mask
        (f.header key).len ++ c ∧ maskedOpt key f.data = c ++ b := by
      rcases List.append_eq_append_iff.mp h with ⟨c, h1, h2⟩ | ⟨c, h1, h2⟩
      · exact ⟨c, h1, h2⟩
      · have := congrArg List.length h1
        rw [List.length_append] at this
        have hc : c = [] := List.length_eq_zero_iff.mp (by omega)
        subst hc
        exact ⟨[], by rw [h1]; simp, by simpa using h2.symm⟩
    obtain ⟨c, rfl, hc⟩ := this
    have s := same_readHeader (wsWireHeader (f.header key).flags.toNat (f.header key).opcode.toNat
      (f.header key).mask (f.header key).len ++ c)
    rw [read_write_header _ hok] at s
    have s : readHeaderSt _ = (.ok (f.header key), c) := s
    have hcl : c.length < f.data.length := by
      rw [← maskedOpt_length key f.data, hc, List.length_append]
      have := List.length_pos_iff.mpr hb
      omega
    unfold readFrameSt at hl
    rw [s] at hl
    simp only [thenRead] at hl
    rw [if_pos (show c.length < (f.header key).len from hcl)] at hl
    have : left = c := (congrArg Prod.snd hl).symm
    subst this
    have hcb := congrArg List.length hc
    rw [maskedOpt_length, List.length_append] at hcb
    omega

/-- A frame of two bytes; after one of them and then the other, another frame is read than was sent. -/
example : readFrameSt false [0x82, 3, 0x81] = (.err .io, [0x81]) ∧
    readFrameSt false ([0x81] ++ [1, 65]) = (.ok ⟨true, (false, false, false), .text, [65]⟩, []) := by decide

/-- C85 does not hold of the code. -/
theorem C85_violated : ¬ C85_statement := by
  intro h
  have ok : WsFrameOk ⟨true, (false, false, false), .binary, [0x81, 1, 65]⟩ := ⟨by decide, fun h => absurd h (by
    unfold IsControl; decide)⟩
  obtain ⟨e, left, h1, h2⟩ := h false none _ ok [0x82, 3, 0x81] [1, 65] (by decide) (by simp)
  exact C85_violated_always false none _ ok [0x82, 3, 0x81] [1, 65] (by decide) (by simp) (by simp) (.inl rfl)
    left [] e h1 h2

end Webparse
