import Verif.Model.WsReader
import Verif.Spec.Rfc6455
import Verif.Proofs.Ws

/-! Readers that return what is left, and those that do not. -/

namespace Webparse
open Spec

/-- The second reader gives the same, and what is left. -/
def SameRead {α : Type} (x : Res (α × Bytes)) (y : Res α × Bytes) : Prop :=
  match x with
  | .ok (a, r) => y = (.ok a, r)
  | .err e => y.1 = .err e
  | .panic => y.1 = .panic

theorem SameRead.bind {α β : Type} {x : Res (α × Bytes)} {y : Res α × Bytes} {f : α × Bytes → Res (β × Bytes)}
    {g : α → Bytes → Res β × Bytes} (h : SameRead x y) (hf : ∀ a r, SameRead (f (a, r)) (g a r)) :
    SameRead (x >>= f) (thenRead y g) := by
  cases x with
  | ok p =>
    obtain ⟨a, r⟩ := p
    have : y = (.ok a, r) := h
    subst this
    exact hf a r
  | err e =>
    obtain ⟨y1, y2⟩ := y
    have : y1 = .err e := h
    subst this
    rfl
  | panic =>
    obtain ⟨y1, y2⟩ := y
    have : y1 = .panic := h
    subst this
    rfl

theorem same_getBe (k : Nat) (buf : Bytes) : SameRead (tryGetBe k buf) (getBe k buf) := by
  unfold tryGetBe getBe
  split
  · rfl
  · rfl

theorem same_readLen (b : UInt8) (buf : Bytes) : SameRead (wsReadLen b buf) (readLenSt b buf) := by
  unfold wsReadLen readLenSt
  simp only
  split
  · rfl
  · split
    · refine (same_getBe 2 buf).bind fun a r => ?_
      simp only
      split <;> rfl
    · refine (same_getBe 8 buf).bind fun a r => ?_
      simp only
      split <;> rfl

theorem same_readMask (b : UInt8) (buf : Bytes) : SameRead (wsReadMask b buf) (readMaskSt b buf) := by
  unfold wsReadMask readMaskSt
  split
  · match buf with
    | [] => rfl
    | [_] => rfl
    | [_, _] => rfl
    | [_, _, _] => rfl
    | _ :: _ :: _ :: _ :: _ => rfl
  · rfl

theorem same_readHeader (buf : Bytes) : SameRead (wsReadHeader buf) (readHeaderSt buf) := by
  unfold wsReadHeader readHeaderSt
  match buf with
  | [] => rfl
  | [_] => rfl
  | b0 :: b1 :: rest =>
    simp only [getByte, thenRead]
    refine (same_readLen b1 rest).bind fun len r => ?_
    simp only
    split
    · rfl
    · split
      · rfl
      · exact (same_readMask b1 r).bind fun m r => rfl

theorem same_readFrame (masked : Bool) (buf : Bytes) : SameRead (wsRead buf) (readFrameSt masked buf) := by
  unfold wsRead readFrameSt
  refine (same_readHeader buf).bind fun h r => ?_
  simp only
  split
  · rfl
  · cases wsReadBody h (r.take h.len) <;> rfl

theorem readFrameSt_ok_iff (masked : Bool) (buf rest : Bytes) (f : WsFrame) :
    readFrameSt masked buf = (.ok f, rest) ↔ wsRead buf = .ok (f, rest) := by
  have := same_readFrame masked buf
  unfold SameRead at this
  constructor
  · intro h
    rw [h] at this
    split at this
    · rename_i a r e
      cases this
      exact e
    · cases this
    · cases this
  · intro h
    rw [h] at this
    exact this

theorem readFrameSt_err_iff (masked : Bool) (buf : Bytes) (e : Error) :
    (readFrameSt masked buf).1 = .err e ↔ wsRead buf = .err e := by
  have := same_readFrame masked buf
  unfold SameRead at this
  constructor
  · intro h
    split at this
    · rw [this] at h; cases h
    · rename_i e' h'
      rw [h] at this
      cases this
      exact h'
    · rw [h] at this; cases this
  · intro h
    rw [h] at this
    exact this

/-! ## Readers only take bytes -/

theorem thenRead_le {α β : Type} {n : Nat} {x : Res α × Bytes} {f : α → Bytes → Res β × Bytes}
    (hx : x.2.length ≤ n) (hf : ∀ a (r : Bytes), r.length ≤ n → (f a r).2.length ≤ n) :
    (thenRead x f).2.length ≤ n := by
  obtain ⟨r, b⟩ := x
  cases r with
  | ok a => exact hf a b hx
  | err e => exact hx
  | panic => exact hx

theorem getByte_le {n : Nat} {buf : Bytes} (h : buf.length ≤ n) : (getByte buf).2.length ≤ n := by
  cases buf with
  | nil => exact h
  | cons b r => simp only [getByte]; simp only [List.length_cons] at h; omega

theorem getBe_le {n : Nat} (k : Nat) {buf : Bytes} (h : buf.length ≤ n) : (getBe k buf).2.length ≤ n := by
  unfold getBe
  split
  · exact h
  · simp only [List.length_drop]; omega

theorem readLenSt_le {n : Nat} (b : UInt8) {buf : Bytes} (h : buf.length ≤ n) : (readLenSt b buf).2.length ≤ n := by
  unfold readLenSt
  simp only
  split
  · exact h
  · split
    · exact thenRead_le (getBe_le 2 h) fun a r hr => by split <;> exact hr
    · exact thenRead_le (getBe_le 8 h) fun a r hr => by split <;> exact hr

theorem readMaskSt_le {n : Nat} (b : UInt8) {buf : Bytes} (h : buf.length ≤ n) : (readMaskSt b buf).2.length ≤ n := by
  unfold readMaskSt
  split
  · exact thenRead_le (getByte_le h) fun _ r hr => thenRead_le (getByte_le hr) fun _ r hr =>
      thenRead_le (getByte_le hr) fun _ r hr => thenRead_le (getByte_le hr) fun _ r hr => hr
  · exact h

theorem readHeaderSt_lt (b : UInt8) (buf : Bytes) : (readHeaderSt (b :: buf)).2.length ≤ buf.length := by
  unfold readHeaderSt
  simp only [getByte, thenRead]
  refine thenRead_le (getByte_le (Nat.le_refl _)) fun b1 r hr => thenRead_le (readLenSt_le b1 hr) fun len r hr => ?_
  split
  · exact hr
  · split
    · exact hr
    · exact thenRead_le (readMaskSt_le b1 hr) fun _ r hr => hr

/-- Whatever happens, at least one byte is taken if there is one. -/
theorem readFrameSt_lt (masked : Bool) (b : UInt8) (buf : Bytes) :
    (readFrameSt masked (b :: buf)).2.length ≤ buf.length := by
  unfold readFrameSt
  refine thenRead_le (readHeaderSt_lt b buf) fun h r hr => ?_
  split
  · exact hr
  · simp only [List.length_drop]; omega

/-! ## Prefixes of a frame -/

theorem readLen_short (len : Nat) (b : UInt8) (hb : b &&& 0x7F = lenByte len) (q : Bytes)
    (hq : q.length < (lenExt len).length) : wsReadLen b q = .err .io := by
  unfold wsReadLen
  simp only [hb]
  by_cases h1 : len ≤ 125
  · rw [(len_small h1).2] at hq
    simp at hq
  · by_cases h2 : len ≤ 65535
    · obtain ⟨e1, e2⟩ := len_medium h1 h2
      rw [e2] at hq
      simp only [beBytes_length] at hq
      rw [e1, if_neg (by decide), if_pos rfl]
      unfold tryGetBe
      rw [if_pos hq]
      rfl
    · obtain ⟨e1, e2⟩ := len_large h2
      rw [e2] at hq
      simp only [beBytes_length] at hq
      rw [e1, if_neg (by decide), if_neg (by decide)]
      unfold tryGetBe
      rw [if_pos hq]
      rfl

theorem readMask_short (key : Option MaskKey) (b : UInt8) (hb : b &&& 0x80 = 0x80 ↔ key.isSome = true) (q : Bytes)
    (hq : q.length < (maskBytes key).length) : wsReadMask b q = .err .io := by
  cases key with
  | none => simp [maskBytes] at hq
  | some k =>
    unfold wsReadMask
    rw [if_pos (by rw [hb]; rfl)]
    match q, hq with
    | [], _ => rfl
    | [_], _ => rfl
    | [_, _], _ => rfl
    | [_, _, _], _ => rfl
    | _ :: _ :: _ :: _ :: _, hq => simp [maskBytes, MaskKey.toList] at hq; omega

/-- A strict prefix of a header: more bytes are needed. -/
theorem readHeader_prefix (h : WsHeader) (ok : WsHeaderOk h) (p t : Bytes) (ht : t ≠ [])
    (hp : wsWireHeader h.flags.toNat h.opcode.toNat h.mask h.len = p ++ t) : wsReadHeader p = .err .io := by
  have e1 := writeHeader_wire h ok.flags ok.opcode (fun a => (ok.control a).1)
  rw [writeHeader_eq h ok.opcode (fun a => (ok.control a).1), hp] at e1
  have e1 := Res.ok.inj e1
  obtain ⟨_, f2, f3⟩ := byte0_facts h.flags h.opcode ok.flags ok.opcode
  obtain ⟨m1, m2, m3, m4, _, _⟩ := byte1_mask (lenByte h.len) (lenByte_lt h.len)
  have hb1 : ∀ s : Bool, ((if s then (0x80 : UInt8) else 0x00) ||| lenByte h.len) &&& 0x7F = lenByte h.len := by
    intro s; cases s
    · exact m3
    · exact m1
  have hb2 : ∀ s : Bool, ((if s then (0x80 : UInt8) else 0x00) ||| lenByte h.len) &&& 0x80 = 0x80 ↔ s = true := by
    intro s; cases s
    · simpa using m4
    · simpa using m2
  match p, e1 with
  | [], _ => rfl
  | [_], _ => rfl
  | b0 :: b1 :: q, e1 =>
    simp only [List.cons_append, List.cons.injEq] at e1
    obtain ⟨e0, e1, e2⟩ := e1
    simp only [wsReadHeader]
    rw [← e0, ← e1]
    by_cases hl : q.length < (lenExt h.len).length
    · rw [readLen_short h.len _ (hb1 _) q hl]
      rfl
    · obtain ⟨q', rfl⟩ : ∃ q', q = lenExt h.len ++ q' := by
        have := List.append_eq_append_iff.mp e2
        rcases this with ⟨a, h1, h2⟩ | ⟨c, h1, h2⟩
        · exact ⟨a, h1⟩
        · refine ⟨[], ?_⟩
          have := congrArg List.length h1
          rw [List.length_append] at this
          have hc : c = [] := List.length_eq_zero_iff.mp (by omega)
          rw [h1, hc, List.append_nil, List.append_nil]
      rw [List.append_assoc] at e2
      have e3 := List.append_cancel_left e2
      rw [readLen_enc h.len ok.len _ (hb1 _)]
      simp only [Res.bind_ok, f2, f3]
      rw [if_neg (by rintro ⟨a, b⟩; have := (ok.control a).1; omega),
        if_neg (by rintro ⟨a, b⟩; exact b (ok.control a).2), readMask_short h.mask _ (hb2 _) q' ?_]
      · rfl
      · have := congrArg List.length e3
        rw [List.length_append] at this
        have : 0 < t.length := List.length_pos_iff.mpr ht
        omega

/-! ## The bytes of a frame -/

theorem flags_nat (f : WsFrame) : f.toFrameable.flags.toNat = wsFlagBits f := by
  obtain ⟨fin, ⟨a, b, c⟩, o, d⟩ := f
  exact (by decide : ∀ fin a b c : Bool,
    ((if fin then wsFin else 0) ||| (if a then wsRsv1 else 0) ||| (if b then wsRsv2 else 0) |||
      (if c then wsRsv3 else 0)).toNat =
    (if fin then 128 else 0) + (if a then 64 else 0) + (if b then 32 else 0) + (if c then 16 else 0)) fin a b c

theorem maskedOpt_length (key : Option MaskKey) (d : Bytes) : (maskedOpt key d).length = d.length := by
  cases key with
  | none => rfl
  | some k => simp [maskedOpt, masked]

theorem wire_writeTo (f : WsFrame) (ok : WsFrameOk f) (key : Option MaskKey) :
    f.toFrameable.writeTo key = .ok (wsWireFrame key f, 0) := by
  obtain ⟨out, h1, h2, -⟩ := read_written f.toFrameable f.opcode key [] rfl (by simp [WsFrame.toFrameable])
    ok.len ok.control
  rw [h1, h2, flags_nat]
  simp [wsWireFrame, WsFrame.toFrameable]

/-- The header of a frame. -/
def WsFrame.header (key : Option MaskKey) (f : WsFrame) : WsHeader :=
  ⟨f.toFrameable.flags, f.opcode.toByte, key, f.data.length⟩

theorem frame_header_ok (f : WsFrame) (ok : WsFrameOk f) (key : Option MaskKey) : WsHeaderOk (f.header key) := by
  obtain ⟨b1, b2, -⟩ := flags_bits f.finished f.reserved.1 f.reserved.2.1 f.reserved.2.2
  refine ⟨b1, (opcode_new f.opcode).2, ok.len, fun h => ⟨(ok.control h).1, ?_⟩⟩
  have := (ok.control h).2
  rw [this] at b2
  have b3 := of_decide_eq_true b2
  show f.toFrameable.flags &&& 0x80 = 0x80
  unfold Frameable.flags WsFrame.toFrameable
  rw [this]
  exact b3

theorem wire_header (f : WsFrame) (key : Option MaskKey) : wsWireFrame key f =
    wsWireHeader (f.header key).flags.toNat (f.header key).opcode.toNat (f.header key).mask (f.header key).len ++
      maskedOpt key f.data := by
  unfold wsWireFrame WsFrame.header
  rw [flags_nat]

theorem wsFrame_wire_length (f : WsFrame) (key : Option MaskKey) : f.data.length + 2 ≤ (wsWireFrame key f).length := by
  unfold wsWireFrame wsWireHeader
  simp only [List.length_append, maskedOpt_length, List.length_cons, List.length_nil]
  split
  · simp only [List.length_cons, List.length_nil]; omega
  · split
    · simp only [List.length_cons, List.length_nil]; omega
    · simp only [List.length_cons, List.length_nil]; omega

theorem wire_length_none_le (f : WsFrame) (key : Option MaskKey) :
    (wsWireFrame none f).length ≤ (wsWireFrame key f).length := by
  unfold wsWireFrame wsWireHeader
  simp only [List.length_append, maskedOpt_length, List.length_cons, List.length_nil]
  by_cases h1 : f.data.length < 126
  · simp only [h1, if_true, List.length_cons, List.length_nil]; omega
  · by_cases h2 : f.data.length < 2 ^ 16
    · simp only [h1, h2, if_true, if_false, List.length_cons, List.length_nil]; omega
    · simp only [h1, h2, if_false, List.length_cons, List.length_nil]; omega

end Webparse
