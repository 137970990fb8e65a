import Verif.Spec.Ws
import Verif.Proofs.Basic
import Verif.Proofs.Utf8

/-! Lemmas about WebSocket frames. -/

namespace Webparse
open Spec

/-! ## Bits -/

theorem high_nibble (f : UInt8) (h : f &&& 0x0F = 0) : ∃ i : Fin 16, f = UInt8.ofNat (16 * i.val) := by
  revert h; revert f; decide +kernel

theorem low_nibble (o : UInt8) (h : o < 16) : ∃ j : Fin 16, o = UInt8.ofNat j.val := by
  revert h; revert o; decide +kernel

theorem byte0_facts (f o : UInt8) (hf : f &&& 0x0F = 0) (ho : o < 16) :
    f ||| o = UInt8.ofNat (f.toNat + o.toNat) ∧ wsFlagsTruncate (f ||| o) = f ∧ (f ||| o) &&& 0x0F = o := by
  obtain ⟨i, rfl⟩ := high_nibble f hf
  obtain ⟨j, rfl⟩ := low_nibble o ho
  revert i j
  decide +kernel

theorem byte0_split (b : UInt8) : wsFlagsTruncate b ||| (b &&& 0x0F) = b ∧ wsFlagsTruncate b &&& 0x0F = 0 ∧
    b &&& 0x0F < 16 := by
  revert b; decide +kernel

theorem byte1_mask (x : UInt8) (h : x < 128) : (0x80 ||| x) &&& 0x7F = x ∧ (0x80 ||| x) &&& 0x80 = 0x80 ∧
    (0x00 ||| x) &&& 0x7F = x ∧ (0x00 ||| x) &&& 0x80 ≠ 0x80 ∧ 0x80 ||| x = UInt8.ofNat (128 + x.toNat) ∧
    0x00 ||| x = UInt8.ofNat (0 + x.toNat) := by
  revert h; revert x; decide +kernel

theorem byte1_split (b : UInt8) :
    (if b &&& 0x80 = 0x80 then 0x80 else 0x00) ||| (b &&& 0x7F) = b ∧ b &&& 0x7F < 128 := by
  revert b; decide +kernel

theorem ofNat_small {n : Nat} (h : n < 256) : (UInt8.ofNat n).toNat = n := by simp; omega

theorem ofNat_mod (n : Nat) : UInt8.ofNat (n % 256) = UInt8.ofNat n := by
  apply UInt8.toNat_inj.mp; simp

/-! ## Headers -/

/-- The length field and the extended length. -/
def lenByte (len : Nat) : UInt8 := if len ≤ 125 then UInt8.ofNat len else if len ≤ 65535 then 126 else 127
def lenExt (len : Nat) : Bytes :=
  if len ≥ 126 ∧ len ≤ 65535 then beBytes 2 len else if len > 65535 then beBytes 8 len else []

theorem lenByte_lt (len : Nat) : lenByte len < 128 := by
  unfold lenByte
  split
  · rw [UInt8.lt_iff_toNat_lt, ofNat_small (by omega)]; show len < 128; omega
  · split <;> decide

theorem tryGetBe_append (k : Nat) (a rest : Bytes) (h : a.length = k) :
    tryGetBe k (a ++ rest) = .ok (beNat a, rest) := by
  unfold tryGetBe
  rw [if_neg (by simp; omega), List.take_left' h, List.drop_left' h]

theorem len_small {len : Nat} (h : len ≤ 125) : lenByte len = UInt8.ofNat len ∧ lenExt len = [] := by
  unfold lenByte lenExt
  rw [if_pos h, if_neg (by omega), if_neg (by omega)]
  exact ⟨rfl, rfl⟩

theorem len_medium {len : Nat} (h1 : ¬ len ≤ 125) (h : len ≤ 65535) :
    lenByte len = 126 ∧ lenExt len = beBytes 2 len := by
  unfold lenByte lenExt
  rw [if_neg h1, if_pos h, if_pos (by omega)]
  exact ⟨rfl, rfl⟩

theorem len_large {len : Nat} (h1 : ¬ len ≤ 65535) : lenByte len = 127 ∧ lenExt len = beBytes 8 len := by
  unfold lenByte lenExt
  rw [if_neg (by omega : ¬ len ≤ 125), if_neg h1, if_neg (by omega), if_pos (by omega)]
  exact ⟨rfl, rfl⟩

theorem readLen_enc (len : Nat) (hlen : len < 2 ^ 64) (b : UInt8) (hb : b &&& 0x7F = lenByte len)
    (rest : Bytes) : wsReadLen b (lenExt len ++ rest) = .ok (len, rest) := by
  unfold wsReadLen
  simp only [hb]
  by_cases h1 : len ≤ 125
  · obtain ⟨e1, e2⟩ := len_small h1
    rw [e1, e2, if_pos, ofNat_small (by omega)]
    · simp
    · rw [UInt8.le_iff_toNat_le, ofNat_small (by omega)]; exact h1
  · by_cases h2 : len ≤ 65535
    · obtain ⟨e1, e2⟩ := len_medium h1 h2
      rw [e1, e2, if_neg (by decide), if_pos rfl,
        tryGetBe_append 2 _ _ (by simp), beNat_beBytes_of_lt (by omega)]
      simp only [Res.bind_ok]
      rw [if_neg h1]
    · obtain ⟨e1, e2⟩ := len_large h2
      rw [e1, e2, if_neg (by decide), if_neg (by decide),
        tryGetBe_append 8 _ _ (by simp), beNat_beBytes_of_lt (by omega)]
      simp only [Res.bind_ok]
      rw [if_neg h2]

theorem readMask_enc (key : Option MaskKey) (b : UInt8) (hb : b &&& 0x80 = 0x80 ↔ key.isSome = true)
    (rest : Bytes) :
    wsReadMask b (maskBytes key ++ rest) = .ok (key, rest) := by
  unfold wsReadMask
  cases key with
  | none => rw [if_neg (by rw [hb]; simp)]; rfl
  | some k => rw [if_pos (by rw [hb]; rfl)]; rfl

theorem writeHeader_eq (h : WsHeader) (h1 : h.opcode < 16) (h2 : 8 ≤ h.opcode → h.len < 126) :
    wsWriteHeader h = .ok ((h.flags ||| h.opcode) ::
      ((if h.mask.isSome then 0x80 else 0x00) ||| lenByte h.len) ::
      (lenExt h.len ++ maskBytes h.mask)) := by
  unfold wsWriteHeader
  rw [if_neg (by rw [gt_iff_lt, UInt8.lt_iff_toNat_lt]; rw [UInt8.lt_iff_toNat_lt] at h1; simp at h1 ⊢; omega),
    if_neg (by rintro ⟨a, b⟩; have := h2 a; omega)]
  rfl

theorem writeHeader_wire (h : WsHeader) (hf : h.flags &&& 0x0F = 0) (h1 : h.opcode < 16)
    (h2 : 8 ≤ h.opcode → h.len < 126) :
    wsWriteHeader h = .ok (wsWireHeader h.flags.toNat h.opcode.toNat h.mask h.len) := by
  rw [writeHeader_eq h h1 h2]
  have hb0 := (byte0_facts h.flags h.opcode hf h1).1
  rw [hb0]
  obtain ⟨m1, m2, m3, m4, m5, m6⟩ := byte1_mask (lenByte h.len) (lenByte_lt h.len)
  have hb1 : (if h.mask.isSome then (0x80 : UInt8) else 0x00) ||| lenByte h.len
      = UInt8.ofNat ((if h.mask = none then 0 else 128) + (lenByte h.len).toNat) := by
    cases h.mask with
    | none => exact m6
    | some k => exact m5
  rw [hb1]
  unfold wsWireHeader
  have hd : ∀ n, UInt8.ofNat (n / 1 % 256) = UInt8.ofNat n := by intro n; rw [Nat.div_one, ofNat_mod]
  congr 1
  simp only [List.cons_append, List.nil_append, List.cons.injEq, true_and]
  have hmb : (match h.mask with | some k => [k.k0, k.k1, k.k2, k.k3] | none => []) = maskBytes h.mask := by
    cases h.mask <;> rfl
  rw [← List.cons_append]
  congr 1
  generalize (if h.mask = none then 0 else 128) = mb
  by_cases a1 : h.len ≤ 125
  · obtain ⟨e1, e2⟩ := len_small a1
    rw [e1, e2, if_pos (by omega), ofNat_small (by omega)]
  · by_cases a2 : h.len ≤ 65535
    · obtain ⟨e1, e2⟩ := len_medium a1 a2
      rw [e1, e2, if_neg (by omega), if_pos (by omega)]
      simp only [beBytes, ofNat_mod]
      rfl
    · obtain ⟨e1, e2⟩ := len_large a2
      rw [e1, e2, if_neg (by omega), if_neg (by omega)]
      simp only [beBytes, ofNat_mod]
      rfl

theorem read_write_header (h : WsHeader) (ok : WsHeaderOk h) (rest : Bytes) :
    wsReadHeader (wsWireHeader h.flags.toNat h.opcode.toNat h.mask h.len ++ rest) = .ok (h, rest) := by
  have e1 := writeHeader_wire h ok.flags ok.opcode (fun a => (ok.control a).1)
  rw [writeHeader_eq h ok.opcode (fun a => (ok.control a).1)] at e1
  rw [← Res.ok.inj e1]
  obtain ⟨_, f2, f3⟩ := byte0_facts h.flags h.opcode ok.flags ok.opcode
  obtain ⟨m1, m2, m3, m4, _, _⟩ := byte1_mask (lenByte h.len) (lenByte_lt h.len)
  have hb1 : ∀ s : Bool, ((if s then (0x80 : UInt8) else 0x00) ||| lenByte h.len) &&& 0x7F = lenByte h.len := by
    intro s; cases s
    · exact m3
    · exact m1
  have hb2 : ∀ s : Bool, ((if s then (0x80 : UInt8) else 0x00) ||| lenByte h.len) &&& 0x80 = 0x80 ↔ s = true := by
    intro s; cases s
    · simpa using m4
    · simpa using m2
  simp only [wsReadHeader, List.cons_append, List.append_assoc]
  rw [readLen_enc h.len ok.len _ (hb1 _)]
  simp only [Res.bind_ok, f2, f3]
  rw [if_neg (by rintro ⟨a, b⟩; have := (ok.control a).1; omega),
    if_neg (by rintro ⟨a, b⟩; exact b (ok.control a).2), readMask_enc h.mask _ (hb2 _)]
  rfl

/-- What was read is what would be written. -/
theorem readLen_exact {b : UInt8} {buf rest : Bytes} {len : Nat} (h : wsReadLen b buf = .ok (len, rest)) :
    buf = lenExt len ++ rest ∧ b &&& 0x7F = lenByte len ∧ len < 2 ^ 64 := by
  unfold wsReadLen at h
  simp only at h
  have hlt := (byte1_split b).2
  generalize hs : b &&& 0x7F = s at h hlt
  split at h
  · rename_i h1
    simp only [Res.ok.injEq, Prod.mk.injEq] at h
    obtain ⟨rfl, rfl⟩ := h
    rw [UInt8.le_iff_toNat_le] at h1
    have h1' : s.toNat ≤ 125 := h1
    refine ⟨?_, ?_, by omega⟩
    · unfold lenExt; rw [if_neg (by omega), if_neg (by omega)]; rfl
    · unfold lenByte; rw [if_pos h1']; simp
  · rename_i h1
    rw [UInt8.le_iff_toNat_le] at h1
    have h1' : ¬ s.toNat ≤ 125 := h1
    have get : ∀ k v r, tryGetBe k buf = .ok (v, r) → buf = beBytes k v ++ r ∧ v < 256 ^ k := by
      intro k v r hg
      unfold tryGetBe at hg
      split at hg
      · simp at hg
      · rename_i hk
        simp only [Res.ok.injEq, Prod.mk.injEq] at hg
        obtain ⟨rfl, rfl⟩ := hg
        have hl : (buf.take k).length = k := by simp; omega
        refine ⟨?_, ?_⟩
        · have := beBytes_beNat (buf.take k)
          rw [hl] at this
          rw [this, List.take_append_drop]
        · have := beNat_lt (buf.take k)
          rwa [hl] at this
    split at h
    · rename_i h2
      rw [Res.bind_eq_ok] at h
      obtain ⟨⟨v, r⟩, hg, h⟩ := h
      obtain ⟨g1, g2⟩ := get _ _ _ hg
      simp only at h
      split at h
      · simp at h
      · simp only [Res.ok.injEq, Prod.mk.injEq] at h
        obtain ⟨rfl, rfl⟩ := h
        refine ⟨?_, ?_, by omega⟩
        · unfold lenExt; rw [if_pos (by omega)]; exact g1
        · unfold lenByte; rw [if_neg (by omega), if_pos (by omega), h2]
    · rename_i h2
      rw [Res.bind_eq_ok] at h
      obtain ⟨⟨v, r⟩, hg, h⟩ := h
      obtain ⟨g1, g2⟩ := get _ _ _ hg
      simp only at h
      split at h
      · simp at h
      · simp only [Res.ok.injEq, Prod.mk.injEq] at h
        obtain ⟨rfl, rfl⟩ := h
        refine ⟨?_, ?_, by omega⟩
        · unfold lenExt; rw [if_neg (by omega), if_pos (by omega)]; exact g1
        · unfold lenByte; rw [if_neg (by omega), if_neg (by omega)]
          exact (by decide +kernel : ∀ s : UInt8, s < 128 → ¬ s.toNat ≤ 125 → ¬ s = 126 → s = 127) s hlt h1' h2

theorem readMask_exact {b : UInt8} {buf rest : Bytes} {key : Option MaskKey}
    (h : wsReadMask b buf = .ok (key, rest)) :
    buf = maskBytes key ++ rest ∧ (b &&& 0x80 = 0x80 ↔ key.isSome = true) := by
  unfold wsReadMask at h
  split at h
  · rename_i hb
    split at h
    · simp only [Res.ok.injEq, Prod.mk.injEq] at h
      obtain ⟨rfl, rfl⟩ := h
      exact ⟨rfl, by simp [hb]⟩
    · simp at h
  · rename_i hb
    simp only [Res.ok.injEq, Prod.mk.injEq] at h
    obtain ⟨rfl, rfl⟩ := h
    exact ⟨rfl, by simp [hb]⟩

theorem readHeader_exact {buf rest : Bytes} {h : WsHeader} (hr : wsReadHeader buf = .ok (h, rest)) :
    WsHeaderOk h ∧ buf = wsWireHeader h.flags.toNat h.opcode.toNat h.mask h.len ++ rest := by
  match buf, hr with
  | [], hr => simp [wsReadHeader] at hr
  | [_], hr => simp [wsReadHeader] at hr
  | b0 :: b1 :: tl, hr =>
    simp only [wsReadHeader] at hr
    rw [Res.bind_eq_ok] at hr
    obtain ⟨⟨len, r1⟩, hl, hr⟩ := hr
    simp only at hr
    obtain ⟨l1, l2, l3⟩ := readLen_exact hl
    split at hr
    · simp at hr
    · rename_i c1
      split at hr
      · simp at hr
      · rename_i c2
        rw [Res.bind_eq_ok] at hr
        obtain ⟨⟨key, r2⟩, hm, hr⟩ := hr
        simp only [Res.ok.injEq, Prod.mk.injEq] at hr
        obtain ⟨rfl, rfl⟩ := hr
        obtain ⟨k1, k2⟩ := readMask_exact hm
        obtain ⟨s1, s2, s3⟩ := byte0_split b0
        have ok : WsHeaderOk ⟨wsFlagsTruncate b0, b0 &&& 0x0F, key, len⟩ := by
          refine ⟨s2, s3, l3, ?_⟩
          intro hc
          simp only at hc
          refine ⟨?_, ?_⟩
          · exact Nat.lt_of_not_le fun hge => c1 ⟨hc, hge⟩
          · simp only
            by_cases e : wsFlagsTruncate b0 &&& wsFin = wsFin
            · exact e
            · exact absurd ⟨hc, e⟩ c2
        refine ⟨ok, ?_⟩
        have e1 := writeHeader_wire _ ok.flags ok.opcode (fun a => (ok.control a).1)
        rw [writeHeader_eq _ ok.opcode (fun a => (ok.control a).1)] at e1
        rw [← Res.ok.inj e1]
        simp only [s1]
        have hb1 : ((if key.isSome then (0x80 : UInt8) else 0x00) ||| lenByte len) = b1 := by
          rw [← l2]
          have := (byte1_split b1).1
          by_cases hk : key.isSome = true
          · rw [if_pos (k2.mpr hk)] at this; rw [if_pos hk]; exact this
          · rw [if_neg (fun hh => hk (k2.mp hh))] at this; rw [if_neg hk]; exact this
        rw [hb1, l1, k1]
        simp

/-- A header cut short is an error. -/
theorem readHeader_total (buf : Bytes) : wsReadHeader buf ≠ .panic := by
  match buf with
  | [] => simp [wsReadHeader]
  | [_] => simp [wsReadHeader]
  | b0 :: b1 :: tl =>
    simp only [wsReadHeader]
    have hl : wsReadLen b1 tl ≠ .panic := by
      unfold wsReadLen tryGetBe
      simp only
      repeat' split
      all_goals try simp
      all_goals split <;> simp
    have hm : ∀ r, wsReadMask b1 r ≠ .panic := by
      intro r
      unfold wsReadMask
      repeat' split
      all_goals simp
    cases hx : wsReadLen b1 tl with
    | panic => exact absurd hx hl
    | err e => simp
    | ok r =>
      simp only [Res.bind_ok]
      split
      · simp
      · split
        · simp
        · cases hy : wsReadMask b1 r.2 with
          | panic => exact absurd hy (hm _)
          | err e => simp
          | ok r => simp

/-! ## Masking -/

/-- Octet `i mod 4` of the key. -/
def keyAt (k : MaskKey) (i : Nat) : UInt8 :=
  if i % 4 = 0 then k.k0 else if i % 4 = 1 then k.k1 else if i % 4 = 2 then k.k2 else k.k3

theorem keyAt_get (k : MaskKey) (pos : Nat) (h : pos < 4) : k.toList[pos]? = some (keyAt k pos) := by
  match pos, h with
  | 0, _ | 1, _ | 2, _ | 3, _ => rfl

theorem keyAt_mod (k : MaskKey) (i : Nat) : keyAt k (i % 4) = keyAt k i := by
  unfold keyAt; simp

/-- Masking from position `p` of the key on. -/
def maskFrom (k : MaskKey) (p : Nat) (data : Bytes) : Bytes := data.mapIdx fun i b => b ^^^ keyAt k (p + i)

theorem maskFrom_nil (k : MaskKey) (p : Nat) : maskFrom k p [] = [] := rfl

theorem maskFrom_cons (k : MaskKey) (p : Nat) (b : UInt8) (bs : Bytes) :
    maskFrom k p (b :: bs) = (b ^^^ keyAt k p) :: maskFrom k (p + 1) bs := by
  unfold maskFrom
  rw [List.mapIdx_cons]
  simp only [Nat.add_zero]
  congr 2
  funext i b
  rw [Nat.add_assoc, Nat.add_comm 1 i]

theorem masked_eq (k : MaskKey) (data : Bytes) : masked k data = maskFrom k 0 data := by
  unfold masked maskFrom keyAt
  simp

theorem maskFrom_mod (k : MaskKey) (data : Bytes) : ∀ p, maskFrom k (p % 4) data = maskFrom k p data := by
  intro p
  unfold maskFrom
  congr 1
  funext i b
  rw [← keyAt_mod k (p % 4 + i), ← keyAt_mod k (p + i)]
  congr 2
  omega

theorem maskFrom_length (k : MaskKey) (p : Nat) (data : Bytes) : (maskFrom k p data).length = data.length := by
  simp [maskFrom]

theorem maskFrom_append (k : MaskKey) (a b : Bytes) : ∀ p,
    maskFrom k p (a ++ b) = maskFrom k p a ++ maskFrom k (p + a.length) b := by
  induction a with
  | nil => intro p; rfl
  | cons x a ih =>
    intro p
    rw [List.cons_append, maskFrom_cons, maskFrom_cons, ih, List.length_cons, List.cons_append]
    congr 3
    omega

theorem xor_twice (a b : UInt8) : (a ^^^ b) ^^^ b = a := by
  rw [UInt8.xor_assoc, UInt8.xor_self, UInt8.xor_zero]

theorem maskFrom_involution (k : MaskKey) (data : Bytes) : ∀ p, maskFrom k p (maskFrom k p data) = data := by
  induction data with
  | nil => intro p; rfl
  | cons b bs ih => intro p; rw [maskFrom_cons, maskFrom_cons, ih, xor_twice]

theorem maskGo_eq (k : MaskKey) (data : Bytes) : ∀ p, p ≤ 4 →
    maskGo k.toList (k.toList.drop p) data = maskFrom k p data := by
  induction data with
  | nil => intro p _; rw [maskFrom_nil]; unfold maskGo; rfl
  | cons b bs ih =>
    intro p hp
    have h0 := ih 1 (by omega)
    have h1 := ih 2 (by omega)
    have h2 := ih 3 (by omega)
    have h3 := ih 4 (by omega)
    simp only [MaskKey.toList, List.drop_succ_cons, List.drop_zero] at h0 h1 h2 h3
    rw [maskFrom_cons]
    match p, hp with
    | 0, _ => simp only [MaskKey.toList, List.drop_zero, maskGo, h0]; rfl
    | 1, _ => simp only [MaskKey.toList, List.drop_succ_cons, List.drop_zero, maskGo, h1]; rfl
    | 2, _ => simp only [MaskKey.toList, List.drop_succ_cons, List.drop_zero, maskGo, h2]; rfl
    | 3, _ => simp only [MaskKey.toList, List.drop_succ_cons, List.drop_zero, maskGo, h3]; rfl
    | 4, _ =>
      have := maskFrom_mod k bs 5
      simp only [MaskKey.toList, List.drop_succ_cons, List.drop_zero, maskGo, h0]
      rw [show (4 : Nat) + 1 = 5 from rfl, ← this]
      rfl

theorem maskData_eq (k : MaskKey) (data : Bytes) : maskData k data = masked k data := by
  rw [masked_eq]
  exact maskGo_eq k data 0 (by omega)

theorem maskerPut_eq (k : MaskKey) (data : Bytes) : ∀ pos, pos < 4 →
    maskerPut k pos data = .ok (maskFrom k pos data, (pos + data.length) % 4) := by
  induction data with
  | nil => intro pos h; simp [maskerPut, maskFrom_nil, Nat.mod_eq_of_lt h]
  | cons b bs ih =>
    intro pos h
    unfold maskerPut
    rw [keyAt_get k pos h]
    simp only
    rw [ih _ (Nat.mod_lt _ (by decide))]
    simp only [Res.bind_ok]
    rw [maskFrom_cons, maskFrom_mod]
    congr 2
    simp only [List.length_cons]
    omega

theorem maskerPutAll_eq (k : MaskKey) (ps : List Bytes) : ∀ pos, pos < 4 →
    maskerPutAll k pos ps = .ok (maskFrom k pos ps.flatten) := by
  induction ps with
  | nil => intro pos h; rfl
  | cons p ps ih =>
    intro pos h
    unfold maskerPutAll
    rw [maskerPut_eq k p pos h]
    simp only [Res.bind_ok]
    rw [ih _ (Nat.mod_lt _ (by decide))]
    simp only [Res.bind_ok, List.flatten_cons]
    rw [maskFrom_append, maskFrom_mod]

/-! ## Data frames -/

theorem opcode_new (o : Opcode) : Opcode.new o.toByte = some o ∧ o.toByte < 16 := by
  cases o <;> decide

theorem opcode_new_some (b : UInt8) (h : b < 16) : ∃ o, Opcode.new b = some o ∧ o.toByte = b := by
  have : ∀ b : UInt8, b < 16 → ((Opcode.new b).map Opcode.toByte) = some b := by decide +kernel
  have := this b h
  rw [Option.map_eq_some_iff] at this
  exact this

theorem flags_bits (l r1 r2 r3 : Bool) :
    let f := (if l then wsFin else 0) ||| (if r1 then wsRsv1 else 0) ||| (if r2 then wsRsv2 else 0) |||
      (if r3 then wsRsv3 else 0)
    (f &&& 0x0F = 0) ∧ (decide (f &&& wsFin = wsFin) = l) ∧ (decide (f &&& wsRsv1 = wsRsv1) = r1) ∧
      (decide (f &&& wsRsv2 = wsRsv2) = r2) ∧ (decide (f &&& wsRsv3 = wsRsv3) = r3) := by
  revert l r1 r2 r3; decide

/-- What `write_to` writes. -/
theorem writeTo_eq (f : Frameable) (key : Option MaskKey) (h1 : f.opcode < 16)
    (h2 : 8 ≤ f.opcode → f.size < 126) :
    f.writeTo key = .ok (wsWireHeader f.flags.toNat f.opcode.toNat key f.size ++
      maskedOpt key f.pieces.flatten, 0) := by
  have hf : f.flags &&& 0x0F = 0 := (flags_bits f.isLast f.reserved.1 f.reserved.2.1 f.reserved.2.2).1
  unfold Frameable.writeTo
  rw [writeHeader_wire ⟨f.flags, f.opcode, key, f.size⟩ hf h1 h2]
  simp only [Res.bind_ok]
  cases key with
  | none => rfl
  | some k =>
    simp only
    rw [maskerPutAll_eq k _ 0 (by decide), ← masked_eq]
    rfl

/-- Reading a frame written by anything of this shape. -/
theorem read_written (f : Frameable) (o : Opcode) (key : Option MaskKey) (rest : Bytes)
    (ho : f.opcode = o.toByte) (hs : f.pieces.flatten.length = f.size) (hl : f.size < 2 ^ 64)
    (hc : IsControl o → f.size < 126 ∧ f.isLast = true) :
    ∃ out, f.writeTo key = .ok (out, 0) ∧
      out = wsWireHeader f.flags.toNat f.opcode.toNat key f.size ++ maskedOpt key f.pieces.flatten ∧
      wsRead (out ++ rest) = .ok (⟨f.isLast, f.reserved, o, f.pieces.flatten⟩, rest) := by
  have h1 : f.opcode < 16 := by rw [ho]; exact (opcode_new o).2
  obtain ⟨b1, b2, b3, b4, b5⟩ := flags_bits f.isLast f.reserved.1 f.reserved.2.1 f.reserved.2.2
  refine ⟨_, writeTo_eq f key h1 (fun a => (hc (by unfold IsControl; rwa [← ho])).1), rfl, ?_⟩
  unfold wsRead
  have ok : WsHeaderOk ⟨f.flags, f.opcode, key, f.size⟩ := by
    refine ⟨b1, h1, hl, ?_⟩
    intro a
    obtain ⟨c1, c2⟩ := hc (by unfold IsControl; rwa [← ho])
    refine ⟨c1, ?_⟩
    rw [c2] at b2
    have := of_decide_eq_true b2
    unfold Frameable.flags
    rw [c2]
    exact this
  have hlen : (maskedOpt key f.pieces.flatten).length = f.size := by
    rw [← hs]
    cases key with
    | none => rfl
    | some k => simp only [maskedOpt, masked_eq, maskFrom_length]
  rw [List.append_assoc, read_write_header _ ok]
  simp only [Res.bind_ok]
  rw [if_neg (by rw [List.length_append]; omega), List.take_left' hlen, List.drop_left' hlen]
  unfold wsReadBody
  simp only
  rw [ho, (opcode_new o).1]
  have hdata : unmask key (maskedOpt key f.pieces.flatten) = f.pieces.flatten := by
    cases key with
    | none => rfl
    | some k => simp only [unmask, maskedOpt, maskData_eq, masked_eq, maskFrom_involution]
  rw [hdata]
  simp only [Res.bind_ok]
  have b2' : decide (f.flags &&& wsFin = wsFin) = f.isLast := b2
  have b3' : decide (f.flags &&& wsRsv1 = wsRsv1) = f.reserved.1 := b3
  have b4' : decide (f.flags &&& wsRsv2 = wsRsv2) = f.reserved.2.1 := b4
  have b5' : decide (f.flags &&& wsRsv3 = wsRsv3) = f.reserved.2.2 := b5
  rw [b2', b3', b4', b5']

end Webparse
