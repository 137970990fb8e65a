import Verif.Model.Answers
import Verif.Proofs.Frame
import Verif.Props.Frame
import Verif.Proofs.Sizes
import Verif.Proofs.FrameHeaders

/-! # C103: numbers and frames on the wire -/

namespace Webparse
open Spec

/-- C103, the claim about the number types: what is written is read back, and the reserved bit (RFC 9113 5.1.1, 6.9) is
ignored in what is read. -/
def C103_numbers_statement : Prop :=
  ∀ (n : Nat) (reserved : Bool) (rest : Bytes), n < 2 ^ 31 →
    let w := u32Bytes (if reserved then n + 2 ^ 31 else n)
    (streamIdEncode n).1 = u32Bytes n ∧ streamIdParse (w ++ rest) = (n, rest) ∧
    (sizeIncrementEncode n).1 = u32Bytes n ∧ sizeIncrementParse (w ++ rest) = .ok (n, rest) ∧
    (errorCodeSerialize n).1 = u32Bytes n ∧ errorCodeParse (u32Bytes n ++ rest) = .ok (n, rest)

theorem take4_u32 (n : Nat) (rest : Bytes) : (u32Bytes n ++ rest).take 4 = u32Bytes n ∧ (u32Bytes n ++ rest).drop 4 = rest :=
  ⟨rfl, rfl⟩

/-- C103: stream identifiers. -/
theorem C103_streamId (n : Nat) (reserved : Bool) (rest : Bytes) (h : n < 2 ^ 31) :
    streamIdEncode n = (u32Bytes n, 4) ∧
    streamIdParse (u32Bytes (if reserved then n + 2 ^ 31 else n) ++ rest) = (n, rest) := by
  refine ⟨by rw [streamIdEncode, beBytes4], ?_⟩
  unfold streamIdParse readU31
  have hl : ∀ k, ¬ (u32Bytes k ++ rest).length < 4 := by intro k; simp [u32Bytes]
  rw [if_neg (hl _), if_neg (hl _), (take4_u32 _ _).1, (take4_u32 _ _).2]
  cases reserved
  · rw [if_neg (by decide), beNat_u32Bytes (by omega), Nat.mod_eq_of_lt h]
  · rw [if_pos rfl, beNat_u32Bytes (by omega), Nat.add_mod_right, Nat.mod_eq_of_lt h]

/-- C103, exactly: an identifier comes back exactly if it has 31 bits (`StreamIdentifier` has a public `u32`). -/
theorem C103_streamId_iff (n : Nat) (h : n < 2 ^ 32) (rest : Bytes) :
    streamIdParse ((streamIdEncode n).1 ++ rest) = (n, rest) ↔ n < 2 ^ 31 := by
  constructor
  · intro h2
    have h3 := congrArg Prod.fst h2
    unfold streamIdParse readU31 streamIdEncode at h3
    rw [beBytes4] at h3
    have hl : ¬ (u32Bytes n ++ rest).length < 4 := by simp [u32Bytes]
    rw [if_neg hl, if_neg hl, (take4_u32 n rest).1, beNat_u32Bytes h] at h3
    simp only at h3
    rw [← h3]
    exact Nat.mod_lt _ (by decide)
  · intro h2
    have := C103_streamId n false rest h2
    rw [this.1]
    exact this.2

example : (2147483647 : Nat) < 2 ^ 31 := by decide

/-- C103: fewer than four bytes are identifier 0 and stay there, so what is missing is not told from stream 0. -/
theorem C103_streamId_short (buf : Bytes) (h : buf.length < 4) : streamIdParse buf = (0, buf) := by
  unfold streamIdParse
  rw [if_pos h]

/-- C103: lengths of three bytes. -/
theorem C103_u24 (n : Nat) (rest : Bytes) :
    encodeU24 n = ([byteAt n 2, byteAt n 1, byteAt n 0], 3) ∧
    readU24 ((encodeU24 n).1 ++ rest) = (n % 2 ^ 24, rest) := by
  have e : (encodeU24 n).1 = [byteAt n 2, byteAt n 1, byteAt n 0] := by
    have h1 : n >>> 16 = n / 256 ^ 2 := by rw [Nat.shiftRight_eq_div_pow]; norm_num
    have h2 : n >>> 8 = n / 256 ^ 1 := by rw [Nat.shiftRight_eq_div_pow]; norm_num
    have h3 : n >>> 0 = n / 256 ^ 0 := by rw [Nat.shiftRight_eq_div_pow]; norm_num
    unfold encodeU24
    rw [h1, h2, h3, ofNat_byteAt, ofNat_byteAt, ofNat_byteAt]
  refine ⟨Prod.ext e rfl, ?_⟩
  rw [e]
  simp only [List.cons_append, List.nil_append, readU24, byteAt, UInt8.toNat_ofNat']
  congr 1
  have a2 : n / 256 ^ 2 % 256 % 2 ^ 8 = n / 65536 % 256 := by omega
  have a1 : n / 256 ^ 1 % 256 % 2 ^ 8 = n / 256 % 256 := by omega
  have a0 : n / 256 ^ 0 % 256 % 2 ^ 8 = n % 256 := by omega
  rw [a2, a1, a0, Nat.or_assoc, ← Nat.shiftLeft_add_eq_or_of_lt (i := 8) (by omega), ← Nat.shiftLeft_add_eq_or_of_lt (i := 16)
    (by rw [Nat.shiftLeft_eq]; omega), Nat.shiftLeft_eq, Nat.shiftLeft_eq]
  omega

/-- C103, partial: a size increment comes back, but with the reserved bit if that was set. -/
theorem C103_increment_partial (n : Nat) (h : n < 2 ^ 32) (rest : Bytes) :
    sizeIncrementEncode n = (u32Bytes n, 4) ∧ sizeIncrementParse (u32Bytes n ++ rest) = .ok (n, rest) := by
  refine ⟨by rw [sizeIncrementEncode, beBytes4], ?_⟩
  unfold sizeIncrementParse
  rw [if_neg (by simp [u32Bytes]), (take4_u32 n rest).1, (take4_u32 n rest).2, beNat_u32Bytes h]

/-- C103, violated: with the reserved bit set no size increment is read as its value. -/
theorem C103_violated_increment (n : Nat) (h : n < 2 ^ 31) (rest : Bytes) :
    sizeIncrementParse (u32Bytes (n + 2 ^ 31) ++ rest) ≠ .ok (n, rest) := by
  rw [(C103_increment_partial (n + 2 ^ 31) (by omega) rest).2]
  intro h2
  simp only [Res.ok.injEq, Prod.mk.injEq] at h2
  omega

example : (65535 : Nat) < 2 ^ 31 := by decide

/-- C103, partial: an error code is written as it is; it is read back exactly if it is 0 (NO_ERROR). -/
theorem C103_errorCode_iff_partial (n : Nat) (rest : Bytes) :
    errorCodeSerialize n = (u32Bytes n, 4) ∧
    (errorCodeParse ((errorCodeSerialize n).1 ++ rest) = .ok (n, rest) ↔ n = 0) := by
  have e : errorCodeSerialize n = (u32Bytes n, 4) := by rw [errorCodeSerialize, beBytes4]
  refine ⟨e, ?_⟩
  rw [e]
  unfold errorCodeParse
  rw [if_neg (by simp [u32Bytes]), (take4_u32 n rest).2]
  simp [eq_comm]

theorem C103_violated_numbers : ¬ C103_numbers_statement := by
  intro h
  have := (h 1 false [] (by decide)).2.2.2.2.2
  exact absurd ((C103_errorCode_iff_partial 1 []).2.mp (by rw [(C103_errorCode_iff_partial 1 []).1]; exact this)) (by decide)

/-- C103, the claim about frames: `Serialize` writes what `encode` writes, and `encoded_len` is its length. -/
def C103_serialize_statement : Prop :=
  ∀ (f : Frame) (m : Nat) (t t' : HeaderIndex) (out : Bytes) (n : Nat), f.encode m t = some (.ok (out, n, t')) →
    f.serialize = (out, n) ∧ f.encodedLen = out.length

theorem encode_nonempty (f : Frame) (m : Nat) (t t' : HeaderIndex) (out : Bytes) (n : Nat)
    (h : f.encode m t = some (.ok (out, n, t'))) : out ≠ [] := by
  have h9 : 9 ≤ out.length := by
    cases f with
    | data d =>
      rw [Frame.encode] at h
      split at h
      · rename_i o k hr
        simp only [Option.some.injEq, Res.ok.injEq, Prod.mk.injEq] at h
        rw [← h.1]
        rw [DataFrame.encodeRun] at hr
        simp only at hr
        split at hr
        · split at hr
          · cases hr
          · simp only [Option.some.injEq, Prod.mk.injEq] at hr
            rw [← hr.1]
            simp only [List.length_append, FrameHeader.encode_length]
            omega
        · simp only [Option.some.injEq, Prod.mk.injEq] at hr
          rw [← hr.1]
          simp only [List.length_append, FrameHeader.encode_length]
          omega
      · cases h
    | headers f =>
      rw [Frame.encode, Option.some.injEq, HeadersFrame.encode] at h
      obtain ⟨frags, block, -, h1, -, -, h2, -⟩ := blockEncode_wire h
      rw [h2, ← fragmentFrames_wire, fragment_size]
      cases frags with
      | nil => exact absurd rfl h1
      | cons b r => simp only [List.map_cons, List.sum_cons]; omega
    | pushPromise p =>
      rw [Frame.encode, Option.some.injEq] at h
      unfold PushPromise.encode at h
      simp only [Res.bind_eq_ok] at h
      obtain ⟨m1, -, ⟨b1, m2, t2⟩, -, ⟨b2, m3, t3⟩, -, ⟨b3, m4, t4⟩, -, ⟨b4, m5, t5⟩, -, ⟨o, s, t6⟩, h1, h⟩ := h
      simp only [Res.ok.injEq, Prod.mk.injEq] at h
      rw [← h.1]
      simp only [List.length_append, FrameHeader.encode_length]
      omega
    | settings s =>
      simp only [Frame.encode, Option.some.injEq, Res.ok.injEq, Prod.mk.injEq] at h
      rw [← h.1]
      simp only [Settings.encode, List.length_append, FrameHeader.encode_length]
      omega
    | priority _ | ping _ | goAway _ | windowUpdate _ | reset _ =>
      simp only [Frame.encode, Option.some.injEq, Res.ok.injEq, Prod.mk.injEq] at h
      rw [← h.1]
      simp only [Priority.encode, Ping.encode, GoAway.encode, WindowUpdate.encode, Reset.encode, List.length_append,
        FrameHeader.encode_length]
      omega
  intro h0
  rw [h0] at h9
  cases h9

/-- C103, violated: `Serialize` writes nothing and says so, for every frame that can be encoded at all. -/
theorem C103_violated_frame (f : Frame) (m : Nat) (t t' : HeaderIndex) (out : Bytes) (n : Nat)
    (h : f.encode m t = some (.ok (out, n, t'))) : f.serialize.1 ≠ out ∧ f.serialize.2 = f.serialize.1.length ∧ f.encodedLen ≠ out.length := by
  have h1 := encode_nonempty f m t t' out n h
  refine ⟨fun h2 => h1 h2.symm, rfl, fun h2 => h1 ?_⟩
  exact List.length_eq_zero_iff.mp h2.symm

example : Frame.encode 16384 {} (.ping ⟨true, [1, 2, 3, 4, 5, 6, 7, 8]⟩) =
    some (.ok ([0, 0, 8, 6, 1, 0, 0, 0, 0, 1, 2, 3, 4, 5, 6, 7, 8], 17, {})) := by decide +kernel

theorem C103_violated_serialize : ¬ C103_serialize_statement := by
  intro h
  have := h (.ping ⟨true, [1, 2, 3, 4, 5, 6, 7, 8]⟩) 16384 {} {} [0, 0, 8, 6, 1, 0, 0, 0, 0, 1, 2, 3, 4, 5, 6, 7, 8] 17
    (by decide +kernel)
  cases this.2

end Webparse
