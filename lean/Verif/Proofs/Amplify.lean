import Verif.Proofs.HpackDecode
import Verif.Proofs.Utf8
import Verif.Spec.Frame

/-! Lemmas about how much the HPACK decoder makes out of its input. -/

namespace Webparse
open Spec

theorem utf8Next_pos (b : UInt8) (rest : Bytes) :
    (∀ n, utf8Next b rest = .inl n → 1 ≤ n) ∧ ∀ n, utf8Next b rest = .inr n → 1 ≤ n := by
  unfold utf8Next
  refine ⟨fun n h => ?_, fun n h => ?_⟩ <;> revert h <;> repeat' split
  all_goals first | (intro h; cases h; omega) | (intro h; cases h)

theorem utf8LossyAux_length (fuel : Nat) (b : Bytes) : (utf8LossyAux fuel b).length ≤ 3 * b.length := by
  induction fuel generalizing b with
  | zero => cases b <;> simp [utf8LossyAux]
  | succ fuel ih =>
    cases b with
    | nil => simp [utf8LossyAux]
    | cons x rest =>
      simp only [utf8LossyAux]
      split
      · rename_i n hn
        have := ih ((x :: rest).drop n)
        simp only [List.length_append, List.length_take, List.length_drop, List.length_cons] at *
        omega
      · rename_i n hn
        have h1 := (utf8Next_pos x rest).2 n hn
        have := ih ((x :: rest).drop n)
        simp only [List.length_append, List.length_drop, List.length_cons, List.length_nil] at *
        omega

theorem utf8Lossy_length (b : Bytes) : (utf8Lossy b).length ≤ 3 * b.length := utf8LossyAux_length _ _

theorem huffLookup_len {c l : Nat} {v : UInt8} (h : huffLookup c l = some v) : 5 ≤ l := by
  unfold huffLookup at h
  cases hf : huffmanCodeArray.zipIdx.reverse.find? (fun e => e.1 == (c, l)) with
  | none => rw [hf] at h; cases h
  | some e =>
    have hm := List.mem_of_find?_eq_some hf
    have he := List.find?_some hf
    simp only [beq_iff_eq] at he
    have all : ∀ e ∈ huffmanCodeArray.zipIdx.reverse, 5 ≤ e.1.2 := by decide +kernel
    have := all e hm
    rw [he] at this
    exact this

theorem huffDecodeBits_length : ∀ (bits : List Bool) (s s' : HuffState), huffDecodeBits s bits = .ok s' →
    5 * s'.result.length + s'.currentLen ≤ 5 * s.result.length + s.currentLen + bits.length := by
  intro bits
  induction bits with
  | nil => intro s s' h; cases h; simp
  | cons b bs ih =>
    intro s s' h
    obtain ⟨s1, h1, h2⟩ := (Res.bind_eq_ok ..).mp h
    have h3 := ih s1 s' h2
    unfold huffDecodeBit at h1
    split at h1
    · cases h1
    · simp only at h1
      split at h1
      · rename_i v hv
        have := huffLookup_len hv
        cases h1
        simp only [List.length_append, List.length_cons, List.length_nil] at *
        omega
      · cases h1
        simp only [List.length_cons] at *
        omega

theorem bytesBits_length8 (b : Bytes) : (bytesBits b).length = 8 * b.length := by
  unfold bytesBits
  induction b with
  | nil => rfl
  | cons x xs ih => simp only [List.flatMap_cons, List.length_append, ih, List.length_cons]; simp [byteBits]; omega

theorem huffDecode_length {b s : Bytes} (h : huffDecode b = .ok s) : 5 * s.length ≤ 8 * b.length := by
  unfold huffDecode at h
  obtain ⟨st, h1, h2⟩ := (Res.bind_eq_ok ..).mp h
  have h3 := huffDecodeBits_length _ _ _ h1
  rw [bytesBits_length8] at h3
  split at h2
  · cases h2
  · split at h2
    · cases h2
    · cases h2
      simp at h3
      omega

theorem decodeString_length {buf s : Bytes} {n : Nat} (h : decodeString buf = .ok (s, n)) :
    5 * s.length + 8 ≤ 8 * n := by
  unfold decodeString at h
  obtain ⟨⟨len, c⟩, hi, h⟩ := (Res.bind_eq_ok ..).mp h
  obtain ⟨h1, _, hl, _⟩ := decodeInteger_consumed hi
  simp only at h
  split at h
  · simp at h
  split at h
  · obtain ⟨d, hd, h⟩ := (Res.bind_eq_ok ..).mp h
    simp at h
    obtain ⟨rfl, rfl⟩ := h
    have := huffDecode_length hd
    simp only [List.length_take, List.length_drop] at this
    omega
  · simp at h
    obtain ⟨rfl, rfl⟩ := h
    simp only [List.length_take, List.length_drop]
    omega

theorem mem_tableSize {h : Header} : ∀ {l : List Header}, h ∈ l → h.1.length + h.2.length + 32 ≤ tableSize l := by
  intro l
  induction l with
  | nil => intro h; cases h
  | cons x xs ih =>
    intro hm
    simp only [tableSize, List.map_cons, List.sum_cons] at *
    rcases List.mem_cons.mp hm with rfl | hm
    · omega
    · have := ih hm; omega

theorem getFromIndex_size {t : HeaderIndex} (ht : TableInv t) {i : Nat} {h : Header} (e : getFromIndex t i = some h) :
    h.1.length + h.2.length + 32 ≤ max t.maxSize 64 := by
  unfold getFromIndex at e
  split at e
  · cases e
  · simp only at e
    split at e
    · have hm := List.mem_of_getElem? e
      have all : ∀ h ∈ staticTable, h.1.length + h.2.length + 32 ≤ 64 := by decide +kernel
      have := all h hm
      omega
    · split at e
      · have hm := mem_tableSize (List.mem_of_getElem? e)
        have h1 := ht.1
        have h2 := ht.2
        unfold SizeOk at h1
        omega
      · cases e

theorem decodeLiteral_size {t : HeaderIndex} (ht : TableInv t) {buf : Bytes} {i : Bool} {h : Header} {n : Nat}
    (e : decodeLiteral t buf i = .ok (h, n)) : h.1.length + h.2.length + 32 ≤ max t.maxSize 64 + 5 * n := by
  unfold decodeLiteral at e
  simp only at e
  obtain ⟨⟨ti, c⟩, hi, e⟩ := (Res.bind_eq_ok ..).mp e
  obtain ⟨h1, _, hl, _⟩ := decodeInteger_consumed hi
  simp only at e
  obtain ⟨⟨name, c2⟩, hname, e⟩ := (Res.bind_eq_ok ..).mp e
  simp only at e
  obtain ⟨⟨value, vl⟩, hval, e⟩ := (Res.bind_eq_ok ..).mp e
  simp at e
  obtain ⟨rfl, rfl⟩ := e
  have hv := decodeString_length hval
  unfold decodeLiteralName at hname
  split at hname
  · obtain ⟨⟨nm, nl⟩, hn, hname⟩ := (Res.bind_eq_ok ..).mp hname
    simp at hname
    obtain ⟨rfl, rfl⟩ := hname
    have hl1 := decodeString_length hn
    have hl2 := utf8Lossy_length nm
    simp only [headerNameFromBytes]
    omega
  · obtain ⟨⟨nm, vv⟩, hg, hname⟩ := (Res.bind_eq_ok ..).mp hname
    simp at hname
    obtain ⟨rfl, rfl⟩ := hname
    have hg : getFromIndex t ti = some (nm, vv) := by
      cases hx : getFromIndex t ti with
      | none => rw [hx] at hg; cases hg
      | some y => rw [hx] at hg; simp [Res.ofOption] at hg; rw [hg]
    have := getFromIndex_size ht hg
    simp only at *
    omega

theorem decodeStep_size {t : HeaderIndex} (ht : TableInv t) {o : UInt8} {rest : Bytes} {hs : List Header}
    {t' : HeaderIndex} {c : Nat} (e : decodeStep t o rest = .ok (hs, t', c)) :
    hs.length ≤ c ∧ headerListSize hs ≤ c * (max t.maxSize 64 + 5) := by
  have one : ∀ (h : Header) (n : Nat), 1 ≤ n → h.1.length + h.2.length + 32 ≤ max t.maxSize 64 + 5 * n →
      [h].length ≤ n ∧ headerListSize [h] ≤ n * (max t.maxSize 64 + 5) := by
    intro h n hn hh
    refine ⟨by simpa using hn, ?_⟩
    have : max t.maxSize 64 ≤ n * max t.maxSize 64 := Nat.le_mul_of_pos_left _ hn
    simp only [headerListSize, List.map_cons, List.map_nil, List.sum_cons, List.sum_nil, Nat.mul_add]
    omega
  unfold decodeStep at e
  split at e
  · obtain ⟨⟨h, n⟩, h1, e⟩ := (Res.bind_eq_ok ..).mp e
    simp at e
    obtain ⟨rfl, rfl, rfl⟩ := e
    obtain ⟨rfl, hg⟩ := decodeIndexed_consumed h1
    have := getFromIndex_size ht hg
    exact one h 1 (by omega) (by omega)
  · obtain ⟨⟨h, n⟩, h1, e⟩ := (Res.bind_eq_ok ..).mp e
    simp only at e
    obtain ⟨t1, h2, e⟩ := (Res.bind_eq_ok ..).mp e
    simp at e
    obtain ⟨rfl, rfl, rfl⟩ := e
    exact one h n (decodeLiteral_extend h1).1 (decodeLiteral_size ht h1)
  · obtain ⟨⟨h, n⟩, h1, e⟩ := (Res.bind_eq_ok ..).mp e
    simp at e
    obtain ⟨rfl, rfl, rfl⟩ := e
    exact one h n (decodeLiteral_extend h1).1 (decodeLiteral_size ht h1)
  · obtain ⟨⟨h, n⟩, h1, e⟩ := (Res.bind_eq_ok ..).mp e
    simp at e
    obtain ⟨rfl, rfl, rfl⟩ := e
    exact one h n (decodeLiteral_extend h1).1 (decodeLiteral_size ht h1)
  · cases e
    simp [headerListSize]

theorem decodeRun_size (n : Nat) : ∀ {t : HeaderIndex}, TableInv t → ∀ {buf : Bytes} {hs : List Header} {t' : HeaderIndex},
    decodeRun n t buf = some (.ok (hs, t')) →
    hs.length ≤ buf.length ∧ headerListSize hs ≤ buf.length * (max t.maxSize 64 + 5) := by
  induction n with
  | zero =>
    intro t ht buf hs t' h
    cases buf with
    | nil => simp [decodeRun] at h; obtain ⟨rfl, -⟩ := h; simp [headerListSize]
    | cons o rest => simp [decodeRun] at h
  | succ n ih =>
    intro t ht buf hs t' h
    cases buf with
    | nil => simp [decodeRun] at h; obtain ⟨rfl, -⟩ := h; simp [headerListSize]
    | cons o rest =>
      cases hst : decodeStep t o rest with
      | err e => simp [decodeRun, hst] at h
      | panic => simp [decodeRun, hst] at h
      | ok r =>
        obtain ⟨hs1, t1, c⟩ := r
        rw [decodeRun_step hst] at h
        obtain ⟨ht1, hmax, -⟩ := (decodeStep_safe ht o rest).2 _ _ _ hst
        have hc := (decodeStep_extend hst).1
        have hsz := decodeStep_size ht hst
        cases hr : decodeRun n t1 ((o :: rest).drop c) with
        | none => rw [hr] at h; cases h
        | some r2 =>
          rw [hr] at h
          cases r2 with
          | err e => simp [prependHeaders] at h
          | panic => simp [prependHeaders] at h
          | ok p =>
            obtain ⟨hs2, t2⟩ := p
            simp [prependHeaders] at h
            obtain ⟨rfl, rfl⟩ := h
            have h2 := ih ht1 hr
            rw [hmax] at h2
            simp only [List.length_drop, List.length_cons, List.length_append, headerListSize, List.map_append, List.sum_append] at *
            generalize max t.maxSize 64 + 5 = K at *
            have hsplit : (rest.length + 1) * K = c * K + (rest.length + 1 - c) * K := by
              rw [← Nat.add_mul]; congr 1; omega
            omega

end Webparse
