import Verif.Proofs.HpackDecode

/-! Encoder and decoder stay in step. -/

namespace Webparse
open Spec

theorem entrySize_lower (h : Header) : entrySize (lowerHeader h) = entrySize h := by
  simp [entrySize, lowerHeader, lower]

theorem consolidate_sync (l : List Header) : ∀ (size limit : Nat),
    consolidate { table := l.map lowerHeader, size := size, maxSize := limit } =
      (consolidate { table := l, size := size, maxSize := limit }).bind fun t =>
        .ok { table := t.table.map lowerHeader, size := t.size, maxSize := t.maxSize } := by
  induction l using List.reverseRecOn with
  | nil =>
    intro size limit
    simp only [List.map_nil, consolidate_nil]
    split <;> rfl
  | append_singleton l x ih =>
    intro size limit
    simp only [List.map_append, List.map_cons, List.map_nil, consolidate_snoc, entrySize_lower, ih]
    split
    · split <;> rfl
    · simp [Res.bind]

theorem addHeader_sync {te td te' : HeaderIndex} (hs : Sync te td) (h : Header)
    (ha : addHeader te h = .ok te') :
    ∃ td', addHeader td (lowerHeader h) = .ok td' ∧ Sync te' td' := by
  obtain ⟨tt, ts, tm⟩ := td
  obtain ⟨h1, h2, h3⟩ := hs
  simp only at h1 h2 h3
  subst h1; subst h2; subst h3
  unfold addHeader at ha ⊢
  have := consolidate_sync (h :: te.table) (te.size + entrySize h) te.maxSize
  rw [List.map_cons, ha] at this
  simp only [Res.bind] at this
  simp only [entrySize_lower]
  exact ⟨_, this, ⟨rfl, rfl, rfl⟩⟩

theorem staticTable_lower : ∀ e ∈ staticTable, lower e.1 = e.1 := by decide +kernel

theorem staticHash_mem {name v : Bytes} {i : Nat} (h : (v, i) ∈ staticHash name) :
    1 ≤ i ∧ i ≤ 61 ∧ staticTable[i - 1]? = some (lower name, v) := by
  unfold staticHash at h
  obtain ⟨e, he, heq⟩ := List.mem_map.mp h
  obtain ⟨hm, hc⟩ := List.mem_filter.mp he
  simp only [Prod.mk.injEq] at heq
  obtain ⟨rfl, rfl⟩ := heq
  obtain ⟨⟨n, v⟩, i⟩ := e
  have := List.mem_zipIdx' hm
  simp only at this hc ⊢
  obtain ⟨hlt, hget⟩ := this
  simp only [Bool.and_eq_true, beq_iff_eq] at hc
  rw [nameHashInput_eq_lower, nameHashInput_eq_lower] at hc
  have hmem : (n, v) ∈ staticTable := by rw [hget]; exact List.getElem_mem _
  have hl := staticTable_lower _ hmem
  simp only at hl
  rw [staticTable_length] at hlt
  refine ⟨by omega, by omega, ?_⟩
  rw [show i + 1 - 1 = i by omega, ← hc.1, hl]
  have : i < staticTable.length := by rw [staticTable_length]; exact hlt
  rw [List.getElem?_eq_getElem this, hget]

theorem staticHashFind_mem {l : List (Bytes × Nat)} {value : Bytes} {i : Nat}
    (h : staticHashFind l value = some i) : (value, i) ∈ l := by
  unfold staticHashFind at h
  cases hf : l.reverse.find? (fun e => e.1 == value) with
  | none => rw [hf] at h; simp at h
  | some e =>
    rw [hf] at h
    simp at h
    have h1 := List.find?_some hf
    have h2 := List.mem_of_find?_eq_some hf
    simp at h1 h2
    obtain ⟨a, b⟩ := e
    simp at h1 h
    subst h1; subst h
    exact h2

/-- What a successful lookup of the encoder means to the decoder. -/
theorem findHeader_found {te td : HeaderIndex} (hs : Sync te td) (h : Header)
    (hS : staticHash h.1 = [] → ∀ e ∈ te.table, nameEq e.1 h.1 = true → lower e.1 = lower h.1) {i : Nat} {b : Bool}
    (hf : findHeader te h = some (i, b)) :
    (b = true → getFromIndex td i = some (lowerHeader h) ∧ 1 ≤ i ∧ i ≤ 61 + te.table.length) ∧
    (b = false → 1 ≤ i ∧ i ≤ 61 ∧ ∃ v, getFromIndex td i = some (lower h.1, v)) := by
  have hstat : ∀ i v, 1 ≤ i → i ≤ 61 → staticTable[i - 1]? = some (lower h.1, v) →
      getFromIndex td i = some (lower h.1, v) := by
    intro i v h1 h2 h3
    unfold getFromIndex
    rw [if_neg (by omega)]
    simp only [staticTable_length]
    rw [if_pos (by omega), h3]
  unfold findHeader at hf
  simp only at hf
  split at hf
  · split at hf
    · rename_i i' hfind
      simp at hf
      obtain ⟨rfl, rfl⟩ := hf
      obtain ⟨h1, h2, h3⟩ := staticHash_mem (staticHashFind_mem hfind)
      exact ⟨fun _ => ⟨hstat _ _ h1 h2 h3, h1, by omega⟩, by simp⟩
    · split at hf
      · rename_i i' hfind
        simp at hf
        obtain ⟨rfl, rfl⟩ := hf
        obtain ⟨h1, h2, h3⟩ := staticHash_mem (staticHashFind_mem hfind)
        exact ⟨by simp, fun _ => ⟨h1, h2, _, hstat _ _ h1 h2 h3⟩⟩
      · simp at hf
  · rename_i hst
    split at hf
    · rename_i idx hfind
      simp at hf
      obtain ⟨rfl, rfl⟩ := hf
      refine ⟨fun _ => ?_, by simp⟩
      rw [List.findIdx?_eq_some_iff_getElem] at hfind
      obtain ⟨hlt, hp, _⟩ := hfind
      simp at hp
      obtain ⟨hn, hv⟩ := hp
      have hl := hS (by simpa using hst) _ (List.getElem_mem hlt) hn
      refine ⟨?_, by omega, by rw [staticTable_length]; omega⟩
      unfold getFromIndex
      rw [if_neg (by omega)]
      simp only [staticTable_length]
      rw [if_neg (by omega)]
      have e : idx + 1 + 61 - 1 - 61 = idx := by omega
      rw [e, hs.table, if_pos (by simpa using hlt)]
      rw [List.getElem?_map, List.getElem?_eq_getElem hlt]
      simp only [Option.map_some, lowerHeader]
      rw [hl, hv]
    · simp at hf

theorem findHeader_sync {te td : HeaderIndex} (hs : Sync te td) (h : Header)
    (S : Bytes → Prop) (hS : ∀ a b, S a → S b → nameEq a b = true → lower a = lower b)
    (hname : S h.1) (htab : ∀ e ∈ te.table, S e.1) {i : Nat} {b : Bool}
    (hf : findHeader te h = some (i, b)) :
    (b = true → getFromIndex td i = some (lowerHeader h) ∧ 1 ≤ i ∧ i ≤ 61 + te.table.length) ∧
    (b = false → 1 ≤ i ∧ i ≤ 61 ∧ ∃ v, getFromIndex td i = some (lower h.1, v)) :=
  findHeader_found hs h (fun _ e he hn => hS _ _ (htab e he) hname hn) hf

/-! ### Strings -/

theorem codeBits_length_le (sym : Nat) (h : sym < 257) : (codeBits sym).length ≤ 30 := by
  have := huff_entry sym h
  simp only [codeBits, toBits_length]
  omega

theorem codesBits_length_le (syms : List Nat) (h : ∀ x ∈ syms, x < 257) :
    (codesBits syms).length ≤ 30 * syms.length := by
  induction syms with
  | nil => simp [codesBits]
  | cons x syms ih =>
    have h1 := codeBits_length_le x (h x (by simp))
    have h2 := ih (fun y hy => h y (by simp [hy]))
    simp only [codesBits, List.flatMap_cons, List.length_append, List.length_cons] at *
    omega

theorem huffEncode_length (s : Bytes) : (huffEncode s).length ≤ 4 * s.length := by
  obtain ⟨k, hk, h⟩ := huffEncode_bits s
  have hl := congrArg List.length h
  rw [bitsOf_length] at hl
  have h2 := codesBits_length_le (byteSyms s) (byteSyms_lt s)
  simp only [List.length_append, List.length_replicate] at hl
  have h3 : (byteSyms s).length = s.length := by simp [byteSyms]
  rcases s with _ | ⟨b, s⟩
  · simp [huffEncode, huffEncodeLoop]
  · simp only [List.length_cons] at *
    omega

theorem lead80 (v : Nat) : ∃ b rest, encodeInteger v 7 0x80 = b :: rest ∧ b &&& 128 = 128 := by
  obtain ⟨b, rest, h, hb⟩ := encodeInteger_lead (v := v) (p := 7) (by decide) (by decide) 0x80
  refine ⟨b, rest, h, ?_⟩
  have : ∀ b : UInt8, b &&& ~~~prefixMask 7 = 0x80 &&& ~~~prefixMask 7 → b &&& 128 = 128 := by
    decide +kernel
  exact this b hb

theorem decodeString_huff (s : Bytes) (hs : (huffEncode s).length < 2 ^ 28) (rest : Bytes) :
    decodeString (encodeStringLiteral s ++ rest) = .ok (s, (encodeStringLiteral s).length) := by
  obtain ⟨b, tl, hb, h128⟩ := lead80 (huffEncode s).length
  unfold decodeString encodeStringLiteral
  simp only [List.append_assoc]
  rw [decodeInteger_encode (by decide) (by decide) _ (by omega)]
  simp only [Res.bind_ok]
  rw [if_neg (by simp)]
  have hh : (encodeInteger (huffEncode s).length 7 0x80 ++ (huffEncode s ++ rest)).headD 0 = b := by
    rw [hb]; rfl
  rw [hh, if_pos h128, List.drop_left, List.take_left, huffDecode_encode]
  simp

theorem encodeStringLiteralLower_eq (s : Bytes) :
    encodeStringLiteralLower s = encodeStringLiteral (lower s) := by
  unfold encodeStringLiteralLower encodeStringLiteral
  rw [huffEncodeLower_eq, nameHashInput_eq_lower]

/-- Size and character-set conditions on a header (every `HeaderName` holds valid UTF-8). -/
structure HeaderOk (h : Header) : Prop where
  utf8 : utf8Valid h.1 = true
  nameLen : h.1.length < 2 ^ 26
  valueLen : h.2.length < 2 ^ 26

theorem huff_small {s : Bytes} (h : s.length < 2 ^ 26) : (huffEncode s).length < 2 ^ 28 := by
  have := huffEncode_length s; omega

/-- The incremental-indexing rounds of the decoder on what the encoder wrote. -/
theorem decodeStep_literal {td : HeaderIndex} (h : Header) (hok : HeaderOk h) (rest : Bytes)
    {td' : HeaderIndex} (ha : addHeader td (lowerHeader h) = .ok td') :
    ∃ o tl, encodeLiteral h true = o :: tl ∧
      decodeStep td o (tl ++ rest) = .ok ([lowerHeader h], td', (o :: tl).length) := by
  refine ⟨0x40, encodeStringLiteralLower h.1 ++ encodeStringLiteral h.2, by simp [encodeLiteral], ?_⟩
  have hf : fieldRep 0x40 = .incremental := by decide
  have hname : decodeString (encodeStringLiteral (lower h.1) ++ (encodeStringLiteral h.2 ++ rest))
      = .ok (lower h.1, (encodeStringLiteral (lower h.1)).length) :=
    decodeString_huff _ (huff_small (by simpa [lower] using hok.nameLen)) _
  have hval := decodeString_huff h.2 (huff_small hok.valueLen) rest
  have hlossy : headerNameFromBytes (lower h.1) = lower h.1 := by
    unfold headerNameFromBytes
    exact utf8Lossy_valid (by rw [utf8Valid_lower]; exact hok.utf8)
  have hint : ∀ l : Bytes, decodeInteger (0x40 :: l) 6 = .ok (0, 1) := by
    intro l
    unfold decodeInteger
    rw [if_neg (by omega)]
    rfl
  rw [encodeStringLiteralLower_eq]
  have hlit : decodeLiteral td (0x40 :: (encodeStringLiteral (lower h.1) ++ encodeStringLiteral h.2 ++ rest)) true
      = .ok (lowerHeader h, 1 + (encodeStringLiteral (lower h.1)).length + (encodeStringLiteral h.2).length) := by
    unfold decodeLiteral
    simp only [if_true, hint, Res.bind_ok]
    unfold decodeLiteralName
    simp only [if_true, List.drop_succ_cons, List.drop_zero, List.append_assoc, hname, Res.bind_ok]
    rw [Nat.add_comm 1, List.drop_succ_cons, List.drop_left, hval]
    simp [hlossy, lowerHeader]
  unfold decodeStep
  simp only [hf, hlit, Res.bind_ok, ha]
  simp
  omega

theorem decodeStep_indexedName {td : HeaderIndex} (h : Header) (hok : HeaderOk h) (rest : Bytes)
    {td' : HeaderIndex} (ha : addHeader td (lowerHeader h) = .ok td') {i : Nat} (h1 : 1 ≤ i)
    (h61 : i ≤ 61) {v : Bytes} (hg : getFromIndex td i = some (lower h.1, v)) :
    ∃ o tl, encodeIndexedName i h.2 true = o :: tl ∧
      decodeStep td o (tl ++ rest) = .ok ([lowerHeader h], td', (o :: tl).length) := by
  have henc : encodeInteger i 6 0x40 = [(0x40 &&& ~~~prefixMask 6) ||| UInt8.ofNat i] := by
    unfold encodeInteger
    simp only
    rw [if_pos]
    have : (prefixMask 6).toNat = 63 := by decide
    omega
  refine ⟨(0x40 &&& ~~~prefixMask 6) ||| UInt8.ofNat i, encodeStringLiteral h.2, ?_, ?_⟩
  · simp [encodeIndexedName, henc]
  have hf : ∀ i : Nat, i < 62 → fieldRep ((0x40 &&& ~~~prefixMask 6) ||| UInt8.ofNat i) = .incremental := by
    decide +kernel
  have hval := decodeString_huff h.2 (huff_small hok.valueLen) rest
  have hint : ∀ l : Bytes, decodeInteger (((0x40 &&& ~~~prefixMask 6) ||| UInt8.ofNat i) :: l) 6 = .ok (i, 1) := by
    intro l
    have := decodeInteger_encode (p := 6) (v := i) (by decide) (by decide) 0x40 (by omega) l
    rw [henc] at this
    simpa using this
  have hlit : decodeLiteral td (((0x40 &&& ~~~prefixMask 6) ||| UInt8.ofNat i) :: (encodeStringLiteral h.2 ++ rest)) true
      = .ok (lowerHeader h, 1 + (encodeStringLiteral h.2).length) := by
    unfold decodeLiteral
    simp only [if_true, hint, Res.bind_ok]
    unfold decodeLiteralName
    rw [if_neg (by omega), hg]
    simp only [Res.ofOption, Res.bind_ok, List.drop_succ_cons, List.drop_zero, hval]
    simp [lowerHeader]
  unfold decodeStep
  simp only [hf i (by omega), hlit, Res.bind_ok, ha]
  simp
  omega

theorem decodeStep_indexed {td : HeaderIndex} {h : Header} {i : Nat} (hi : i < 127)
    (hg : getFromIndex td i = some h) (rest : Bytes) :
    ∃ o, encodeIndexed i = [o] ∧ decodeStep td o rest = .ok ([h], td, 1) := by
  have henc : encodeInteger i 7 0x80 = [(0x80 &&& ~~~prefixMask 7) ||| UInt8.ofNat i] := by
    unfold encodeInteger
    simp only
    rw [if_pos]
    have : (prefixMask 7).toNat = 127 := by decide
    omega
  refine ⟨_, henc, ?_⟩
  have hf : ∀ i : Nat, i < 127 → fieldRep ((0x80 &&& ~~~prefixMask 7) ||| UInt8.ofNat i) = .indexed ∧
      (((0x80 &&& ~~~prefixMask 7) ||| UInt8.ofNat i) &&& 0x7f).toNat = i := by
    decide +kernel
  obtain ⟨hf1, hf2⟩ := hf i hi
  unfold decodeStep decodeIndexed
  simp only [hf1, hf2, hg, Res.ofOption, Res.bind_ok]

theorem length_le_tableSize (l : List Header) : 32 * l.length ≤ tableSize l := by
  induction l with
  | nil => simp
  | cons h l ih =>
    have := entrySize_pos h
    simp; omega

theorem room_length {t : HeaderIndex} (ht : TableInv t) {k : Nat} (hr : RoomFor t k) :
    t.table.length ≤ 65 := by
  rcases hr with h | h
  · have := length_le_tableSize t.table
    have h2 := ht.1
    have h3 := ht.2
    unfold SizeOk at h2
    omega
  · omega

theorem addHeader_mem {t t' : HeaderIndex} (ht : TableInv t) {h : Header} (ha : addHeader t h = .ok t') :
    TableInv t' ∧ t'.maxSize = t.maxSize ∧ t'.table.length ≤ t.table.length + 1 ∧
      ∀ e ∈ t'.table, e = h ∨ e ∈ t.table := by
  obtain ⟨t2, ha2, hinv, hmax, k, hk, htab, _⟩ := addHeader_spec t h ht.1
  rw [ha] at ha2
  cases ha2
  refine ⟨hinv, hmax, ?_, ?_⟩
  · rw [htab]; simp
  · intro e he
    rw [htab] at he
    have := List.mem_of_mem_take he
    simpa using this

theorem encodeHeader_sync {te td : HeaderIndex} (hs : Sync te td) (hinv : TableInv te)
    (S : Bytes → Prop) (hS : ∀ a b, S a → S b → nameEq a b = true → lower a = lower b)
    (htab : ∀ e ∈ te.table, S e.1) (h : Header) (hname : S h.1) (hok : HeaderOk h)
    {k : Nat} (hroom : RoomFor te (k + 1)) :
    ∃ o tl te' td', encodeHeader te h = .ok (o :: tl, te') ∧
      (∀ rest, decodeStep td o (tl ++ rest) = .ok ([lowerHeader h], td', (o :: tl).length)) ∧
      Sync te' td' ∧ TableInv te' ∧ (∀ e ∈ te'.table, S e.1) ∧ RoomFor te' k ∧
      te'.maxSize = te.maxSize := by
  have hadd : ∃ te' td', addHeader te h = .ok te' ∧ addHeader td (lowerHeader h) = .ok td' ∧
      Sync te' td' ∧ TableInv te' ∧ (∀ e ∈ te'.table, S e.1) ∧ RoomFor te' k ∧
      te'.maxSize = te.maxSize := by
    obtain ⟨te', ha, _⟩ := addHeader_spec te h hinv.1
    obtain ⟨td', hb, hsync⟩ := addHeader_sync hs h ha
    obtain ⟨h1, h2, h3, h4⟩ := addHeader_mem hinv ha
    refine ⟨te', td', ha, hb, hsync, h1, ?_, ?_, h2⟩
    · intro e he
      rcases h4 e he with rfl | he
      · exact hname
      · exact htab e he
    · rcases hroom with hr | hr
      · exact Or.inl (by omega)
      · exact Or.inr (by omega)
  cases hf : findHeader te h with
  | none =>
    obtain ⟨te', td', ha, hb, hsync, hi, ht, hr, hm⟩ := hadd
    obtain ⟨o, tl, henc, _⟩ := decodeStep_literal h hok [] hb
    refine ⟨o, tl, te', td', ?_, ?_, hsync, hi, ht, hr, hm⟩
    · simp [encodeHeader, hf, ha, henc]
    · intro rest
      obtain ⟨o', tl', henc', hd⟩ := decodeStep_literal h hok rest hb
      rw [henc] at henc'
      cases henc'
      exact hd
  | some r =>
    obtain ⟨i, b⟩ := r
    obtain ⟨hft, hff⟩ := findHeader_sync hs h S hS hname htab hf
    cases b with
    | false =>
      obtain ⟨h1, h61, v, hg⟩ := hff rfl
      obtain ⟨te', td', ha, hb, hsync, hi, ht, hr, hm⟩ := hadd
      obtain ⟨o, tl, henc, _⟩ := decodeStep_indexedName h hok [] hb h1 h61 hg
      refine ⟨o, tl, te', td', ?_, ?_, hsync, hi, ht, hr, hm⟩
      · simp [encodeHeader, hf, ha, henc]
      · intro rest
        obtain ⟨o', tl', henc', hd⟩ := decodeStep_indexedName h hok rest hb h1 h61 hg
        rw [henc] at henc'
        cases henc'
        exact hd
    | true =>
      obtain ⟨hg, h1, hi⟩ := hft rfl
      have hlen := room_length hinv hroom
      obtain ⟨o, henc, _⟩ := decodeStep_indexed (by omega) hg []
      refine ⟨o, [], te, td, ?_, ?_, hs, hinv, htab, ?_, rfl⟩
      · simp [encodeHeader, hf, henc]
      · intro rest
        obtain ⟨o', henc', hd⟩ := decodeStep_indexed (by omega) hg rest
        rw [henc] at henc'
        cases henc'
        exact hd
      · rcases hroom with hr | hr
        · exact Or.inl hr
        · exact Or.inr (by omega)

theorem encodeHeaders_sync (S : Bytes → Prop)
    (hS : ∀ a b, S a → S b → nameEq a b = true → lower a = lower b) (hs : List Header) :
    ∀ {te td : HeaderIndex} (k : Nat), Sync te td → TableInv te → (∀ e ∈ te.table, S e.1) →
    (∀ h ∈ hs, S h.1 ∧ HeaderOk h) → RoomFor te (hs.length + k) →
    ∃ bs te' td', encodeHeaders te hs = .ok (bs, te') ∧
      decode td bs = some (.ok (hs.map lowerHeader, td')) ∧ Sync te' td' ∧ TableInv te' ∧
      (∀ e ∈ te'.table, S e.1) ∧ RoomFor te' k ∧ te'.maxSize = te.maxSize := by
  induction hs with
  | nil =>
    intro te td k hsync hinv htab _ hroom
    exact ⟨[], te, td, rfl, rfl, hsync, hinv, htab, by simpa using hroom, rfl⟩
  | cons h hs ih =>
    intro te td k hsync hinv htab hall hroom
    have hh := hall h (by simp)
    obtain ⟨o, tl, te1, td1, henc, hdec, hsync1, hinv1, htab1, hroom1, hm1⟩ :=
      encodeHeader_sync hsync hinv S hS htab h hh.1 hh.2 (k := hs.length + k)
        (by rw [show hs.length + k + 1 = (h :: hs).length + k by simp; omega]; exact hroom)
    obtain ⟨bs, te2, td2, henc2, hdec2, hsync2, hinv2, htab2, hroom2, hm2⟩ :=
      ih k hsync1 hinv1 htab1 (fun x hx => hall x (by simp [hx])) hroom1
    refine ⟨o :: tl ++ bs, te2, td2, ?_, ?_, hsync2, hinv2, htab2, hroom2, by rw [hm2, hm1]⟩
    · simp [encodeHeaders, henc, henc2]
    · unfold decode at hdec2 ⊢
      have h1 := hdec bs
      have : decodeRun (bs.length + 1) td (o :: (tl ++ bs))
          = some (.ok ((h :: hs).map lowerHeader, td2)) := by
        rw [decodeRun_step h1]
        have : (o :: (tl ++ bs)).drop (o :: tl).length = bs := by
          rw [← List.cons_append, List.drop_left]
        rw [this, hdec2]
        simp [prependHeaders]
      exact decodeRun_length this

theorem encodeBlocks_sync (S : Bytes → Prop)
    (hS : ∀ a b, S a → S b → nameEq a b = true → lower a = lower b) (blocks : List (List Header)) :
    ∀ {te td : HeaderIndex}, Sync te td → TableInv te → (∀ e ∈ te.table, S e.1) →
    (∀ hs ∈ blocks, ∀ h ∈ hs, S h.1 ∧ HeaderOk h) → RoomFor te (blocks.map List.length).sum →
    ∃ bs te' td', encodeBlocks te blocks = .ok (bs, te') ∧
      decodeBlocks td bs = some (.ok (blocks.map fun hs => hs.map lowerHeader, td')) ∧ Sync te' td' := by
  induction blocks with
  | nil =>
    intro te td hsync _ _ _ _
    exact ⟨[], te, td, rfl, rfl, hsync⟩
  | cons hs blocks ih =>
    intro te td hsync hinv htab hall hroom
    obtain ⟨bs, te1, td1, henc, hdec, hsync1, hinv1, htab1, hroom1, hm1⟩ :=
      encodeHeaders_sync S hS hs (blocks.map List.length).sum hsync hinv htab (hall hs (by simp))
        (by simpa using hroom)
    obtain ⟨bss, te2, td2, henc2, hdec2, hsync2⟩ :=
      ih hsync1 hinv1 htab1 (fun x hx => hall x (by simp [hx])) hroom1
    refine ⟨bs :: bss, te2, td2, ?_, ?_, hsync2⟩
    · simp [encodeBlocks, henc, henc2]
    · simp [decodeBlocks, hdec, hdec2]

end Webparse
