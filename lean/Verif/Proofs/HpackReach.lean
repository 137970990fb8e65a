import Verif.Spec.HpackReach
import Verif.Proofs.HpackSync
import Verif.Proofs.HeaderMap

namespace Webparse
open Spec

theorem staticHash_nil_iff (n : Bytes) : staticHash n = [] ↔ ¬ StaticName n := by
  constructor
  · rintro h ⟨e, he, hl⟩
    obtain ⟨i, hi, rfl⟩ := List.getElem_of_mem he
    unfold staticHash at h
    rw [List.map_eq_nil_iff, List.filter_eq_nil_iff] at h
    have hm : (staticTable[i], i) ∈ staticTable.zipIdx := by
      rw [List.mk_mem_zipIdx_iff_getElem?]
      exact List.getElem?_eq_getElem hi
    have := h _ hm
    apply this
    have h1 : lower (staticTable[i]).1 = lower n := by rw [staticTable_lower _ he, hl]
    have h2 := nameEq_of_lower h1
    simp only [Bool.and_eq_true, beq_iff_eq]
    refine ⟨?_, h2⟩
    rw [nameHashInput_eq_lower, nameHashInput_eq_lower, h1]
  · intro h
    cases hs : staticHash n with
    | nil => rfl
    | cons x l =>
      exfalso
      obtain ⟨v, i⟩ := x
      obtain ⟨-, -, h3⟩ := staticHash_mem (name := n) (v := v) (i := i) (by rw [hs]; simp)
      exact h ⟨_, List.mem_of_getElem? h3, rfl⟩

theorem among_iff (entries : List Header) (k : Nat) (h : Header) :
    Among entries k h ↔ ∃ i, i < k ∧ ∃ e, entries[i]? = some e ∧ lowerHeader e = lowerHeader h := by
  unfold Among
  rw [List.mem_map]
  constructor
  · rintro ⟨e, he, hl⟩
    obtain ⟨i, hi, rfl⟩ := List.getElem_of_mem he
    rw [List.length_take] at hi
    refine ⟨i, by omega, _, ?_, hl⟩
    rw [List.getElem_take, List.getElem?_eq_getElem]
  · rintro ⟨i, hi, e, he, hl⟩
    refine ⟨e, ?_, hl⟩
    have : (entries.take k)[i]? = some e := by rw [List.getElem?_take_of_lt hi, he]
    exact List.mem_of_getElem? this

/-- No name of the set is looked up in the dynamic table and taken for another name of the set. -/
def NamesClear (S : Bytes → Prop) : Prop := ∀ a b, S a → S b → ¬ StaticName b → nameEq a b = true → lower a = lower b

/-- Where the encoder finds a header in its dynamic table. -/
theorem findIdx_among (entries : List Header) (h : Header)
    (hS : ∀ e ∈ entries, nameEq e.1 h.1 = true → lower e.1 = lower h.1) (k : Nat) :
    Among entries k h ↔ ∃ i, i < k ∧ entries.findIdx? (fun e => nameEq e.1 h.1 && e.2 == h.2) = some i := by
  rw [among_iff]
  have hm : ∀ e ∈ entries, ((nameEq e.1 h.1 && e.2 == h.2) = true ↔ lowerHeader e = lowerHeader h) := by
    intro e he
    simp only [Bool.and_eq_true, beq_iff_eq, lowerHeader, Prod.mk.injEq]
    exact and_congr_left fun _ => ⟨hS e he, nameEq_of_lower⟩
  constructor
  · rintro ⟨i, hi, e, he, hl⟩
    have hmem := List.mem_of_getElem? he
    cases hf : entries.findIdx? (fun e => nameEq e.1 h.1 && e.2 == h.2) with
    | none =>
      rw [List.findIdx?_eq_none_iff] at hf
      have := hf e hmem
      rw [(hm e hmem).mpr hl] at this
      simp at this
    | some j =>
      refine ⟨j, ?_, rfl⟩
      rw [List.findIdx?_eq_some_iff_getElem] at hf
      obtain ⟨hj, -, hmin⟩ := hf
      by_cases hji : j ≤ i
      · omega
      · exfalso
        obtain ⟨hlt, rfl⟩ := List.getElem?_eq_some_iff.mp he
        have := hmin i (by omega)
        rw [(hm _ hmem).mpr hl] at this
        simp at this
  · rintro ⟨i, hi, hf⟩
    rw [List.findIdx?_eq_some_iff_getElem] at hf
    obtain ⟨hj, hp, -⟩ := hf
    exact ⟨i, hi, entries[i], List.getElem?_eq_getElem hj, (hm _ (List.getElem_mem hj)).mp hp⟩

theorem find_reachable (S : Bytes → Prop) (hS : NamesClear S)
    {t : HeaderIndex} {h : Header} (hname : S h.1) (htab : ∀ e ∈ t.table, S e.1) (hr : Reachable t.table h)
    {i : Nat} {b : Bool} (hf : findHeader t h = some (i, b)) : i < 127 := by
  unfold findHeader at hf
  simp only at hf
  split at hf
  · split at hf
    · rename_i i' hfind
      simp at hf
      obtain ⟨rfl, rfl⟩ := hf
      obtain ⟨h1, h2, h3⟩ := staticHash_mem (staticHashFind_mem hfind)
      omega
    · split at hf
      · rename_i i' hfind
        simp at hf
        obtain ⟨rfl, rfl⟩ := hf
        obtain ⟨h1, h2, h3⟩ := staticHash_mem (staticHashFind_mem hfind)
        omega
      · simp at hf
  · rename_i hs
    split at hf
    · rename_i idx hfind
      simp at hf
      obtain ⟨rfl, rfl⟩ := hf
      rcases hr with hr | hr
      · exact absurd hr ((staticHash_nil_iff _).mp (by simpa using hs))
      · have hlt : idx < t.table.length := by
          rw [List.findIdx?_eq_some_iff_getElem] at hfind
          exact hfind.1
        have hc : ∀ e ∈ t.table, nameEq e.1 h.1 = true → lower e.1 = lower h.1 := fun e he =>
          hS _ _ (htab e he) hname ((staticHash_nil_iff _).mp (by simpa using hs))
        obtain ⟨j, hj, hf2⟩ := (findIdx_among _ h hc 65).mp
          (hr ((findIdx_among _ h hc _).mpr ⟨idx, hlt, hfind⟩))
        rw [hf2] at hfind
        cases hfind
        rw [staticTable_length]
        omega
    · simp at hf

/-- A header that is in the dynamic table, first at a place from `lo` on and before `hi`. -/
theorem find_far (S : Bytes → Prop) (hS : NamesClear S)
    {t : HeaderIndex} {h : Header} (hname : S h.1) (htab : ∀ e ∈ t.table, S e.1) {lo hi : Nat}
    (hst : ¬ StaticName h.1) (hlo : ¬ Among t.table lo h) (hhi : Among t.table hi h) :
    ∃ i, lo ≤ i ∧ i < hi ∧ i < t.table.length ∧ findHeader t h = some (i + 62, true) := by
  have hc : ∀ e ∈ t.table, nameEq e.1 h.1 = true → lower e.1 = lower h.1 := fun e he => hS _ _ (htab e he) hname hst
  obtain ⟨i, hi', hf⟩ := (findIdx_among _ h hc hi).mp hhi
  have hlt : i < t.table.length := by
    rw [List.findIdx?_eq_some_iff_getElem] at hf
    exact hf.1
  refine ⟨i, ?_, hi', hlt, ?_⟩
  · by_cases h' : lo ≤ i
    · exact h'
    · exact absurd ((findIdx_among _ h hc lo).mpr ⟨i, by omega, hf⟩) hlo
  · unfold findHeader
    simp only [(staticHash_nil_iff _).mpr hst, hf, staticTable_length]
    simp

theorem encodeHeader_reach {te td : HeaderIndex} (hs : Sync te td) (hinv : TableInv te)
    (S : Bytes → Prop) (hS : NamesClear S)
    (htab : ∀ e ∈ te.table, S e.1) (h : Header) (hname : S h.1) (hok : HeaderOk h)
    (hr : Reachable te.table h) :
    ∃ o tl te' td', encodeHeader te h = .ok (o :: tl, te') ∧
      (∀ rest, decodeStep td o (tl ++ rest) = .ok ([lowerHeader h], td', (o :: tl).length)) ∧
      Sync te' td' ∧ TableInv te' ∧ (∀ e ∈ te'.table, S e.1) := by
  have hadd : ∃ te' td', addHeader te h = .ok te' ∧ addHeader td (lowerHeader h) = .ok td' ∧
      Sync te' td' ∧ TableInv te' ∧ (∀ e ∈ te'.table, S e.1) := by
    obtain ⟨te', ha, _⟩ := addHeader_spec te h hinv.1
    obtain ⟨td', hb, hsync⟩ := addHeader_sync hs h ha
    obtain ⟨h1, h2, h3, h4⟩ := addHeader_mem hinv ha
    refine ⟨te', td', ha, hb, hsync, h1, ?_⟩
    intro e he
    rcases h4 e he with rfl | he
    · exact hname
    · exact htab e he
  cases hf : findHeader te h with
  | none =>
    obtain ⟨te', td', ha, hb, hsync, hi, ht⟩ := hadd
    obtain ⟨o, tl, henc, _⟩ := decodeStep_literal h hok [] hb
    refine ⟨o, tl, te', td', ?_, ?_, hsync, hi, ht⟩
    · simp [encodeHeader, hf, ha, henc]
    · intro rest
      obtain ⟨o', tl', henc', hd⟩ := decodeStep_literal h hok rest hb
      rw [henc] at henc'
      cases henc'
      exact hd
  | some r =>
    obtain ⟨i, b⟩ := r
    obtain ⟨hft, hff⟩ := findHeader_found hs h (fun hst e he => hS _ _ (htab e he) hname ((staticHash_nil_iff _).mp hst)) hf
    cases b with
    | false =>
      obtain ⟨h1, h61, v, hg⟩ := hff rfl
      obtain ⟨te', td', ha, hb, hsync, hi, ht⟩ := hadd
      obtain ⟨o, tl, henc, _⟩ := decodeStep_indexedName h hok [] hb h1 h61 hg
      refine ⟨o, tl, te', td', ?_, ?_, hsync, hi, ht⟩
      · simp [encodeHeader, hf, ha, henc]
      · intro rest
        obtain ⟨o', tl', henc', hd⟩ := decodeStep_indexedName h hok rest hb h1 h61 hg
        rw [henc] at henc'
        cases henc'
        exact hd
    | true =>
      obtain ⟨hg, h1, hi⟩ := hft rfl
      have hlen := find_reachable S hS hname htab hr hf
      obtain ⟨o, henc, _⟩ := decodeStep_indexed hlen hg []
      refine ⟨o, [], te, td, ?_, ?_, hs, hinv, htab⟩
      · simp [encodeHeader, hf, henc]
      · intro rest
        obtain ⟨o', henc', hd⟩ := decodeStep_indexed hlen hg rest
        rw [henc] at henc'
        cases henc'
        exact hd

theorem encodeHeaders_reach (S : Bytes → Prop)
    (hS : NamesClear S) (hs : List Header) :
    ∀ {te td : HeaderIndex}, Sync te td → TableInv te → (∀ e ∈ te.table, S e.1) →
    (∀ h ∈ hs, S h.1 ∧ HeaderOk h) → AllReachable te hs →
    ∃ bs te' td', encodeHeaders te hs = .ok (bs, te') ∧
      decode td bs = some (.ok (hs.map lowerHeader, td')) ∧ Sync te' td' ∧ TableInv te' ∧
      (∀ e ∈ te'.table, S e.1) := by
  induction hs with
  | nil =>
    intro te td hsync hinv htab _ _
    exact ⟨[], te, td, rfl, rfl, hsync, hinv, htab⟩
  | cons h hs ih =>
    intro te td hsync hinv htab hall hreach
    have hh := hall h (by simp)
    obtain ⟨o, tl, te1, td1, henc, hdec, hsync1, hinv1, htab1⟩ :=
      encodeHeader_reach hsync hinv S hS htab h hh.1 hh.2 hreach.1
    have hr2 := hreach.2
    rw [henc] at hr2
    obtain ⟨bs, te2, td2, henc2, hdec2, hsync2, hinv2, htab2⟩ :=
      ih hsync1 hinv1 htab1 (fun x hx => hall x (by simp [hx])) hr2
    refine ⟨o :: tl ++ bs, te2, td2, ?_, ?_, hsync2, hinv2, htab2⟩
    · simp [encodeHeaders, henc, henc2]
    · unfold decode at hdec2 ⊢
      have h1 := hdec bs
      have : decodeRun (bs.length + 1) td (o :: (tl ++ bs))
          = some (.ok ((h :: hs).map lowerHeader, td2)) := by
        rw [decodeRun_step h1]
        have : (o :: (tl ++ bs)).drop (o :: tl).length = bs := by
          rw [← List.cons_append, List.drop_left]
        rw [this, hdec2]
        simp [prependHeaders]
      exact decodeRun_length this

theorem allReachable_append (hs ks : List Header) : ∀ (te : HeaderIndex),
    AllReachable te (hs ++ ks) ↔ AllReachable te hs ∧ ∀ b te', encodeHeaders te hs = .ok (b, te') → AllReachable te' ks := by
  induction hs with
  | nil =>
    intro te
    simp only [List.nil_append, AllReachable, true_and, encodeHeaders, Res.ok.injEq, Prod.mk.injEq]
    exact ⟨fun h b t ⟨_, e⟩ => e ▸ h, fun h => h _ _ ⟨rfl, rfl⟩⟩
  | cons h hs ih =>
    intro te
    simp only [List.cons_append, AllReachable]
    cases he : encodeHeader te h with
    | err e => simp [encodeHeaders, he]
    | panic => simp [encodeHeaders, he]
    | ok x =>
      obtain ⟨b1, t1⟩ := x
      simp only []
      rw [ih t1, and_assoc]
      refine and_congr_right fun _ => and_congr_right fun _ => ?_
      simp only [encodeHeaders, he, Res.bind_ok]
      constructor
      · intro h2 b te' hb
        obtain ⟨⟨b2, t2⟩, h3, h4⟩ := (Res.bind_eq_ok ..).mp hb
        simp only [Res.ok.injEq, Prod.mk.injEq] at h4
        rw [← h4.2]
        exact h2 _ _ h3
      · intro h2 b te' hb
        exact h2 (b1 ++ b) te' (by rw [hb]; rfl)

theorem encodeHeaders_cat (hs ks : List Header) : ∀ {te t1 : HeaderIndex} {b1 : Bytes},
    encodeHeaders te hs = .ok (b1, t1) → ∀ {b2 t2}, encodeHeaders t1 ks = .ok (b2, t2) →
    encodeHeaders te (hs ++ ks) = .ok (b1 ++ b2, t2) := by
  induction hs with
  | nil =>
    intro te t1 b1 h b2 t2 h2
    simp only [encodeHeaders, Res.ok.injEq, Prod.mk.injEq] at h
    obtain ⟨rfl, rfl⟩ := h
    simpa using h2
  | cons h hs ih =>
    intro te t1 b1 he b2 t2 h2
    simp only [encodeHeaders] at he
    obtain ⟨⟨x, tx⟩, h3, he⟩ := (Res.bind_eq_ok ..).mp he
    simp only [] at he
    obtain ⟨⟨y, ty⟩, h4, he⟩ := (Res.bind_eq_ok ..).mp he
    simp only [Res.ok.injEq, Prod.mk.injEq] at he
    obtain ⟨rfl, rfl⟩ := he
    simp only [List.cons_append, encodeHeaders, h3, Res.bind_ok, ih h4 h2, List.append_assoc]

theorem encodeBlocks_reach (S : Bytes → Prop)
    (hS : NamesClear S) (blocks : List (List Header)) :
    ∀ {te td : HeaderIndex}, Sync te td → TableInv te → (∀ e ∈ te.table, S e.1) →
    (∀ hs ∈ blocks, ∀ h ∈ hs, S h.1 ∧ HeaderOk h) → AllReachable te blocks.flatten →
    ∃ bs te' td', encodeBlocks te blocks = .ok (bs, te') ∧ (∃ b, encodeHeaders te blocks.flatten = .ok (b, te')) ∧
      decodeBlocks td bs = some (.ok (blocks.map fun hs => hs.map lowerHeader, td')) ∧ Sync te' td' ∧ TableInv te' ∧
      (∀ e ∈ te'.table, S e.1) := by
  induction blocks with
  | nil =>
    intro te td hsync hinv htab _ _
    exact ⟨[], te, td, rfl, ⟨[], rfl⟩, rfl, hsync, hinv, htab⟩
  | cons hs blocks ih =>
    intro te td hsync hinv htab hall hreach
    rw [List.flatten_cons, allReachable_append] at hreach
    obtain ⟨bs, te1, td1, henc, hdec, hsync1, hinv1, htab1⟩ :=
      encodeHeaders_reach S hS hs hsync hinv htab (hall hs (by simp)) hreach.1
    obtain ⟨bss, te2, td2, henc2, ⟨bf, hbf⟩, hdec2, hsync2, hinv2, htab2⟩ :=
      ih hsync1 hinv1 htab1 (fun x hx => hall x (by simp [hx])) (hreach.2 _ _ henc)
    refine ⟨bs :: bss, te2, td2, ?_, ⟨bs ++ bf, ?_⟩, ?_, hsync2, hinv2, htab2⟩
    · simp [encodeBlocks, henc, henc2]
    · rw [List.flatten_cons]
      exact encodeHeaders_cat _ _ henc hbf
    · simp [decodeBlocks, hdec, hdec2]

/-! ### Indices from 127 on -/

theorem encodeIndexed_big {i : Nat} (hi : 127 ≤ i) : encodeIndexed i = 0xff :: encodeIntegerTail (i - 127) := by
  unfold encodeIndexed encodeInteger
  have hm : (prefixMask 7).toNat = 127 := by decide
  simp only [hm]
  rw [if_neg (by omega)]
  rfl

theorem decodeLiteral_single (t : HeaderIndex) (o : UInt8) (i : Bool) (r : Header × Nat) : decodeLiteral t [o] i ≠ .ok r := by
  intro h
  have hs : ∀ c, 1 ≤ c → decodeString ([o].drop c) = .err .intNotEnoughOctets := by
    intro c hc
    have : [o].drop c = [] := List.drop_eq_nil_of_le (by simpa using hc)
    rw [this]
    rfl
  unfold decodeLiteral at h
  obtain ⟨⟨ti, c⟩, h1, h⟩ := (Res.bind_eq_ok ..).mp h
  have hc := (decodeInteger_consumed h1).1
  simp only [] at h
  obtain ⟨⟨name, c2⟩, h2, h⟩ := (Res.bind_eq_ok ..).mp h
  have hc2 : c ≤ c2 := by
    unfold decodeLiteralName at h2
    split at h2
    · rw [hs c hc] at h2
      simp at h2
    · obtain ⟨_, -, h2⟩ := (Res.bind_eq_ok ..).mp h2
      simp only [Res.ok.injEq, Prod.mk.injEq] at h2
      omega
  simp only [] at h
  rw [hs c2 (by omega)] at h
  simp at h

/-- The octets after the first of a large index are never read to the end. -/
theorem tail_not_ok (v : Nat) : ∀ (n : Nat) (t : HeaderIndex) (r : List Header × HeaderIndex),
    decodeRun n t (encodeIntegerTail v) ≠ some (.ok r) := by
  induction v using Nat.strongRecOn with
  | ind v ih =>
    intro n t r h
    rw [encodeIntegerTail] at h
    cases n with
    | zero => split at h <;> simp [decodeRun] at h
    | succ n =>
      split at h
      · rename_i hv
        simp only [decodeRun] at h
        have hf : ∀ k : Nat, k < 128 → fieldRep (UInt8.ofNat (k + 128)) = .indexed := by decide +kernel
        cases hd : decodeStep t (UInt8.ofNat (v % 128 + 128)) (encodeIntegerTail (v / 128)) with
        | err e => rw [hd] at h; simp at h
        | panic => rw [hd] at h; simp at h
        | ok x =>
          obtain ⟨hs, t', c⟩ := x
          rw [hd] at h
          have hc : c = 1 := by
            unfold decodeStep at hd
            simp only [hf (v % 128) (by omega)] at hd
            obtain ⟨⟨h', c'⟩, h1, hd⟩ := (Res.bind_eq_ok ..).mp hd
            simp only [Res.ok.injEq, Prod.mk.injEq] at hd
            rw [← hd.2.2]
            exact (decodeIndexed_consumed h1).1
          subst hc
          simp only [List.drop_succ_cons, List.drop_zero] at h
          cases hr : decodeRun n t' (encodeIntegerTail (v / 128)) with
          | none => rw [hr] at h; simp at h
          | some x =>
            cases x with
            | err e => rw [hr] at h; simp at h
            | panic => rw [hr] at h; simp at h
            | ok y => exact ih (v / 128) (by omega) n t' y hr
      · rename_i hv
        have hf : ∀ k : Nat, k < 128 → fieldRep (UInt8.ofNat k) ≠ .indexed := by decide +kernel
        have hx := hf v (by omega)
        cases hfr : fieldRep (UInt8.ofNat v) with
        | indexed => exact hx hfr
        | sizeUpdate =>
          have := decodeRun_diverges (ReachesSizeUpdate.here (t := t) (rest := []) ((fieldRep_sizeUpdate _).mpr hfr)) (n + 1)
          rw [h] at this
          simp at this
        | incremental =>
          simp only [decodeRun, decodeStep, hfr] at h
          cases hl : decodeLiteral t [UInt8.ofNat v] true with
          | ok x => exact decodeLiteral_single _ _ _ _ hl
          | err e => rw [hl] at h; simp at h
          | panic => rw [hl] at h; simp at h
        | withoutIndexing =>
          simp only [decodeRun, decodeStep, hfr] at h
          cases hl : decodeLiteral t [UInt8.ofNat v] false with
          | ok x => exact decodeLiteral_single _ _ _ _ hl
          | err e => rw [hl] at h; simp at h
          | panic => rw [hl] at h; simp at h
        | neverIndexed =>
          simp only [decodeRun, decodeStep, hfr] at h
          cases hl : decodeLiteral t [UInt8.ofNat v] false with
          | ok x => exact decodeLiteral_single _ _ _ _ hl
          | err e => rw [hl] at h; simp at h
          | panic => rw [hl] at h; simp at h

theorem indexed_big_not_ok {i : Nat} (hi : 127 ≤ i) (n : Nat) (t : HeaderIndex) (r : List Header × HeaderIndex) :
    decodeRun n t (encodeIndexed i) ≠ some (.ok r) := by
  rw [encodeIndexed_big hi]
  intro h
  cases n with
  | zero => simp [decodeRun] at h
  | succ n =>
    simp only [decodeRun] at h
    cases hd : decodeStep t 0xff (encodeIntegerTail (i - 127)) with
    | err e => rw [hd] at h; simp at h
    | panic => rw [hd] at h; simp at h
    | ok x =>
      obtain ⟨hs, t', c⟩ := x
      rw [hd] at h
      have hc : c = 1 := by
        unfold decodeStep at hd
        simp only [show fieldRep 0xff = .indexed by decide +kernel] at hd
        obtain ⟨⟨h', c'⟩, h1, hd⟩ := (Res.bind_eq_ok ..).mp hd
        simp only [Res.ok.injEq, Prod.mk.injEq] at hd
        rw [← hd.2.2]
        exact (decodeIndexed_consumed h1).1
      subst hc
      simp only [List.drop_succ_cons, List.drop_zero] at h
      cases hr : decodeRun n t' (encodeIntegerTail (i - 127)) with
      | none => rw [hr] at h; simp at h
      | some x =>
        cases x with
        | err e => rw [hr] at h; simp at h
        | panic => rw [hr] at h; simp at h
        | ok y => exact tail_not_ok _ n t' y hr

theorem indexed_hangs {i : Nat} (hlo : 159 ≤ i) (hhi : i ≤ 190) (t : HeaderIndex) (hl : 65 < t.table.length) (rest : Bytes) :
    ReachesSizeUpdate t (encodeIndexed i ++ rest) := by
  rw [encodeIndexed_big (by omega)]
  have hg : ∃ h, getFromIndex t 127 = some h := by
    unfold getFromIndex
    simp only [staticTable_length]
    rw [if_neg (by decide), if_neg (by decide), if_pos (by simpa using hl)]
    exact ⟨_, List.getElem?_eq_getElem (by simpa using hl)⟩
  obtain ⟨h, hg⟩ := hg
  have ht : encodeIntegerTail (i - 127) = [UInt8.ofNat (i - 127)] := by
    rw [encodeIntegerTail, if_neg (by omega)]
  have hd : decodeStep t 0xff (encodeIntegerTail (i - 127) ++ rest) = .ok ([h], t, 1) := by
    unfold decodeStep decodeIndexed
    simp only [show fieldRep 0xff = .indexed by decide +kernel, show (0xff &&& 0x7f : UInt8).toNat = 127 by decide, hg,
      Res.ofOption, Res.bind_ok]
  refine .step hd ?_
  rw [ht]
  refine .here ?_
  rw [UInt8.toNat_ofNat_of_lt' (by show i - 127 < 256; omega)]
  omega

/-- If the rest of a block is never read, neither is the block. -/
theorem decode_append_not_ok {t t' : HeaderIndex} {a b : Bytes} {hs : List Header} (ha : decode t a = some (.ok (hs, t')))
    (hb : ∀ n r, decodeRun n t' b ≠ some (.ok r)) (r : List Header × HeaderIndex) : decode t (a ++ b) ≠ some (.ok r) := by
  intro h
  by_cases hr : ReachesSizeUpdate t' b
  · have := decodeRun_diverges (reaches_append ha hr) (a ++ b).length
    unfold decode at h
    rw [h] at this
    simp at this
  · obtain ⟨r', h'⟩ := decodeRun_terminates b.length (Nat.le_refl _) hr
    have h2 := decodeRun_length (decodeRun_append ha h')
    unfold decode at h
    rw [h] at h2
    cases r' with
    | ok y => exact hb _ _ h'
    | err e => simp [prependHeaders] at h2
    | panic => simp [prependHeaders] at h2

theorem encodeBlocks_append (as bs : List (List Header)) : ∀ {te t1 t2 : HeaderIndex} {x y : List Bytes},
    encodeBlocks te as = .ok (x, t1) → encodeBlocks t1 bs = .ok (y, t2) → encodeBlocks te (as ++ bs) = .ok (x ++ y, t2) := by
  induction as with
  | nil =>
    intro te t1 t2 x y h h2
    simp only [encodeBlocks, Res.ok.injEq, Prod.mk.injEq] at h
    obtain ⟨rfl, rfl⟩ := h
    simpa using h2
  | cons a as ih =>
    intro te t1 t2 x y h h2
    simp only [encodeBlocks] at h
    obtain ⟨⟨p, tp⟩, h3, h⟩ := (Res.bind_eq_ok ..).mp h
    simp only [] at h
    obtain ⟨⟨q, tq⟩, h4, h⟩ := (Res.bind_eq_ok ..).mp h
    simp only [Res.ok.injEq, Prod.mk.injEq] at h
    obtain ⟨rfl, rfl⟩ := h
    simp only [List.cons_append, encodeBlocks, h3, Res.bind_ok, ih h4 h2]

theorem decodeBlocks_append (as bs : List Bytes) : ∀ {td t1 : HeaderIndex} {x : List (List Header)},
    decodeBlocks td as = some (.ok (x, t1)) → decodeBlocks td (as ++ bs) =
      match decodeBlocks t1 bs with
      | none => none
      | some (.err e) => some (.err e)
      | some .panic => some .panic
      | some (.ok (y, t2)) => some (.ok (x ++ y, t2)) := by
  induction as with
  | nil =>
    intro td t1 x h
    simp only [decodeBlocks, Option.some.injEq, Res.ok.injEq, Prod.mk.injEq] at h
    obtain ⟨rfl, rfl⟩ := h
    simp only [List.nil_append]
    rcases decodeBlocks td bs with _ | _ | _ | _ <;> rfl
  | cons a as ih =>
    intro td t1 x h
    simp only [decodeBlocks] at h
    cases hd : decode td a with
    | none => rw [hd] at h; simp at h
    | some r =>
      cases r with
      | err e => rw [hd] at h; simp at h
      | panic => rw [hd] at h; simp at h
      | ok p =>
        obtain ⟨p, tp⟩ := p
        rw [hd] at h
        simp only [] at h
        cases hd2 : decodeBlocks tp as with
        | none => rw [hd2] at h; simp at h
        | some r =>
          cases r with
          | err e => rw [hd2] at h; simp at h
          | panic => rw [hd2] at h; simp at h
          | ok q =>
            obtain ⟨q, tq⟩ := q
            rw [hd2] at h
            simp only [Option.some.injEq, Res.ok.injEq, Prod.mk.injEq] at h
            obtain ⟨rfl, rfl⟩ := h
            simp only [List.cons_append, decodeBlocks, hd, ih hd2]
            rcases decodeBlocks tq bs with _ | ⟨_, _⟩ | _ | _ <;> rfl

/-! ### Names that are confused -/

theorem reachable_short {entries : List Header} (h : Header) (hl : entries.length ≤ 65) : Reachable entries h := by
  refine Or.inr fun hx => ?_
  unfold Among at hx ⊢
  rw [List.take_of_length_le (Nat.le_refl _)] at hx
  rw [List.take_of_length_le hl]
  exact hx

/-- Two headers with names the encoder confuses: the second is written as the first. -/
theorem confused_pair {a b : Bytes} (hst : ¬ StaticName b) (he : nameEq a b = true) :
    ∃ x te, encodeHeader { maxSize := a.length + 33 } (a, [1]) = .ok (x, te) ∧ te.table = [(a, [1])] ∧
      encodeHeader te (b, [1]) = .ok (encodeIndexed 62, te) := by
  have hval : ∀ e ∈ staticTable, e.2 ≠ [1] := by decide +kernel
  have hno : ∀ i, staticHashFind (staticHash a) [1] ≠ some i := by
    intro i hf
    obtain ⟨-, -, h3⟩ := staticHash_mem (staticHashFind_mem hf)
    exact hval _ (List.mem_of_getElem? h3) rfl
  have hadd : addHeader { maxSize := a.length + 33 } (a, [1]) = .ok ⟨[(a, [1])], a.length + 33, a.length + 33⟩ := by
    unfold addHeader
    rw [consolidate, if_neg (by simp [entrySize])]
    simp [entrySize]
  have h1 : ∃ x, encodeHeader { maxSize := a.length + 33 } (a, [1]) = .ok (x, ⟨[(a, [1])], a.length + 33, a.length + 33⟩) := by
    unfold encodeHeader
    cases hf : findHeader { maxSize := a.length + 33 } (a, [1]) with
    | none => exact ⟨_, by simp only [hadd, Res.bind_ok]; rfl⟩
    | some r =>
      obtain ⟨i, k⟩ := r
      cases k with
      | false => exact ⟨_, by simp only [hadd, Res.bind_ok]; rfl⟩
      | true =>
        exfalso
        unfold findHeader at hf
        simp only at hf
        split at hf
        · split at hf
          · rename_i j hj
            exact hno j hj
          · split at hf <;> simp at hf
        · simp at hf
  obtain ⟨x, h1⟩ := h1
  refine ⟨x, _, h1, rfl, ?_⟩
  have h2 : findHeader ⟨[(a, [1])], a.length + 33, a.length + 33⟩ (b, [1]) = some (62, true) := by
    unfold findHeader
    simp only [(staticHash_nil_iff _).mpr hst]
    simp [he, staticTable_length]
  simp [encodeHeader, h2]

end Webparse
