import Verif.Spec.HpackLanguage
import Verif.Proofs.Rfc7541
import Verif.Proofs.Utf8Spec
import Verif.Proofs.Lossy

/-! # Exactly which header blocks the decoder reads, never finishes, or refuses: C68, C66, C10 -/

namespace Webparse
open Spec Spec.Rfc

theorem looseEntry_eq (t : HeaderIndex) (i : Nat) : getFromIndex t i = looseEntry (toTable t) i := by
  unfold looseEntry
  split
  · rename_i h
    subst h
    unfold getFromIndex
    rw [if_neg (by decide)]
    simp only [staticTable_length]
    rw [if_pos (by decide)]
    decide +kernel
  · rename_i h
    exact entry_eq t i h

theorem looseString_decodes {s bs : Bytes} (h : LooseString s bs) (rest : Bytes) :
    decodeString (bs ++ rest) = .ok (s, bs.length) := by
  obtain ⟨l, d, rfl, h⟩ := h
  rcases h with h | ⟨h, syms, hlt, hh, rfl⟩
  · exact string_decodes ⟨l, d, rfl, Or.inl h⟩ rest
  · have bit : ∀ b : UInt8, (b.toNat / 2 ^ 7 = 1 → b &&& 128 = 128) := by decide +kernel
    obtain ⟨b, tl, rfl, hb⟩ := integer_cons h
    have hd := integer_decodes (by decide) (by decide) h (d ++ rest)
    unfold decodeString
    rw [List.append_assoc, hd, Res.bind_ok]
    simp only
    rw [if_neg (by simp; omega), List.drop_left, List.take_left]
    have heq : (b :: tl ++ (d ++ rest)).headD 0 &&& 128 = 128 := bit b hb
    rw [if_pos heq, (huffDecode_exact _ _).mpr ⟨syms, hlt, hh, rfl⟩]
    simp; omega

theorem looseString_accepted {buf s : Bytes} {n : Nat} (h : decodeString buf = .ok (s, n)) :
    ∃ a rest, buf = a ++ rest ∧ a.length = n ∧ LooseString s a := by
  unfold decodeString at h
  obtain ⟨⟨len, c⟩, hi, h⟩ := (Res.bind_eq_ok ..).mp h
  obtain ⟨l, rest, rfl, rfl, hI⟩ := integer_accepted (by decide) (by decide) hi
  simp only at h
  split at h
  · simp at h
  · rename_i hlen
    rw [List.drop_left] at h
    have hlen' : len ≤ rest.length := by simp at hlen; omega
    have htop : ∀ b : UInt8, (b &&& 128 = 128 → b.toNat / 2 ^ 7 = 1) ∧ (b &&& 128 ≠ 128 → b.toNat / 2 ^ 7 = 0) := by
      decide +kernel
    have hsplit : l ++ rest = (l ++ rest.take len) ++ rest.drop len := by
      rw [List.append_assoc, List.take_append_drop]
    have hll : (rest.take len).length = len := by simp; omega
    split at h
    · rename_i hb
      rw [(htop _).1 hb] at hI
      obtain ⟨d, hd, h⟩ := (Res.bind_eq_ok ..).mp h
      simp only [Res.ok.injEq, Prod.mk.injEq] at h
      obtain ⟨rfl, rfl⟩ := h
      exact ⟨_, _, hsplit, by simp; omega, l, rest.take len, rfl, Or.inr ⟨by rw [hll]; exact hI, (huffDecode_exact _ _).mp hd⟩⟩
    · rename_i hb
      rw [(htop _).2 hb] at hI
      simp only [Res.ok.injEq, Prod.mk.injEq] at h
      obtain ⟨rfl, rfl⟩ := h
      exact ⟨_, _, hsplit, by simp; omega, l, _, rfl, Or.inl ⟨by rw [hll]; exact hI, rfl⟩⟩

theorem looseLiteral_decodes {t : HeaderIndex} (inc : Bool) {m : Mode} (hm : m.bits = if inc then 6 else 4) {n v a b : Bytes}
    (hn : LooseName (toTable t) m a n) (hv : LooseString v b) (rest : Bytes) :
    decodeLiteral t (a ++ b ++ rest) inc = .ok ((n, v), (a ++ b).length) := by
  have hb1 : 1 ≤ m.bits := by cases m <;> decide
  have hb8 : m.bits ≤ 8 := by cases m <;> decide
  cases hn with
  | @index i a e hi ha he =>
    unfold decodeLiteral
    simp only
    rw [← hm, List.append_assoc, integer_decodes hb1 hb8 ha, Res.bind_ok]
    simp only [decodeLiteralName]
    rw [if_neg hi, looseEntry_eq t i, he]
    simp only [Res.ofOption, Res.bind_ok]
    rw [List.drop_left, looseString_decodes hv]
    simp
  | @text a c s n' ha hs ht =>
    rw [(textOf_iff _ _).mp ht]
    unfold decodeLiteral
    simp only
    rw [← hm, List.append_assoc, List.append_assoc, integer_decodes hb1 hb8 ha, Res.bind_ok]
    simp only [decodeLiteralName]
    rw [if_pos trivial, List.drop_left, looseString_decodes hs, Res.bind_ok, Res.bind_ok]
    simp only
    rw [← List.append_assoc, ← List.length_append, List.drop_left, looseString_decodes hv]
    simp [headerNameFromBytes, Nat.add_assoc]

theorem looseLiteral_accepted {t : HeaderIndex} {buf : Bytes} {inc : Bool} {m : Mode} (hm : m.bits = if inc then 6 else 4)
    (htop : (buf.headD 0).toNat / 2 ^ m.bits = m.top) {h : Header} {n : Nat} (hd : decodeLiteral t buf inc = .ok (h, n)) :
    ∃ a b rest, buf = a ++ b ++ rest ∧ (a ++ b).length = n ∧ LooseName (toTable t) m a h.1 ∧ LooseString h.2 b := by
  have hb1 : 1 ≤ m.bits := by cases m <;> decide
  have hb8 : m.bits ≤ 8 := by cases m <;> decide
  unfold decodeLiteral at hd
  simp only at hd
  rw [← hm] at hd
  obtain ⟨⟨ti, c⟩, hi, hd⟩ := (Res.bind_eq_ok ..).mp hd
  obtain ⟨⟨name, c2⟩, hn, hd⟩ := (Res.bind_eq_ok ..).mp hd
  obtain ⟨⟨v, k⟩, hv, hd⟩ := (Res.bind_eq_ok ..).mp hd
  simp only [Res.ok.injEq, Prod.mk.injEq] at hd
  obtain ⟨rfl, rfl⟩ := hd
  simp only at hn hv
  obtain ⟨a, rest, rfl, rfl, hI⟩ := integer_accepted hb1 hb8 hi
  rw [htop] at hI
  unfold decodeLiteralName at hn
  split at hn
  · rename_i h0
    subst h0
    rw [List.drop_left] at hn
    obtain ⟨⟨nm, nl⟩, hs, hn⟩ := (Res.bind_eq_ok ..).mp hn
    simp only [Res.ok.injEq, Prod.mk.injEq] at hn
    obtain ⟨rfl, rfl⟩ := hn
    obtain ⟨b, rest, rfl, rfl, hst⟩ := looseString_accepted hs
    clear hs
    rw [← List.append_assoc, ← List.length_append, List.drop_left] at hv
    obtain ⟨w, rest, rfl, rfl, hw⟩ := looseString_accepted hv
    exact ⟨a ++ b, w, rest, by simp, by simp [Nat.add_assoc], .text hI hst ((textOf_iff _ _).mpr rfl), hw⟩
  · rename_i h0
    obtain ⟨e, he, hn⟩ := (Res.bind_eq_ok ..).mp hn
    simp only [Res.ok.injEq, Prod.mk.injEq] at hn
    obtain ⟨rfl, rfl⟩ := hn
    rw [List.drop_left] at hv
    obtain ⟨w, rest, rfl, rfl, hw⟩ := looseString_accepted hv
    refine ⟨a, w, rest, by simp, by simp, .index (e := e) h0 hI ?_, hw⟩
    cases hg : getFromIndex t ti with
    | none => rw [hg] at he; simp [Res.ofOption] at he
    | some x =>
      rw [hg] at he
      simp only [Res.ofOption, Res.ok.injEq] at he
      subst he
      rw [← looseEntry_eq, hg]

theorem looseName_head {t : Table} {m : Mode} {a n : Bytes} (h : LooseName t m a n) :
    ∃ o tl, a = o :: tl ∧ o.toNat / 2 ^ m.bits = m.top := by
  cases h with
  | index _ ha _ => exact integer_cons ha
  | text ha _ _ =>
    obtain ⟨o, tl, rfl, ho⟩ := integer_cons ha
    exact ⟨o, _, rfl, ho⟩

theorem looseRep_decodes {t : HeaderIndex} (ht : TableInv t) {a : Bytes} {T : Table} {h : Header} (hr : LooseRep (toTable t) a T h) :
    ∃ o tl t', a = o :: tl ∧ (∀ rest, decodeStep t o (tl ++ rest) = .ok ([h], t', a.length)) ∧ TableInv t' ∧ toTable t' = T := by
  have kinds : ∀ b : UInt8, (128 ≤ b.toNat → fieldRep b = .indexed ∧ (b &&& 0x7f).toNat = b.toNat - 128) ∧
      (b.toNat / 2 ^ 6 = 1 → fieldRep b = .incremental) ∧
      (b.toNat / 2 ^ 4 = 0 → fieldRep b = .withoutIndexing) ∧ (b.toNat / 2 ^ 4 = 1 → fieldRep b = .neverIndexed) := by
    decide +kernel
  cases hr with
  | @indexed o h ho he =>
    refine ⟨o, [], t, rfl, ?_, ht, rfl⟩
    intro rest
    unfold decodeStep
    simp only [((kinds o).1 ho).1, decodeIndexed]
    rw [((kinds o).1 ho).2, looseEntry_eq, he]
    rfl
  | @incremental a b n v kept hn hv he =>
    obtain ⟨o, tl, rfl, ho⟩ := looseName_head hn
    obtain ⟨t', h1, h2, h3⟩ := add_eviction ht he
    refine ⟨o, tl ++ b, t', rfl, ?_, h2, h3⟩
    intro rest
    have hd := looseLiteral_decodes (t := t) true rfl hn hv rest
    unfold decodeStep
    simp only [(kinds o).2.1 ho]
    rw [show o :: (tl ++ b ++ rest) = o :: tl ++ b ++ rest from rfl, hd]
    simp only [Res.bind_ok, h1]
  | @plain m a b n v hm hn hv =>
    obtain ⟨o, tl, rfl, ho⟩ := looseName_head hn
    refine ⟨o, tl ++ b, t, rfl, ?_, ht, rfl⟩
    intro rest
    have hbits : m.bits = 4 := by cases m <;> first | rfl | exact absurd rfl hm
    have hd := looseLiteral_decodes (t := t) false hbits hn hv rest
    unfold decodeStep
    cases m with
    | incremental => exact absurd rfl hm
    | without =>
      simp only [(kinds o).2.2.1 ho]
      rw [show o :: (tl ++ b ++ rest) = o :: tl ++ b ++ rest from rfl, hd]
      simp only [Res.bind_ok]
    | never =>
      simp only [(kinds o).2.2.2 ho]
      rw [show o :: (tl ++ b ++ rest) = o :: tl ++ b ++ rest from rfl, hd]
      simp only [Res.bind_ok]

theorem looseRep_accepted {t : HeaderIndex} (ht : TableInv t) {o : UInt8} {tl : Bytes} {hs : List Header} {t' : HeaderIndex} {n : Nat}
    (hsu : fieldRep o ≠ .sizeUpdate) (h : decodeStep t o tl = .ok (hs, t', n)) :
    ∃ a rest x, o :: tl = a ++ rest ∧ a.length = n ∧ hs = [x] ∧ LooseRep (toTable t) a (toTable t') x := by
  have kinds : ∀ b : UInt8, (fieldRep b = .indexed → 128 ≤ b.toNat ∧ (b &&& 0x7f).toNat = b.toNat - 128) ∧
      (fieldRep b = .incremental → b.toNat / 2 ^ 6 = 1) ∧
      (fieldRep b = .withoutIndexing → b.toNat / 2 ^ 4 = 0) ∧ (fieldRep b = .neverIndexed → b.toNat / 2 ^ 4 = 1) := by
    decide +kernel
  unfold decodeStep at h
  split at h
  · rename_i hk
    obtain ⟨⟨x, c⟩, h1, h2⟩ := (Res.bind_eq_ok ..).mp h
    simp only [Res.ok.injEq, Prod.mk.injEq] at h2
    obtain ⟨rfl, rfl, rfl⟩ := h2
    obtain ⟨rfl, hg⟩ := decodeIndexed_consumed h1
    rw [((kinds o).1 hk).2, looseEntry_eq] at hg
    exact ⟨[o], tl, x, rfl, rfl, rfl, .indexed ((kinds o).1 hk).1 hg⟩
  · rename_i hk
    obtain ⟨⟨x, c⟩, h1, h2⟩ := (Res.bind_eq_ok ..).mp h
    obtain ⟨t1, h3, h2⟩ := (Res.bind_eq_ok ..).mp h2
    simp only [Res.ok.injEq, Prod.mk.injEq] at h2
    obtain ⟨rfl, rfl, rfl⟩ := h2
    obtain ⟨a, b, rest, e1, e2, e3, e4⟩ := looseLiteral_accepted (buf := o :: tl) (m := .incremental) rfl ((kinds o).2.1 hk) h1
    refine ⟨a ++ b, rest, x, e1, e2, rfl, ?_⟩
    obtain ⟨t2, ha2, -, hmax, hev⟩ := addHeader_spec t x ht.1
    rw [h3] at ha2; cases ha2
    rw [show toTable t1 = ⟨t1.table, t.maxSize⟩ by rw [toTable, hmax]]
    exact .incremental e3 e4 hev
  · rename_i hk
    obtain ⟨⟨x, c⟩, h1, h2⟩ := (Res.bind_eq_ok ..).mp h
    simp only [Res.ok.injEq, Prod.mk.injEq] at h2
    obtain ⟨rfl, rfl, rfl⟩ := h2
    obtain ⟨a, b, rest, e1, e2, e3, e4⟩ := looseLiteral_accepted (buf := o :: tl) (m := .without) rfl ((kinds o).2.2.1 hk) h1
    exact ⟨a ++ b, rest, x, e1, e2, rfl, .plain (by decide) e3 e4⟩
  · rename_i hk
    obtain ⟨⟨x, c⟩, h1, h2⟩ := (Res.bind_eq_ok ..).mp h
    simp only [Res.ok.injEq, Prod.mk.injEq] at h2
    obtain ⟨rfl, rfl, rfl⟩ := h2
    obtain ⟨a, b, rest, e1, e2, e3, e4⟩ := looseLiteral_accepted (buf := o :: tl) (m := .never) rfl ((kinds o).2.2.2 hk) h1
    exact ⟨a ++ b, rest, x, e1, e2, rfl, .plain (by decide) e3 e4⟩
  · rename_i hk
    exact absurd hk hsu

theorem looseReads_decodes {T0 T : Table} {bs : Bytes} {hs : List Header} (h : LooseReads T0 bs T hs) :
    ∀ {t : HeaderIndex}, TableInv t → toTable t = T0 →
    ∃ n t', decodeRun n t bs = some (.ok (hs, t')) ∧ TableInv t' ∧ toTable t' = T := by
  induction h with
  | nil => intro t ht e; exact ⟨0, t, by simp [decodeRun], ht, e⟩
  | @cons T0 a T1 h bs T2 hs hr _ ih =>
    rintro t ht rfl
    obtain ⟨o, tl, t', rfl, hd, hi, e⟩ := looseRep_decodes ht hr
    obtain ⟨n, t'', e1, e2, e3⟩ := ih hi e
    refine ⟨n + 1, t'', ?_, e2, e3⟩
    rw [List.cons_append, decodeRun_step (hd bs), ← List.cons_append, List.drop_left, e1]
    rfl

theorem looseReads_accepted (n : Nat) : ∀ {t : HeaderIndex}, TableInv t → ∀ {bs : Bytes} {hs : List Header} {t' : HeaderIndex},
    decodeRun n t bs = some (.ok (hs, t')) → LooseReads (toTable t) bs (toTable t') hs := by
  induction n with
  | zero =>
    intro t ht bs hs t' h
    cases bs with
    | nil =>
      simp only [decodeRun, Option.some.injEq, Res.ok.injEq, Prod.mk.injEq] at h
      obtain ⟨rfl, rfl⟩ := h
      exact .nil
    | cons o tl => simp [decodeRun] at h
  | succ n ih =>
    intro t ht bs hs t' h
    cases bs with
    | nil =>
      simp only [decodeRun, Option.some.injEq, Res.ok.injEq, Prod.mk.injEq] at h
      obtain ⟨rfl, rfl⟩ := h
      exact .nil
    | cons o tl =>
      have hsu : fieldRep o ≠ .sizeUpdate := by
        intro hk
        rw [decodeRun_diverges (.here ((fieldRep_sizeUpdate o).mpr hk))] at h
        simp at h
      cases hd : decodeStep t o tl with
      | err e => simp [decodeRun, hd] at h
      | panic => simp [decodeRun, hd] at h
      | ok r =>
        obtain ⟨hs1, t1, c⟩ := r
        rw [decodeRun_step hd] at h
        have hi := ((decodeStep_safe ht o tl).2 _ _ _ hd).1
        obtain ⟨a, rest, x, e1, rfl, rfl, e4⟩ := looseRep_accepted ht hsu hd
        rw [e1, List.drop_left] at h
        cases hr : decodeRun n t1 rest with
        | none => rw [hr] at h; simp at h
        | some y =>
          rw [hr] at h
          cases y with
          | err e => simp [prependHeaders] at h
          | panic => simp [prependHeaders] at h
          | ok y =>
            obtain ⟨hs2, t2⟩ := y
            simp only [Option.map_some, prependHeaders, Option.some.injEq, Res.ok.injEq, Prod.mk.injEq] at h
            obtain ⟨rfl, rfl⟩ := h
            rw [e1]
            exact .cons e4 (ih hi hr)

/-- C68, exactly: a block of any length is decoded to these headers and this table if and only if the small grammar of
`Spec/HpackLanguage.lean` reads it so. -/
theorem C68_iff_partial (t : HeaderIndex) (ht : TableInv t) (bs : Bytes) (T : Table) (hs : List Header) :
    (∃ t', decode t bs = some (.ok (hs, t')) ∧ toTable t' = T) ↔ LooseReads (toTable t) bs T hs := by
  constructor
  · rintro ⟨t', h, rfl⟩
    exact looseReads_accepted _ ht h
  · intro h
    obtain ⟨n, t', h1, -, h3⟩ := looseReads_decodes h ht rfl
    exact ⟨t', decodeRun_length h1, h3⟩

/-- C10, exactly: decoding never ends if and only if, after representations that are read, there is an octet
`001xxxxx`. -/
theorem C10_endless_iff_partial (t : HeaderIndex) (ht : TableInv t) (bs : Bytes) :
    (∀ n, decodeRun n t bs = none) ↔
    ∃ a o c T hs, bs = a ++ o :: c ∧ LooseReads (toTable t) a T hs ∧ o.toNat / 32 = 1 := by
  constructor
  · intro h
    have hr : ReachesSizeUpdate t bs := by
      apply Classical.byContradiction
      intro hx
      obtain ⟨r, hr⟩ := decodeRun_terminates bs.length (Nat.le_refl _) hx
      rw [h] at hr
      simp at hr
    clear h
    induction hr with
    | @here t o rest ho => exact ⟨[], o, rest, _, _, rfl, .nil, ho⟩
    | @step t o rest hs t' c hd _ ih =>
      by_cases hk : fieldRep o = .sizeUpdate
      · exact ⟨[], o, rest, _, _, rfl, .nil, (fieldRep_sizeUpdate o).mpr hk⟩
      · obtain ⟨a, r, x, e1, rfl, rfl, e4⟩ := looseRep_accepted ht hk hd
        obtain ⟨a', o', c', T, hs', e5, e6, e7⟩ := ih ((decodeStep_safe ht o rest).2 _ _ _ hd).1
        rw [e1, List.drop_left] at e5
        exact ⟨a ++ a', o', c', T, x :: hs', by rw [e1, e5, List.append_assoc], .cons e4 e6, e7⟩
  · rintro ⟨a, o, c, T, hs, rfl, hr, ho⟩
    apply decodeRun_diverges
    have key : ∀ {T0 T : Table} {a : Bytes} {hs : List Header}, LooseReads T0 a T hs → ∀ {t : HeaderIndex}, TableInv t →
        toTable t = T0 → ReachesSizeUpdate t (a ++ o :: c) := by
      intro T0 T a hs h
      induction h with
      | nil => intro t _ _; exact .here ho
      | @cons T0 a T1 h bs T2 hs hr _ ih =>
        rintro t ht rfl
        obtain ⟨b, tl, t', rfl, hd, hi, e⟩ := looseRep_decodes ht hr
        have hd' := hd (bs ++ o :: c)
        rw [List.append_assoc, List.cons_append]
        refine .step hd' ?_
        rw [← List.cons_append, List.drop_left]
        exact ih hi e
    exact key hr ht rfl

/-- C68, the rest: a block is refused with an error, without panic, if and only if it is neither read by that
grammar nor endless. -/
theorem C68_refused_iff_partial (t : HeaderIndex) (ht : TableInv t) (bs : Bytes) :
    (∃ e, decode t bs = some (.err e)) ↔
    (¬ ∃ T hs, LooseReads (toTable t) bs T hs) ∧
      ¬ ∃ a o c T hs, bs = a ++ o :: c ∧ LooseReads (toTable t) a T hs ∧ o.toNat / 32 = 1 := by
  have hend : decode t bs = none ↔ ∀ n, decodeRun n t bs = none := by
    constructor
    · intro h n
      cases hx : decodeRun n t bs with
      | none => rfl
      | some r => have := decodeRun_length hx; unfold decode at h; rw [h] at this; simp at this
    · intro h; exact h _
  rw [← C10_endless_iff_partial t ht bs, ← hend]
  constructor
  · rintro ⟨e, he⟩
    refine ⟨?_, by rw [he]; simp⟩
    rintro ⟨T, hs, h⟩
    obtain ⟨t', h', -⟩ := (C68_iff_partial t ht bs T hs).mpr h
    rw [he] at h'
    simp at h'
  · rintro ⟨h1, h2⟩
    cases hx : decode t bs with
    | none => exact absurd hx h2
    | some r =>
      cases r with
      | err e => exact ⟨e, rfl⟩
      | panic => exact absurd hx (decodeRun_safe _ ht bs).1
      | ok y =>
        obtain ⟨hs, t'⟩ := y
        exact absurd ⟨_, hs, (C68_iff_partial t ht bs _ hs).mp ⟨t', hx, rfl⟩⟩ h1

/-! ## C66 -/

theorem looseString_rfc {ok : Bytes → Prop} {s s' a a' r r' : Bytes} (h : IsString ok s a) (h' : LooseString s' a')
    (e : a ++ r = a' ++ r') : a = a' ∧ s = s' ∧ r = r' ∧ IsString shortInteger s a := by
  obtain ⟨l, d, rfl, h⟩ := h
  obtain ⟨l', d', rfl, h'⟩ := h'
  rw [List.append_assoc, List.append_assoc] at e
  rcases h with ⟨h, rfl⟩ | ⟨h, hd⟩ <;> rcases h' with ⟨h', rfl⟩ | ⟨h', syms, hlt, hd', rfl⟩
  · obtain ⟨rfl, hl, e⟩ := integer_prefix_free h h' e
    obtain ⟨rfl, rfl⟩ := List.append_inj e hl
    exact ⟨rfl, rfl, rfl, l, d, rfl, Or.inl ⟨h', rfl⟩⟩
  · obtain ⟨rfl, -, -⟩ := integer_prefix_free h h' e
    exact absurd (h.2.1.symm.trans h'.2.1) (by decide)
  · obtain ⟨rfl, -, -⟩ := integer_prefix_free h h' e
    exact absurd (h.2.1.symm.trans h'.2.1) (by decide)
  · obtain ⟨rfl, hl, e⟩ := integer_prefix_free h h' e
    obtain ⟨rfl, rfl⟩ := List.append_inj e hl
    have h1 := huffman_decodes hd
    rw [(huffDecode_exact _ _).mpr ⟨syms, hlt, hd', rfl⟩] at h1
    simp only [Res.ok.injEq] at h1
    exact ⟨rfl, h1.symm, rfl, l, d, rfl, Or.inr ⟨h', hd⟩⟩

theorem looseRep_rfc {T T1 T1' : Table} {r : Rep} {a a' c c' : Bytes} {hs1 hs2 hs' : List Header} {h : Header}
    (hr : IsRep anyLength r a) (hm : RepMeans T r T1 hs1) (hl : LooseRep T a' T1' h) (e : a ++ c = a' ++ c')
    (hi : ∀ i, r = .indexed i → i ≤ 126) (hh : hs1 ++ hs2 = h :: hs') :
    r.Plain ∧ IsRep shortInteger r a ∧ c = c' ∧ T1 = T1' ∧ hs2 = hs' := by
  have e15 : entry T 15 = some (asciiBytes "accept-charset", []) := by
    have : rfcStaticTable[14]? = some ("accept-charset", "") := by decide +kernel
    simp [entry, this]
    decide +kernel
  have ne15 : asciiBytes "accept-" ≠ asciiBytes "accept-charset" := by decide +kernel
  obtain ⟨o, tl, ho, hx⟩ := rep_head hr
  -- literals
  have lit : ∀ {m m' : Mode} {name : RepName} {n n' v v' x y : Bytes}, IsRep anyLength (.literal m name v) a →
      nameMeans T name = some n → LooseName T m' x n' → LooseString v' y → a ++ c = x ++ y ++ c' → (n, v) = (n', v') →
      m.bits = m'.bits → Rep.Plain (.literal m name v) ∧ IsRep shortInteger (.literal m name v) a ∧ c = c' := by
    intro m m' name n n' v v' x y hr hn hln hlv e heq hbits
    simp only [Prod.mk.injEq] at heq
    obtain ⟨rfl, rfl⟩ := heq
    cases name with
    | index i =>
      obtain ⟨hi0, p, q, rfl, hp, hq⟩ := hr
      cases hln with
      | @index j x en hj hx' hen =>
        rw [← hbits] at hx'
        rw [List.append_assoc, List.append_assoc] at e
        obtain ⟨rfl, rfl, e⟩ := integer_prefix_free hp hx' e
        obtain ⟨rfl, -, rfl, hs⟩ := looseString_rfc hq hlv e
        have hi15 : i ≠ 15 := by
          rintro rfl
          simp only [nameMeans, e15, Option.map_some, Option.some.injEq] at hn
          simp only [looseEntry, if_pos, Option.some.injEq] at hen
          rw [← hen] at hn
          exact ne15 hn.symm
        exact ⟨hi15, ⟨hi0, p, q, rfl, ⟨hx'.1, hp.2⟩, hs⟩, rfl⟩
      | @text x b s _ hx' _ _ =>
        rw [← hbits] at hx'
        rw [List.append_assoc, List.append_assoc, List.append_assoc] at e
        obtain ⟨-, h0, -⟩ := integer_prefix_free hp hx' e
        exact absurd h0 hi0
    | text s =>
      obtain ⟨p, q, w, rfl, hp, hq, hw⟩ := hr
      cases hln with
      | @index j x en hj hx' hen =>
        rw [← hbits] at hx'
        rw [List.append_assoc, List.append_assoc, List.append_assoc] at e
        obtain ⟨-, h0, -⟩ := integer_prefix_free hp hx' e
        exact absurd h0.symm hj
      | @text x b s' n' hx' hb ht =>
        rw [(textOf_iff _ _).mp ht] at hn
        rw [← hbits] at hx'
        rw [List.append_assoc, List.append_assoc, List.append_assoc, List.append_assoc] at e
        obtain ⟨rfl, -, e⟩ := integer_prefix_free hp hx' e
        obtain ⟨rfl, rfl, e, hs1⟩ := looseString_rfc hq hb e
        obtain ⟨rfl, -, rfl, hs2⟩ := looseString_rfc hw hlv e
        simp only [nameMeans, Option.some.injEq] at hn
        refine ⟨?_, ⟨p, q, w, rfl, ⟨hx'.1, hp.2⟩, hs1, hs2⟩, rfl⟩
        show utf8Valid s = true
        exact (utf8Valid_iff s).mpr ((lossy_eq_iff s).mp hn.symm)
  cases hl with
  | @indexed o' h ho' he =>
    subst ho
    simp only [List.cons_append, List.nil_append, List.cons.injEq] at e
    obtain ⟨rfl, e⟩ := e
    cases r with
    | indexed i =>
      have hx1 : o.toNat / 2 ^ 7 = 1 := hx
      have h126 := hi i rfl
      obtain ⟨-, -, hv⟩ := hr
      have : tl = [] ∧ o.toNat % 2 ^ 7 = i := by
        simp only [intValue] at hv
        split at hv
        · split at hv
          · simp only [Option.some.injEq] at hv
            exact ⟨by assumption, hv⟩
          · simp at hv
        · simp only [Option.map_eq_some_iff] at hv
          obtain ⟨x, -, hx⟩ := hv
          omega
      obtain ⟨rfl, hoi⟩ := this
      have hlt := o.toNat_lt
      have hoi' : o.toNat - 128 = i := by omega
      rw [hoi'] at he
      cases hm with
      | @indexed _ h2 he2 =>
        simp only [List.cons_append, List.nil_append, List.cons.injEq] at hh
        obtain ⟨rfl, rfl⟩ := hh
        refine ⟨⟨h126, ?_⟩, ⟨by unfold shortInteger; simp, hx1, hv⟩, e, rfl, rfl⟩
        rintro rfl
        rw [e15] at he2
        simp only [looseEntry, if_pos] at he
        rw [← he] at he2
        exact absurd he2 (by decide +kernel)
    | literal m n v => cases m <;> simp only [Mode.bits, Mode.top] at hx <;> omega
    | sizeUpdate n => simp only at hx; omega
  | @incremental x y n v kept hn hv hev =>
    obtain ⟨o', tl', rfl, ho'⟩ := looseName_head hn
    subst ho
    have : o = o' := by simp at e; exact e.1
    subst this
    simp only [Mode.bits, Mode.top] at ho'
    cases r with
    | indexed i => simp only at hx; omega
    | sizeUpdate n => simp only at hx; omega
    | literal m name v2 =>
      cases hm with
      | @incremental _ n2 _ kept2 hn2 hev2 =>
        simp only [List.cons_append, List.nil_append, List.cons.injEq] at hh
        obtain ⟨hh, rfl⟩ := hh
        obtain ⟨h1, h2, h3⟩ := lit hr hn2 hn hv e hh rfl
        rw [hh] at hev2
        exact ⟨h1, h2, h3, by rw [eviction_unique hev2 hev], rfl⟩
      | without _ => simp only [Mode.bits, Mode.top] at hx; omega
      | never _ => simp only [Mode.bits, Mode.top] at hx; omega
  | @plain m' x y n v hm' hn hv =>
    obtain ⟨o', tl', rfl, ho'⟩ := looseName_head hn
    subst ho
    have : o = o' := by simp at e; exact e.1
    subst this
    have hb4 : m'.bits = 4 ∧ m'.top ≤ 1 := by cases m' <;> first | exact ⟨rfl, by decide⟩ | exact absurd rfl hm'
    rw [hb4.1] at ho'
    have := hb4.2
    cases r with
    | indexed i => simp only at hx; omega
    | sizeUpdate n => simp only at hx; omega
    | literal m name v2 =>
      cases hm with
      | incremental _ _ => simp only [Mode.bits, Mode.top] at hx; omega
      | without hn2 =>
        simp only [List.cons_append, List.nil_append, List.cons.injEq] at hh
        obtain ⟨hh, rfl⟩ := hh
        obtain ⟨h1, h2, h3⟩ := lit hr hn2 hn hv e hh hb4.1.symm
        exact ⟨h1, h2, h3, rfl, rfl⟩
      | never hn2 =>
        simp only [List.cons_append, List.nil_append, List.cons.injEq] at hh
        obtain ⟨hh, rfl⟩ := hh
        obtain ⟨h1, h2, h3⟩ := lit hr hn2 hn hv e hh hb4.1.symm
        exact ⟨h1, h2, h3, rfl, rfl⟩

theorem block_loose {reps : List Rep} {bs : Bytes} (hb : IsBlock anyLength reps bs) :
    ∀ {T0 T T' : Table} {hs : List Header}, Means T0 reps T hs → (∀ i, .indexed i ∈ reps → i ≤ 126) →
    LooseReads T0 bs T' hs → (∀ r ∈ reps, r.Plain) ∧ IsBlock shortInteger reps bs := by
  induction hb with
  | nil => intro T0 T T' hs _ _ _; exact ⟨by simp, .nil⟩
  | @cons r a rs cs hr hrs ih =>
    intro T0 T T' hs hm hi hl
    cases hm with
    | @cons _ _ T1 hs1 _ _ hs2 h1 h2 =>
      obtain ⟨o, tl, ho, -⟩ := rep_head hr
      generalize hbs : a ++ cs = bs at hl
      generalize hhs : hs1 ++ hs2 = hs at hl
      cases hl with
      | nil => rw [ho] at hbs; simp at hbs
      | @cons _ a' T1' h bs' _ hs' hl1 hl2 =>
        obtain ⟨k1, k2, k5, rfl, rfl⟩ := looseRep_rfc hr h1 hl1 hbs (fun i hx => hi i (by simp [hx])) hhs
        rw [← k5] at hbs hl2
        rw [← k5, ← hbs]
        obtain ⟨k3, k4⟩ := ih h2 (fun i hx => hi i (by simp [hx])) hl2
        refine ⟨?_, .cons k2 k4⟩
        intro r' hr'
        rcases List.mem_cons.mp hr' with rfl | hr'
        · exact k1
        · exact k3 r' hr'

/-- C66, exactly, for blocks whose indexed representations all have an index of at most 126: what the RFC reads is
decoded to just that if and only if each representation is plain and each integer has at most five octets. -/
theorem C66_iff_partial (t : HeaderIndex) (ht : TableInv t) (reps : List Rep) (bs : Bytes) (T : Table) (hs : List Header)
    (hb : IsBlock anyLength reps bs) (hm : Means (toTable t) reps T hs) (hi : ∀ i, .indexed i ∈ reps → i ≤ 126) :
    (∃ t', decode t bs = some (.ok (hs, t')) ∧ toTable t' = T) ↔ (∀ r ∈ reps, r.Plain) ∧ IsBlock shortInteger reps bs := by
  constructor
  · intro h
    exact block_loose hb hm hi ((C68_iff_partial t ht bs T hs).mp h)
  · rintro ⟨h1, h2⟩
    obtain ⟨n, t', e1, e2, e3⟩ := block_decodes h2 ht h1 hm
    exact ⟨t', decodeRun_length e1, e3⟩

/-- A block with EOS, the octet 255 and entry 15 is read; one with a size update after a header is endless. -/
example : LooseReads ⟨List.replicate 66 ([97], []), 4096⟩ [0xff, 0x8f, 0x04, 0x84, 0xff, 0xff, 0xff, 0xff]
    ⟨List.replicate 66 ([97], []), 4096⟩ [([97], []), (asciiBytes "accept-", []), (asciiBytes ":path", [0])] := by
  refine .cons (a := [0xff]) (.indexed (by decide) (by decide +kernel)) (.cons (a := [0x8f]) (.indexed (by decide) (by decide +kernel))
    (.cons (a := [0x04] ++ [0x84, 0xff, 0xff, 0xff, 0xff]) (bs := []) (.plain (m := .without) (by decide)
      (.index (i := 4) (e := (asciiBytes ":path", asciiBytes "/")) (by decide) ⟨by unfold shortInteger; decide, by decide, by decide⟩ (by decide +kernel))
      ⟨[0x84], [0xff, 0xff, 0xff, 0xff], rfl, Or.inr ⟨⟨by unfold shortInteger; decide, by decide, by decide⟩,
        [256], by decide, ⟨2, by decide, by decide +kernel⟩, by decide⟩⟩) .nil))

example : ∃ a o c T hs, [0x82, 0x3f, 0x00] = a ++ (o : UInt8) :: c ∧ LooseReads (toTable {}) a T hs ∧ o.toNat / 32 = 1 :=
  ⟨[0x82], 0x3f, [0x00], _, _, rfl, .cons (a := [0x82]) (bs := []) (.indexed (by decide) (h := (asciiBytes ":method", asciiBytes "GET")) (by decide +kernel)) .nil,
    by decide⟩

end Webparse
