import Verif.Proofs.Rfc7541
import Verif.Props.Hpack

/-! # Interoperation with RFC 7541: C66 and C68 (decoder), C67 (encoder) -/

namespace Webparse
open Spec Spec.Rfc

/-! ## C66 -/

/-- C66: whatever the table holds, a header block that means something by RFC 7541 is decoded to just that:
the same headers, the same table. -/
def C66_statement : Prop :=
  ∀ (t : HeaderIndex), TableInv t → ∀ (bs : Bytes) (T : Table) (hs : List Header), Reads (toTable t) bs T hs →
    ∃ t', decode t bs = some (.ok (hs, t')) ∧ toTable t' = T

/-- C66 is false: entry 15 of the static table is wrong. -/
theorem C66_violated_static : ¬ C66_statement := by
  intro h
  obtain ⟨t', h1, -⟩ := h {} ⟨rfl, by decide⟩ [0x8f] _ [(asciiBytes "accept-charset", [])]
    ⟨[.indexed 15], .cons (r := .indexed 15) (bs := [0x8f]) (cs := []) ⟨trivial, by decide, by decide⟩ .nil, .cons (.indexed (by decide +kernel)) .nil⟩
  have h2 : decode {} [0x8f] = some (.ok ([(asciiBytes "accept-", [])], {})) := by decide +kernel
  rw [h2] at h1
  simp only [Option.some.injEq, Res.ok.injEq, Prod.mk.injEq] at h1
  exact absurd h1.1 (by decide +kernel)

/-- C66 is false: a table size update makes the decoder loop. -/
theorem C66_violated_size_update : ¬ C66_statement := by
  intro h
  obtain ⟨t', h1, -⟩ := h {} ⟨rfl, by decide⟩ [0x20] ⟨[], 0⟩ []
    ⟨[.sizeUpdate 0], .cons (r := .sizeUpdate 0) (bs := [0x20]) (cs := []) ⟨trivial, by decide, by decide⟩ .nil,
      .cons (.sizeUpdate ⟨0, by decide, rfl, by decide, by intro j h1 h2; simp [toTable] at h2; omega⟩) .nil⟩
  have h2 : decode {} [0x20] = none := by decide +kernel
  rw [h2] at h1
  simp at h1

/-- C66 is false: indices above 126 are not read. -/
theorem C66_violated_index : ¬ C66_statement := by
  intro h
  obtain ⟨t', h1, -⟩ := h ⟨List.replicate 66 ([97], []), 2178, 4096⟩ ⟨by unfold SizeOk; decide +kernel, by decide⟩ [0xff, 0x00] _ [([97], [])]
    ⟨[.indexed 127], .cons (r := .indexed 127) (bs := [0xff, 0x00]) (cs := []) ⟨trivial, by decide, by decide⟩ .nil, .cons (.indexed (by decide +kernel)) .nil⟩
  have h2 : decode ⟨List.replicate 66 ([97], []), 2178, 4096⟩ [0xff, 0x00] = some (.err .intNotEnoughOctets) := by
    decide +kernel
  rw [h2] at h1
  simp at h1

/-- C66 is false: integers with leading zeros that take more than five octets are not read. -/
theorem C66_violated_integer : ¬ C66_statement := by
  intro h
  obtain ⟨t', h1, -⟩ := h {} ⟨rfl, by decide⟩ [0x0f, 0x81, 0x80, 0x80, 0x80, 0x00, 0x00] _ [(asciiBytes "accept-encoding", [])]
    ⟨[.literal .without (.index 16) []], .cons (bs := [0x0f, 0x81, 0x80, 0x80, 0x80, 0x00, 0x00]) (cs := [])
        ⟨by decide, [0x0f, 0x81, 0x80, 0x80, 0x80, 0x00], [0x00], rfl, ⟨trivial, by decide, by decide⟩,
          [0x00], [], rfl, Or.inl ⟨⟨trivial, by decide, by decide⟩, rfl⟩⟩ .nil,
      .cons (.without (by decide +kernel)) .nil⟩
  have h2 : decode {} [0x0f, 0x81, 0x80, 0x80, 0x80, 0x00, 0x00] = some (.err .intTooManyOctets) := by decide +kernel
  rw [h2] at h1
  simp at h1

/-- C66, partial: any block of representations other than those above (`Rep.Plain`), with integers of at most
five octets, names and values Huffman coded or not, of any length, is decoded as the RFC says. -/
theorem C66_decodes_partial (t : HeaderIndex) (ht : TableInv t) (reps : List Rep) (bs : Bytes) (T : Table) (hs : List Header)
    (hp : ∀ r ∈ reps, r.Plain) (hb : IsBlock shortInteger reps bs) (hm : Means (toTable t) reps T hs) :
    ∃ t', decode t bs = some (.ok (hs, t')) ∧ toTable t' = T ∧ TableInv t' := by
  obtain ⟨n, t', h1, h2, h3⟩ := block_decodes hb ht hp hm
  exact ⟨t', decodeRun_length h1, h3, h2⟩

/-- A block with each kind of representation, raw and Huffman coded strings. -/
example : ∃ T, IsBlock shortInteger
      [.indexed 2, .literal .incremental (.text [97]) [98], .literal .never (.index 62) [], .literal .without (.index 4) [48]]
      [0x82, 0x40, 0x01, 0x61, 0x01, 0x62, 0x1f, 0x2f, 0x00, 0x04, 0x81, 0x07] ∧
    Means (toTable {}) [.indexed 2, .literal .incremental (.text [97]) [98], .literal .never (.index 62) [], .literal .without (.index 4) [48]]
      T [(asciiBytes ":method", asciiBytes "GET"), ([97], [98]), ([97], []), (asciiBytes ":path", [48])] := by
  refine ⟨⟨[([97], [98])], 4096⟩, ?_, ?_⟩
  · refine .cons (bs := [0x82]) ⟨by unfold shortInteger; decide, by decide, by decide⟩
      (.cons (bs := [0x40, 0x01, 0x61, 0x01, 0x62]) ⟨[0x40], [0x01, 0x61], [0x01, 0x62], rfl, ⟨by unfold shortInteger; decide, by decide, by decide⟩,
          ⟨[0x01], [0x61], rfl, Or.inl ⟨⟨by unfold shortInteger; decide, by decide, by decide⟩, rfl⟩⟩,
          ⟨[0x01], [0x62], rfl, Or.inl ⟨⟨by unfold shortInteger; decide, by decide, by decide⟩, rfl⟩⟩⟩
      (.cons (bs := [0x1f, 0x2f, 0x00]) ⟨by decide, [0x1f, 0x2f], [0x00], rfl, ⟨by unfold shortInteger; decide, by decide, by decide⟩,
          ⟨[0x00], [], rfl, Or.inl ⟨⟨by unfold shortInteger; decide, by decide, by decide⟩, rfl⟩⟩⟩
      (.cons (bs := [0x04, 0x81, 0x07]) (cs := []) ⟨by decide, [0x04], [0x81, 0x07], rfl, ⟨by unfold shortInteger; decide, by decide, by decide⟩,
          ⟨[0x81], [0x07], rfl, Or.inr ⟨⟨by unfold shortInteger; decide, by decide, by decide⟩, ⟨3, by decide, by decide +kernel⟩⟩⟩⟩ .nil)))
  · refine .cons (hs := [_]) (.indexed (by decide +kernel)) (.cons (hs := [_])
      (.incremental (kept := [([97], [98])]) rfl ⟨1, by decide, rfl, by decide, by intro j h1 h2; simp [toTable] at h2; omega⟩)
      (.cons (hs := [_]) (.never (by decide +kernel)) (.cons (hs := [_]) (hs' := []) (.without (by decide +kernel)) .nil)))

/-! ## C68 -/

/-- C68: what the decoder accepts means by RFC 7541 just what it is decoded to. -/
def C68_statement : Prop :=
  ∀ (t : HeaderIndex), TableInv t → ∀ (bs : Bytes) (t' : HeaderIndex) (hs : List Header),
    decode t bs = some (.ok (hs, t')) → Reads (toTable t) bs (toTable t') hs

theorem reads_unique {t T T' : Table} {bs : Bytes} {hs hs' : List Header} (h : Reads t bs T hs) (h' : Reads t bs T' hs') :
    T = T' ∧ hs = hs' := by
  obtain ⟨r, b, m⟩ := h
  obtain ⟨r', b', m'⟩ := h'
  have := block_unique b b'
  subst this
  exact means_unique m m'

/-- C68 is false: static entry 15. -/
theorem C68_violated_static : ¬ C68_statement := by
  intro h
  have h1 := h {} ⟨rfl, by decide⟩ [0x8f] {} [(asciiBytes "accept-", [])] (by decide +kernel)
  have h2 : Reads (toTable {}) [0x8f] (toTable {}) [(asciiBytes "accept-charset", [])] :=
    ⟨[.indexed 15], .cons (r := .indexed 15) (bs := [0x8f]) (cs := []) ⟨trivial, by decide, by decide⟩ .nil,
      .cons (.indexed (by decide +kernel)) .nil⟩
  exact absurd (reads_unique h1 h2).2 (by decide +kernel)

/-- C68 is false: the octet 255 is only the beginning of an index, but is taken for index 127. -/
theorem C68_violated_index : ¬ C68_statement := by
  intro h
  obtain ⟨rs, b, -⟩ := h ⟨List.replicate 66 ([97], []), 2178, 4096⟩ ⟨by unfold SizeOk; decide +kernel, by decide⟩ [0xff]
    ⟨List.replicate 66 ([97], []), 2178, 4096⟩ [([97], [])] (by decide +kernel)
  have key : ∀ rs x, IsBlock anyLength rs x → x ≠ [0xff] := by
    intro rs x hb
    cases hb with
    | nil => simp
    | @cons r a rs c hr _ =>
      intro e
      obtain ⟨o, tl, rfl, hk⟩ := rep_head hr
      simp only [List.cons_append, List.cons.injEq, List.append_eq_nil_iff] at e
      obtain ⟨rfl, rfl, rfl⟩ := e
      cases r with
      | indexed i => exact absurd hr.2.2 (by simp [intValue, contValue])
      | sizeUpdate n => simp [Mode.bits, Mode.top] at hk
      | literal m n v => cases m <;> simp [Mode.bits, Mode.top] at hk
  exact key _ _ b rfl

/-- C68 is false: a string with the EOS code word is accepted. -/
theorem C68_violated_eos : ¬ C68_statement := by
  intro h
  obtain ⟨rs, b, -⟩ := h {} ⟨rfl, by decide⟩ [0x04, 0x84, 0xff, 0xff, 0xff, 0xff] {} [(asciiBytes ":path", [0])] (by decide +kernel)
  have str : ∀ s a c, IsString anyLength s a → a ++ c ≠ [0x84, 0xff, 0xff, 0xff, 0xff] := by
    rintro s a c ⟨l, d, rfl, hs⟩ e
    have h84 : IsInteger anyLength 7 1 4 [0x84] := ⟨trivial, by decide, by decide⟩
    rw [List.append_assoc] at e
    rcases hs with ⟨hi, -⟩ | ⟨hi, hd⟩
    · obtain ⟨rfl, -⟩ := integer_prefix_free (r' := [0xff, 0xff, 0xff, 0xff]) hi h84 e
      exact absurd hi.2.1 (by decide)
    · obtain ⟨rfl, h4, e⟩ := integer_prefix_free (r' := [0xff, 0xff, 0xff, 0xff]) hi h84 e
      obtain ⟨rfl, -⟩ := List.append_inj (t₂ := []) (s₂ := [0xff, 0xff, 0xff, 0xff]) e h4
      have h1 := huffman_decodes hd
      rw [show huffDecode [0xff, 0xff, 0xff, 0xff] = .ok [0] by decide +kernel] at h1
      simp only [Res.ok.injEq] at h1
      subst h1
      obtain ⟨k, hk, hb⟩ := hd
      have hl := congrArg List.length hb
      rw [List.length_append, List.length_replicate, show (bitsOf [0xff, 0xff, 0xff, 0xff]).length = 32 by decide,
        show (codesBits (byteSyms [0])).length = 13 by decide +kernel] at hl
      omega
  have key : ∀ rs x, IsBlock anyLength rs x → x ≠ [0x04, 0x84, 0xff, 0xff, 0xff, 0xff] := by
    intro rs x hb
    cases hb with
    | nil => simp
    | @cons r a rs c hr _ =>
      intro e
      have h04 : IsInteger anyLength 4 0 4 [0x04] := ⟨trivial, by decide, by decide⟩
      obtain ⟨o, tl, ha, hk⟩ := rep_head hr
      have ho : o = 0x04 := by rw [ha] at e; simp at e; exact e.1
      subst ho
      cases r with
      | indexed i => simp [Mode.bits, Mode.top] at hk
      | sizeUpdate n => simp [Mode.bits, Mode.top] at hk
      | literal m n v =>
        cases m with
        | incremental => simp [Mode.bits, Mode.top] at hk
        | never => simp [Mode.bits, Mode.top] at hk
        | without =>
          cases n with
          | index i =>
            obtain ⟨-, p, q, rfl, hp, hq⟩ := hr
            rw [List.append_assoc] at e
            obtain ⟨rfl, -, e⟩ := integer_prefix_free (r' := [0x84, 0xff, 0xff, 0xff, 0xff]) hp h04 e
            exact str _ _ _ hq e
          | text n =>
            obtain ⟨p, q, w, rfl, hp, -⟩ := hr
            rw [List.append_assoc] at e
            obtain ⟨-, h0, -⟩ := integer_prefix_free (r' := [0x84, 0xff, 0xff, 0xff, 0xff]) hp h04 e
            simp at h0
  exact key _ _ b rfl

/-- C68, partial: an accepted block means what it is decoded to, or has, after some representations
that the RFC reads, one of the deviating forms listed in `Deviant`. -/
theorem C68_sound_partial (t : HeaderIndex) (ht : TableInv t) (bs : Bytes) (t' : HeaderIndex) (hs : List Header)
    (h : decode t bs = some (.ok (hs, t'))) : Reads (toTable t) bs (toTable t') hs ∨ Deviates (toTable t) bs :=
  run_accepted _ ht h

/-- An accepted block that adds to the table, after which nothing deviates. -/
example : decode {} [0x82, 0x40, 0x01, 0x61, 0x01, 0x62] =
    some (.ok ([(asciiBytes ":method", asciiBytes "GET"), ([97], [98])], ⟨[([97], [98])], 34, 4096⟩)) := by decide +kernel

/-! ## C67 -/

/-- C67: what the encoder writes, over a whole connection, is read by any RFC 7541 decoder as the headers
given, names in lower case. -/
def C67_statement : Prop :=
  ∀ (limit : Nat) (hs : List Header) (bs : Bytes) (te : HeaderIndex), (∀ h ∈ hs, utf8Valid h.1 = true) →
    encodeHeaders { maxSize := limit } hs = .ok (bs, te) →
    ∀ T out, Reads ⟨[], limit⟩ bs T out → out = hs.map lowerHeader

/-- C67 is false: the name `accept-` is written as entry 15, which is `accept-charset`. -/
theorem C67_violated : ¬ C67_statement := by
  intro h
  have := h 4096 [(asciiBytes "accept-", [])] [0x8f] {} (by decide +kernel) (by decide +kernel) _ [(asciiBytes "accept-charset", [])]
    ⟨[.indexed 15], .cons (r := .indexed 15) (bs := [0x8f]) (cs := []) ⟨trivial, by decide, by decide⟩ .nil, .cons (.indexed (by decide +kernel)) .nil⟩
  exact absurd this (by decide +kernel)

/-- C67: a block has only one reading. -/
theorem C67_one_reading (t T T' : Table) (bs : Bytes) (hs hs' : List Header) (h : Reads t bs T hs) (h' : Reads t bs T' hs') :
    T = T' ∧ hs = hs' := reads_unique h h'

/-- C67, partial: for any number of blocks, any table limit, headers of any length with names from a set in
which the code confuses none (see C35), and not `accept-`: the encoder never fails, an RFC 7541 decoder gets
exactly the headers of each block, names in lower case, and its table stays in step. -/
theorem C67_connection_partial (S : Bytes → Prop) (hU : ∀ a b, S a → S b → ¬ StaticName b → Unambiguous a b)
    (limit : Nat) (blocks : List (List Header)) (hh : ∀ hs ∈ blocks, ∀ h ∈ hs, S h.1 ∧ lower h.1 ≠ asciiBytes "accept-") :
    ∃ bs te, encodeBlocks { maxSize := limit } blocks = .ok (bs, te) ∧
      ReadsBlocks ⟨[], limit⟩ bs (peerTable te) (blocks.map fun hs => hs.map lowerHeader) := by
  have hS : NamesClear S := fun a b ha hb hn => nameEq_unambiguous (hU a b ha hb hn)
  have enc : ∀ (hs : List Header) (te : HeaderIndex), TableInv te → ∃ bs te', encodeHeaders te hs = .ok (bs, te') ∧ TableInv te' := by
    intro hs
    induction hs with
    | nil => intro te ht; exact ⟨[], te, rfl, ht⟩
    | cons h hs ih =>
      intro te ht
      have one : ∃ b te1, encodeHeader te h = .ok (b, te1) ∧ TableInv te1 := by
        obtain ⟨t', ha, hi, -⟩ := addHeader_spec te h ht.1
        unfold encodeHeader
        split
        · exact ⟨_, t', by rw [ha]; rfl, hi⟩
        · exact ⟨_, t', by rw [ha]; rfl, hi⟩
        · exact ⟨_, te, rfl, ht⟩
      obtain ⟨b, te1, h1, h2⟩ := one
      obtain ⟨bs, te2, h3, h4⟩ := ih te1 h2
      refine ⟨b ++ bs, te2, ?_, h4⟩
      simp only [encodeHeaders, h1, Res.bind_ok, h3]
  have key : ∀ (blocks : List (List Header)) (te : HeaderIndex), TableInv te → (∀ e ∈ te.table, S e.1) →
      (∀ hs ∈ blocks, ∀ h ∈ hs, S h.1 ∧ lower h.1 ≠ asciiBytes "accept-") →
      ∃ bs te', encodeBlocks te blocks = .ok (bs, te') ∧
        ReadsBlocks (peerTable te) bs (peerTable te') (blocks.map fun hs => hs.map lowerHeader) := by
    intro blocks
    induction blocks with
    | nil => intro te _ _ _; exact ⟨[], te, rfl, .nil⟩
    | cons hs blocks ih =>
      intro te ht hS' hh
      obtain ⟨b, te1, h1, -⟩ := enc hs te ht
      obtain ⟨r1, r2, r3⟩ := encodeHeaders_rfc S hS hs ht hS' (hh hs (by simp)) h1
      obtain ⟨bs, te2, h3, h4⟩ := ih te1 r2 r3 (fun x hx => hh x (by simp [hx]))
      refine ⟨b :: bs, te2, ?_, .cons r1 h4⟩
      simp only [encodeBlocks, h1, Res.bind_ok, h3]
  exact key blocks { maxSize := limit } ⟨rfl, by simp⟩ (by simp) hh

/-- C67, exactly: whatever headers with names from a set are sent, an RFC 7541 decoder gets them if and only if the
set does not have `accept-` and the encoder confuses no two names of it. -/
theorem C67_names_iff_partial (S : Bytes → Prop) :
    (∀ (limit : Nat) (blocks : List (List Header)), (∀ hs ∈ blocks, ∀ h ∈ hs, S h.1) →
      ∃ bs te, encodeBlocks { maxSize := limit } blocks = .ok (bs, te) ∧
        ReadsBlocks ⟨[], limit⟩ bs (peerTable te) (blocks.map fun hs => hs.map lowerHeader)) ↔
    (∀ a, S a → lower a ≠ asciiBytes "accept-") ∧ ∀ a b, S a → S b → ¬ StaticName b → Unambiguous a b := by
  constructor
  · intro h
    have single : ∀ {t : Table} {b : Bytes} {T : Table} {hs : List Header}, ReadsBlocks t [b] T [hs] → Reads t b T hs := by
      intro t b T hs hr
      cases hr with
      | cons h1 h2 => cases h2; exact h1
    have hacc : ∀ a, S a → lower a ≠ asciiBytes "accept-" := by
      intro a ha hl
      obtain ⟨bs, te, h1, h2⟩ := h 4096 [[(a, [])]] (by simpa using ha)
      have hm : ∀ v i, (v, i) ∈ staticHash a → v = [] ∧ i = 15 := by
        intro v i hi
        obtain ⟨k1, k2, k3⟩ := staticHash_mem hi
        rw [hl] at k3
        have key : ∀ j : Nat, j < 61 → (staticTable[j]?.map (·.1)) = some (asciiBytes "accept-") → j = 14 := by decide +kernel
        have k4 := key (i - 1) (by omega) (by rw [k3]; rfl)
        have k5 : staticTable[14]? = some (asciiBytes "accept-", []) := by decide +kernel
        rw [k4, k5] at k3
        simp only [Option.some.injEq, Prod.mk.injEq, true_and] at k3
        exact ⟨k3.symm, by omega⟩
      have hne : staticHash a ≠ [] := by
        rw [Ne, staticHash_nil_iff, Classical.not_not]
        exact ⟨(asciiBytes "accept-", []), by decide +kernel, hl.symm⟩
      have hf : staticHashFind (staticHash a) [] = some 15 := by
        unfold staticHashFind
        cases hx : (staticHash a).reverse.find? (fun e => e.1 == []) with
        | none =>
          rw [List.find?_eq_none] at hx
          obtain ⟨⟨v, i⟩, hy⟩ := List.exists_mem_of_ne_nil _ hne
          have := hx (v, i) (by simpa using hy)
          rw [(hm v i hy).1] at this
          simp at this
        | some e =>
          have := List.mem_of_find?_eq_some hx
          rw [Option.map_some, (hm e.1 e.2 (by simpa using this)).2]
      have he : encodeHeader { maxSize := 4096 } (a, []) = .ok ([0x8f], { maxSize := 4096 }) := by
        have hf2 : findHeader { maxSize := 4096 } (a, []) = some (15, true) := by
          unfold findHeader
          simp only [hf]
          rw [if_pos hne]
        unfold encodeHeader
        rw [hf2]
        show Res.ok (encodeIndexed 15, _) = _
        rw [show encodeIndexed 15 = [0x8f] by decide +kernel]
      simp only [encodeBlocks, encodeHeaders, he, Res.bind_ok, List.append_nil, Res.ok.injEq, Prod.mk.injEq] at h1
      obtain ⟨rfl, rfl⟩ := h1
      have hread := single h2
      have hread2 : Reads ⟨[], 4096⟩ [0x8f] ⟨[], 4096⟩ [(asciiBytes "accept-charset", [])] :=
        ⟨[.indexed 15], .cons (r := .indexed 15) (bs := [0x8f]) (cs := []) ⟨trivial, by decide, by decide⟩ .nil,
          .cons (.indexed (by decide +kernel)) .nil⟩
      have := (reads_unique hread hread2).2
      simp only [List.map_cons, List.map_nil, List.cons.injEq, and_true, lowerHeader, Prod.mk.injEq, hl] at this
      exact absurd this (by decide +kernel)
    refine ⟨hacc, fun a b ha hb hst => ?_⟩
    rw [unambiguous_iff]
    intro hq
    obtain ⟨x, te, e1, e2, e3⟩ := confused_pair hst hq
    obtain ⟨bs, te', h1, h2⟩ := h (a.length + 33) [[(a, [1]), (b, [1])]]
      (by
        intro hs hm k hk
        simp only [List.mem_singleton] at hm
        subst hm
        simp only [List.mem_cons, List.not_mem_nil, or_false] at hk
        rcases hk with rfl | rfl
        · exact ha
        · exact hb)
    simp only [encodeBlocks, encodeHeaders, e1, e3, Res.bind_ok, List.append_nil, Res.ok.injEq, Prod.mk.injEq] at h1
    obtain ⟨rfl, rfl⟩ := h1
    have hread := single h2
    obtain ⟨r, r1, r2, -, -⟩ := encodeHeader_rfc (te := { maxSize := a.length + 33 }) ⟨rfl, by simp⟩ (a, [1])
      (fun n => n = a) (fun c d hc hd _ _ => by rw [hc, hd]) rfl (by simp) (hacc a ha) e1
    have hp : peerTable te = ⟨[lowerHeader (a, [1])], te.maxSize⟩ := by
      unfold peerTable
      rw [e2]
      rfl
    have hread2 : Reads ⟨[], a.length + 33⟩ (x ++ encodeIndexed 62) (peerTable te) [lowerHeader (a, [1]), lowerHeader (a, [1])] :=
      ⟨[r, .indexed 62], .cons r1 (by
        have := IsBlock.cons (ok := anyLength) (r := .indexed 62) (bs := encodeIndexed 62) (rs := []) (cs := [])
          (encode_integer _ _ (by decide) (by decide) _ _ (by decide)) .nil
        rwa [List.append_nil] at this),
        .cons r2 (.cons (hs := [lowerHeader (a, [1])]) (.indexed (by rw [hp]; rfl)) .nil)⟩
    have := (reads_unique hread hread2).2
    simp only [List.map_cons, List.map_nil, List.cons.injEq, and_true, true_and] at this
    exact (congrArg Prod.fst this).symm
  · rintro ⟨h1, h2⟩ limit blocks hall
    exact C67_connection_partial S h2 limit blocks fun hs hm k hk => ⟨hall hs hm k hk, h1 _ (hall hs hm k hk)⟩

/-- Plain names (C09) form such a set. -/
example : (∀ a b, IsPlainName a → IsPlainName b → ¬ StaticName b → Unambiguous a b) ∧
    ∀ h ∈ [(asciiBytes "x-y", asciiBytes "1"), (asciiBytes "accept-charset", asciiBytes "*")],
      IsPlainName h.1 ∧ lower h.1 ≠ asciiBytes "accept-" :=
  ⟨fun _ _ ha hb _ => unambiguous_plain ha hb, by unfold IsPlainName; decide +kernel⟩

end Webparse
