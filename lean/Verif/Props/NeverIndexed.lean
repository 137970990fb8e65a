import Verif.Spec.NeverIndexed
import Verif.Props.Rfc7541
import Verif.Proofs.Rfc9113Connection

/-!
# C120: a field that must not be put in a compression table is sent on as such
-/

namespace Webparse
open Spec Spec.Rfc

/-- C120: of a block that is received, decoded, and encoded for another connection, the values that were never to be indexed are sent on so. -/
def C120_statement : Prop :=
  ∀ (limit limit' : Nat) (received sent : List Rep) (block out : Bytes) (hs : List Header) (t t' : HeaderIndex),
    IsBlock shortInteger received block → decode { maxSize := limit } block = some (.ok (hs, t)) →
    encodeHeaders { maxSize := limit' } hs = .ok (out, t') → IsBlock anyLength sent out → KeepsNever received sent

theorem staticHash_pos {n v : Bytes} {i : Nat} (h : (v, i) ∈ staticHash n) : i ≠ 0 ∧ ∃ e ∈ staticTable, e.2 = v := by
  unfold staticHash at h
  obtain ⟨e, he, hp⟩ := List.mem_map.mp h
  simp only [Prod.mk.injEq] at hp
  have hz := (List.mem_filter.mp he).1
  refine ⟨by omega, e.1, ?_, hp.1⟩
  have := List.mem_zipIdx hz
  rw [this.2.2]
  exact List.getElem_mem _

theorem encodeHeader_kind {t t' : HeaderIndex} {h : Header} {bs : Bytes} (he : encodeHeader t h = .ok (bs, t')) :
    ∃ r, IsRep anyLength r bs ∧ ((∃ i, r = .indexed i) ∨ ∃ name, r = .literal .incremental name h.2) := by
  unfold encodeHeader at he
  cases hf : findHeader t h with
  | none =>
    rw [hf] at he
    simp only at he
    obtain ⟨t1, -, he⟩ := (Res.bind_eq_ok ..).mp he
    simp only [Res.ok.injEq, Prod.mk.injEq] at he
    obtain ⟨rfl, rfl⟩ := he
    refine ⟨.literal .incremental (.text (lower h.1)) h.2, ?_, .inr ⟨_, rfl⟩⟩
    refine ⟨[0x40], encodeStringLiteralLower h.1, encodeStringLiteral h.2, by simp [encodeLiteral], ?_, ?_, encode_string _⟩
    · exact ⟨trivial, by decide, by decide⟩
    · rw [encodeStringLiteralLower_eq]; exact encode_string _
  | some p =>
    obtain ⟨i, b⟩ := p
    rw [hf] at he
    cases b with
    | true =>
      simp only [Res.ok.injEq, Prod.mk.injEq] at he
      obtain ⟨rfl, rfl⟩ := he
      exact ⟨.indexed i, encode_integer _ _ (by decide) (by decide) _ _ (by decide), .inl ⟨i, rfl⟩⟩
    | false =>
      simp only at he
      obtain ⟨t1, -, he⟩ := (Res.bind_eq_ok ..).mp he
      simp only [Res.ok.injEq, Prod.mk.injEq] at he
      obtain ⟨rfl, rfl⟩ := he
      have hi : i ≠ 0 := by
        unfold findHeader at hf
        simp only at hf
        split at hf
        · split at hf
          · simp at hf
          · split at hf
            · rename_i j hj
              simp only [Option.some.injEq, Prod.mk.injEq, and_true] at hf
              subst hf
              exact (staticHash_pos (staticHashFind_mem hj)).1
            · simp at hf
        · split at hf <;> simp at hf
      exact ⟨.literal .incremental (.index i) h.2, ⟨hi, encodeInteger i 6 0x40, encodeStringLiteral h.2, rfl,
        encode_integer _ _ (by decide) (by decide) _ _ (by decide), encode_string _⟩, .inr ⟨_, rfl⟩⟩

/-- C120: whatever the table, the headers and their values, every literal that the encoder writes asks the peer to index it. -/
theorem C120_literals_are_indexed (hs : List Header) : ∀ (t t' : HeaderIndex) (out : Bytes) (sent : List Rep),
    encodeHeaders t hs = .ok (out, t') → IsBlock anyLength sent out →
    ∀ r ∈ sent, (∃ i, r = .indexed i) ∨ ∃ name, ∃ h ∈ hs, r = .literal .incremental name h.2 := by
  suffices ex : ∀ (t t' : HeaderIndex) (out : Bytes), encodeHeaders t hs = .ok (out, t') → ∃ sent, IsBlock anyLength sent out ∧
      ∀ r ∈ sent, (∃ i, r = .indexed i) ∨ ∃ name, ∃ h ∈ hs, r = .literal .incremental name h.2 by
    intro t t' out sent he hb
    obtain ⟨s, h1, h2⟩ := ex t t' out he
    rw [block_unique hb h1]
    exact h2
  induction hs with
  | nil =>
    intro t t' out he
    simp only [encodeHeaders, Res.ok.injEq, Prod.mk.injEq] at he
    obtain ⟨rfl, rfl⟩ := he
    exact ⟨[], .nil, by simp⟩
  | cons h hs ih =>
    intro t t' out he
    unfold encodeHeaders at he
    obtain ⟨⟨b, t1⟩, h1, he⟩ := (Res.bind_eq_ok ..).mp he
    obtain ⟨⟨b2, t2⟩, h2, he⟩ := (Res.bind_eq_ok ..).mp he
    simp only [Res.ok.injEq, Prod.mk.injEq] at he
    obtain ⟨rfl, rfl⟩ := he
    obtain ⟨r, r1, r2⟩ := encodeHeader_kind h1
    obtain ⟨rs, q1, q2⟩ := ih _ _ _ h2
    refine ⟨r :: rs, .cons r1 q1, ?_⟩
    intro x hx
    rcases List.mem_cons.mp hx with rfl | hx
    · rcases r2 with r2 | ⟨name, r2⟩
      · exact .inl r2
      · exact .inr ⟨name, h, List.mem_cons_self, r2⟩
    · rcases q2 x hx with q | ⟨name, y, hy, q⟩
      · exact .inl q
      · exact .inr ⟨name, y, List.mem_cons_of_mem _ hy, q⟩

/-- C120 is false of every block with a literal never indexed, whatever is encoded and whatever the tables are. -/
theorem C120_violated_always (received sent : List Rep) (hs : List Header) (t t' : HeaderIndex) (out : Bytes)
    (hn : ∃ r ∈ received, r.IsNever) (he : encodeHeaders t hs = .ok (out, t')) (hb : IsBlock anyLength sent out) : ¬ KeepsNever received sent := by
  intro hk
  obtain ⟨r, hr, hn⟩ := hn
  match r, hn with
  | .literal .never name v, _ =>
    obtain ⟨name', hm⟩ := hk name v hr
    rcases C120_literals_are_indexed hs t t' out sent he hb _ hm with ⟨i, hi⟩ | ⟨n, h, -, hi⟩
    · simp at hi
    · simp at hi

/-- C120 is false: `authorization: k`, never to be indexed, is sent on as a literal with incremental indexing. -/
theorem C120_violated : ¬ C120_statement := by
  intro h
  have hb : IsBlock shortInteger [.literal .never (.index 23) [107]] [0x1f, 8, 1, 107] :=
    .cons (bs := [0x1f, 8, 1, 107]) (cs := []) ⟨by decide, [0x1f, 8], [1, 107], rfl, ⟨by unfold shortInteger; decide, by decide, by decide⟩,
      [1], [107], rfl, .inl ⟨⟨by unfold shortInteger; decide, by decide, by decide⟩, rfl⟩⟩ .nil
  have hd : decode { maxSize := 4096 } [0x1f, 8, 1, 107] = some (.ok ([(asciiBytes "authorization", [107])], { maxSize := 4096 })) := by decide +kernel
  have hout : encodeHeaders { maxSize := 4096 } [(asciiBytes "authorization", [107])] =
      .ok ([0x57] ++ encodeStringLiteral [107], ⟨[(asciiBytes "authorization", [107])], 46, 4096⟩) := by decide +kernel
  have hs : IsBlock anyLength [.literal .incremental (.index 23) [107]] ([0x57] ++ encodeStringLiteral [107]) := by
    have := IsBlock.cons (ok := anyLength) (r := .literal .incremental (.index 23) [107]) (bs := [0x57] ++ encodeStringLiteral [107]) (cs := []) (rs := [])
      ⟨by decide, [0x57], _, rfl, ⟨trivial, by decide, by decide⟩, encode_string _⟩ .nil
    rwa [List.append_nil] at this
  exact C120_violated_always _ _ _ _ _ _ ⟨.literal .never (.index 23) [107], List.mem_cons_self, trivial⟩ hout hs (h _ _ _ _ _ _ _ _ _ hb hd hout hs)

/-! ## What is stored -/

theorem static_values {v : Bytes} (hs : ∀ e ∈ rfcStaticTable, asciiBytes e.2 ≠ v) : ∀ e ∈ staticTable, e.2 ≠ v := by
  have : ∀ e ∈ staticTable, ∃ f ∈ rfcStaticTable, asciiBytes f.2 = e.2 := by decide +kernel
  intro e he
  obtain ⟨f, hf, h⟩ := this e he
  rw [← h]
  exact hs f hf

theorem addHeader_stores {t t' : HeaderIndex} {h : Header} (ht : TableInv t) (hfit : h.1.length + h.2.length + 32 ≤ t.maxSize)
    (ha : addHeader t h = .ok t') : h ∈ t'.table ∧ TableInv t' ∧ t'.maxSize = t.maxSize := by
  obtain ⟨t2, ha2, i2, m2, n, hn, hk, h1, h2⟩ := addHeader_spec t h ht.1
  rw [ha] at ha2
  cases ha2
  refine ⟨?_, i2, m2⟩
  rw [hk]
  cases n with
  | succ n => simp
  | zero =>
    have := h2 1 (by omega) (by simp)
    simp [tableSize] at this
    omega

theorem encodeHeader_stores {t t' : HeaderIndex} {h : Header} {out : Bytes} (ht : TableInv t) (hs : ∀ e ∈ staticTable, e.2 ≠ h.2)
    (hfit : h.1.length + h.2.length + 32 ≤ t.maxSize) (he : encodeHeader t h = .ok (out, t')) : ∃ e ∈ t'.table, e.2 = h.2 := by
  unfold encodeHeader at he
  cases hf : findHeader t h with
  | none =>
    rw [hf] at he
    simp only at he
    obtain ⟨t1, ha, he⟩ := (Res.bind_eq_ok ..).mp he
    simp only [Res.ok.injEq, Prod.mk.injEq] at he
    obtain ⟨-, rfl⟩ := he
    exact ⟨h, (addHeader_stores ht hfit ha).1, rfl⟩
  | some p =>
    obtain ⟨i, b⟩ := p
    rw [hf] at he
    cases b with
    | false =>
      simp only at he
      obtain ⟨t1, ha, he⟩ := (Res.bind_eq_ok ..).mp he
      simp only [Res.ok.injEq, Prod.mk.injEq] at he
      obtain ⟨-, rfl⟩ := he
      exact ⟨h, (addHeader_stores ht hfit ha).1, rfl⟩
    | true =>
      simp only [Res.ok.injEq, Prod.mk.injEq] at he
      obtain ⟨-, rfl⟩ := he
      unfold findHeader at hf
      simp only at hf
      split at hf
      · split at hf
        · rename_i j hj
          obtain ⟨e, he, hv⟩ := (staticHash_pos (staticHashFind_mem hj)).2
          exact absurd hv (hs e he)
        · split at hf <;> simp at hf
      · split at hf
        · rename_i j hj
          obtain ⟨hlt, hp, -⟩ := List.findIdx?_eq_some_iff_getElem.mp hj
          simp only [Bool.and_eq_true, beq_iff_eq] at hp
          exact ⟨_, List.getElem_mem hlt, hp.2⟩
        · simp at hf

theorem encodeHeaders_inv (hs : List Header) : ∀ {t t' : HeaderIndex} {out : Bytes}, TableInv t → encodeHeaders t hs = .ok (out, t') →
    TableInv t' ∧ t'.maxSize = t.maxSize := by
  induction hs with
  | nil =>
    intro t t' out ht he
    simp only [encodeHeaders, Res.ok.injEq, Prod.mk.injEq] at he
    obtain ⟨-, rfl⟩ := he
    exact ⟨ht, rfl⟩
  | cons h hs ih =>
    intro t t' out ht he
    unfold encodeHeaders at he
    obtain ⟨⟨b, t1⟩, h1, he⟩ := (Res.bind_eq_ok ..).mp he
    obtain ⟨⟨b2, t2⟩, h2, he⟩ := (Res.bind_eq_ok ..).mp he
    simp only [Res.ok.injEq, Prod.mk.injEq] at he
    obtain ⟨-, rfl⟩ := he
    have one : TableInv t1 ∧ t1.maxSize = t.maxSize := by
      obtain ⟨t3, ha, i3, m3, -⟩ := addHeader_spec t h ht.1
      unfold encodeHeader at h1
      split at h1
      · obtain ⟨t4, ha4, h1⟩ := (Res.bind_eq_ok ..).mp h1
        rw [ha] at ha4
        simp only [Res.ok.injEq, Prod.mk.injEq] at h1 ha4
        rw [← h1.2, ← ha4]
        exact ⟨i3, m3⟩
      · obtain ⟨t4, ha4, h1⟩ := (Res.bind_eq_ok ..).mp h1
        rw [ha] at ha4
        simp only [Res.ok.injEq, Prod.mk.injEq] at h1 ha4
        rw [← h1.2, ← ha4]
        exact ⟨i3, m3⟩
      · simp only [Res.ok.injEq, Prod.mk.injEq] at h1
        rw [← h1.2]
        exact ⟨ht, rfl⟩
    obtain ⟨a, b⟩ := ih one.1 h2
    exact ⟨a, b.trans one.2⟩

/-- C120: moreover, after any headers, a value that is in no entry of the static table of RFC 7541 and fits in the dynamic table is in the
dynamic table once it has been sent. -/
theorem C120_secret_is_stored (t t' : HeaderIndex) (ht : TableInv t) (before : List Header) (h : Header) (out : Bytes)
    (hs : ∀ e ∈ rfcStaticTable, asciiBytes e.2 ≠ h.2) (hfit : h.1.length + h.2.length + 32 ≤ t.maxSize)
    (he : encodeHeaders t (before ++ [h]) = .ok (out, t')) : ∃ e ∈ t'.table, e.2 = h.2 := by
  rw [encodeHeaders_append] at he
  obtain ⟨⟨x, t1⟩, h1, he⟩ := (Res.bind_eq_ok ..).mp he
  obtain ⟨⟨y, t2⟩, h2, he⟩ := (Res.bind_eq_ok ..).mp he
  simp only [Res.ok.injEq, Prod.mk.injEq] at he
  obtain ⟨-, rfl⟩ := he
  obtain ⟨i1, m1⟩ := encodeHeaders_inv before ht h1
  rw [← m1] at hfit
  unfold encodeHeaders at h2
  obtain ⟨⟨b, t3⟩, h3, h2⟩ := (Res.bind_eq_ok ..).mp h2
  simp only [encodeHeaders, Res.bind_eq_ok, Res.ok.injEq, Prod.mk.injEq] at h2
  obtain ⟨-, ⟨-, rfl⟩, -, rfl⟩ := h2
  exact encodeHeader_stores i1 (static_values hs) hfit h3

theorem table_eq {a b : HeaderIndex} (ha : TableInv a) (hb : TableInv b) (h : toTable a = toTable b) : a = b := by
  obtain ⟨ta, sa, ma⟩ := a
  obtain ⟨tb, sb, mb⟩ := b
  simp only [toTable, Table.mk.injEq] at h
  obtain ⟨rfl, rfl⟩ := h
  have h1 := ha.1
  have h2 := hb.1
  unfold SizeOk at h1 h2
  simp only at h1 h2
  rw [h1, h2]

theorem never_keeps {t T : Table} {reps : List Rep} {hs : List Header} (hm : Means t reps T hs) : (∀ r ∈ reps, r.IsNever) → T = t := by
  induction hm with
  | nil => intro _; rfl
  | @cons t r t' hs rs t'' hs' h1 _ ih =>
    intro hn
    have hr := hn r List.mem_cons_self
    rw [ih fun x hx => hn x (List.mem_cons_of_mem _ hx)]
    cases h1 with
    | never => rfl
    | indexed => exact hr.elim
    | incremental => exact hr.elim
    | without => exact hr.elim
    | sizeUpdate => exact hr.elim

theorem unmark_plain {r : Rep} (h : r.Plain) : r.unmark.Plain := by
  match r with
  | .literal .never (.index _) _ => exact h
  | .literal .never (.text _) _ => exact h
  | .literal .without _ _ => exact h
  | .literal .incremental _ _ => exact h
  | .indexed _ => exact h
  | .sizeUpdate _ => exact h

theorem unmark_means {t T : Table} {reps : List Rep} {hs : List Header} (hm : Means t reps T hs) : Means t (reps.map Rep.unmark) T hs := by
  induction hm with
  | nil => exact .nil
  | @cons t r t' hs rs t'' hs' h1 _ ih =>
    refine .cons ?_ ih
    cases h1 with
    | never h => exact .without h
    | indexed h => exact .indexed h
    | incremental h k => exact .incremental h k
    | without h => exact .without h
    | sizeUpdate h => exact .sizeUpdate h

/-- C120, partial: what is received never to be indexed is not put in the table of the decoder, for all tables and all blocks of such literals.
Missing: the sending on, see the violations. -/
theorem C120_received_partial (t : HeaderIndex) (ht : TableInv t) (reps : List Rep) (bs : Bytes) (T : Table) (hs : List Header)
    (hn : ∀ r ∈ reps, r.IsNever) (hp : ∀ r ∈ reps, r.Plain) (hb : IsBlock shortInteger reps bs) (hm : Means (toTable t) reps T hs) :
    decode t bs = some (.ok (hs, t)) := by
  obtain ⟨t', h1, h2, h3⟩ := C66_decodes_partial t ht reps bs T hs hp hb hm
  rw [h1, table_eq h3 ht (h2.trans (never_keeps hm hn))]

/-- C120: the caller of the decoder cannot know which fields these were: the same block without the marks gives the same headers and the same
table. -/
theorem C120_marks_are_lost (t : HeaderIndex) (ht : TableInv t) (reps : List Rep) (bs bs' : Bytes) (T : Table) (hs : List Header)
    (hp : ∀ r ∈ reps, r.Plain) (hb : IsBlock shortInteger reps bs) (hb' : IsBlock shortInteger (reps.map Rep.unmark) bs')
    (hm : Means (toTable t) reps T hs) : decode t bs = decode t bs' := by
  obtain ⟨t1, h1, h2, h3⟩ := C66_decodes_partial t ht reps bs T hs hp hb hm
  obtain ⟨t2, k1, k2, k3⟩ := C66_decodes_partial t ht _ bs' T hs (by
    intro r hr
    obtain ⟨x, hx, rfl⟩ := List.mem_map.mp hr
    exact unmark_plain (hp x hx)) hb' (unmark_means hm)
  rw [h1, k1, table_eq h3 k3 (h2.trans k2.symm)]

/-! ## Concrete cases -/

/-- `authorization: k` as a literal never indexed, and its octets. -/
def sampleSecret : List Rep := [.literal .never (.index 23) [107]]

theorem sampleSecret_block : IsBlock shortInteger sampleSecret [0x1f, 8, 1, 107] :=
  .cons (bs := [0x1f, 8, 1, 107]) (cs := []) ⟨by decide, [0x1f, 8], [1, 107], rfl, ⟨by unfold shortInteger; decide, by decide, by decide⟩,
    [1], [107], rfl, .inl ⟨⟨by unfold shortInteger; decide, by decide, by decide⟩, rfl⟩⟩ .nil

theorem sampleSecret_unmarked : IsBlock shortInteger (sampleSecret.map Rep.unmark) [0x0f, 8, 1, 107] :=
  .cons (bs := [0x0f, 8, 1, 107]) (cs := []) ⟨by decide, [0x0f, 8], [1, 107], rfl, ⟨by unfold shortInteger; decide, by decide, by decide⟩,
    [1], [107], rfl, .inl ⟨⟨by unfold shortInteger; decide, by decide, by decide⟩, rfl⟩⟩ .nil

theorem sampleSecret_means : Means (toTable {}) sampleSecret (toTable {}) [(asciiBytes "authorization", [107])] :=
  .cons (hs := [_]) (.never (by decide +kernel)) .nil

example : decode {} [0x1f, 8, 1, 107] = some (.ok ([(asciiBytes "authorization", [107])], {})) :=
  C120_received_partial {} ⟨rfl, by decide⟩ _ _ _ _ (by intro r hr; rw [List.mem_singleton.mp hr]; trivial)
    (by intro r hr; rw [List.mem_singleton.mp hr]; exact (by decide : (23 : Nat) ≠ 15)) sampleSecret_block sampleSecret_means

example : decode {} [0x1f, 8, 1, 107] = decode {} [0x0f, 8, 1, 107] :=
  C120_marks_are_lost {} ⟨rfl, by decide⟩ _ _ _ _ _
    (by intro r hr; rw [List.mem_singleton.mp hr]; exact (by decide : (23 : Nat) ≠ 15)) sampleSecret_block sampleSecret_unmarked sampleSecret_means

/-- Sent once, the value is in the table. -/
example : ∃ e ∈ (⟨[(asciiBytes "authorization", [107])], 46, 4096⟩ : HeaderIndex).table, e.2 = [107] :=
  C120_secret_is_stored { maxSize := 4096 } _ ⟨rfl, by decide⟩ [] (asciiBytes "authorization", [107]) ([0x57] ++ encodeStringLiteral [107])
    (by decide +kernel) (by decide +kernel) (by decide +kernel)

end Webparse
