import Verif.Spec.SharedIndex
import Verif.Props.TableResize
import Verif.Props.Rfc9113Peer
import Verif.Props.HpackLanguage

/-!
# C122: what is received does not change what is sent
-/

namespace Webparse
open Spec Spec.Rfc

/-- C122: an encoder and a decoder that are given the same table serve the two directions of a connection: whatever the peer writes in good HPACK
and whatever is sent, in any order, both sides agree on every header list. -/
def C122_statement : Prop :=
  ∀ (S : Bytes → Prop), SafeNames S → ∀ (limit : Nat) (es : List SharedEvent), SentNamesFrom S es →
    PeerWrites (fun _ => True) ⟨[], limit⟩ es →
    ∃ out t, runShared { maxSize := limit } es = some (.ok (out, t)) ∧ InStep ⟨[], limit⟩ ⟨[], limit⟩ es out

/-! ## A peer that stores nothing -/

theorem entry_empty {l L i : Nat} {x : List Header} {h : Header} (he : entry ⟨[], l⟩ i = some h) : entry ⟨x, L⟩ i = some h := by
  have := entry_wider (x := x) (L := L) he
  simpa using this

theorem name_empty {l L : Nat} {x : List Header} {name : RepName} {n : Bytes} (he : nameMeans ⟨[], l⟩ name = some n) :
    nameMeans ⟨x, L⟩ name = some n := by
  have := name_wider (x := x) (L := L) he
  simpa using this

theorem means_empty {t T : Table} {reps : List Rep} {hs : List Header} (hm : Means t reps T hs) : t.entries = [] →
    (∀ r ∈ reps, r.Plain ∧ r.StoresNothing) → T = t ∧ ∀ (x : List Header) (L : Nat), Means ⟨x, L⟩ reps ⟨x, L⟩ hs := by
  induction hm with
  | nil => exact fun _ _ => ⟨rfl, fun x L => .nil⟩
  | @cons t r t' hs rs t'' hs' h1 h2 ih =>
    intro he hn
    obtain ⟨te, tl⟩ := t
    simp only at he
    subst he
    have step : t' = ⟨[], tl⟩ ∧ ∀ (x : List Header) (L : Nat), RepMeans ⟨x, L⟩ r ⟨x, L⟩ hs := by
      cases h1 with
      | indexed h => exact ⟨rfl, fun x L => .indexed (entry_empty h)⟩
      | without h => exact ⟨rfl, fun x L => .without (name_empty h)⟩
      | never h => exact ⟨rfl, fun x L => .never (name_empty h)⟩
      | sizeUpdate h => exact absurd (hn _ List.mem_cons_self).1 (by simp [Rep.Plain])
      | incremental h k => exact absurd (hn _ List.mem_cons_self).2 (by simp [Rep.StoresNothing])
    obtain ⟨rfl, s2⟩ := step
    obtain ⟨rfl, i2⟩ := ih rfl fun r hr => hn r (List.mem_cons_of_mem _ hr)
    exact ⟨rfl, fun x L => .cons (s2 x L) (i2 x L)⟩

theorem toTable_inj {t t' : HeaderIndex} (h : TableInv t) (h' : TableInv t') (e : toTable t' = toTable t) : t' = t := by
  obtain ⟨a, b, c⟩ := t
  obtain ⟨a', b', c'⟩ := t'
  simp only [toTable, Table.mk.injEq] at e
  obtain ⟨rfl, rfl⟩ := e
  have h1 := h.1
  have h2 := h'.1
  unfold SizeOk at h1 h2
  simp only at h1 h2
  rw [h1, h2]

theorem shared_heard {S : Bytes → Prop} (hS : SafeNames S) (L : Nat) (es : List SharedEvent) :
    ∀ (t : HeaderIndex), TableInv t → (∀ e ∈ t.table, S e.1) → SentNamesFrom S es →
      PeerWrites Rep.StoresNothing ⟨[], L⟩ es →
      ∃ out t', runShared t es = some (.ok (out, t')) ∧ InStep (peerTable t) ⟨[], L⟩ es out := by
  have hc : NamesClear S := fun a b ha hb hn => nameEq_unambiguous (hS.2 a b ha hb hn)
  induction es with
  | nil => intro t _ _ _ _; exact ⟨[], t, rfl, .nil⟩
  | cons e es ih =>
    intro t ht hn hnames hp
    have hnames' : SentNamesFrom S es := fun hs hm => hnames hs (List.mem_cons_of_mem _ hm)
    cases hp with
    | @send _ hs _ hp =>
      obtain ⟨b, t1, h1⟩ := encodeHeaders_ok hs t ht
      have hns : ∀ h ∈ hs, S h.1 := hnames hs List.mem_cons_self
      obtain ⟨r1, r3, r4⟩ := encodeHeaders_rfc S hc hs ht hn (fun h hh => ⟨hns h hh, hS.1 _ (hns h hh)⟩) h1
      obtain ⟨out, t2, e1, e2⟩ := ih t1 r3 r4 hnames' hp
      refine ⟨.wrote b :: out, t2, ?_, .send r1 e2⟩
      simp only [runShared, h1, e1]
      rfl
    | @receive _ reps b rx' hs _ hb hok hm hp =>
      obtain ⟨rfl, hm'⟩ := means_empty hm rfl hok
      obtain ⟨n, t1, d1, d2, d3⟩ := block_decodes hb ht (fun r hr => (hok r hr).1) (hm' t.table t.maxSize)
      have := toTable_inj ht d2 d3
      subst this
      obtain ⟨out, t2, e1, e2⟩ := ih t1 ht hn hnames' hp
      refine ⟨.got hs :: out, t2, ?_, .receive ⟨reps, block_mono hb, hm⟩ e2⟩
      have d4 : decode t1 b = some (.ok (hs, t1)) := decodeRun_length d1
      simp only [runShared, d4, e1]
      rfl

/-- C122, partial: if the peer never asks for a field to be stored, both sides agree on every list, for all histories. -/
theorem C122_heard_partial (S : Bytes → Prop) (hS : SafeNames S) (limit : Nat) (es : List SharedEvent) (hn : SentNamesFrom S es)
    (hp : PeerWrites Rep.StoresNothing ⟨[], limit⟩ es) :
    ∃ out t, runShared { maxSize := limit } es = some (.ok (out, t)) ∧ InStep ⟨[], limit⟩ ⟨[], limit⟩ es out :=
  shared_heard hS limit es { maxSize := limit } ⟨rfl, by simp⟩ (by simp) hn hp

/-! ## A peer that stores a field -/

theorem addHeader_fits {t : HeaderIndex} {h : Header} (hf : t.size + entrySize h ≤ t.maxSize) :
    addHeader t h = .ok ⟨h :: t.table, t.size + entrySize h, t.maxSize⟩ := by
  unfold addHeader consolidate
  rw [if_neg (by simp only; omega)]

/-- A field of a new name, in lower case and small enough to be written. -/
structure NewField (h : Header) : Prop where
  name : staticHash h.1 = []
  lower : Spec.lower h.1 = h.1
  utf8 : utf8Valid h.1 = true
  nameLen : h.1.length < 2 ^ 26
  valueLen : h.2.length < 2 ^ 26

theorem NewField.low {h : Header} (hh : NewField h) : lowerHeader h = h := by
  obtain ⟨n, v⟩ := h
  have := hh.lower
  simp only at this
  simp [lowerHeader, this]

theorem literal_received {t t' : HeaderIndex} {h : Header} (hh : NewField h) (ha : addHeader t h = .ok t') :
    decode t (encodeLiteral h true) = some (.ok ([h], t')) := by
  obtain ⟨o, tl, e, hd⟩ := decodeStep_literal (td := t) h ⟨hh.utf8, hh.nameLen, hh.valueLen⟩ [] (by rw [hh.low]; exact ha)
  rw [hh.low, List.append_nil] at hd
  refine decodeRun_length (n := 1) ?_
  rw [e, decodeRun_step hd]
  simp [decodeRun, prependHeaders]

theorem literal_block (h : Header) : IsBlock anyLength [.literal .incremental (.text (lower h.1)) h.2] (encodeLiteral h true) := by
  have := IsBlock.cons (ok := anyLength) (r := .literal .incremental (.text (lower h.1)) h.2) (bs := encodeLiteral h true) (cs := []) (rs := [])
    ⟨[0x40], encodeStringLiteralLower h.1, encodeStringLiteral h.2, by simp [encodeLiteral], ⟨trivial, by decide, by decide⟩,
      by rw [encodeStringLiteralLower_eq]; exact encode_string _, encode_string _⟩ .nil
  rwa [List.append_nil] at this

theorem find_new {t : HeaderIndex} {h : Header} (hn : staticHash h.1 = []) (hv : ∀ e ∈ t.table, e.2 ≠ h.2) : findHeader t h = none := by
  unfold findHeader
  simp only [hn]
  have : t.table.findIdx? (fun e => nameEq e.1 h.1 && e.2 == h.2) = none := by
    rw [List.findIdx?_eq_none_iff]
    intro e he
    simp [hv e he]
  rw [this]
  rfl

theorem find_first {t : HeaderIndex} {h : Header} {l : List Header} (hn : staticHash h.1 = []) (ht : t.table = h :: l) :
    findHeader t h = some (62, true) := by
  unfold findHeader
  simp only [hn, ht]
  have : nameEq h.1 h.1 = true := nameEq_refl _
  simp [List.findIdx?_cons, this, staticTable_length]

theorem string_short {s : Bytes} (h : s.length < 2 ^ 26) : IsString shortInteger s (encodeStringLiteral s) := by
  have hd := decodeString_huff s (huff_small h) []
  rw [List.append_nil] at hd
  obtain ⟨a, rest, e, -, hl⟩ := looseString_accepted hd
  exact (looseString_rfc (encode_string s) hl (r := []) (by rw [List.append_nil]; exact e)).2.2.2

theorem literal_short {h : Header} (hh : NewField h) :
    IsBlock shortInteger [.literal .incremental (.text h.1) h.2] (encodeLiteral h true) := by
  have := IsBlock.cons (ok := shortInteger) (r := .literal .incremental (.text h.1) h.2) (bs := encodeLiteral h true) (cs := []) (rs := [])
    ⟨[0x40], encodeStringLiteralLower h.1, encodeStringLiteral h.2, by simp [encodeLiteral], ⟨by simp [shortInteger], by decide, by decide⟩,
      by rw [encodeStringLiteralLower_eq, hh.lower]; exact string_short hh.nameLen, string_short hh.valueLen⟩ .nil
  rwa [List.append_nil] at this

theorem index_block : IsBlock shortInteger [.indexed 62] [0xbe] := by
  have := IsBlock.cons (ok := shortInteger) (r := .indexed 62) (bs := [0xbe]) (cs := []) (rs := []) ⟨by simp [shortInteger], by decide, by decide⟩ .nil
  rwa [List.append_nil] at this

theorem index_bytes : encodeIndexed 62 = [0xbe] := by decide +kernel

theorem keeps_all {l : List Header} {limit : Nat} (h : tableSize l ≤ limit) : IsEviction l l limit :=
  ⟨l.length, Nat.le_refl _, by simp, by simpa using h, fun m hm hl => by omega⟩

theorem literal_means {h : Header} {l : List Header} {limit : Nat} (hs : tableSize (h :: l) ≤ limit) :
    Means ⟨l, limit⟩ [.literal .incremental (.text h.1) h.2] ⟨h :: l, limit⟩ [h] := by
  have := Means.cons (RepMeans.incremental (t := ⟨l, limit⟩) (name := .text h.1) (n := h.1) (v := h.2) rfl (keeps_all hs)) .nil
  simpa using this

theorem index_means (h : Header) (l : List Header) (limit : Nat) : Means ⟨h :: l, limit⟩ [.indexed 62] ⟨h :: l, limit⟩ [h] := by
  have := Means.cons (RepMeans.indexed (t := ⟨h :: l, limit⟩) (i := 62) (h := h) (by simp [entry])) .nil
  simpa using this

theorem tableSize_two (a h : Header) : tableSize [h, a] = entrySize h + entrySize a := by simp [tableSize, entrySize]

theorem send_one {t t' : HeaderIndex} {h : Header} {b : Bytes} (he : encodeHeader t h = .ok (b, t')) : encodeHeaders t [h] = .ok (b, t') := by
  simp [encodeHeaders, he, Res.bind_ok]

theorem send_new {t t' : HeaderIndex} {h : Header} (hf : findHeader t h = none) (ha : addHeader t h = .ok t') :
    encodeHeaders t [h] = .ok (encodeLiteral h true, t') := by
  apply send_one
  unfold encodeHeader
  rw [hf]
  simp only [ha, Res.bind_ok]

theorem send_found {t : HeaderIndex} {h : Header} {i : Nat} (hf : findHeader t h = some (i, true)) :
    encodeHeaders t [h] = .ok (encodeIndexed i, t) := by
  apply send_one
  unfold encodeHeader
  rw [hf]

theorem index_received (h : Header) (l : List Header) (n m : Nat) : decode ⟨h :: l, n, m⟩ [0xbe] = some (.ok ([h], ⟨h :: l, n, m⟩)) := by
  have hf : fieldRep 0xbe = .indexed := by decide
  have hi : ((0xbe : UInt8) &&& 0x7f).toNat = 62 := by decide
  have hd : decodeStep ⟨h :: l, n, m⟩ 0xbe [] = .ok ([h], ⟨h :: l, n, m⟩, 1) := by
    unfold decodeStep
    simp only [hf, decodeIndexed, hi, getFromIndex, staticTable_length]
    simp [Res.ofOption, Res.bind_ok]
  refine decodeRun_length (n := 1) ?_
  rw [decodeRun_step hd]
  simp [decodeRun, prependHeaders]

/-- C122 is false for all fields of new names that fit: the peer has a field `a` stored, this side sends a field `h`, the peer sends `a` again as an
index: this side gets its own field `h`. -/
theorem C122_violated_received (limit : Nat) (a h : Header) (ha : NewField a) (hh : NewField h) (hv : a.2 ≠ h.2)
    (hf : tableSize [h, a] ≤ limit) :
    let es := [.receive (encodeLiteral a true), .send [h], .receive [0xbe]]
    PeerWrites (fun _ => True) ⟨[], limit⟩ es ∧
    ∃ t b, runShared { maxSize := limit } es = some (.ok ([.got [a], .wrote b, .got [h]], t)) ∧
      ¬ InStep ⟨[], limit⟩ ⟨[], limit⟩ es [.got [a], .wrote b, .got [h]] ∧ InStep ⟨[], limit⟩ ⟨[], limit⟩ es [.got [a], .wrote b, .got [a]] := by
  intro es
  rw [tableSize_two] at hf
  have ma : Means ⟨[], limit⟩ [.literal .incremental (.text a.1) a.2] ⟨[a], limit⟩ [a] :=
    literal_means (by simp [tableSize]; simp only [entrySize] at hf; omega)
  have mh : Means ⟨[], limit⟩ [.literal .incremental (.text h.1) h.2] ⟨[h], limit⟩ [h] :=
    literal_means (by simp [tableSize]; simp only [entrySize] at hf; omega)
  have a1 : addHeader { maxSize := limit } a = .ok ⟨[a], 0 + entrySize a, limit⟩ := addHeader_fits (by simp only; omega)
  have a2 : addHeader ⟨[a], 0 + entrySize a, limit⟩ h = .ok ⟨[h, a], 0 + entrySize a + entrySize h, limit⟩ := addHeader_fits (by simp only; omega)
  have f2 : findHeader ⟨[a], 0 + entrySize a, limit⟩ h = none := find_new hh.name (by simpa using hv)
  have bh : Reads ⟨[], limit⟩ (encodeLiteral h true) ⟨[h], limit⟩ ([h].map lowerHeader) := by
    refine ⟨_, block_mono (literal_short hh), ?_⟩
    simpa [hh.low] using mh
  refine ⟨?_, ⟨[h, a], 0 + entrySize a + entrySize h, limit⟩, encodeLiteral h true, ?_, ?_, ?_⟩
  · exact .receive (literal_short ha) (by simp [Rep.Plain, ha.utf8]) ma (.send (.receive index_block (by simp [Rep.Plain]) (index_means a [] limit) .nil))
  · simp only [es, runShared, literal_received ha a1, send_new f2 a2, index_received]
    rfl
  · intro hx
    simp only [es] at hx
    cases hx with
    | receive r1 hx =>
      cases hx with
      | send r2 hx =>
        cases hx with
        | receive r3 hx =>
          obtain ⟨rfl, -⟩ := reads_unique r1 ⟨_, block_mono (literal_short ha), ma⟩
          have := (reads_unique r3 ⟨_, block_mono index_block, index_means a [] limit⟩).2
          simp only [List.cons.injEq, and_true] at this
          rw [this] at hv
          exact hv rfl
  · exact .receive ⟨_, block_mono (literal_short ha), ma⟩ (.send bh (.receive ⟨_, block_mono index_block, index_means a [] limit⟩ .nil))

/-- C122 is false in the other direction too: this side sends `a`, the peer has `h` stored, this side sends `h`: the peer hears `a` once more. -/
theorem C122_violated_sent (limit : Nat) (a h : Header) (ha : NewField a) (hh : NewField h) (hf : tableSize [h, a] ≤ limit) :
    let es := [.send [a], .receive (encodeLiteral h true), .send [h]]
    PeerWrites (fun _ => True) ⟨[], limit⟩ es ∧
    ∃ b1 b2 t, runShared { maxSize := limit } es = some (.ok ([.wrote b1, .got [h], .wrote b2], t)) ∧
      ∃ T, ReadsBlocks ⟨[], limit⟩ [b1, b2] T [[a], [a]] := by
  intro es
  rw [tableSize_two] at hf
  have ma : Means ⟨[], limit⟩ [.literal .incremental (.text a.1) a.2] ⟨[a], limit⟩ [a] :=
    literal_means (by simp [tableSize]; simp only [entrySize] at hf; omega)
  have mh : Means ⟨[], limit⟩ [.literal .incremental (.text h.1) h.2] ⟨[h], limit⟩ [h] :=
    literal_means (by simp [tableSize]; simp only [entrySize] at hf; omega)
  have a1 : addHeader { maxSize := limit } a = .ok ⟨[a], 0 + entrySize a, limit⟩ := addHeader_fits (by simp only; omega)
  have a2 : addHeader ⟨[a], 0 + entrySize a, limit⟩ h = .ok ⟨[h, a], 0 + entrySize a + entrySize h, limit⟩ := addHeader_fits (by simp only; omega)
  have f1 : findHeader { maxSize := limit } a = none := find_new ha.name (by simp)
  have f2 : findHeader ⟨[h, a], 0 + entrySize a + entrySize h, limit⟩ h = some (62, true) := find_first hh.name rfl
  refine ⟨.send (.receive (literal_short hh) (by simp [Rep.Plain, hh.utf8]) mh (.send .nil)), encodeLiteral a true, [0xbe],
    ⟨[h, a], 0 + entrySize a + entrySize h, limit⟩, ?_, ⟨[a], limit⟩, ?_⟩
  · simp only [es, runShared, send_new f1 a1, literal_received hh a2, send_found f2, index_bytes]
    rfl
  · exact .cons ⟨_, block_mono (literal_short ha), ma⟩ (.cons ⟨_, block_mono index_block, index_means a [] limit⟩ .nil)

/-- Two fields of new names. -/
def fieldA : Header := (asciiBytes "x-a", [49])
/-- The other one. -/
def fieldB : Header := (asciiBytes "x-b", [50])

theorem fieldA_new : NewField fieldA := ⟨by decide +kernel, by decide +kernel, by decide +kernel, by decide +kernel, by decide +kernel⟩
theorem fieldB_new : NewField fieldB := ⟨by decide +kernel, by decide +kernel, by decide +kernel, by decide +kernel, by decide +kernel⟩

theorem C122_violated : ¬ C122_statement := by
  intro hst
  obtain ⟨hp, t, b, hr, hx, -⟩ := C122_violated_received 4096 fieldA fieldB fieldA_new fieldB_new (by decide) (by decide +kernel)
  obtain ⟨out, t', h1, h2⟩ := hst (fun a => a = asciiBytes "x-b") (by
      refine ⟨?_, ?_⟩
      · rintro a rfl
        decide +kernel
      · rintro a b rfl rfl _ _ _
        rfl) 4096 _ (by
      intro hs hm h hh
      simp only [List.mem_cons, reduceCtorEq, SharedEvent.send.injEq, List.not_mem_nil, or_false, false_or] at hm
      subst hm
      rw [List.mem_singleton.mp hh]
      rfl) hp
  rw [hr] at h1
  simp only [Option.some.injEq, Res.ok.injEq, Prod.mk.injEq] at h1
  rw [← h1.1] at h2
  exact hx h2

/-! ## A concrete case of `C122_heard_partial` -/

/-- The peer writes `:method: GET` as an index and a literal that is not to be stored; this side sends the same field twice. -/
def quietPeer : List SharedEvent :=
  [.send [fieldA], .receive [0x82], .send [fieldA], .receive [0x00, 0x01, 0x78, 0x01, 0x31]]

example : ∃ out t, runShared {} quietPeer = some (.ok (out, t)) ∧ InStep ⟨[], 4096⟩ ⟨[], 4096⟩ quietPeer out := by
  refine C122_heard_partial (fun a => a = asciiBytes "x-a") ⟨?_, ?_⟩ 4096 quietPeer ?_ ?_
  · rintro a rfl
    decide +kernel
  · rintro a b rfl rfl _ _ _
    rfl
  · intro hs hm h hh
    simp only [quietPeer, List.mem_cons, reduceCtorEq, SharedEvent.send.injEq, List.not_mem_nil, or_false, false_or, or_self] at hm
    subst hm
    rw [List.mem_singleton.mp hh]
    rfl
  · refine .send (.receive (reps := [.indexed 2]) (rx' := ⟨[], 4096⟩) (hs := [(asciiBytes ":method", asciiBytes "GET")]) ?_ ?_ ?_ (.send (.receive
      (reps := [.literal .without (.text [0x78]) [0x31]]) (rx' := ⟨[], 4096⟩) (hs := [([0x78], [0x31])]) ?_ ?_ ?_ .nil)))
    · exact .cons (bs := [0x82]) ⟨by simp [shortInteger], by decide, by decide⟩ .nil
    · simp [Rep.Plain, Rep.StoresNothing]
    · exact .cons (hs := [_]) (.indexed (by decide +kernel)) .nil
    · exact .cons (bs := [0x00, 0x01, 0x78, 0x01, 0x31]) ⟨[0], [1, 0x78], [1, 0x31], rfl, ⟨by simp [shortInteger], by decide, by decide⟩,
        ⟨[1], [0x78], rfl, Or.inl ⟨⟨by simp [shortInteger], by decide, by decide⟩, rfl⟩⟩,
        ⟨[1], [0x31], rfl, Or.inl ⟨⟨by simp [shortInteger], by decide, by decide⟩, rfl⟩⟩⟩ .nil
    · simp only [List.mem_singleton, forall_eq, Rep.Plain, Rep.StoresNothing, and_true]
      decide +kernel
    · exact .cons (hs := [_]) (.without rfl) .nil

end Webparse
