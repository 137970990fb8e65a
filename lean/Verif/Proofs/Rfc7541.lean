import Verif.Proofs.HpackReach
import Verif.Spec.Rfc7541
import Verif.Spec.HpackState
import Verif.Proofs.HpackSync

/-! The decoder on RFC 7541 blocks, the encoder's blocks as RFC 7541 blocks, and unambiguity of blocks. -/

namespace Webparse
open Spec Spec.Rfc

/-! ## The decoder -/

/-- At most five octets. -/
theorem integer_decodes {N top v : Nat} {a : Bytes} (h1 : 1 ≤ N) (h8 : N ≤ 8)
    (h : IsInteger shortInteger N top v a) (rest : Bytes) :
    decodeInteger (a ++ rest) N = .ok (v, a.length) := by
  obtain ⟨h5, -, hv⟩ := h
  rw [decodeInteger_spec _ _ _ _ h1 h8]
  exact ⟨h5, by simp, by rw [List.take_left]; exact hv⟩

theorem integer_cons {ok : Bytes → Prop} {N top v : Nat} {a : Bytes} (h : IsInteger ok N top v a) :
    ∃ b tl, a = b :: tl ∧ b.toNat / 2 ^ N = top := by
  obtain ⟨-, ht, hv⟩ := h
  cases a with
  | nil => simp [intValue] at hv
  | cons b tl => exact ⟨b, tl, rfl, ht⟩

theorem ofNat_byteSyms (s : Bytes) : (byteSyms s).map UInt8.ofNat = s := by
  unfold byteSyms
  rw [List.map_map]
  conv_rhs => rw [← List.map_id s]
  apply List.map_congr_left
  intro b _
  simp

theorem huffman_decodes {d s : Bytes} (h : IsHuffmanOf d (byteSyms s)) : huffDecode d = .ok s := by
  rw [huffDecode_exact]
  exact ⟨byteSyms s, byteSyms_lt s, h, (ofNat_byteSyms s).symm⟩

theorem string_decodes {s bs : Bytes} (h : IsString shortInteger s bs) (rest : Bytes) :
    decodeString (bs ++ rest) = .ok (s, bs.length) := by
  obtain ⟨l, d, rfl, h⟩ := h
  have bit : ∀ b : UInt8, (b.toNat / 2 ^ 7 = 1 → b &&& 128 = 128) ∧ (b.toNat / 2 ^ 7 = 0 → b &&& 128 ≠ 128) := by
    decide +kernel
  rcases h with ⟨h, rfl⟩ | ⟨h, hh⟩
  · obtain ⟨b, tl, rfl, hb⟩ := integer_cons h
    have hd := integer_decodes (by decide) (by decide) h (d ++ rest)
    unfold decodeString
    rw [List.append_assoc, hd, Res.bind_ok]
    simp only
    rw [if_neg (by simp; omega), List.drop_left, List.take_left]
    have hne : ¬ ((b :: tl ++ (d ++ rest)).headD 0 &&& 128 = 128) := (bit b).2 hb
    rw [if_neg hne]
    simp; omega
  · obtain ⟨b, tl, rfl, hb⟩ := integer_cons h
    have hd := integer_decodes (by decide) (by decide) h (d ++ rest)
    unfold decodeString
    rw [List.append_assoc, hd, Res.bind_ok]
    simp only
    rw [if_neg (by simp; omega), List.drop_left, List.take_left]
    have heq : (b :: tl ++ (d ++ rest)).headD 0 &&& 128 = 128 := (bit b).1 hb
    rw [if_pos heq, huffman_decodes hh]
    simp; omega

theorem entry_eq (t : HeaderIndex) (i : Nat) (h : i ≠ 15) : getFromIndex t i = entry (toTable t) i := by
  have key : ∀ i : Fin 62, (1 ≤ i.val ∧ i.val ≠ 15) →
      staticTable[i.val - 1]? = (rfcStaticTable[i.val - 1]?).map fun e => (asciiBytes e.1, asciiBytes e.2) := by
    decide +kernel
  unfold getFromIndex entry
  by_cases h0 : i = 0
  · rw [if_pos h0, if_pos h0]
  · rw [if_neg h0, if_neg h0]
    simp only [staticTable_length]
    by_cases h61 : i ≤ 61
    · rw [if_pos (by omega), if_pos h61]
      exact key ⟨i, by omega⟩ ⟨by simp; omega, h⟩
    · rw [if_neg (by omega), if_neg h61]
      have : i - 1 - 61 = i - 62 := by omega
      rw [this]
      split
      · rfl
      · rename_i hh
        exact (List.getElem?_eq_none (by simpa [toTable] using hh)).symm

theorem eviction_unique {l k k' : List (Bytes × Bytes)} {m : Nat} (h : IsEviction l k m) (h' : IsEviction l k' m) : k = k' := by
  obtain ⟨a, ha, rfl, h1, h2⟩ := h
  obtain ⟨b, hb, rfl, h3, h4⟩ := h'
  rcases Nat.lt_trichotomy a b with hab | rfl | hab
  · exact absurd (h2 b hab hb) (by omega)
  · rfl
  · exact absurd (h4 a hab ha) (by omega)

theorem add_eviction {t : HeaderIndex} (ht : TableInv t) {h : Header} {kept : List (Bytes × Bytes)}
    (he : IsEviction (h :: t.table) kept t.maxSize) :
    ∃ t', addHeader t h = .ok t' ∧ TableInv t' ∧ toTable t' = ⟨kept, t.maxSize⟩ := by
  obtain ⟨t', h1, h2, h3, h4⟩ := addHeader_spec t h ht.1
  exact ⟨t', h1, h2, by rw [toTable, h3, eviction_unique h4 he]⟩

theorem literal_decodes {t : HeaderIndex} (inc : Bool) {m : Mode} (hm : m.bits = if inc then 6 else 4) {name : RepName} {n v bs : Bytes}
    (hp : Rep.Plain (.literal m name v)) (hn : nameMeans (toTable t) name = some n)
    (h : IsRep shortInteger (.literal m name v) bs) (rest : Bytes) :
    decodeLiteral t (bs ++ rest) inc = .ok ((n, v), bs.length) := by
  have hb1 : 1 ≤ m.bits := by cases m <;> decide
  have hb8 : m.bits ≤ 8 := by cases m <;> decide
  cases name with
  | index i =>
    obtain ⟨hi, a, b, rfl, ha, hb⟩ := h
    unfold decodeLiteral
    simp only
    rw [← hm, List.append_assoc, integer_decodes hb1 hb8 ha, Res.bind_ok]
    simp only [decodeLiteralName]
    rw [if_neg hi, entry_eq t i hp]
    simp only [nameMeans, Option.map_eq_some_iff] at hn
    obtain ⟨e, he, rfl⟩ := hn
    rw [he]
    simp only [Res.ofOption, Res.bind_ok]
    rw [List.drop_left, string_decodes hb]
    simp
  | text s =>
    obtain ⟨a, b, c, rfl, ha, hb, hc⟩ := h
    simp only [nameMeans, Option.some.injEq] at hn
    subst hn
    unfold decodeLiteral
    simp only
    rw [← hm, List.append_assoc, integer_decodes hb1 hb8 ha, Res.bind_ok]
    simp only [decodeLiteralName]
    rw [if_pos trivial, List.drop_left, List.append_assoc, string_decodes hb, Res.bind_ok, Res.bind_ok]
    simp only
    rw [← List.append_assoc, ← List.length_append, List.drop_left, string_decodes hc]
    have : headerNameFromBytes s = s := utf8Lossy_valid hp
    simp [this, Nat.add_assoc]

/-- One representation. -/
theorem rep_decodes {t : HeaderIndex} (ht : TableInv t) {r : Rep} {bs : Bytes} {T : Table} {hs : List (Bytes × Bytes)}
    (hp : r.Plain) (h : IsRep shortInteger r bs) (hm : RepMeans (toTable t) r T hs) :
    ∃ o tl t', bs = o :: tl ∧ (∀ rest, decodeStep t o (tl ++ rest) = .ok (hs, t', bs.length)) ∧ TableInv t' ∧ toTable t' = T := by
  have kinds : ∀ b : UInt8, (b.toNat / 2 ^ 7 = 1 → fieldRep b = .indexed) ∧ (b.toNat / 2 ^ 6 = 1 → fieldRep b = .incremental) ∧
      (b.toNat / 2 ^ 4 = 0 → fieldRep b = .withoutIndexing) ∧ (b.toNat / 2 ^ 4 = 1 → fieldRep b = .neverIndexed) := by
    decide +kernel
  have lit : ∀ {m name v}, IsRep shortInteger (.literal m name v) bs →
      ∃ o tl, bs = o :: tl ∧ o.toNat / 2 ^ m.bits = m.top := by
    intro m name v h
    cases name with
    | index i =>
      obtain ⟨-, a, b, rfl, ha, -⟩ := h
      obtain ⟨o, tl, rfl, ho⟩ := integer_cons ha
      exact ⟨o, _, rfl, ho⟩
    | text s =>
      obtain ⟨a, b, c, rfl, ha, -⟩ := h
      obtain ⟨o, tl, rfl, ho⟩ := integer_cons ha
      exact ⟨o, _, rfl, ho⟩
  cases hm with
  | @indexed i x he =>
    simp only [IsRep] at h
    obtain ⟨o, tl, rfl, ho⟩ := integer_cons h
    obtain ⟨h5, -, hv⟩ := h
    obtain ⟨h126, h15⟩ := hp
    have hlow : ∀ b : UInt8, (b &&& 0x7f).toNat = b.toNat % 2 ^ 7 := by decide +kernel
    have : tl = [] ∧ o.toNat % 2 ^ 7 = i := by
      simp only [intValue] at hv
      split at hv
      · split at hv
        · simp only [Option.some.injEq] at hv
          exact ⟨by assumption, hv⟩
        · simp at hv
      · simp only [Option.map_eq_some_iff] at hv
        obtain ⟨x, -, hx⟩ := hv
        omega
    obtain ⟨rfl, rfl⟩ := this
    refine ⟨o, [], t, rfl, ?_, ht, rfl⟩
    intro rest
    unfold decodeStep
    simp only [(kinds o).1 ho, decodeIndexed]
    rw [hlow, entry_eq t _ h15, he]
    rfl
  | @incremental name n v kept hn he =>
    obtain ⟨o, tl, rfl, ho⟩ := lit h
    obtain ⟨t', h1, h2, h3⟩ := add_eviction ht he
    refine ⟨o, tl, t', rfl, ?_, h2, h3⟩
    intro rest
    have hd := literal_decodes (t := t) true rfl hp hn h rest
    unfold decodeStep
    simp only [(kinds o).2.1 ho]
    rw [← List.cons_append, hd]
    simp only [Res.bind_ok, h1]
  | @without name n v hn =>
    obtain ⟨o, tl, rfl, ho⟩ := lit h
    refine ⟨o, tl, t, rfl, ?_, ht, rfl⟩
    intro rest
    have hd := literal_decodes (t := t) false rfl hp hn h rest
    unfold decodeStep
    simp only [(kinds o).2.2.1 ho]
    rw [← List.cons_append, hd]
    simp only [Res.bind_ok]
  | @never name n v hn =>
    obtain ⟨o, tl, rfl, ho⟩ := lit h
    refine ⟨o, tl, t, rfl, ?_, ht, rfl⟩
    intro rest
    have hd := literal_decodes (t := t) false rfl hp hn h rest
    unfold decodeStep
    simp only [(kinds o).2.2.2 ho]
    rw [← List.cons_append, hd]
    simp only [Res.bind_ok]
  | sizeUpdate he => exact absurd hp (by simp [Rep.Plain])

/-- A block. -/
theorem block_decodes {reps : List Rep} {bs : Bytes} (h : IsBlock shortInteger reps bs) :
    ∀ {t : HeaderIndex}, TableInv t → ∀ {T : Table} {hs : List (Bytes × Bytes)}, (∀ r ∈ reps, r.Plain) →
    Means (toTable t) reps T hs →
    ∃ n t', decodeRun n t bs = some (.ok (hs, t')) ∧ TableInv t' ∧ toTable t' = T := by
  induction h with
  | nil =>
    intro t ht T hs _ hm
    cases hm
    exact ⟨0, t, by simp [decodeRun], ht, rfl⟩
  | @cons r bs rs cs hr _ ih =>
    intro t ht T hs hp hm
    cases hm with
    | @cons _ _ t1 hs1 _ _ hs2 h1 h2 =>
      obtain ⟨o, tl, t', rfl, hd, hi, rfl⟩ := rep_decodes ht (hp r (by simp)) hr h1
      obtain ⟨n, t'', e1, e2, e3⟩ := ih hi (fun r' hr' => hp r' (by simp [hr'])) h2
      refine ⟨n + 1, t'', ?_, e2, e3⟩
      rw [List.cons_append, decodeRun_step (hd cs), ← List.cons_append, List.drop_left, e1]
      rfl

/-! ## Unambiguity -/

theorem cont_prefix_free : ∀ (a a' r r' : Bytes) (v v' : Nat), contValue a = some v → contValue a' = some v' →
    a ++ r = a' ++ r' → a = a' ∧ r = r' := by
  intro a
  induction a with
  | nil => intro a' r r' v v' h; simp [contValue] at h
  | cons b a ih =>
    intro a' r r' v v' h h' e
    cases a' with
    | nil => simp [contValue] at h'
    | cons b' a' =>
      simp only [List.cons_append, List.cons.injEq] at e
      obtain ⟨rfl, e⟩ := e
      cases a with
      | nil =>
        cases a' with
        | nil => exact ⟨rfl, by simpa using e⟩
        | cons c' a' =>
          simp only [contValue] at h h'
          split at h <;> split at h' <;> first | omega | simp at h h'
      | cons c a =>
        cases a' with
        | nil =>
          simp only [contValue] at h h'
          split at h <;> split at h' <;> first | omega | simp at h h'
        | cons c' a' =>
          simp only [contValue] at h h'
          split at h
          · rw [if_pos (by assumption)] at h'
            simp only [Option.map_eq_some_iff] at h h'
            obtain ⟨x, hx, -⟩ := h
            obtain ⟨y, hy, -⟩ := h'
            obtain ⟨e1, e2⟩ := ih _ _ _ _ _ hx hy e
            exact ⟨by rw [e1], e2⟩
          · simp at h

theorem integer_prefix_free {ok ok' : Bytes → Prop} {N top top' v v' : Nat} {a a' r r' : Bytes} (h : IsInteger ok N top v a)
    (h' : IsInteger ok' N top' v' a') (e : a ++ r = a' ++ r') : a = a' ∧ v = v' ∧ r = r' := by
  have key : a = a' ∧ r = r' := by
    obtain ⟨-, -, hv⟩ := h
    obtain ⟨-, -, hv'⟩ := h'
    cases a with
    | nil => simp [intValue] at hv
    | cons b a =>
      cases a' with
      | nil => simp [intValue] at hv'
      | cons b' a' =>
        simp only [List.cons_append, List.cons.injEq] at e
        obtain ⟨rfl, e⟩ := e
        simp only [intValue] at hv hv'
        split at hv
        · rw [if_pos (by assumption)] at hv'
          split at hv
          · split at hv'
            · subst a; subst a'; exact ⟨rfl, by simpa using e⟩
            · simp at hv'
          · simp at hv
        · rw [if_neg (by assumption)] at hv'
          simp only [Option.map_eq_some_iff] at hv hv'
          obtain ⟨x, hx, -⟩ := hv
          obtain ⟨y, hy, -⟩ := hv'
          obtain ⟨e1, e2⟩ := cont_prefix_free _ _ _ _ _ _ hx hy e
          exact ⟨by rw [e1], e2⟩
  obtain ⟨rfl, rfl⟩ := key
  refine ⟨rfl, ?_, rfl⟩
  have := h.2.2
  rw [h'.2.2] at this
  simpa using this.symm

theorem string_prefix_free {ok ok' : Bytes → Prop} {s s' a a' r r' : Bytes} (h : IsString ok s a)
    (h' : IsString ok' s' a') (e : a ++ r = a' ++ r') : a = a' ∧ s = s' ∧ r = r' := by
  obtain ⟨l, d, rfl, h⟩ := h
  obtain ⟨l', d', rfl, h'⟩ := h'
  rw [List.append_assoc, List.append_assoc] at e
  rcases h with ⟨h, rfl⟩ | ⟨h, hd⟩ <;> rcases h' with ⟨h', rfl⟩ | ⟨h', hd'⟩
  · obtain ⟨rfl, hl, e⟩ := integer_prefix_free h h' e
    obtain ⟨rfl, rfl⟩ := List.append_inj e hl
    exact ⟨rfl, rfl, rfl⟩
  · obtain ⟨rfl, -, -⟩ := integer_prefix_free h h' e
    have := h.2.1; rw [h'.2.1] at this; omega
  · obtain ⟨rfl, -, -⟩ := integer_prefix_free h h' e
    have := h.2.1; rw [h'.2.1] at this; omega
  · obtain ⟨rfl, hl, e⟩ := integer_prefix_free h h' e
    obtain ⟨rfl, rfl⟩ := List.append_inj e hl
    have h1 := huffman_decodes hd
    rw [huffman_decodes hd'] at h1
    exact ⟨rfl, (Res.ok.inj h1).symm, rfl⟩

theorem rep_head {ok : Bytes → Prop} {r : Rep} {bs : Bytes} (h : IsRep ok r bs) : ∃ o tl, bs = o :: tl ∧
    match r with
    | .indexed _ => o.toNat / 2 ^ 7 = 1
    | .literal m _ _ => o.toNat / 2 ^ m.bits = m.top
    | .sizeUpdate _ => o.toNat / 2 ^ 5 = 1 := by
  cases r with
  | indexed i => exact integer_cons h
  | sizeUpdate n => exact integer_cons h
  | literal m name v =>
    cases name with
    | index i =>
      obtain ⟨-, a, b, rfl, ha, -⟩ := h
      obtain ⟨o, tl, rfl, ho⟩ := integer_cons ha
      exact ⟨o, _, rfl, ho⟩
    | text s =>
      obtain ⟨a, b, c, rfl, ha, -⟩ := h
      obtain ⟨o, tl, rfl, ho⟩ := integer_cons ha
      exact ⟨o, _, rfl, ho⟩

theorem rep_prefix_free {ok ok' : Bytes → Prop} {x y : Rep} {a a' r r' : Bytes} (h : IsRep ok x a) (h' : IsRep ok' y a')
    (e : a ++ r = a' ++ r') : x = y ∧ r = r' := by
  obtain ⟨o, tl, ho, hx⟩ := rep_head h
  obtain ⟨o', tl', ho', hy⟩ := rep_head h'
  have : o = o' := by rw [ho, ho'] at e; simp at e; exact e.1
  subst this
  have lt := o.toNat_lt
  cases x with
  | indexed i =>
    cases y with
    | indexed j =>
      obtain ⟨-, rfl, rfl⟩ := integer_prefix_free h h' e
      exact ⟨rfl, rfl⟩
    | sizeUpdate n => simp only at hx hy; omega
    | literal m name v => cases m <;> simp [Mode.bits, Mode.top] at hx hy <;> omega
  | sizeUpdate n =>
    cases y with
    | sizeUpdate j =>
      obtain ⟨-, rfl, rfl⟩ := integer_prefix_free h h' e
      exact ⟨rfl, rfl⟩
    | indexed n => simp only at hx hy; omega
    | literal m name v => cases m <;> simp [Mode.bits, Mode.top] at hx hy <;> omega
  | literal m name v =>
    cases y with
    | indexed n => cases m <;> simp [Mode.bits, Mode.top] at hx hy <;> omega
    | sizeUpdate n => cases m <;> simp [Mode.bits, Mode.top] at hx hy <;> omega
    | literal m' name' v' =>
      have hmm : m = m' := by
        cases m <;> cases m' <;> simp [Mode.bits, Mode.top] at hx hy ⊢ <;> omega
      subst hmm
      cases name with
      | index i =>
        obtain ⟨hi, a, b, rfl, ha, hb⟩ := h
        cases name' with
        | index j =>
          obtain ⟨hj, a', b', rfl, ha', hb'⟩ := h'
          rw [List.append_assoc, List.append_assoc] at e
          obtain ⟨-, rfl, e⟩ := integer_prefix_free ha ha' e
          obtain ⟨-, rfl, rfl⟩ := string_prefix_free hb hb' e
          exact ⟨rfl, rfl⟩
        | text s =>
          obtain ⟨a', b', c', rfl, ha', -⟩ := h'
          rw [List.append_assoc, List.append_assoc] at e
          exact absurd (integer_prefix_free ha ha' e).2.1 hi
      | text s =>
        obtain ⟨a, b, c, rfl, ha, hb, hc⟩ := h
        cases name' with
        | index j =>
          obtain ⟨hj, a', b', rfl, ha', hb'⟩ := h'
          simp only [List.append_assoc] at e
          exact absurd (integer_prefix_free ha ha' e).2.1.symm hj
        | text s' =>
          obtain ⟨a', b', c', rfl, ha', hb', hc'⟩ := h'
          simp only [List.append_assoc] at e
          obtain ⟨-, -, e⟩ := integer_prefix_free ha ha' e
          obtain ⟨-, rfl, e⟩ := string_prefix_free hb hb' e
          obtain ⟨-, rfl, rfl⟩ := string_prefix_free hc hc' e
          exact ⟨rfl, rfl⟩

theorem block_unique {ok ok' : Bytes → Prop} {rs rs' : List Rep} {bs : Bytes} (h : IsBlock ok rs bs) (h' : IsBlock ok' rs' bs) :
    rs = rs' := by
  induction h generalizing rs' with
  | nil =>
    generalize hb : ([] : Bytes) = bs at h'
    cases h' with
    | nil => rfl
    | cons hr _ =>
      obtain ⟨o, tl, rfl, -⟩ := rep_head hr
      simp at hb
  | @cons r bs rs cs hr _ ih =>
    generalize hb : bs ++ cs = x at h'
    cases h' with
    | nil =>
      obtain ⟨o, tl, rfl, -⟩ := rep_head hr
      simp at hb
    | cons hr' h2 =>
      obtain ⟨rfl, rfl⟩ := rep_prefix_free hr hr' hb
      rw [ih h2]

theorem repMeans_unique {t t1 t2 : Table} {r : Rep} {h1 h2 : List (Bytes × Bytes)} (a : RepMeans t r t1 h1) (b : RepMeans t r t2 h2) :
    t1 = t2 ∧ h1 = h2 := by
  cases a with
  | indexed e => cases b with | indexed e' => rw [e] at e'; cases e'; exact ⟨rfl, rfl⟩
  | incremental e k =>
    cases b with
    | incremental e' k' =>
      rw [e] at e'; cases e'
      rw [eviction_unique k k']; exact ⟨rfl, rfl⟩
  | without e => cases b with | without e' => rw [e] at e'; cases e'; exact ⟨rfl, rfl⟩
  | never e => cases b with | never e' => rw [e] at e'; cases e'; exact ⟨rfl, rfl⟩
  | sizeUpdate k => cases b with | sizeUpdate k' => rw [eviction_unique k k']; exact ⟨rfl, rfl⟩

theorem means_unique {t t1 : Table} {rs : List Rep} {h1 : List (Bytes × Bytes)} (a : Means t rs t1 h1) :
    ∀ {t2 h2}, Means t rs t2 h2 → t1 = t2 ∧ h1 = h2 := by
  induction a with
  | nil => intro t2 h2 b; cases b; exact ⟨rfl, rfl⟩
  | cons x _ ih =>
    intro t2 h2 b
    cases b with
    | cons x' y' =>
      obtain ⟨rfl, rfl⟩ := repMeans_unique x x'
      obtain ⟨rfl, rfl⟩ := ih y'
      exact ⟨rfl, rfl⟩

/-! ## The encoder -/

theorem encode_integer (v N : Nat) (h1 : 1 ≤ N) (h8 : N ≤ 8) (lead : UInt8) (top : Nat) (ht : lead.toNat / 2 ^ N = top) :
    IsInteger anyLength N top v (encodeInteger v N lead) := by
  refine ⟨trivial, ?_, encodeInteger_intValue h1 h8 lead⟩
  obtain ⟨b, rest, hb, hl⟩ := encodeInteger_lead (v := v) h1 h8 lead
  rw [hb]
  have key : ∀ b : UInt8, b.toNat / 2 ^ N = (b &&& ~~~prefixMask N).toNat / 2 ^ N := by
    interval_cases N <;> decide +kernel
  simp only [List.headD_cons]
  rw [key b, hl, ← key lead, ht]

theorem encode_string (s : Bytes) : IsString anyLength s (encodeStringLiteral s) :=
  ⟨encodeInteger (huffEncode s).length 7 0x80, huffEncode s, rfl,
    Or.inr ⟨encode_integer _ _ (by decide) (by decide) _ _ (by decide), huffEncode_bits s⟩⟩

theorem tableSize_lower (l : List Header) : tableSize (l.map lowerHeader) = tableSize l := by
  unfold tableSize
  rw [List.map_map]
  congr 1
  apply List.map_congr_left
  intro h _
  simp [lowerHeader, lower]

theorem eviction_lower {l k : List Header} {m : Nat} (h : IsEviction l k m) : IsEviction (l.map lowerHeader) (k.map lowerHeader) m := by
  obtain ⟨n, hn, rfl, h1, h2⟩ := h
  refine ⟨n, by simpa using hn, by rw [List.map_take], ?_, ?_⟩
  · rw [← List.map_take, tableSize_lower]; exact h1
  · intro j hj hl
    rw [← List.map_take, tableSize_lower]
    exact h2 j hj (by simpa using hl)

/-- What a lookup of the encoder means to an RFC decoder. -/
theorem findHeader_rfc {te : HeaderIndex} (h : Header)
    (S : Bytes → Prop) (hS : NamesClear S)
    (hname : S h.1) (htab : ∀ e ∈ te.table, S e.1) (hacc : lower h.1 ≠ asciiBytes "accept-") {i : Nat} {b : Bool}
    (hf : findHeader te h = some (i, b)) :
    (b = true → entry (peerTable te) i = some (lowerHeader h)) ∧
    (b = false → i ≠ 0 ∧ nameMeans (peerTable te) (.index i) = some (lower h.1)) := by
  let td : HeaderIndex := ⟨te.table.map lowerHeader, te.size, te.maxSize⟩
  obtain ⟨h1, h2⟩ := findHeader_found (te := te) (td := td) ⟨rfl, rfl, rfl⟩ h
    (fun hst e he => hS _ _ (htab e he) hname ((staticHash_nil_iff _).mp hst)) hf
  have h15 : ∀ {v}, getFromIndex td i = some (lower h.1, v) → i ≠ 15 := by
    rintro v hg rfl
    have : getFromIndex td 15 = some (asciiBytes "accept-", []) := by
      unfold getFromIndex
      rw [if_neg (by omega)]
      simp only [staticTable_length]
      rw [if_pos (by omega)]
      decide +kernel
    rw [this] at hg
    simp only [Option.some.injEq, Prod.mk.injEq] at hg
    exact hacc hg.1.symm
  constructor
  · intro hb
    obtain ⟨hg, -, -⟩ := h1 hb
    rw [show peerTable te = toTable td from rfl, ← entry_eq td i (h15 hg)]
    exact hg
  · intro hb
    obtain ⟨hi, -, v, hg⟩ := h2 hb
    refine ⟨by omega, ?_⟩
    rw [show peerTable te = toTable td from rfl, nameMeans, ← entry_eq td i (h15 hg), hg]
    rfl

theorem encodeHeader_rfc {te te' : HeaderIndex} (hinv : TableInv te) (h : Header)
    (S : Bytes → Prop) (hS : NamesClear S)
    (hname : S h.1) (htab : ∀ e ∈ te.table, S e.1) (hacc : lower h.1 ≠ asciiBytes "accept-") {bs : Bytes}
    (he : encodeHeader te h = .ok (bs, te')) :
    ∃ r, IsRep anyLength r bs ∧ RepMeans (peerTable te) r (peerTable te') [lowerHeader h] ∧ TableInv te' ∧
      (∀ e ∈ te'.table, S e.1) := by
  have add : ∀ {t'}, addHeader te h = .ok t' → IsEviction (lowerHeader h :: (peerTable te).entries) (peerTable t').entries te.maxSize ∧
      peerTable t' = ⟨(peerTable t').entries, te.maxSize⟩ ∧ TableInv t' ∧ ∀ e ∈ t'.table, S e.1 := by
    intro t' ha
    obtain ⟨t2, ha2, h2, h3, h4⟩ := addHeader_spec te h hinv.1
    rw [ha] at ha2; cases ha2
    refine ⟨eviction_lower h4, by rw [peerTable, h3], h2, ?_⟩
    intro e he
    rcases (addHeader_mem hinv ha).2.2.2 e he with rfl | he
    · exact hname
    · exact htab e he
  unfold encodeHeader at he
  cases hf : findHeader te h with
  | none =>
    rw [hf] at he
    simp only at he
    obtain ⟨t', ha, he⟩ := (Res.bind_eq_ok ..).mp he
    simp only [Res.ok.injEq, Prod.mk.injEq] at he
    obtain ⟨rfl, rfl⟩ := he
    obtain ⟨a1, a2, a3, a4⟩ := add ha
    refine ⟨.literal .incremental (.text (lower h.1)) h.2, ?_, ?_, a3, a4⟩
    · refine ⟨[0x40], encodeStringLiteralLower h.1, encodeStringLiteral h.2, by simp [encodeLiteral], ?_, ?_, encode_string _⟩
      · exact ⟨trivial, by decide, by decide⟩
      · rw [encodeStringLiteralLower_eq]; exact encode_string _
    · rw [a2]
      exact .incremental rfl a1
  | some p =>
    obtain ⟨i, b⟩ := p
    rw [hf] at he
    obtain ⟨f1, f2⟩ := findHeader_rfc h S hS hname htab hacc hf
    cases b with
    | true =>
      simp only [Res.ok.injEq, Prod.mk.injEq] at he
      obtain ⟨rfl, rfl⟩ := he
      exact ⟨.indexed i, encode_integer _ _ (by decide) (by decide) _ _ (by decide), .indexed (f1 rfl), hinv, htab⟩
    | false =>
      simp only at he
      obtain ⟨t', ha, he⟩ := (Res.bind_eq_ok ..).mp he
      simp only [Res.ok.injEq, Prod.mk.injEq] at he
      obtain ⟨rfl, rfl⟩ := he
      obtain ⟨a1, a2, a3, a4⟩ := add ha
      obtain ⟨g1, g2⟩ := f2 rfl
      refine ⟨.literal .incremental (.index i) h.2, ⟨g1, encodeInteger i 6 0x40, encodeStringLiteral h.2, rfl, ?_, encode_string _⟩, ?_, a3, a4⟩
      · exact encode_integer _ _ (by decide) (by decide) _ _ (by decide)
      · rw [a2]
        exact .incremental g2 a1

theorem encodeHeaders_rfc (S : Bytes → Prop) (hS : NamesClear S) (hs : List Header) :
    ∀ {te te' : HeaderIndex} {bs : Bytes}, TableInv te → (∀ e ∈ te.table, S e.1) →
    (∀ h ∈ hs, S h.1 ∧ lower h.1 ≠ asciiBytes "accept-") → encodeHeaders te hs = .ok (bs, te') →
    Reads (peerTable te) bs (peerTable te') (hs.map lowerHeader) ∧ TableInv te' ∧ (∀ e ∈ te'.table, S e.1) := by
  induction hs with
  | nil =>
    intro te te' bs hi ht _ he
    simp only [encodeHeaders, Res.ok.injEq, Prod.mk.injEq] at he
    obtain ⟨rfl, rfl⟩ := he
    exact ⟨⟨[], .nil, .nil⟩, hi, ht⟩
  | cons h hs ih =>
    intro te te' bs hi ht hh he
    unfold encodeHeaders at he
    obtain ⟨⟨b, t1⟩, h1, he⟩ := (Res.bind_eq_ok ..).mp he
    obtain ⟨⟨b2, t2⟩, h2, he⟩ := (Res.bind_eq_ok ..).mp he
    simp only [Res.ok.injEq, Prod.mk.injEq] at he
    obtain ⟨rfl, rfl⟩ := he
    obtain ⟨r, r1, r2, r3, r4⟩ := encodeHeader_rfc hi h S hS (hh h (by simp)).1 ht (hh h (by simp)).2 h1
    obtain ⟨⟨rs, q1, q2⟩, q3, q4⟩ := ih r3 r4 (fun x hx => hh x (by simp [hx])) h2
    exact ⟨⟨r :: rs, .cons r1 q1, .cons r2 q2⟩, q3, q4⟩

/-! ## What the decoder accepts -/

theorem integer_mono {ok : Bytes → Prop} {N top v : Nat} {a : Bytes} (h : IsInteger ok N top v a) : IsInteger anyLength N top v a :=
  ⟨trivial, h.2⟩

theorem string_mono {ok : Bytes → Prop} {s a : Bytes} (h : IsString ok s a) : IsString anyLength s a := by
  obtain ⟨l, d, rfl, h⟩ := h
  refine ⟨l, d, rfl, ?_⟩
  rcases h with ⟨h, e⟩ | ⟨h, e⟩
  · exact Or.inl ⟨integer_mono h, e⟩
  · exact Or.inr ⟨integer_mono h, e⟩

theorem rep_mono {ok : Bytes → Prop} {r : Rep} {a : Bytes} (h : IsRep ok r a) : IsRep anyLength r a := by
  cases r with
  | indexed i => exact integer_mono h
  | sizeUpdate n => exact integer_mono h
  | literal m name v =>
    cases name with
    | index i =>
      obtain ⟨hi, a, b, rfl, ha, hb⟩ := h
      exact ⟨hi, a, b, rfl, integer_mono ha, string_mono hb⟩
    | text s =>
      obtain ⟨a, b, c, rfl, ha, hb, hc⟩ := h
      exact ⟨a, b, c, rfl, integer_mono ha, string_mono hb, string_mono hc⟩

/-- An integer the decoder reads. -/
theorem integer_accepted {buf : Bytes} {N v n : Nat} (h1 : 1 ≤ N) (h8 : N ≤ 8) (h : decodeInteger buf N = .ok (v, n)) :
    ∃ a rest, buf = a ++ rest ∧ a.length = n ∧ IsInteger shortInteger N ((buf.headD 0).toNat / 2 ^ N) v a := by
  obtain ⟨h5, hl, hv⟩ := (decodeInteger_spec _ _ _ _ h1 h8).mp h
  refine ⟨buf.take n, buf.drop n, (List.take_append_drop _ _).symm, by simp; omega, ?_, ?_, hv⟩
  · unfold shortInteger; simp; omega
  · cases buf with
    | nil => simp [intValue] at hv
    | cons b tl =>
      cases n with
      | zero => simp [intValue] at hv
      | succ n => rfl

theorem string_accepted {buf s : Bytes} {n : Nat} (h : decodeString buf = .ok (s, n)) :
    ∃ a rest, buf = a ++ rest ∧ a.length = n ∧ (IsString shortInteger s a ∨ HasEos a) := by
  unfold decodeString at h
  obtain ⟨⟨len, c⟩, hi, h⟩ := (Res.bind_eq_ok ..).mp h
  obtain ⟨l, rest, rfl, rfl, hI⟩ := integer_accepted (by decide) (by decide) hi
  simp only at h
  split at h
  · simp at h
  · rename_i hlen
    rw [List.drop_left] at h
    have hlen' : len ≤ rest.length := by simp at hlen; omega
    have htop : ∀ b : UInt8, (b &&& 128 = 128 → b.toNat / 2 ^ 7 = 1) ∧ (b &&& 128 ≠ 128 → b.toNat / 2 ^ 7 = 0) := by
      decide +kernel
    have hsplit : l ++ rest = (l ++ rest.take len) ++ rest.drop len := by
      rw [List.append_assoc, List.take_append_drop]
    have hll : (rest.take len).length = len := by simp; omega
    split at h
    · rename_i hb
      rw [(htop _).1 hb] at hI
      obtain ⟨d, hd, h⟩ := (Res.bind_eq_ok ..).mp h
      simp only [Res.ok.injEq, Prod.mk.injEq] at h
      obtain ⟨rfl, rfl⟩ := h
      refine ⟨_, _, hsplit, by simp; omega, ?_⟩
      obtain ⟨syms, h1, h2, rfl⟩ := (huffDecode_exact _ _).mp hd
      by_cases h256 : 256 ∈ syms
      · exact Or.inr ⟨l, rest.take len, syms, rfl, by rw [hll]; exact hI, h256, h2⟩
      · left
        refine ⟨l, rest.take len, rfl, Or.inr ⟨by rw [hll]; exact hI, ?_⟩⟩
        have : byteSyms (syms.map UInt8.ofNat) = syms := by
          simp only [byteSyms, List.map_map]
          conv_rhs => rw [← List.map_id syms]
          apply List.map_congr_left
          intro x hx
          have hx1 := h1 x hx
          have hx2 : x ≠ 256 := fun h => h256 (h ▸ hx)
          simp only [Function.comp, id, UInt8.toNat_ofNat']
          omega
        rw [this]; exact h2
    · rename_i hb
      rw [(htop _).2 hb] at hI
      simp only [Res.ok.injEq, Prod.mk.injEq] at h
      obtain ⟨rfl, rfl⟩ := h
      exact ⟨_, _, hsplit, by simp; omega, Or.inl ⟨l, _, rfl, Or.inl ⟨by rw [hll]; exact hI, rfl⟩⟩⟩

theorem lossy_utf8 {s : Bytes} (h : utf8Valid s = true) : headerNameFromBytes s = s := utf8Lossy_valid h

/-- A literal the decoder reads. -/
theorem literal_accepted {t : HeaderIndex} {buf : Bytes} {inc : Bool} {m : Mode} (hm : m.bits = if inc then 6 else 4)
    (htop : (buf.headD 0).toNat / 2 ^ m.bits = m.top) {h : Header} {n : Nat} (hd : decodeLiteral t buf inc = .ok (h, n)) :
    Deviant buf ∨ ∃ a rest name, buf = a ++ rest ∧ a.length = n ∧ IsRep shortInteger (.literal m name h.2) a ∧
      nameMeans (toTable t) name = some h.1 := by
  have hb1 : 1 ≤ m.bits := by cases m <;> decide
  have hb8 : m.bits ≤ 8 := by cases m <;> decide
  unfold decodeLiteral at hd
  simp only at hd
  rw [← hm] at hd
  obtain ⟨⟨ti, c⟩, hi, hd⟩ := (Res.bind_eq_ok ..).mp hd
  obtain ⟨⟨name, c2⟩, hn, hd⟩ := (Res.bind_eq_ok ..).mp hd
  obtain ⟨⟨v, k⟩, hv, hd⟩ := (Res.bind_eq_ok ..).mp hd
  simp only [Res.ok.injEq, Prod.mk.injEq] at hd
  obtain ⟨rfl, rfl⟩ := hd
  simp only at hn hv
  obtain ⟨a, rest, rfl, rfl, hI⟩ := integer_accepted hb1 hb8 hi
  rw [htop] at hI
  unfold decodeLiteralName at hn
  split at hn
  · rename_i h0
    subst h0
    rw [List.drop_left] at hn
    obtain ⟨⟨nm, nl⟩, hs, hn⟩ := (Res.bind_eq_ok ..).mp hn
    simp only [Res.ok.injEq, Prod.mk.injEq] at hn
    obtain ⟨rfl, rfl⟩ := hn
    obtain ⟨b, rest, rfl, rfl, hst⟩ := string_accepted hs
    clear hs
    rcases hst with hs | hs
    · rw [← List.append_assoc, ← List.length_append, List.drop_left] at hv
      obtain ⟨w, rest, rfl, rfl, hw⟩ := string_accepted hv
      rcases hw with hw | hw
      · cases hu : utf8Valid nm with
        | false =>
          left
          have := Deviant.name (rest := rest) (m := m) (n := nm) (v := v) (a := a ++ (b ++ w)) ⟨a, b, w, rfl, hI, hs, hw⟩ hu
          simpa using this
        | true =>
          right
          refine ⟨a ++ (b ++ w), rest, .text nm, by simp, by simp [Nat.add_assoc], ⟨a, b, w, rfl, hI, hs, hw⟩, ?_⟩
          rw [lossy_utf8 hu]; rfl
      · exact Or.inl (.eosNamedValue hI hs hw)
    · exact Or.inl (.eosName hI hs)
  · rename_i h0
    obtain ⟨e, he, hn⟩ := (Res.bind_eq_ok ..).mp hn
    simp only [Res.ok.injEq, Prod.mk.injEq] at hn
    obtain ⟨rfl, rfl⟩ := hn
    rw [List.drop_left] at hv
    obtain ⟨w, rest, rfl, rfl, hw⟩ := string_accepted hv
    rcases hw with hw | hw
    · by_cases h15 : ti = 15
      · subst h15
        left
        have := Deviant.staticName (rest := rest) (m := m) (v := v) (a := a ++ w) ⟨h0, a, w, rfl, hI, hw⟩
        simpa using this
      · right
        refine ⟨a ++ w, rest, .index ti, by simp, by simp, ⟨h0, a, w, rfl, hI, hw⟩, ?_⟩
        cases hg : getFromIndex t ti with
        | none => rw [hg] at he; simp [Res.ofOption] at he
        | some x =>
          rw [hg] at he
          simp only [Res.ofOption, Res.ok.injEq] at he
          subst he
          rw [nameMeans, ← entry_eq t ti h15, hg]; rfl
    · exact Or.inl (.eosValue h0 hI hw)

/-- A round of the decoder. -/
theorem step_accepted {t : HeaderIndex} (ht : TableInv t) {o : UInt8} {tl : Bytes} {hs : List Header} {t' : HeaderIndex} {n : Nat}
    (hsu : fieldRep o ≠ .sizeUpdate) (h : decodeStep t o tl = .ok (hs, t', n)) :
    Deviant (o :: tl) ∨ ∃ a rest r, o :: tl = a ++ rest ∧ a.length = n ∧ IsRep shortInteger r a ∧
      RepMeans (toTable t) r (toTable t') hs := by
  have kinds : ∀ b : UInt8, (fieldRep b = .indexed → b.toNat / 2 ^ 7 = 1) ∧ (fieldRep b = .incremental → b.toNat / 2 ^ 6 = 1) ∧
      (fieldRep b = .withoutIndexing → b.toNat / 2 ^ 4 = 0) ∧ (fieldRep b = .neverIndexed → b.toNat / 2 ^ 4 = 1) := by
    decide +kernel
  unfold decodeStep at h
  split at h
  · rename_i hk
    obtain ⟨⟨x, c⟩, h1, h2⟩ := (Res.bind_eq_ok ..).mp h
    simp only [Res.ok.injEq, Prod.mk.injEq] at h2
    obtain ⟨rfl, rfl, rfl⟩ := h2
    obtain ⟨rfl, hg⟩ := decodeIndexed_consumed h1
    have hlow : ∀ b : UInt8, (b &&& 0x7f).toNat = b.toNat % 2 ^ 7 := by decide +kernel
    rw [hlow] at hg
    have h7 := (kinds o).1 hk
    by_cases hff : o = 0xff
    · subst hff; exact Or.inl .index
    · have hne : o.toNat ≠ 255 := fun h => hff (UInt8.toNat_inj.mp h)
      have hlt := o.toNat_lt
      have hint : IsInteger shortInteger 7 1 (o.toNat % 2 ^ 7) [o] := by
        refine ⟨by unfold shortInteger; simp, h7, ?_⟩
        simp only [intValue]
        rw [if_pos (by omega), if_pos trivial]
      by_cases h15 : o.toNat % 2 ^ 7 = 15
      · rw [h15] at hint
        exact Or.inl (Deviant.static (a := [o]) hint)
      · right
        refine ⟨[o], tl, .indexed (o.toNat % 2 ^ 7), rfl, rfl, hint, .indexed ?_⟩
        rw [← entry_eq t _ h15]; exact hg
  · rename_i hk
    obtain ⟨⟨x, c⟩, h1, h2⟩ := (Res.bind_eq_ok ..).mp h
    obtain ⟨t1, h3, h2⟩ := (Res.bind_eq_ok ..).mp h2
    simp only [Res.ok.injEq, Prod.mk.injEq] at h2
    obtain ⟨rfl, rfl, rfl⟩ := h2
    rcases literal_accepted (buf := o :: tl) (m := .incremental) rfl ((kinds o).2.1 hk) h1 with hd | ⟨a, rest, name, e1, e2, e3, e4⟩
    · exact Or.inl hd
    · right
      refine ⟨a, rest, _, e1, e2, e3, ?_⟩
      obtain ⟨t2, ha2, -, hmax, hev⟩ := addHeader_spec t x ht.1
      rw [h3] at ha2; cases ha2
      rw [show toTable t1 = ⟨t1.table, t.maxSize⟩ by rw [toTable, hmax]]
      exact .incremental e4 hev
  · rename_i hk
    obtain ⟨⟨x, c⟩, h1, h2⟩ := (Res.bind_eq_ok ..).mp h
    simp only [Res.ok.injEq, Prod.mk.injEq] at h2
    obtain ⟨rfl, rfl, rfl⟩ := h2
    rcases literal_accepted (buf := o :: tl) (m := .without) rfl ((kinds o).2.2.1 hk) h1 with hd | ⟨a, rest, name, e1, e2, e3, e4⟩
    · exact Or.inl hd
    · exact Or.inr ⟨a, rest, _, e1, e2, e3, .without e4⟩
  · rename_i hk
    obtain ⟨⟨x, c⟩, h1, h2⟩ := (Res.bind_eq_ok ..).mp h
    simp only [Res.ok.injEq, Prod.mk.injEq] at h2
    obtain ⟨rfl, rfl, rfl⟩ := h2
    rcases literal_accepted (buf := o :: tl) (m := .never) rfl ((kinds o).2.2.2 hk) h1 with hd | ⟨a, rest, name, e1, e2, e3, e4⟩
    · exact Or.inl hd
    · exact Or.inr ⟨a, rest, _, e1, e2, e3, .never e4⟩
  · rename_i hk
    exact absurd hk hsu

theorem run_accepted (n : Nat) : ∀ {t : HeaderIndex}, TableInv t → ∀ {bs : Bytes} {hs : List Header} {t' : HeaderIndex},
    decodeRun n t bs = some (.ok (hs, t')) → Reads (toTable t) bs (toTable t') hs ∨ Deviates (toTable t) bs := by
  induction n with
  | zero =>
    intro t ht bs hs t' h
    cases bs with
    | nil =>
      simp only [decodeRun, Option.some.injEq, Res.ok.injEq, Prod.mk.injEq] at h
      obtain ⟨rfl, rfl⟩ := h
      exact Or.inl ⟨[], .nil, .nil⟩
    | cons o tl => simp [decodeRun] at h
  | succ n ih =>
    intro t ht bs hs t' h
    cases bs with
    | nil =>
      simp only [decodeRun, Option.some.injEq, Res.ok.injEq, Prod.mk.injEq] at h
      obtain ⟨rfl, rfl⟩ := h
      exact Or.inl ⟨[], .nil, .nil⟩
    | cons o tl =>
      have hsu : fieldRep o ≠ .sizeUpdate := by
        intro hk
        rw [decodeRun_diverges (.here ((fieldRep_sizeUpdate o).mpr hk))] at h
        simp at h
      cases hd : decodeStep t o tl with
      | err e => simp [decodeRun, hd] at h
      | panic => simp [decodeRun, hd] at h
      | ok r =>
        obtain ⟨hs1, t1, c⟩ := r
        rw [decodeRun_step hd] at h
        have hi := ((decodeStep_safe ht o tl).2 _ _ _ hd).1
        rcases step_accepted ht hsu hd with hdev | ⟨a, rest, r, e1, e2, e3, e4⟩
        · exact Or.inr ⟨[], o :: tl, _, _, rfl, ⟨[], .nil, .nil⟩, hdev⟩
        · subst e2
          rw [e1, List.drop_left] at h
          cases hr : decodeRun n t1 rest with
          | none => rw [hr] at h; simp at h
          | some x =>
            rw [hr] at h
            cases x with
            | err e => simp [prependHeaders] at h
            | panic => simp [prependHeaders] at h
            | ok y =>
              obtain ⟨hs2, t2⟩ := y
              simp only [Option.map_some, prependHeaders, Option.some.injEq, Res.ok.injEq, Prod.mk.injEq] at h
              obtain ⟨rfl, rfl⟩ := h
              rw [e1]
              rcases ih hi hr with ⟨rs, b, m⟩ | ⟨a', c', T, hs', e5, ⟨rs, b, m⟩, hdev⟩
              · exact Or.inl ⟨r :: rs, .cons (rep_mono e3) b, .cons e4 m⟩
              · right
                exact ⟨a ++ a', c', T, _, by rw [e5, List.append_assoc], ⟨r :: rs, .cons (rep_mono e3) b, .cons e4 m⟩, hdev⟩

end Webparse
