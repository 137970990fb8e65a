import Verif.Proofs.Frame
import Verif.Proofs.HpackSync
import Verif.Proofs.Status
import Verif.Proofs.Utf8
import Verif.Spec.FrameHeaders

/-! Lemmas about HEADERS frames. -/

namespace Webparse
open Spec

/-! ## Encoded size of a header -/

theorem encodeIntegerTail_length (k : Nat) : ∀ v, v < 128 ^ (k + 1) → (encodeIntegerTail v).length ≤ k + 1 := by
  induction k with
  | zero =>
    intro v hv
    unfold encodeIntegerTail
    rw [if_neg (by omega)]
    simp
  | succ k ih =>
    intro v hv
    unfold encodeIntegerTail
    split
    · have := ih (v / 128) (Nat.div_lt_of_lt_mul (by rw [Nat.pow_succ] at hv; omega))
      simp only [List.length_cons]
      omega
    · simp

theorem encodeInteger_length (v p : Nat) (l : UInt8) (h : v < 2 ^ 28) :
    (encodeInteger v p l).length ≤ 5 := by
  unfold encodeInteger
  simp only
  split
  · simp
  · have := encodeIntegerTail_length 3 (v - (prefixMask p).toNat) (by omega)
    simp only [List.length_cons]
    omega

theorem encodeStringLiteral_length (s : Bytes) (h : s.length < 2 ^ 26) :
    (encodeStringLiteral s).length ≤ 4 * s.length + 5 := by
  have h1 := huffEncode_length s
  have h2 := encodeInteger_length (huffEncode s).length 7 0x80 (by omega)
  simp only [encodeStringLiteral, List.length_append]
  omega

theorem encodeHeader_length {t t' : HeaderIndex} {h : Header} {b : Bytes}
    (h1 : h.1.length < 2 ^ 26) (h2 : h.2.length < 2 ^ 26) (ht : t.table.length ≤ 2 ^ 27)
    (he : encodeHeader t h = .ok (b, t')) : b.length ≤ encodedBound h := by
  unfold encodedBound
  have hidx : ∀ i f, findHeader t h = some (i, f) → i < 2 ^ 28 := by
    intro i f hf
    unfold findHeader at hf
    simp only at hf
    have hs : ∀ v j, staticHashFind (staticHash h.1) v = some j → j < 2 ^ 28 := by
      intro v j hj
      have := staticHashFind_mem hj
      have := staticHash_mem this
      omega
    split at hf
    · split at hf
      · rename_i j hj
        simp only [Option.some.injEq, Prod.mk.injEq] at hf
        have := hs _ _ hj
        omega
      · split at hf
        · rename_i j hj
          simp only [Option.some.injEq, Prod.mk.injEq] at hf
          have := hs _ _ hj
          omega
        · simp at hf
    · split at hf
      · rename_i j hj
        simp only [Option.some.injEq, Prod.mk.injEq] at hf
        have hlt : j < t.table.length := (List.findIdx?_eq_some_iff_findIdx_eq.mp hj).1
        have : staticTable.length = 61 := by decide +kernel
        omega
      · simp at hf
  unfold encodeHeader at he
  split at he
  · rw [Res.bind_eq_ok] at he
    obtain ⟨t2, _, he⟩ := he
    simp only [Res.ok.injEq, Prod.mk.injEq] at he
    obtain ⟨rfl, rfl⟩ := he
    have ha := encodeStringLiteral_length (lower h.1) (by simpa [lower] using h1)
    have hb := encodeStringLiteral_length h.2 h2
    simp only [encodeLiteral, encodeStringLiteralLower_eq, List.length_append, List.length_cons,
      List.length_nil]
    simp only [lower, List.length_map] at ha ⊢
    omega
  · rename_i i hi
    rw [Res.bind_eq_ok] at he
    obtain ⟨t2, _, he⟩ := he
    simp only [Res.ok.injEq, Prod.mk.injEq] at he
    obtain ⟨rfl, rfl⟩ := he
    have hb := encodeStringLiteral_length h.2 h2
    have hc := encodeInteger_length i 6 0x40 (hidx _ _ hi)
    simp only [encodeIndexedName, if_true, List.length_append]
    omega
  · rename_i i hi
    simp only [Res.ok.injEq, Prod.mk.injEq] at he
    obtain ⟨rfl, rfl⟩ := he
    have hc := encodeInteger_length i 7 0x80 (hidx _ _ hi)
    unfold encodeIndexed
    omega

/-! ## Fragments -/

theorem blockFragments_flatten (m : Nat) (hs : List Header) : ∀ (t t' : HeaderIndex) (cur : Bytes) frags,
    blockFragments m t cur hs = .ok (frags, t') →
    ∃ block, encodeHeaders t hs = .ok (block, t') ∧ frags.flatten = cur ++ block ∧ frags ≠ [] := by
  induction hs with
  | nil =>
    intro t t' cur frags h
    simp only [blockFragments, Res.ok.injEq, Prod.mk.injEq] at h
    obtain ⟨rfl, rfl⟩ := h
    exact ⟨[], rfl, by simp, by simp⟩
  | cons h hs ih =>
    intro t t' cur frags hb
    unfold blockFragments at hb
    split at hb
    · rw [Res.bind_eq_ok] at hb
      obtain ⟨⟨b, t1⟩, he, hb⟩ := hb
      simp only [Res.bind_eq_ok] at hb
      obtain ⟨⟨rest, t2⟩, hr, hb⟩ := hb
      simp only [Res.ok.injEq, Prod.mk.injEq] at hb
      obtain ⟨rfl, rfl⟩ := hb
      obtain ⟨block, h1, h2, h3⟩ := ih _ _ _ _ hr
      refine ⟨b ++ block, ?_, by simp [h2], by simp⟩
      simp [encodeHeaders, he, h1]
    · rw [Res.bind_eq_ok] at hb
      obtain ⟨⟨b, t1⟩, he, hb⟩ := hb
      simp only at hb
      obtain ⟨block, h1, h2, h3⟩ := ih _ _ _ _ hb
      refine ⟨b ++ block, ?_, by simp [h2], h3⟩
      simp [encodeHeaders, he, h1]

/-- Encoding into fragments succeeds exactly when encoding at once does. -/
theorem blockFragments_ok (m : Nat) (hs : List Header) : ∀ (t t' : HeaderIndex) (cur : Bytes) block,
    encodeHeaders t hs = .ok (block, t') → ∃ frags, blockFragments m t cur hs = .ok (frags, t') := by
  induction hs with
  | nil =>
    intro t t' cur block h
    simp only [encodeHeaders, Res.ok.injEq, Prod.mk.injEq] at h
    obtain ⟨rfl, rfl⟩ := h
    exact ⟨_, rfl⟩
  | cons h hs ih =>
    intro t t' cur block hb
    unfold encodeHeaders at hb
    rw [Res.bind_eq_ok] at hb
    obtain ⟨⟨b, t1⟩, he, hb⟩ := hb
    simp only [Res.bind_eq_ok] at hb
    obtain ⟨⟨bs, t2⟩, hr, hb⟩ := hb
    simp only [Res.ok.injEq, Prod.mk.injEq] at hb
    obtain ⟨rfl, rfl⟩ := hb
    unfold blockFragments
    split
    · obtain ⟨frags, hf⟩ := ih t1 t2 b bs hr
      exact ⟨cur :: frags, by simp [he, hf]⟩
    · obtain ⟨frags, hf⟩ := ih t1 t2 (cur ++ b) bs hr
      exact ⟨frags, by simp [he, hf]⟩

theorem continuationFrames_wire (flags : UInt8) (id : Nat) (bs : List Bytes) :
    continuationFrames flags id bs = wireFrames (codeContinuations id flags bs) := by
  induction bs with
  | nil => rfl
  | cons b bs ih =>
    cases bs with
    | nil =>
      simp only [continuationFrames, codeContinuations, wireFrames, List.flatMap_cons,
        List.flatMap_nil, List.append_nil]
      exact encode_wire .continuation _ id b
    | cons c cs =>
      simp only [continuationFrames, codeContinuations, wireFrames, List.flatMap_cons] at ih ⊢
      rw [ih, encode_wire .continuation 0 id b]
      rfl

theorem fragmentFrames_wire (flags : UInt8) (id : Nat) (bs : List Bytes) :
    fragmentFrames flags id bs = wireFrames (codeHeaderFrames id flags bs) := by
  match bs with
  | [] => rfl
  | [b] =>
    simp only [fragmentFrames, codeHeaderFrames, wireFrames, List.flatMap_cons,
      List.flatMap_nil, List.append_nil]
    exact encode_wire .headers _ id b
  | b :: c :: cs =>
    simp only [fragmentFrames, codeHeaderFrames, wireFrames, List.flatMap_cons]
    rw [encode_wire .headers 0 id b, continuationFrames_wire]
    rfl

theorem codeContinuations_payloads (id : Nat) (flags : UInt8) (bs : List Bytes) :
    (codeContinuations id flags bs).map (·.2.2.2) = bs := by
  induction bs with
  | nil => rfl
  | cons b bs ih =>
    cases bs with
    | nil => rfl
    | cons c cs => simp only [codeContinuations, List.map_cons] at ih ⊢; rw [ih]

theorem codeHeaderFrames_payloads (id : Nat) (flags : UInt8) (bs : List Bytes) :
    (codeHeaderFrames id flags bs).map (·.2.2.2) = bs := by
  match bs with
  | [] => rfl
  | [b] => rfl
  | b :: c :: cs =>
    simp only [codeHeaderFrames, List.map_cons, codeContinuations_payloads]

theorem wireFrame_length (k f : UInt8) (id : Nat) (p : Bytes) : (wireFrame k f id p).length = 9 + p.length := by
  unfold wireFrame
  simp
  omega

theorem wireFrames_length (fs : List RawFrame) :
    (wireFrames fs).length = (fs.map fun f => 9 + f.2.2.2.length).sum := by
  unfold wireFrames
  induction fs with
  | nil => rfl
  | cons f fs ih =>
    simp only [List.flatMap_cons, List.length_append, List.map_cons, List.sum_cons, ih,
      wireFrame_length]

/-- What the encoder of a header block writes. -/
theorem blockEncode_wire {m : Nat} {t t' : HeaderIndex} {flags : UInt8} {id : Nat} {fields : HeaderMap}
    {out : Bytes} {size : Nat} (h : blockEncode m t flags id fields = .ok (out, size, t')) :
    ∃ frags block, blockFragments m t [] fields = .ok (frags, t') ∧ frags ≠ [] ∧
      encodeHeaders t fields = .ok (block, t') ∧ frags.flatten = block ∧
      out = wireFrames (codeHeaderFrames id flags frags) ∧ size = out.length := by
  unfold blockEncode at h
  rw [Res.bind_eq_ok] at h
  obtain ⟨⟨frags, t1⟩, hf, h⟩ := h
  simp only [Res.ok.injEq, Prod.mk.injEq] at h
  obtain ⟨rfl, rfl, rfl⟩ := h
  obtain ⟨block, h1, h2, h3⟩ := blockFragments_flatten m fields _ _ _ _ hf
  refine ⟨frags, block, hf, h3, h1, by simpa using h2, fragmentFrames_wire _ _ _, ?_⟩
  rw [fragmentFrames_wire, wireFrames_length]
  conv_lhs => rw [← codeHeaderFrames_payloads id flags frags]
  rw [List.map_map]
  rfl

/-! ## Header lists -/

theorem addFields_size (m : Nat) (hs : List Header) : ∀ (s : Nat) (f f' : HeadersFrame),
    s ≤ m → HeadersFrame.addFields m s f hs = .ok f' → s + headerListSize hs ≤ m := by
  induction hs with
  | nil => intro s f f' hs h; simpa [headerListSize] using hs
  | cons h hs ih =>
    intro s f f' hsm hok
    unfold HeadersFrame.addFields at hok
    simp only at hok
    split at hok
    · simp at hok
    · rename_i hle
      rw [Res.bind_eq_ok] at hok
      obtain ⟨f1, _, hok⟩ := hok
      have := ih _ _ _ (by omega) hok
      simp only [headerListSize, List.map_cons, List.sum_cons] at this ⊢
      omega

theorem addFields_append (m : Nat) (a b : List Header) : ∀ (s : Nat) (f : HeadersFrame),
    HeadersFrame.addFields m s f (a ++ b) =
      (HeadersFrame.addFields m s f a).bind fun f' =>
        HeadersFrame.addFields m (s + headerListSize a) f' b := by
  induction a with
  | nil => intro s f; simp [HeadersFrame.addFields, Res.bind, headerListSize]
  | cons h a ih =>
    intro s f
    simp only [List.cons_append, HeadersFrame.addFields]
    split
    · rfl
    · cases f.addField h with
      | ok f1 =>
        simp only [Res.bind_ok]
        rw [ih]
        simp [headerListSize, Nat.add_assoc]
      | err e => rfl
      | panic => rfl

theorem insert_fresh (m : HeaderMap) (n v : Bytes) (h : ∀ e ∈ m, nameEq e.1 n = false) :
    m.insert n v = m ++ [(n, v)] := by
  induction m with
  | nil => rfl
  | cons e m ih =>
    unfold HeaderMap.insert
    rw [if_neg (by simp [h e (by simp)]), ih (fun x hx => h x (by simp [hx]))]
    rfl

theorem addFields_plain (m : Nat) (hs : List Header) : ∀ (s : Nat) (f : HeadersFrame),
    (∀ h ∈ hs, isSpec h.1 = false) → (∀ h ∈ hs, ∀ e ∈ f.fields, nameEq e.1 h.1 = false) →
    hs.Pairwise (fun a b => nameEq a.1 b.1 = false) → s + headerListSize hs ≤ m →
    HeadersFrame.addFields m s f hs = .ok { f with fields := f.fields ++ hs } := by
  induction hs with
  | nil => intro s f _ _ _ _; simp [HeadersFrame.addFields]
  | cons h hs ih =>
    intro s f hspec hfresh hpw hsz
    simp only [headerListSize, List.map_cons, List.sum_cons] at hsz
    unfold HeadersFrame.addFields
    simp only
    rw [if_neg (by omega)]
    unfold HeadersFrame.addField
    rw [if_neg (by simp [hspec h (by simp)])]
    simp only [Res.bind_ok]
    rw [insert_fresh _ _ _ (hfresh h (by simp))]
    rw [List.pairwise_cons] at hpw
    rw [ih]
    · simp
    · exact fun x hx => hspec x (by simp [hx])
    · intro x hx e he
      simp only [List.mem_append, List.mem_singleton] at he
      rcases he with he | rfl
      · exact hfresh x (by simp [hx]) e he
      · exact hpw.1 x hx
    · exact hpw.2
    · simp only [headerListSize]; omega

/-! ## Pseudo-headers -/

theorem plain_lower {n : Bytes} (hn : IsPlainName n) : lower n = n ∧ utf8Valid n = true := by
  have k : ∀ b : UInt8, isPlainNameByte b = true → lowerByte b = b ∧ b < 0x80 := by decide +kernel
  refine ⟨?_, utf8Valid_ascii n fun b hb => (k b (hn b hb)).2⟩
  unfold lower
  conv_rhs => rw [← List.map_id n]
  exact List.map_congr_left fun b hb => (k b (hn b hb)).1

theorem nameEq_plain_ne {a b : Bytes} (ha : IsPlainName a) (hb : IsPlainName b) (h : a ≠ b) :
    nameEq a b = false := by
  cases hc : nameEq a b with
  | false => rfl
  | true =>
    have := nameEq_plain ha hb hc
    rw [(plain_lower ha).1, (plain_lower hb).1] at this
    exact absurd this h

/-- The names of the pseudo-headers. -/
def pseudoNames : List Bytes :=
  [asciiBytes ":method", asciiBytes ":authority", asciiBytes ":scheme", asciiBytes ":path",
    asciiBytes ":status"]

theorem pseudoNames_plain : ∀ n ∈ pseudoNames, IsPlainName n ∧ isSpec n = true ∧ n.length < 2 ^ 26 := by
  unfold IsPlainName
  decide +kernel

theorem partHeaders_names (p : Parts) :
    (partHeaders p).Pairwise (fun a b => a.1 ≠ b.1) ∧ ∀ h ∈ partHeaders p, h.1 ∈ pseudoNames := by
  have d : asciiBytes ":method" ≠ asciiBytes ":authority" ∧ asciiBytes ":method" ≠ asciiBytes ":scheme" ∧
      asciiBytes ":method" ≠ asciiBytes ":path" ∧ asciiBytes ":method" ≠ asciiBytes ":status" ∧
      asciiBytes ":authority" ≠ asciiBytes ":scheme" ∧ asciiBytes ":authority" ≠ asciiBytes ":path" ∧
      asciiBytes ":authority" ≠ asciiBytes ":status" ∧ asciiBytes ":scheme" ≠ asciiBytes ":path" ∧
      asciiBytes ":scheme" ≠ asciiBytes ":status" ∧ asciiBytes ":path" ≠ asciiBytes ":status" := by
    decide +kernel
  obtain ⟨d1, d2, d3, d4, d5, d6, d7, d8, d9, d10⟩ := d
  unfold partHeaders pseudoNames
  generalize asciiBytes ":method" = n1 at *
  generalize asciiBytes ":authority" = n2 at *
  generalize asciiBytes ":scheme" = n3 at *
  generalize asciiBytes ":path" = n4 at *
  generalize asciiBytes ":status" = n5 at *
  cases p.method <;> cases p.authority <;> cases p.scheme <;> cases p.path <;> cases p.status <;>
    simp [d1, d2, d3, d4, d5, d6, d7, d8, d9, d10]

theorem plain_fields_pairwise {hs : List Header} (h : PlainFields hs) :
    hs.Pairwise (fun a b => nameEq a.1 b.1 = false) := by
  have hd := h.distinct
  rw [List.Nodup, List.pairwise_map] at hd
  refine List.Pairwise.imp_of_mem ?_ hd
  intro a b ha hb hne
  exact nameEq_plain_ne (h.plain a ha).1 (h.plain b hb).1 hne

theorem plain_fields_spec {hs : List Header} (h : PlainFields hs) : ∀ x ∈ hs, isSpec x.1 = false := by
  intro x hx
  have := (h.plain x hx).2
  unfold isSpec
  cases hh : x.1.head? with
  | none => rfl
  | some c => rw [hh] at this; simpa using this

theorem not_spec_not_pseudo {n : Bytes} (h : isSpec n = false) : n ∉ pseudoNames := by
  intro hn
  rw [(pseudoNames_plain n hn).2.1] at h
  simp at h

theorem opt_names {α : Type} (o : Option α) (n : Bytes) (g : α → Bytes) :
    ∀ e ∈ (o.map fun m => (n, g m)).toList, e.1 = n := by
  intro e he
  cases o with
  | none => simp at he
  | some x => simp at he; rw [he]

/-- `encode_header` puts the pseudo-headers behind the fields. -/
theorem encodeHeader_parts (p : Parts) (hp : PartsOk p) (hs : List Header) (hh : PlainFields hs) :
    p.encodeHeader hs = .ok (hs ++ partHeaders p) := by
  have fresh : ∀ (m : HeaderMap) (n v : Bytes), n ∈ pseudoNames →
      (∀ e ∈ m, IsPlainName e.1 ∧ e.1 ≠ n) → m.insert n v = m ++ [(n, v)] := by
    intro m n v hn hm
    exact insert_fresh m n v fun e he =>
      nameEq_plain_ne (hm e he).1 (pseudoNames_plain n hn).1 (hm e he).2
  have hbase : ∀ n ∈ pseudoNames, ∀ e ∈ hs, IsPlainName e.1 ∧ e.1 ≠ n := by
    intro n hn e he
    refine ⟨(hh.plain e he).1, ?_⟩
    rintro rfl
    exact not_spec_not_pseudo (plain_fields_spec hh e he) hn
  have step : ∀ (l : List Header) (n v : Bytes), n ∈ pseudoNames →
      (∀ e ∈ l, e.1 ∈ pseudoNames ∧ e.1 ≠ n) →
      HeaderMap.insert (hs ++ l) n v = hs ++ (l ++ [(n, v)]) := by
    intro l n v hn hl
    rw [fresh _ n v hn, List.append_assoc]
    intro e he
    rcases List.mem_append.mp he with he | he
    · exact hbase n hn e he
    · exact ⟨(pseudoNames_plain _ (hl e he).1).1, (hl e he).2⟩
  have d : asciiBytes ":method" ≠ asciiBytes ":authority" ∧ asciiBytes ":method" ≠ asciiBytes ":scheme" ∧
      asciiBytes ":method" ≠ asciiBytes ":path" ∧ asciiBytes ":method" ≠ asciiBytes ":status" ∧
      asciiBytes ":authority" ≠ asciiBytes ":scheme" ∧ asciiBytes ":authority" ≠ asciiBytes ":path" ∧
      asciiBytes ":authority" ≠ asciiBytes ":status" ∧ asciiBytes ":scheme" ≠ asciiBytes ":path" ∧
      asciiBytes ":scheme" ≠ asciiBytes ":status" ∧ asciiBytes ":path" ≠ asciiBytes ":status" := by
    decide +kernel
  obtain ⟨d1, d2, d3, d4, d5, d6, d7, d8, d9, d10⟩ := d
  have i1 : asciiBytes ":method" ∈ pseudoNames := by simp [pseudoNames]
  have i2 : asciiBytes ":authority" ∈ pseudoNames := by simp [pseudoNames]
  have i3 : asciiBytes ":scheme" ∈ pseudoNames := by simp [pseudoNames]
  have i4 : asciiBytes ":path" ∈ pseudoNames := by simp [pseudoNames]
  have i5 : asciiBytes ":status" ∈ pseudoNames := by simp [pseudoNames]
  unfold Parts.encodeHeader partHeaders
  simp only
  have hst : ∀ s, p.status = some s → statusAsStr s = .ok (threeDigits s) := by
    intro s hs
    rw [statusAsStr_eq, if_pos (hp.status s hs)]
  generalize asciiBytes ":method" = n1 at *
  generalize asciiBytes ":authority" = n2 at *
  generalize asciiBytes ":scheme" = n3 at *
  generalize asciiBytes ":path" = n4 at *
  generalize asciiBytes ":status" = n5 at *
  have so : ∀ (l : List Header) (n : Bytes) (o : Option Bytes), n ∈ pseudoNames →
      (∀ e ∈ l, e.1 ∈ pseudoNames ∧ e.1 ≠ n) →
      insertOpt (hs ++ l) n o = hs ++ (l ++ (o.map fun v => (n, v)).toList) := by
    intro l n o hn hl
    cases o with
    | none => simp [insertOpt]
    | some v => exact step l n v hn hl
  have t1 := so [] n1 (p.method.map Method.asStr) i1 (by simp)
  rw [List.append_nil, List.nil_append, Option.map_map] at t1
  rw [t1]
  generalize hl1 : (p.method.map ((fun v => (n1, v)) ∘ Method.asStr)).toList = l1
  have hl1' : (p.method.map fun m => (n1, m.asStr)).toList = l1 := hl1
  have m1 : ∀ e ∈ l1, e.1 = n1 := by
    rw [← hl1]; exact opt_names p.method n1 Method.asStr
  rw [hl1', so l1 n2 p.authority i2 (by intro e he; rw [m1 e he]; exact ⟨i1, d1⟩)]
  generalize hl2 : (p.authority.map fun m => (n2, m)).toList = l2
  have m2 : ∀ e ∈ l2, e.1 = n2 := by
    rw [← hl2]; exact opt_names p.authority n2 id
  have t3 := so (l1 ++ l2) n3 (p.scheme.map Scheme.asStr) i3 (by
      intro e he
      rcases List.mem_append.mp he with he | he
      · rw [m1 e he]; exact ⟨i1, d2⟩
      · rw [m2 e he]; exact ⟨i2, d5⟩)
  rw [Option.map_map] at t3
  rw [t3]
  generalize hl3 : (p.scheme.map ((fun v => (n3, v)) ∘ Scheme.asStr)).toList = l3
  have hl3' : (p.scheme.map fun m => (n3, m.asStr)).toList = l3 := hl3
  have m3 : ∀ e ∈ l3, e.1 = n3 := by
    rw [← hl3]; exact opt_names p.scheme n3 Scheme.asStr
  rw [hl3', so (l1 ++ l2 ++ l3) n4 p.path i4 (by
      intro e he
      simp only [List.mem_append] at he
      rcases he with (he | he) | he
      · rw [m1 e he]; exact ⟨i1, d3⟩
      · rw [m2 e he]; exact ⟨i2, d6⟩
      · rw [m3 e he]; exact ⟨i3, d8⟩)]
  generalize hl4 : (p.path.map fun m => (n4, m)).toList = l4
  have m4 : ∀ e ∈ l4, e.1 = n4 := by
    rw [← hl4]; exact opt_names p.path n4 id
  cases hs5 : p.status with
  | none => simp
  | some x =>
    simp only [hst x hs5, Res.bind_ok]
    congr 1
    refine step (l1 ++ l2 ++ l3 ++ l4) n5 _ i5 ?_
    intro e he
    simp only [List.mem_append] at he
    rcases he with ((he | he) | he) | he
    · rw [m1 e he]; exact ⟨i1, d4⟩
    · rw [m2 e he]; exact ⟨i2, d7⟩
    · rw [m3 e he]; exact ⟨i3, d9⟩
    · rw [m4 e he]; exact ⟨i4, d10⟩

/-- A method that can be sent is read back. -/
theorem method_roundtrip (m : Method) (h1 : m ≠ .none) (h2 : ∀ s, m ≠ .extension s) :
    Method.tryFrom (utf8Lossy m.asStr) = .ok m := by
  cases m <;> first | exact absurd rfl h1 | exact absurd rfl (h2 _) | decide +kernel

theorem scheme_roundtrip (s : Scheme) (h1 : s ≠ .none)
    (h2 : ∀ x, s = .extension x → utf8Valid x = true ∧ x.length ≤ 64 ∧
      x ∉ [asciiBytes "http", asciiBytes "https", asciiBytes "ws", asciiBytes "wss", asciiBytes "ftp"]) :
    Scheme.tryFrom (utf8Lossy s.asStr) = .ok s := by
  cases s with
  | extension x =>
    obtain ⟨h3, h4, h5⟩ := h2 x rfl
    simp only [Scheme.asStr]
    rw [utf8Lossy_valid h3]
    simp only [List.mem_cons, List.not_mem_nil, or_false, not_or] at h5
    obtain ⟨a, b, c, d, e⟩ := h5
    unfold Scheme.tryFrom
    rw [if_neg (by omega), if_neg a, if_neg b, if_neg c, if_neg d, if_neg e]
  | none => exact absurd rfl h1
  | _ => decide +kernel

/-- The pseudo-headers are read back into the parts. -/
theorem addFields_parts (m : Nat) (p : Parts) (hp : PartsOk p) (s : Nat) (f : HeadersFrame)
    (hf : f.parts = {}) (hsz : s + headerListSize (partHeaders p) ≤ m) :
    HeadersFrame.addFields m s f (partHeaders p) = .ok { f with parts := p } := by
  have one : ∀ (s : Nat) (f f' : HeadersFrame) (h : Header), s + headerListSize [h] ≤ m →
      f.addField h = .ok f' → HeadersFrame.addFields m s f [h] = .ok f' := by
    intro s f f' h h1 h2
    simp only [headerListSize, List.map_cons, List.map_nil, List.sum_cons, List.sum_nil] at h1
    simp only [HeadersFrame.addFields]
    rw [if_neg (by omega), h2]
    rfl
  have opt : ∀ (s : Nat) (f f' : HeadersFrame) (o : Option Header), s + headerListSize o.toList ≤ m →
      (∀ h, o = some h → f.addField h = .ok f') → (o = none → f = f') →
      HeadersFrame.addFields m s f o.toList = .ok f' := by
    intro s f f' o h1 h2 h3
    cases o with
    | none => simp [HeadersFrame.addFields, h3 rfl]
    | some h => exact one s f f' h h1 (h2 h rfl)
  have hls : ∀ a b : List Header, headerListSize (a ++ b) = headerListSize a + headerListSize b := by
    intro a b; simp [headerListSize]
  obtain ⟨method, scheme, authority, path, status⟩ := p
  obtain ⟨hm, hsch, hau, hpa, hst⟩ := hp
  simp only at hm hsch hau hpa hst
  unfold partHeaders at hsz ⊢
  simp only at hsz ⊢
  simp only [hls] at hsz
  rw [addFields_append, addFields_append, addFields_append, addFields_append]
  simp only [hls]
  obtain ⟨fid, dep, fields, parts, flags⟩ := f
  simp only at hf
  subst hf
  have a1 : HeadersFrame.addFields m s ⟨fid, dep, fields, {}, flags⟩
      (method.map fun m => (asciiBytes ":method", m.asStr)).toList
      = .ok ⟨fid, dep, fields, ⟨method, none, none, none, none⟩, flags⟩ := by
    refine opt s _ _ _ (by omega) ?_ ?_
    · intro h hh
      cases method with
      | none => simp at hh
      | some x =>
        simp only [Option.map_some, Option.some.injEq] at hh
        subst hh
        have := method_roundtrip x (hm x rfl).1 (hm x rfl).2
        unfold HeadersFrame.addField
        dsimp only
        rw [if_pos (by decide +kernel), if_neg (by decide +kernel), if_pos rfl]
        simp only [this, Res.bind_ok]
    · intro h
      cases method <;> simp_all
  rw [a1]
  simp only [Res.bind]
  have a2 := fun s' (hs' : s' + headerListSize (authority.map fun a => (asciiBytes ":authority", a)).toList ≤ m) =>
    opt s' ⟨fid, dep, fields, ⟨method, none, none, none, none⟩, flags⟩
      ⟨fid, dep, fields, ⟨method, none, authority, none, none⟩, flags⟩
      (authority.map fun a => (asciiBytes ":authority", a)) hs' (by
        intro h hh
        cases authority with
        | none => simp at hh
        | some x =>
          simp only [Option.map_some, Option.some.injEq] at hh
          subst hh
          unfold HeadersFrame.addField
          dsimp only
          rw [if_pos (by decide +kernel : isSpec (asciiBytes ":authority") = true), if_pos rfl]
          simp only [utf8Lossy_valid (hau x rfl).1]) (by intro h; cases authority <;> simp_all)
  rw [a2 _ (by omega)]
  simp only
  have a3 := fun s' (hs' : s' + headerListSize (scheme.map fun a => (asciiBytes ":scheme", a.asStr)).toList ≤ m) =>
    opt s' ⟨fid, dep, fields, ⟨method, none, authority, none, none⟩, flags⟩
      ⟨fid, dep, fields, ⟨method, scheme, authority, none, none⟩, flags⟩
      (scheme.map fun a => (asciiBytes ":scheme", a.asStr)) hs' (by
        intro h hh
        cases scheme with
        | none => simp at hh
        | some x =>
          simp only [Option.map_some, Option.some.injEq] at hh
          subst hh
          have := scheme_roundtrip x (hsch x rfl).1 (hsch x rfl).2
          unfold HeadersFrame.addField
          dsimp only
          rw [if_pos (by decide +kernel : isSpec (asciiBytes ":scheme") = true),
            if_neg (by decide +kernel), if_neg (by decide +kernel), if_neg (by decide +kernel), if_pos rfl]
          simp only [this, Res.bind_ok]) (by intro h; cases scheme <;> simp_all)
  rw [a3 _ (by omega)]
  simp only
  have a4 := fun s' (hs' : s' + headerListSize (path.map fun a => (asciiBytes ":path", a)).toList ≤ m) =>
    opt s' ⟨fid, dep, fields, ⟨method, scheme, authority, none, none⟩, flags⟩
      ⟨fid, dep, fields, ⟨method, scheme, authority, path, none⟩, flags⟩
      (path.map fun a => (asciiBytes ":path", a)) hs' (by
        intro h hh
        cases path with
        | none => simp at hh
        | some x =>
          simp only [Option.map_some, Option.some.injEq] at hh
          subst hh
          unfold HeadersFrame.addField
          dsimp only
          rw [if_pos (by decide +kernel : isSpec (asciiBytes ":path") = true),
            if_neg (by decide +kernel), if_neg (by decide +kernel), if_pos rfl]
          simp only [utf8Lossy_valid (hpa x rfl).1]) (by intro h; cases path <;> simp_all)
  rw [a4 _ (by omega)]
  simp only
  refine opt _ _ _ _ (by omega) ?_ ?_
  · intro h hh
    cases status with
    | none => simp at hh
    | some x =>
      simp only [Option.map_some, Option.some.injEq] at hh
      subst hh
      have := statusFromBytes_digits x (hst x rfl)
      unfold HeadersFrame.addField
      dsimp only
      rw [if_pos (by decide +kernel : isSpec (asciiBytes ":status") = true),
        if_neg (by decide +kernel), if_neg (by decide +kernel), if_neg (by decide +kernel),
        if_neg (by decide +kernel), if_pos rfl]
      simp only [utf8Lossy_valid (utf8Valid_ascii _ (threeDigits_ascii x)), this, Res.bind_ok]
  · intro h; cases status <;> simp_all

end Webparse
