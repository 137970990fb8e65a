import Verif.Proofs.HpackSync
import Verif.Proofs.HeaderMap

/-! C09-C12: HPACK header lists over a connection, termination, composition, safety. -/

namespace Webparse
open Spec

/-! ## C09 -/

/-- C09, full claim: blocks written by one encoder are read back by one decoder, names
lower-cased.  (`utf8Valid`: names are Rust strings; the sizes keep encoded lengths within what the
integer decoder can read, see C01.) -/
def C09_statement : Prop :=
  ∀ blocks : List (List Header),
    (∀ hs ∈ blocks, ∀ h ∈ hs, utf8Valid h.1 = true ∧ h.1.length < 2 ^ 26 ∧ h.2.length < 2 ^ 26) →
    ∃ bs te td, encodeBlocks {} blocks = .ok (bs, te) ∧
      decodeBlocks {} bs = some (.ok (blocks.map fun hs => hs.map lowerHeader, td))

/-- C09 is false, first reason: the names `x-` and `xM` count as equal, so the second header is
replaced by a reference to the first. -/
theorem C09_violated_by_name_confusion : ¬ C09_statement := by
  intro h
  obtain ⟨bs, te, td, he, hd⟩ :=
    h [[(asciiBytes "x-", asciiBytes "1"), (asciiBytes "xM", asciiBytes "1")]] (by
      intro hs hm h hh
      simp at hm
      subst hm
      simp at hh
      rcases hh with rfl | rfl <;> decide +kernel)
  have e1 : encodeBlocks {} [[(asciiBytes "x-", asciiBytes "1"), (asciiBytes "xM", asciiBytes "1")]]
      = .ok ([[0x40, 0x82, 0xf2, 0xb7, 0x81, 0x0f, 0xbe]],
          { table := [(asciiBytes "x-", asciiBytes "1")], size := 35, maxSize := 4096 }) := by
    decide +kernel
  rw [e1] at he
  simp at he
  obtain ⟨rfl, rfl⟩ := he
  set_option synthInstance.maxSize 1024 in
  have e2 : decodeBlocks {} [[0x40, 0x82, 0xf2, 0xb7, 0x81, 0x0f, 0xbe]]
      = some (.ok ([[(asciiBytes "x-", asciiBytes "1"), (asciiBytes "x-", asciiBytes "1")]],
          { table := [(asciiBytes "x-", asciiBytes "1")], size := 35, maxSize := 4096 })) := by
    decide +kernel
  rw [e2] at hd
  revert hd
  simp only [Option.some.injEq, Res.ok.injEq, Prod.mk.injEq]
  rintro ⟨h1, -⟩
  revert h1
  decide +kernel

/-- C09, partial: for any number of blocks and headers whose names the code does not confuse
(the set `S`), as long as the dynamic table stays within 65 entries, ensured by a limit below 2112
octets or by at most 65 headers in all, every block is read back exactly and the tables stay in
step.  Missing: larger tables, confusable names (both false, see above). -/
theorem C09_connection_roundtrip_partial (S : Bytes → Prop)
    (hU : ∀ a b, S a → S b → Unambiguous a b)
    (limit : Nat) (blocks : List (List Header))
    (hall : ∀ hs ∈ blocks, ∀ h ∈ hs, S h.1 ∧ utf8Valid h.1 = true ∧ h.1.length < 2 ^ 26 ∧ h.2.length < 2 ^ 26)
    (hroom : limit < 2112 ∨ (blocks.map List.length).sum ≤ 65) :
    ∃ bs te td, encodeBlocks { maxSize := limit } blocks = .ok (bs, te) ∧
      decodeBlocks { maxSize := limit } bs = some (.ok (blocks.map fun hs => hs.map lowerHeader, td)) ∧
      td.table = te.table.map lowerHeader ∧ td.size = te.size ∧ td.maxSize = te.maxSize := by
  have hS : ∀ a b, S a → S b → nameEq a b = true → lower a = lower b := fun a b ha hb => nameEq_unambiguous (hU a b ha hb)
  obtain ⟨bs, te, td, h1, h2, h3⟩ := encodeBlocks_sync S hS blocks
    (te := { maxSize := limit }) (td := { maxSize := limit }) ⟨rfl, rfl, rfl⟩ ⟨rfl, by simp⟩
    (by simp) (fun hs hm h hh => by
      obtain ⟨a, b, c, d⟩ := hall hs hm h hh
      exact ⟨a, b, c, d⟩)
    (by
      rcases hroom with h | h
      · exact Or.inl h
      · exact Or.inr (by simpa using h))
  exact ⟨bs, te, td, h1, h2, h3.table, h3.size, h3.max⟩

/-- C09, partial: the same for lower-case names without `~`, which are never confused. -/
theorem C09_plain_names_partial (limit : Nat) (blocks : List (List Header))
    (hall : ∀ hs ∈ blocks, ∀ h ∈ hs, IsPlainName h.1 ∧ h.1.length < 2 ^ 26 ∧ h.2.length < 2 ^ 26)
    (hroom : limit < 2112 ∨ (blocks.map List.length).sum ≤ 65) :
    ∃ bs te td, encodeBlocks { maxSize := limit } blocks = .ok (bs, te) ∧
      decodeBlocks { maxSize := limit } bs = some (.ok (blocks, td)) ∧
      td.table = te.table.map lowerHeader ∧ td.size = te.size ∧ td.maxSize = te.maxSize := by
  have hlow : ∀ n, IsPlainName n → lower n = n ∧ utf8Valid n = true := by
    intro n hn
    have k : ∀ b : UInt8, isPlainNameByte b = true → lowerByte b = b ∧ b < 0x80 := by decide +kernel
    refine ⟨?_, utf8Valid_ascii n fun b hb => (k b (hn b hb)).2⟩
    unfold lower
    conv_rhs => rw [← List.map_id n]
    exact List.map_congr_left fun b hb => (k b (hn b hb)).1
  obtain ⟨bs, te, td, h1, h2, h3⟩ := C09_connection_roundtrip_partial IsPlainName
    (fun a b ha hb => unambiguous_plain ha hb) limit blocks
    (fun hs hm h hh => by
      obtain ⟨a, b, c⟩ := hall hs hm h hh
      exact ⟨a, (hlow _ a).2, b, c⟩) hroom
  refine ⟨bs, te, td, h1, ?_, h3⟩
  rw [h2]
  have : (blocks.map fun hs => hs.map lowerHeader) = blocks := by
    conv_rhs => rw [← List.map_id blocks]
    apply List.map_congr_left
    intro hs hm
    conv_rhs => rw [id, ← List.map_id hs]
    apply List.map_congr_left
    intro h hh
    have := (hlow _ (hall hs hm h hh).1).1
    simp [lowerHeader, this]
  rw [this]

/-- A two-block connection that uses literals, indexed names, static and dynamic references. -/
example : encodeBlocks {} [[(asciiBytes ":method", asciiBytes "GET"),
      (asciiBytes "x-a", asciiBytes "1"), (asciiBytes "date", asciiBytes "now")],
      [(asciiBytes "x-a", asciiBytes "1")]] =
    .ok ([[130, 64, 131, 242, 176, 255, 129, 15, 97, 131, 168, 254, 63], [191]],
      { table := [(asciiBytes "date", asciiBytes "now"), (asciiBytes "x-a", asciiBytes "1")],
        size := 75, maxSize := 4096 }) := by
  decide +kernel

example : ∀ n ∈ [asciiBytes ":method", asciiBytes "x-a", asciiBytes "date"], IsPlainName n := by
  unfold IsPlainName
  decide +kernel

/-! ## C10 -/

/-- C10, full claim: decoding ends after at most as many rounds as there are bytes. -/
def C10_statement : Prop := ∀ t buf, ∃ r, decodeRun buf.length t buf = some r

/-- C10 is false: a dynamic table size update makes the decoder loop for ever. -/
theorem C10_violated : ¬ C10_statement := by
  intro h
  obtain ⟨r, hr⟩ := h {} [0x20]
  rw [decodeRun_diverges (.here (by decide))] at hr
  simp at hr

/-- C10: any block that starts with a size update is never finished, whatever the number of
rounds. -/
theorem C10_size_update_never_ends (t : HeaderIndex) (o : UInt8) (rest : Bytes)
    (ho : o.toNat / 32 = 1) (n : Nat) : decodeRun n t (o :: rest) = none :=
  decodeRun_diverges (.here ho) n

/-- C10, partial: decoding ends exactly when no size update is reached, and then within as many
rounds as there are bytes. -/
theorem C10_terminates_iff_partial (t : HeaderIndex) (buf : Bytes) :
    ((∃ n r, decodeRun n t buf = some r) ↔ ¬ ReachesSizeUpdate t buf) ∧
    (¬ ReachesSizeUpdate t buf → ∃ r, decodeRun buf.length t buf = some r) := by
  refine ⟨⟨?_, ?_⟩, decodeRun_terminates _ (Nat.le_refl _)⟩
  · rintro ⟨n, r, h⟩ hx
    rw [decodeRun_diverges hx] at h
    simp at h
  · intro h
    obtain ⟨r, hr⟩ := decodeRun_terminates (t := t) buf.length (Nat.le_refl _) h
    exact ⟨_, r, hr⟩

example : ¬ ReachesSizeUpdate {} [0x82, 0x84] := by
  intro h
  have := decodeRun_diverges h 2
  revert this
  decide +kernel

/-! ## C11 -/

/-- C11: if a block decodes, then appending further bytes prepends its headers to whatever
decoding those bytes with the resulting table gives (headers, error or non-termination). -/
theorem C11_compositional (t t' : HeaderIndex) (a b : Bytes) (hs : List Header)
    (ha : decode t a = some (.ok (hs, t'))) :
    decode t (a ++ b) = (decode t' b).map (prependHeaders hs) := by
  unfold decode at ha ⊢
  cases hb : decodeRun b.length t' b with
  | some r => exact decodeRun_length (decodeRun_append ha hb)
  | none =>
    by_cases hx : ReachesSizeUpdate t (a ++ b)
    · rw [decodeRun_diverges hx]; rfl
    · exfalso
      have hb' : ReachesSizeUpdate t' b := by
        by_contra hcon
        obtain ⟨r, hr⟩ := decodeRun_terminates (t := t') b.length (Nat.le_refl _) hcon
        rw [hr] at hb; simp at hb
      exact hx (reaches_append ha hb')

/-- C11: a sequence of blocks decoded one by one equals decoding their concatenation. -/
theorem C11_blocks (bs : List Bytes) (t t' : HeaderIndex) (hss : List (List Header))
    (h : decodeBlocks t bs = some (.ok (hss, t'))) :
    decode t bs.flatten = some (.ok (hss.flatten, t')) := by
  induction bs generalizing t hss with
  | nil => simp [decodeBlocks] at h; obtain ⟨rfl, rfl⟩ := h; rfl
  | cons b bs ih =>
    unfold decodeBlocks at h
    split at h <;> try simp at h
    rename_i hs t1 hd
    split at h <;> try simp at h
    rename_i hss2 t2 hd2
    obtain ⟨rfl, rfl⟩ := h
    rw [List.flatten_cons, C11_compositional _ _ _ _ _ hd, ih _ _ hd2]
    simp [prependHeaders]

example : decode {} [0x82, 0x84]
    = some (.ok ([(asciiBytes ":method", asciiBytes "GET"), (asciiBytes ":path", asciiBytes "/")], {})) := by
  decide +kernel

/-! ## C12 -/

/-- C12: on any input one round of the decoder never panics; a successful round keeps the size
invariant and the limit, yields one header (unless it is a size update) and does not consume more
than there is. -/
theorem C12_step_safe (t : HeaderIndex) (hs : t.size = tableSize t.table) (hm : t.size ≤ t.maxSize)
    (o : UInt8) (rest : Bytes) :
    decodeStep t o rest ≠ .panic ∧
    ∀ hs t' c, decodeStep t o rest = .ok (hs, t', c) →
      t'.size = tableSize t'.table ∧ t'.size ≤ t'.maxSize ∧ t'.maxSize = t.maxSize ∧
      c ≤ (o :: rest).length ∧ (o.toNat / 32 = 1 ∨ (1 ≤ c ∧ ∃ h, hs = [h])) := by
  obtain ⟨h1, h2⟩ := decodeStep_safe ⟨hs, hm⟩ o rest
  refine ⟨h1, ?_⟩
  intro hs t' c h
  obtain ⟨⟨a, b⟩, c1, d⟩ := h2 _ _ _ h
  obtain ⟨e1, e2, _⟩ := decodeStep_extend h
  refine ⟨a, b, c1, by simpa using e1, ?_⟩
  rw [fieldRep_sizeUpdate]
  rcases d with d | d
  · exact Or.inl d
  · by_cases hsu : fieldRep o = .sizeUpdate
    · exact Or.inl hsu
    · refine Or.inr ⟨?_, d⟩
      have : c ≠ 0 := fun h => hsu (e2.mp h)
      omega

/-- C12: a whole run never panics and ends with the invariant. -/
theorem C12_run_safe (n : Nat) (t : HeaderIndex) (hs : t.size = tableSize t.table)
    (hm : t.size ≤ t.maxSize) (buf : Bytes) :
    decodeRun n t buf ≠ some .panic ∧
    ∀ hs t', decodeRun n t buf = some (.ok (hs, t')) →
      t'.size = tableSize t'.table ∧ t'.size ≤ t'.maxSize ∧ t'.maxSize = t.maxSize := by
  obtain ⟨h1, h2⟩ := decodeRun_safe n ⟨hs, hm⟩ buf
  exact ⟨h1, fun hs t' h => ⟨(h2 _ _ h).1.1, (h2 _ _ h).1.2, (h2 _ _ h).2⟩⟩

example : decode {} [0x40, 0x01, 0x61, 0x01, 0x62, 0xff, 0xff]
    = some (.err .headerIndexOutOfBounds) := by decide +kernel

end Webparse
