import Verif.Proofs.FrameHeaders
import Verif.Props.Frame

/-! Lemmas about whole HTTP/2 connections. -/

namespace Webparse
open Spec

/-- Header blocks that fit are one fragment. -/
theorem blockFragments_single (m : Nat) (S : Bytes → Prop)
    (hS : ∀ a b, S a → S b → nameEq a b = true → lower a = lower b) (hs : List Header) :
    ∀ {te td : HeaderIndex} (k : Nat) (cur : Bytes), Sync te td → TableInv te → (∀ e ∈ te.table, S e.1) →
    (∀ h ∈ hs, S h.1 ∧ HeaderOk h) → RoomFor te (hs.length + k) →
    cur.length + (hs.map encodedBound).sum ≤ m →
    ∃ block te', encodeHeaders te hs = .ok (block, te') ∧
      blockFragments m te cur hs = .ok ([cur ++ block], te') ∧ cur.length + block.length ≤ m := by
  induction hs with
  | nil =>
    intro te td k cur _ _ _ _ _ hsz
    exact ⟨[], te, rfl, by simp [blockFragments], by simpa using hsz⟩
  | cons h hs ih =>
    intro te td k cur hsync hinv htab hall hroom hsz
    have hh := hall h (by simp)
    have hroom' : RoomFor te ((hs.length + k) + 1) := by
      have : (h :: hs).length + k = (hs.length + k) + 1 := by simp; omega
      rwa [this] at hroom
    obtain ⟨o, tl, te1, td1, henc, _, hsync1, hinv1, htab1, hroom1, hm1⟩ :=
      encodeHeader_sync hsync hinv S hS htab h hh.1 hh.2 hroom'
    have hlen := encodeHeader_length hh.2.nameLen hh.2.valueLen
      (by have := room_length hinv hroom; omega) henc
    simp only [List.map_cons, List.sum_cons] at hsz
    obtain ⟨block, te', h1, h2, h3⟩ := ih k (cur ++ (o :: tl)) hsync1 hinv1 htab1
      (fun x hx => hall x (by simp [hx])) hroom1 (by rw [List.length_append]; omega)
    refine ⟨(o :: tl) ++ block, te', ?_, ?_, ?_⟩
    · simp [encodeHeaders, henc, h1]
    · unfold blockFragments
      rw [if_neg (by unfold encodedBound at hsz; omega)]
      simp [henc, h2]
    · simp only [List.length_append] at h3 ⊢; omega

theorem scheme_length (s : Scheme) (h : ∀ x, s = .extension x → x.length ≤ 64) : s.asStr.length ≤ 64 := by
  cases s with
  | extension x => exact h x rfl
  | _ => decide +kernel

theorem method_length (m : Method) (h : ∀ x, m ≠ .extension x) : m.asStr.length ≤ 64 := by
  cases m with
  | extension x => exact absurd rfl (h x)
  | _ => decide +kernel

theorem partHeaders_ok (p : Parts) (hp : PartsOk p) :
    ∀ h ∈ partHeaders p, IsPlainName h.1 ∧ HeaderOk h := by
  intro h hh
  have hn := pseudoNames_plain _ ((partHeaders_names p).2 h hh)
  refine ⟨hn.1, (plain_lower hn.1).2, hn.2.2, ?_⟩
  unfold partHeaders at hh
  simp only [List.mem_append, Option.mem_toList, Option.map_eq_some_iff] at hh
  rcases hh with (((⟨x, hx, rfl⟩ | ⟨x, hx, rfl⟩) | ⟨x, hx, rfl⟩) | ⟨x, hx, rfl⟩) | ⟨x, hx, rfl⟩
  · have := method_length x (hp.method x hx).2; simp only; omega
  · exact (hp.authority x hx).2
  · have := scheme_length x (fun y hy => ((hp.scheme x hx).2 y hy).2.1); simp only; omega
  · exact (hp.path x hx).2
  · simp [threeDigits]

theorem lowerHeader_plain {h : Header} (hn : IsPlainName h.1) : lowerHeader h = h := by
  unfold lowerHeader
  rw [(plain_lower hn).1]

theorem headerListSize_append (a b : List Header) :
    headerListSize (a ++ b) = headerListSize a + headerListSize b := by simp [headerListSize]

theorem plain_sep : ∀ a b, IsPlainName a → IsPlainName b → nameEq a b = true → lower a = lower b :=
  fun _ _ ha hb h => nameEq_plain ha hb h

/-- The header block of a message is decoded into its fields and parts. -/
theorem headers_block {te td : HeaderIndex} {k : Nat} (p : Parts) (hp : PartsOk p) (hs : List Header)
    (hh : PlainFields hs) (hc : Conn te td (hs.length + (partHeaders p).length + k)) (maxList : Nat)
    (hsz : headerListSize (hs ++ partHeaders p) ≤ maxList) :
    ∃ block te' td', encodeHeaders te (hs ++ partHeaders p) = .ok (block, te') ∧ Conn te' td' k ∧
      ∀ id flags, flagIsPriority flags = false →
        HeadersFrame.parse { streamId := id, flags } block td maxList =
          some (.ok ({ streamId := id, fields := hs, parts := p, flags }, td')) := by
  have hall : ∀ h ∈ hs ++ partHeaders p, IsPlainName h.1 ∧ HeaderOk h := by
    intro h hm
    rcases List.mem_append.mp hm with hm | hm
    · exact ⟨(hh.plain h hm).1, (plain_lower (hh.plain h hm).1).2, (hh.sizes h hm).1, (hh.sizes h hm).2⟩
    · exact partHeaders_ok p hp h hm
  obtain ⟨block, te', td', h1, h2, h3, h4, h5, h6, _⟩ :=
    encodeHeaders_sync IsPlainName plain_sep (hs ++ partHeaders p) k hc.sync hc.inv hc.plain hall
      (by rw [List.length_append]; exact hc.room)
  refine ⟨block, te', td', h1, ⟨h3, h4, h5, h6⟩, ?_⟩
  intro id flags hfl
  have hmap : (hs ++ partHeaders p).map lowerHeader = hs ++ partHeaders p := by
    conv_rhs => rw [← List.map_id (hs ++ partHeaders p)]
    exact List.map_congr_left fun h hm => lowerHeader_plain (hall h hm).1
  rw [hmap] at h2
  rw [headerListSize_append] at hsz
  unfold HeadersFrame.parse HeadersFrame.loadDep
  simp only [hfl, Bool.false_eq_true, if_false, h2]
  rw [addFields_append, addFields_plain maxList hs 0 _ (plain_fields_spec hh) (by simp)
    (plain_fields_pairwise hh) (by omega)]
  simp only [Res.bind, List.nil_append]
  rw [addFields_parts maxList p hp _ _ rfl (by omega)]
  rfl

/-- Bytes that are read as these frames, whatever follows, and change the decoder so. -/
def ReadsAs (m : Nat) (td : HeaderIndex) (b : Bytes) (fs : List Frame) (td' : HeaderIndex) : Prop :=
  ∀ rest n r, readFrames m n td' rest = some (.ok r) →
    readFrames m (fs.length + n) td (b ++ rest) = some (.ok (fs ++ r))

theorem readsAs_nil (m : Nat) (td : HeaderIndex) : ReadsAs m td [] [] td := by
  intro rest n r h
  simpa using h

theorem readsAs_append {m : Nat} {t1 t2 t3 : HeaderIndex} {b1 b2 : Bytes} {f1 f2 : List Frame}
    (h1 : ReadsAs m t1 b1 f1 t2) (h2 : ReadsAs m t2 b2 f2 t3) : ReadsAs m t1 (b1 ++ b2) (f1 ++ f2) t3 := by
  intro rest n r h
  have := h1 (b2 ++ rest) (f2.length + n) (f2 ++ r) (h2 rest n r h)
  rw [List.length_append, List.append_assoc, List.append_assoc, Nat.add_assoc]
  exact this

theorem readsAs_one {m : Nat} {td td' : HeaderIndex} {b : Bytes} {f : Frame} (hb : b ≠ [])
    (h : ∀ rest, readFrame td m (b ++ rest) = some (.ok (f, td', rest))) : ReadsAs m td b [f] td' := by
  intro rest n r hr
  obtain ⟨x, xs, hx⟩ := List.exists_cons_of_ne_nil (l := b ++ rest) (by simp [hb])
  have h' := h rest
  rw [hx] at h' ⊢
  rw [List.length_singleton, Nat.add_comm]
  simp only [readFrames, h', hr]
  rfl

theorem dataFrames_reads (m : Nat) (t : HeaderIndex) (id : Nat) (fl : UInt8) (parts : List Bytes)
    (hid : 1 ≤ id ∧ id < 2 ^ 31) (hf : fl = 0 ∨ fl = 1) (hp : ∀ p ∈ parts, p.length < 2 ^ 24) :
    ReadsAs m t (wireFrames (dataFrames id 0 fl parts))
      ((dataFrames id 0 fl parts).map fun f => .data ⟨f.2.2.1, f.2.2.2, f.2.1⟩) t := by
  have one : ∀ (g : UInt8) (b : Bytes), g = 0 ∨ g = 1 → b.length < 2 ^ 24 →
      ReadsAs m t (wireFrame 0 g id b) [.data ⟨id, b, g⟩] t := by
    intro g b hg hb
    exact readsAs_one (by simp [wireFrame]) fun rest => C19_part_reads_back id g b rest t m hid hg hb
  induction parts with
  | nil => exact readsAs_nil m t
  | cons b bs ih =>
    cases bs with
    | nil =>
      simpa [dataFrames, wireFrames] using one fl b hf (hp b (by simp))
    | cons c cs =>
      have h1 := one 0 b (Or.inl rfl) (hp b (by simp))
      have h2 := ih (fun p hp' => hp p (by simp [hp']))
      have := readsAs_append h1 h2
      simpa [dataFrames, wireFrames] using this

/-- One thing sent: written, and read as what it should be received as. -/
theorem sent_one (maxFrame maxList : Nat) (hm : 1 ≤ maxFrame) (hm2 : maxFrame < 2 ^ 24) (s : Sent)
    (hs : SentOk maxFrame maxList s) {te td : HeaderIndex} {k : Nat} (hc : Conn te td (s.headerCount + k)) :
    ∃ f b n te' td' fs, s.frame = .ok f ∧ Frame.encode maxFrame te f = some (.ok (b, n, te')) ∧
      n = b.length ∧ Conn te' td' k ∧ ReceivedAs maxFrame s fs ∧ ReadsAs maxList td b fs td' := by
  cases s with
  | control f =>
    obtain ⟨b, h1, h2, h3⟩ := C25_one f hs maxFrame te
    refine ⟨f, b, b.length, te, td, [f], rfl, h1, rfl, ?_, rfl, readsAs_one ?_ fun rest => h3 rest td maxList⟩
    · simpa [Sent.headerCount] using hc
    · intro hb; rw [hb] at h2; simp at h2
  | data id e body =>
    obtain ⟨hid1, hid2⟩ := hs
    have he : endFlag e = 0 ∨ endFlag e = 1 := by cases e <;> simp [endFlag]
    obtain ⟨parts, out, h1, h2, h3, h4, h5, h6⟩ := C19_split ⟨id, body, endFlag e⟩ maxFrame hm
    have hfe : endFlag e &&& 0xFE = 0 := by rcases he with h | h <;> rw [h] <;> decide
    simp only [hfe] at h2 h3
    refine ⟨.data ⟨id, body, endFlag e⟩, out, out.length, te, td, _, rfl, ?_, rfl, ?_,
      ⟨parts, h4, h3, h5, rfl⟩, ?_⟩
    · simp only [Frame.encode] at h1 ⊢; rw [h1]
    · simpa [Sent.headerCount] using hc
    · rw [h2]
      exact dataFrames_reads maxList td id (endFlag e) parts ⟨hid1, hid2⟩ he
        (fun p hp => by have := h5 p hp; omega)
  | headers id e p hs' =>
    obtain ⟨hid, hp, hh, hsz, hb⟩ := hs
    have hc' : Conn te td (hs'.length + (partHeaders p).length + k) := hc
    obtain ⟨block, te', td', h1, h2, h3⟩ := headers_block p hp hs' hh hc' maxList hsz
    have hall : ∀ h ∈ hs' ++ partHeaders p, IsPlainName h.1 ∧ HeaderOk h := by
      intro h hm
      rcases List.mem_append.mp hm with hm | hm
      · exact ⟨(hh.plain h hm).1, (plain_lower (hh.plain h hm).1).2, (hh.sizes h hm).1, (hh.sizes h hm).2⟩
      · exact partHeaders_ok p hp h hm
    obtain ⟨block2, te2, g1, g2, g3⟩ := blockFragments_single maxFrame IsPlainName plain_sep
      (hs' ++ partHeaders p) k [] hc.sync hc.inv hc.plain hall
      (by rw [List.length_append]; exact hc'.room) (by simpa using hb)
    rw [h1] at g1
    simp only [Res.ok.injEq, Prod.mk.injEq] at g1
    obtain ⟨rfl, rfl⟩ := g1
    simp only [List.nil_append, List.length_nil, Nat.zero_add] at g2 g3
    have he : endFlag e = 0 ∨ endFlag e = 1 := by cases e <;> simp [endFlag]
    have hfl : flagSetEndHeaders (endFlag e) = endFlag e ||| 4 := by
      rcases he with h | h <;> rw [h] <;> decide
    refine ⟨.headers ⟨id, none, hs' ++ partHeaders p, {}, endFlag e⟩,
      FrameHeader.encode ⟨block.length, .headers, flagSetEndHeaders (endFlag e), id⟩ ++ block,
      9 + block.length, te', td', _, ?_, ?_, ?_, h2, rfl, ?_⟩
    · simp [Sent.frame, encodeHeader_parts p hp hs' hh]
    · simp [Frame.encode, HeadersFrame.encode, blockEncode, g2, fragmentFrames]
    · simp
    · refine readsAs_one (by simp [FrameHeader.encode, beBytes]) fun rest => ?_
      rw [List.append_assoc, readFrame_encode .headers _ id block rest td maxList (by omega) (by decide)
        (by rcases he with h | h <;> rw [h] <;> decide) hid, hfl]
      unfold Frame.parse
      rw [trimPadding_unpadded _ _ _ _ _ (by rcases he with h | h <;> rw [h] <;> decide)]
      simp only [h3 id (endFlag e ||| 4) (by rcases he with h | h <;> rw [h] <;> decide), withRest]

end Webparse
