import Verif.Proofs.Rfc9113Connection

/-!
# C90 to C92: what an RFC 9113 receiver hears
-/

namespace Webparse
open Spec Spec.Rfc

/-! ## C90 -/

/-- C90, the full claim: whatever an application sends, a receiver that follows RFC 9113 and RFC 7541 hears it.
`limit` is the receiver's table size, `maxFrame` its limit for frames and the writer's. -/
def C90_statement : Prop :=
  ∀ (maxFrame readLimit limit : Nat) (sent : List Sent) (frames : List Frame) (bytes : Bytes) (te : HeaderIndex),
    2 ^ 14 ≤ maxFrame → maxFrame ≤ readLimit → readLimit < 2 ^ 24 → limit < 2 ^ 32 → (∀ s ∈ sent, SayOk readLimit s) →
    Zip (fun s f => s.frame = .ok f) sent frames → writeFrames maxFrame { maxSize := limit } frames = some (.ok (bytes, te)) →
    ∃ T heard, Zip (HeardAs maxFrame) sent heard ∧ HearsBytes readLimit ⟨[], limit⟩ bytes T heard.flatten

/-- C90: octets are heard in one way. -/
theorem C90_one_hearing (maxFrame : Nat) (hm : maxFrame < 2 ^ 24) (t T T' : Table) (bytes : Bytes) (hs hs' : List Heard)
    (h : HearsBytes maxFrame t bytes T hs) (h' : HearsBytes maxFrame t bytes T' hs') : T = T' ∧ hs = hs' := by
  obtain ⟨fs, e, i, h⟩ := h
  obtain ⟨fs', e', i', h'⟩ := h'
  have a := hears_short h
  have a' := hears_short h'
  exact hears_unique h h' (wireFrames_inj _ _ (fun f hf => Nat.lt_of_le_of_lt (a f hf) hm)
    (fun f hf => Nat.lt_of_le_of_lt (a' f hf) hm) i i' (by rw [← e, ← e']))

theorem length_mem_flatten {b : Bytes} {l : List Bytes} (h : b ∈ l) : b.length ≤ l.flatten.length := by
  induction l with
  | nil => cases h
  | cons x l ih =>
    rw [List.flatten_cons, List.length_append]
    rcases List.mem_cons.mp h with rfl | h
    · omega
    · have := ih h; omega

/-- A header list: the frames written, and what is heard of them. -/
theorem say_headers_frames (maxFrame readLimit id : Nat) (e : Bool) (p : Parts) (hs' : List Header)
    (hs : SayOk readLimit (.headers id e p hs')) (te : HeaderIndex)
    (hi : TableInv te) (hm : te.maxSize < 2 ^ 32) (hp : ∀ e ∈ te.table, IsPlainName e.1) :
    ∃ f b n te' frags, (Sent.headers id e p hs').frame = .ok f ∧ Frame.encode maxFrame te f = some (.ok (b, n, te')) ∧ TableInv te' ∧
      te'.maxSize < 2 ^ 32 ∧ (∀ e ∈ te'.table, IsPlainName e.1) ∧
      blockFragments maxFrame te [] (hs' ++ partHeaders p) = .ok (frags, te') ∧
      (((hs' ++ partHeaders p).map encodedBound).sum ≤ maxFrame → frags.length = 1) ∧
      frags ≠ [] ∧ b = wireFrames (codeHeaderFrames id (endFlag e) frags) ∧
      Hears readLimit (peerTable te) (codeHeaderFrames id (endFlag e) frags) (peerTable te')
        [.headers id (e && frags.length == 1) (hs' ++ partHeaders p)] := by
  obtain ⟨h0, hid, hpo, hh, hacc, hb⟩ := hs
  have hall : ∀ h ∈ hs' ++ partHeaders p, IsPlainName h.1 ∧ HeaderOk h := by
    intro h hmm
    rcases List.mem_append.mp hmm with hmm | hmm
    · exact ⟨(hh.plain h hmm).1, (plain_lower (hh.plain h hmm).1).2, (hh.sizes h hmm).1, (hh.sizes h hmm).2⟩
    · exact partHeaders_ok p hpo h hmm
  have hno : ∀ h ∈ hs' ++ partHeaders p, lower h.1 ≠ asciiBytes "accept-" := by
    intro h hmm
    rw [(plain_lower (hall h hmm).1).1]
    rcases List.mem_append.mp hmm with hmm | hmm
    · exact hacc h hmm
    · have := (partHeaders_names p).2 h hmm
      intro e
      rw [e] at this
      exact absurd this (by decide +kernel)
  obtain ⟨block, te', a1, a2, a3⟩ := encodeHeaders_total (hs' ++ partHeaders p) te hi
  obtain ⟨r1, -, r3⟩ := encodeHeaders_rfc IsPlainName (fun a b ha hb _ => plain_sep a b ha hb) (hs' ++ partHeaders p) hi hp
    (fun h hmm => ⟨(hall h hmm).1, hno h hmm⟩) a1
  have hmap : (hs' ++ partHeaders p).map lowerHeader = hs' ++ partHeaders p := by
    conv_rhs => rw [← List.map_id (hs' ++ partHeaders p)]
    exact List.map_congr_left fun h hmm => lowerHeader_plain (hall h hmm).1
  rw [hmap] at r1
  obtain ⟨frags, hf⟩ := blockFragments_ok maxFrame _ _ _ [] _ a1
  have he : blockEncode maxFrame te (endFlag e) id (hs' ++ partHeaders p)
      = .ok (fragmentFrames (endFlag e) id frags, (frags.map fun b => 9 + b.length).sum, te') := by
    simp [blockEncode, hf]
  obtain ⟨frags2, block2, b1, b2, b3, b4, b5, b6⟩ := blockEncode_wire he
  rw [hf] at b1
  simp only [Res.ok.injEq, Prod.mk.injEq, and_true] at b1
  subst b1
  rw [a1] at b3
  simp only [Res.ok.injEq, Prod.mk.injEq, and_true] at b3
  subst b3
  have hlen := encodeHeaders_length _ hi hm (fun h hmm => (hall h hmm).2) a1
  refine ⟨.headers ⟨id, none, hs' ++ partHeaders p, {}, endFlag e⟩, fragmentFrames (endFlag e) id frags,
    (frags.map fun b => 9 + b.length).sum, te', frags, ?_, ?_, a2, by omega, r3, hf, ?_, b2, b5, ?_⟩
  · simp [Sent.frame, encodeHeader_parts p hpo hs' hh]
  · simp only [Frame.encode, HeadersFrame.encode]; rw [he]
  · intro hfit
    obtain ⟨b, rfl⟩ := blockFragments_fits maxFrame _ hi hm (fun h hmm => (hall h hmm).2) (by simpa using hfit) hf
    rfl
  · rw [← List.append_nil (codeHeaderFrames id (endFlag e) frags)]
    have hfr := codeHeaderFrames_rfc id (endFlag e) frags b2 h0 (by cases e <;> decide)
    have hee : (endFlag e &&& 1 == 1) = e := by cases e <;> decide
    rw [hee] at hfr
    refine .headers hfr ?_ (by rw [b4]; exact r1) .nil
    intro f hf
    have hmem := (codeHeaderFrames_ids _ _ _ f hf).2
    have := length_mem_flatten hmem
    rw [b4] at this
    omega

/-- A header list: written without failing, and heard; the end of the stream is heard if one frame was enough. -/
theorem say_headers (maxFrame readLimit id : Nat) (e : Bool) (p : Parts) (hs' : List Header)
    (hs : SayOk readLimit (.headers id e p hs')) (te : HeaderIndex)
    (hi : TableInv te) (hm : te.maxSize < 2 ^ 32) (hp : ∀ e ∈ te.table, IsPlainName e.1) :
    ∃ f b n te' frags, (Sent.headers id e p hs').frame = .ok f ∧ Frame.encode maxFrame te f = some (.ok (b, n, te')) ∧ TableInv te' ∧
      te'.maxSize < 2 ^ 32 ∧ (∀ e ∈ te'.table, IsPlainName e.1) ∧
      blockFragments maxFrame te [] (hs' ++ partHeaders p) = .ok (frags, te') ∧
      (((hs' ++ partHeaders p).map encodedBound).sum ≤ maxFrame → frags.length = 1) ∧
      HearsBytes readLimit (peerTable te) b (peerTable te') [.headers id (e && frags.length == 1) (hs' ++ partHeaders p)] := by
  obtain ⟨f, b, n, te', frags, a1, a2, a3, a4, a5, a6, a7, -, a8, a9⟩ := say_headers_frames maxFrame readLimit id e p hs' hs te hi hm hp
  exact ⟨f, b, n, te', frags, a1, a2, a3, a4, a5, a6, a7, _, a8,
    fun f hf => by rw [(codeHeaderFrames_ids _ _ _ f hf).1]; exact hs.2.1, a9⟩

/-- One message: written without failing, and heard. -/
theorem say_one (maxFrame readLimit : Nat) (h1 : 1 ≤ maxFrame) (h2 : maxFrame ≤ readLimit) (h3 : 2 ^ 14 ≤ readLimit)
    (s : Sent) (hs : SayOk readLimit s) (te : HeaderIndex)
    (hi : TableInv te) (hm : te.maxSize < 2 ^ 32) (hp : ∀ e ∈ te.table, IsPlainName e.1) :
    ∃ f b n te' heard, s.frame = .ok f ∧ Frame.encode maxFrame te f = some (.ok (b, n, te')) ∧ TableInv te' ∧
      te'.maxSize < 2 ^ 32 ∧ (∀ e ∈ te'.table, IsPlainName e.1) ∧ HeardMostly maxFrame s heard ∧
      HearsBytes readLimit (peerTable te) b (peerTable te') heard := by
  cases s with
  | control f =>
    obtain ⟨b, n, a1, a2⟩ := control_heard readLimit maxFrame h3 f hs te (peerTable te)
    exact ⟨f, b, n, te, _, rfl, a1, hi, hm, hp, rfl, a2⟩
  | data id e body =>
    obtain ⟨hid1, hid2⟩ := hs
    obtain ⟨parts, out, g1, g2, g3, g4, g5, g6⟩ := C19_split ⟨id, body, endFlag e⟩ maxFrame h1
    have hfe : endFlag e &&& 0xFE = 0 := by cases e <;> decide
    simp only [hfe] at g2 g3
    refine ⟨.data ⟨id, body, endFlag e⟩, out, out.length, te, _, rfl, ?_, hi, hm, hp, ⟨parts, g4, g3, g5, rfl⟩, ?_⟩
    · simp only [Frame.encode] at g1 ⊢; rw [g1]
    · have key : ∀ parts : List Bytes, (∀ p ∈ parts, p.length ≤ maxFrame) →
          (∀ f ∈ dataFrames id 0 (endFlag e) parts, f.2.2.1 < 2 ^ 31) ∧
          Hears readLimit (peerTable te) (dataFrames id 0 (endFlag e) parts) (peerTable te)
            ((dataFrames id 0 (endFlag e) parts).map fun f => .frame (.data ⟨f.2.2.1, f.2.2.2, f.2.1⟩)) := by
        intro parts
        induction parts with
        | nil => intro _; exact ⟨by simp [dataFrames], .nil⟩
        | cons b bs ih =>
          intro hb
          have hb1 : b.length ≤ readLimit := by have := hb b (by simp); omega
          cases bs with
          | nil =>
            refine ⟨by simpa [dataFrames] using hid2, ?_⟩
            exact .frame (by unfold BlocklessKind; decide) hb1 (.data _ _ _ (by omega) (by cases e <;> decide)) .nil
          | cons c cs =>
            obtain ⟨i1, i2⟩ := ih (fun p hp => hb p (by simp [hp]))
            refine ⟨?_, ?_⟩
            · intro f hf
              rcases List.mem_cons.mp hf with rfl | hf
              · exact hid2
              · exact i1 f hf
            · exact .frame (by unfold BlocklessKind; decide) hb1 (.data _ _ _ (by omega) (by decide)) i2
      obtain ⟨k1, k2⟩ := key parts g5
      exact ⟨_, g2, k1, k2⟩
  | headers id e p hs' =>
    obtain ⟨f, b, n, te', frags, a1, a2, a3, a4, a5, a6, a7, a8⟩ := say_headers maxFrame readLimit id e p hs' hs te hi hm hp
    refine ⟨f, b, n, te', _, a1, a2, a3, a4, a5, ⟨_, rfl, ?_⟩, a8⟩
    by_cases hfit : ((hs' ++ partHeaders p).map encodedBound).sum ≤ maxFrame
    · left; simp [a7 hfit]
    · by_cases hl : frags.length = 1
      · left; simp [hl]
      · right; exact ⟨by simp [hl], by omega⟩

/-- C90, partial: for any number and sizes of messages the writer does not fail and the receiver hears all of them,
fields, bodies and control frames; only the end of a stream may not be heard, and only for a header list that may
need several frames.  Missing: that end of the stream. -/
theorem C90_heard_partial (maxFrame readLimit limit : Nat) (h1 : 1 ≤ maxFrame) (h2 : maxFrame ≤ readLimit)
    (h3 : 2 ^ 14 ≤ readLimit) (hl : limit < 2 ^ 32) (sent : List Sent) (hs : ∀ s ∈ sent, SayOk readLimit s) :
    ∃ frames bytes te heard, Zip (fun s f => s.frame = .ok f) sent frames ∧
      writeFrames maxFrame { maxSize := limit } frames = some (.ok (bytes, te)) ∧
      Zip (HeardMostly maxFrame) sent heard ∧ HearsBytes readLimit ⟨[], limit⟩ bytes (peerTable te) heard.flatten := by
  have key : ∀ (sent : List Sent), (∀ s ∈ sent, SayOk readLimit s) → ∀ te, TableInv te → te.maxSize < 2 ^ 32 →
      (∀ e ∈ te.table, IsPlainName e.1) →
      ∃ frames bytes te' heard, Zip (fun s f => s.frame = .ok f) sent frames ∧
        writeFrames maxFrame te frames = some (.ok (bytes, te')) ∧
        Zip (HeardMostly maxFrame) sent heard ∧ HearsBytes readLimit (peerTable te) bytes (peerTable te') heard.flatten := by
    intro sent
    induction sent with
    | nil => intro _ te _ _ _; exact ⟨[], [], te, [], .nil, rfl, .nil, ⟨[], rfl, by simp, .nil⟩⟩
    | cons s sent ih =>
      intro hs te hi hm hp
      obtain ⟨f, b, n, te1, heard, a1, a2, a3, a4, a5, a6, a7⟩ := say_one maxFrame readLimit h1 h2 h3 s (hs s (by simp)) te hi hm hp
      obtain ⟨frames, bytes, te', rest, b1, b2, b3, b4⟩ := ih (fun x hx => hs x (by simp [hx])) te1 a3 a4 a5
      refine ⟨f :: frames, b ++ bytes, te', heard :: rest, .cons a1 b1, ?_, .cons a6 b3, ?_⟩
      · simp only [writeFrames, a2, b2]
      · rw [List.flatten_cons]; exact hearsBytes_append a7 b4
  exact key sent hs { maxSize := limit } ⟨rfl, by simp⟩ hl (by simp)

/-- C90, partial: as it should be if every header list fits one frame. -/
theorem C90_connection_partial (maxFrame limit : Nat) (h1 : 2 ^ 14 ≤ maxFrame) (hl : limit < 2 ^ 32) (sent : List Sent)
    (hs : ∀ s ∈ sent, SayOk maxFrame s) :
    ∃ frames bytes te heard, Zip (fun s f => s.frame = .ok f) sent frames ∧
      writeFrames maxFrame { maxSize := limit } frames = some (.ok (bytes, te)) ∧
      Zip (HeardAs maxFrame) sent heard ∧ HearsBytes maxFrame ⟨[], limit⟩ bytes (peerTable te) heard.flatten := by
  obtain ⟨frames, bytes, te, heard, a1, a2, a3, a4⟩ :=
    C90_heard_partial maxFrame maxFrame limit (by omega) (by omega) h1 hl sent hs
  refine ⟨frames, bytes, te, heard, a1, a2, ?_, a4⟩
  clear a1 a2 a4
  induction a3 with
  | nil => exact .nil
  | @cons s h ss hh a _ ih =>
    refine .cons ?_ (ih fun x hx => hs x (by simp [hx]))
    have hs1 := hs s (by simp)
    cases s with
    | control f => exact a
    | data id e body => exact a
    | headers id e p fields =>
      obtain ⟨e', rfl, he⟩ := a
      obtain ⟨-, -, -, -, -, hb⟩ := hs1
      rcases he with rfl | ⟨-, he⟩
      · rfl
      · omega

/-- C90 is violated: the end of the stream is not heard, for every header list that ends a stream and whose first
field is too long for a frame of the writer. -/
theorem C90_violated_end (maxFrame readLimit limit id : Nat) (p : Parts) (h : Header) (fields : List Header)
    (hm : 1 ≤ maxFrame) (hl : limit < 2 ^ 32) (hs : SayOk readLimit (.headers id true p (h :: fields)))
    (hlong : maxFrame < h.1.length + h.2.length) :
    ∃ f b n te', (Sent.headers id true p (h :: fields)).frame = .ok f ∧
      Frame.encode maxFrame { maxSize := limit } f = some (.ok (b, n, te')) ∧
      HearsBytes readLimit ⟨[], limit⟩ b (peerTable te') [.headers id false ((h :: fields) ++ partHeaders p)] := by
  obtain ⟨f, b, n, te', frags, a1, a2, a3, a4, a5, a6, a7, a8⟩ :=
    say_headers maxFrame readLimit id true p (h :: fields) hs { maxSize := limit } ⟨rfl, by simp⟩ hl (by simp)
  refine ⟨f, b, n, te', a1, a2, ?_⟩
  have : frags.length ≠ 1 := by
    rw [List.cons_append] at a6
    unfold blockFragments at a6
    rw [if_pos (by simpa using hlong)] at a6
    obtain ⟨⟨b1, t1⟩, c1, a6⟩ := (Res.bind_eq_ok ..).mp a6
    obtain ⟨⟨rest, t2⟩, c2, a6⟩ := (Res.bind_eq_ok ..).mp a6
    simp only [Res.ok.injEq, Prod.mk.injEq] at a6
    rw [← a6.1]
    obtain ⟨_, -, -, c3⟩ := blockFragments_flatten _ _ _ _ _ _ c2
    cases rest with
    | nil => exact absurd rfl c3
    | cons _ _ => simp
  have e : (true && frags.length == 1) = false := by simp [this]
  rw [e] at a8
  exact a8

/-- A header list that ends a stream and does not fit the writer's limit. -/
theorem long_field_ok : SayOk (2 ^ 24 - 1) (.headers 1 true {} [([120], List.replicate 16384 97)]) := by
  refine ⟨by decide, by decide, ⟨by simp, by simp, by simp, by simp, by simp⟩, ⟨?_, ?_, List.pairwise_singleton _ _⟩, ?_, ?_⟩
  · intro h hh
    simp only [List.mem_cons, List.not_mem_nil, or_false] at hh
    subst hh
    exact ⟨by unfold IsPlainName; decide +kernel, by simp⟩
  · intro h hh
    simp only [List.mem_cons, List.not_mem_nil, or_false] at hh
    subst hh
    simp only [List.length_cons, List.length_nil, List.length_replicate]
    omega
  · intro h hh
    simp only [List.mem_cons, List.not_mem_nil, or_false] at hh
    subst hh
    decide +kernel
  · simp only [partHeaders, Option.map_none, Option.toList_none, List.append_nil, List.map_cons, List.map_nil, List.sum_cons,
      List.sum_nil, encodedBound, List.length_cons, List.length_nil, List.length_replicate]
    omega

theorem C90_violated : ¬ C90_statement := by
  intro h
  obtain ⟨f, b, n, te', a1, a2, a3⟩ := C90_violated_end (2 ^ 14) (2 ^ 24 - 1) 4096 1 {} ([120], List.replicate 16384 97) []
    (by decide) (by decide) long_field_ok (by simp only [List.length_cons, List.length_nil, List.length_replicate]; omega)
  obtain ⟨T, heard, b1, b2⟩ := h (2 ^ 14) (2 ^ 24 - 1) 4096 [.headers 1 true {} [([120], List.replicate 16384 97)]] [f] b te'
    (by decide) (by decide) (by decide) (by decide)
    (by intro s hs; simp only [List.mem_cons, List.not_mem_nil, or_false] at hs; subst hs; exact long_field_ok)
    (.cons a1 .nil) (by simp only [writeFrames, a2, List.append_nil])
  cases b1 with
  | cons c1 c2 =>
    cases c2
    simp only [HeardAs] at c1
    subst c1
    have := (C90_one_hearing _ (by decide) _ _ _ _ _ _ a3 b2).2
    simp only [List.flatten_cons, List.cons_append, List.cons.injEq, Heard.headers.injEq] at this
    exact absurd this.1.2.1 (by decide)

/-- A request with a body, a response and control frames may be sent. -/
example : ∀ s ∈ [Sent.control (.settings {}), .headers 1 false
      { method := some .post, scheme := some .https, authority := some (asciiBytes "a.b"), path := some (asciiBytes "/") }
      [(asciiBytes "x-y", [0, 255])],
    .data 1 true (List.replicate 100000 7), .headers 1 true { status := some 404 } [],
    .control (.goAway ⟨1, 2, [3]⟩), .control (.reset ⟨1, 8⟩)], SayOk 16384 s := by
  have u1 : utf8Valid (asciiBytes "a.b") = true := by decide +kernel
  have u2 : utf8Valid (asciiBytes "/") = true := by decide +kernel
  have p1 : PlainFields [(asciiBytes "x-y", [0, 255])] :=
    ⟨by unfold IsPlainName; decide +kernel, by decide +kernel, by simp⟩
  have p2 : PlainFields [] := ⟨by simp, by simp, by simp⟩
  intro s hs
  simp only [List.mem_cons, List.not_mem_nil, or_false] at hs
  rcases hs with rfl | rfl | rfl | rfl | rfl | rfl
  · simp [SayOk, ControlFrameOk, LegalSettings, OptAll]
  · refine ⟨by decide, by decide, ⟨?_, ?_, ?_, ?_, ?_⟩, p1, by decide +kernel, by decide +kernel⟩ <;>
      simp [u1, u2] <;> decide +kernel
  · simp [SayOk]
  · exact ⟨by decide, by decide, ⟨by simp, by simp, by simp, by simp, by simp⟩, p2, by simp, by decide +kernel⟩
  · simp [SayOk, ControlFrameOk]
  · simp [SayOk, ControlFrameOk]

/-! ## C91 -/

/-- C91, the full claim: the header list heard for a request or response has its pseudo-header fields in front. -/
def C91_statement : Prop :=
  ∀ (maxFrame readLimit limit id n : Nat) (e e' : Bool) (p : Parts) (fields heard : List Header) (f : Frame) (b : Bytes)
    (te : HeaderIndex) (T : Table), maxFrame ≤ readLimit → readLimit < 2 ^ 24 → limit < 2 ^ 32 →
    SayOk readLimit (.headers id e p fields) → (Sent.headers id e p fields).frame = .ok f →
    Frame.encode maxFrame { maxSize := limit } f = some (.ok (b, n, te)) →
    HearsBytes readLimit ⟨[], limit⟩ b T [.headers id e' heard] → PseudoFirst heard

theorem partHeaders_colon (p : Parts) : ∀ h ∈ partHeaders p, h.1.head? = some 58 := by
  intro h hh
  have := (partHeaders_names p).2 h hh
  revert this
  generalize h.1 = n
  revert n
  decide +kernel

theorem pseudoFirst_iff (p : Parts) (fields : List Header) (hh : PlainFields fields) :
    PseudoFirst (fields ++ partHeaders p) ↔ fields = [] ∨ partHeaders p = [] := by
  constructor
  · rintro ⟨a, b, e, ha, hb⟩
    cases fields with
    | nil => exact Or.inl rfl
    | cons x xs =>
      right
      cases a with
      | nil =>
        rw [List.nil_append] at e
        cases hp : partHeaders p with
        | nil => rfl
        | cons y ys =>
          have hy : y ∈ partHeaders p := by rw [hp]; simp
          exact absurd (partHeaders_colon p y hy) (hb y (by rw [← e]; simp [hp]))
      | cons y ys =>
        simp only [List.cons_append, List.cons.injEq] at e
        have h1 := ha y (by simp)
        rw [← e.1] at h1
        exact absurd h1 (hh.plain x (by simp)).2
  · rintro (rfl | h)
    · exact ⟨partHeaders p, [], by simp, partHeaders_colon p, by simp⟩
    · exact ⟨[], fields, by simp [h], by simp, fun x hx => (hh.plain x hx).2⟩

/-- C91, partial: exactly the messages without fields, or without pseudo-headers, are heard so.  Missing: all others. -/
theorem C91_iff_partial (maxFrame readLimit limit id n : Nat) (e e' : Bool) (p : Parts) (fields heard : List Header) (f : Frame)
    (b : Bytes) (te : HeaderIndex) (T : Table) (hr : readLimit < 2 ^ 24) (hl : limit < 2 ^ 32)
    (hs : SayOk readLimit (.headers id e p fields)) (hf : (Sent.headers id e p fields).frame = .ok f)
    (he : Frame.encode maxFrame { maxSize := limit } f = some (.ok (b, n, te)))
    (hh : HearsBytes readLimit ⟨[], limit⟩ b T [.headers id e' heard]) :
    PseudoFirst heard ↔ fields = [] ∨ p = {} := by
  obtain ⟨f2, b2, n2, te2, frags, a1, a2, a3, a4, a5, a6, a7, a8⟩ :=
    say_headers maxFrame readLimit id e p fields hs { maxSize := limit } ⟨rfl, by simp⟩ hl (by simp)
  rw [hf] at a1
  simp only [Res.ok.injEq] at a1
  subst a1
  rw [he] at a2
  simp only [Option.some.injEq, Res.ok.injEq, Prod.mk.injEq] at a2
  obtain ⟨rfl, rfl, rfl⟩ := a2
  have := (C90_one_hearing _ hr _ _ _ _ _ _ hh a8).2
  simp only [List.cons.injEq, Heard.headers.injEq, and_true] at this
  rw [this.2.2, pseudoFirst_iff p fields hs.2.2.2.1]
  have : partHeaders p = [] ↔ p = {} := by
    constructor
    · intro h
      obtain ⟨m, s, a, q, st⟩ := p
      unfold partHeaders at h
      cases m <;> cases s <;> cases a <;> cases q <;> cases st <;> simp at h ⊢
    · rintro rfl; rfl
  rw [this]

/-- C91 is violated: whenever there are both, the pseudo-headers come last, and the message is malformed. -/
theorem C91_violated_order (maxFrame readLimit limit id : Nat) (e : Bool) (p : Parts) (fields : List Header)
    (hl : limit < 2 ^ 32) (hs : SayOk readLimit (.headers id e p fields)) (h1 : fields ≠ []) (h2 : p ≠ {}) :
    ∃ f b n te T e' heard, (Sent.headers id e p fields).frame = .ok f ∧
      Frame.encode maxFrame { maxSize := limit } f = some (.ok (b, n, te)) ∧
      HearsBytes readLimit ⟨[], limit⟩ b T [.headers id e' heard] ∧ ¬ PseudoFirst heard := by
  obtain ⟨f, b, n, te, frags, a1, a2, a3, a4, a5, a6, a7, a8⟩ :=
    say_headers maxFrame readLimit id e p fields hs { maxSize := limit } ⟨rfl, by simp⟩ hl (by simp)
  refine ⟨f, b, n, te, _, _, _, a1, a2, a8, ?_⟩
  rw [pseudoFirst_iff p fields hs.2.2.2.1]
  rintro (h | h)
  · exact h1 h
  · apply h2
    obtain ⟨m, s, a, q, st⟩ := p
    unfold partHeaders at h
    cases m <;> cases s <;> cases a <;> cases q <;> cases st <;> simp at h ⊢

theorem sample_get_ok : SayOk 16384 (.headers 1 true { method := some .get } [([120], [97])]) := by
  refine ⟨by decide, by decide, ⟨by simp, by simp, by simp, by simp, by simp⟩, ⟨?_, by simp, by simp⟩, ?_, by decide +kernel⟩
  · intro h hh
    simp only [List.mem_cons, List.not_mem_nil, or_false] at hh
    subst hh
    exact ⟨by unfold IsPlainName; decide +kernel, by simp⟩
  · intro h hh
    simp only [List.mem_cons, List.not_mem_nil, or_false] at hh
    subst hh
    decide +kernel

theorem C91_violated : ¬ C91_statement := by
  intro h
  obtain ⟨f, b, n, te, T, e', heard, a1, a2, a3, a4⟩ := C91_violated_order 16384 16384 4096 1 true { method := some .get } [([120], [97])]
    (by decide) sample_get_ok (by simp) (by simp)
  exact a4 (h 16384 16384 4096 1 n true e' _ _ heard f b te T (by decide) (by decide) (by decide) sample_get_ok a1 a2 a3)

/-! ## C92 -/

/-- C92, the full claim: a promise is heard as that promise, with the request it answers. -/
def C92_statement : Prop :=
  ∀ (maxFrame readLimit limit n : Nat) (p : PushPromise) (b : Bytes) (te : HeaderIndex),
    maxFrame ≤ readLimit → readLimit < 2 ^ 24 → limit < 2 ^ 32 → PromiseOk readLimit p →
    p.encode maxFrame { maxSize := limit } = .ok (b, n, te) →
    ∃ T, HearsBytes readLimit ⟨[], limit⟩ b T [.promise p.streamId p.promisedId (partHeaders p.parts ++ p.fields)]

/-- C92, partial: the promise is written without failing, after whatever was written before, and heard with the
pseudo-headers of the request; the fields of the request are heard as a header list that answers it.
Missing: the fields in the request. -/
theorem C92_heard_partial (maxFrame readLimit : Nat) (p : PushPromise) (hp : PromiseOk readLimit p) (te : HeaderIndex)
    (hi : TableInv te) (hm : te.maxSize < 2 ^ 32) (ht : ∀ e ∈ te.table, IsPlainName e.1) :
    ∃ b n te', p.encode maxFrame te = .ok (b, n, te') ∧ n = b.length ∧ TableInv te' ∧ te'.maxSize = te.maxSize ∧
      (∀ e ∈ te'.table, IsPlainName e.1) ∧
      HearsBytes readLimit (peerTable te) b (peerTable te')
        [.promise p.streamId p.promisedId (partHeaders p.parts), .headers p.promisedId false p.fields] := by
  obtain ⟨⟨hs0, hs1⟩, ⟨hq0, hq1⟩, ⟨hpo, hst⟩, ⟨hh, hacc⟩, hsz, hfl⟩ := hp
  obtain ⟨sid, qid, fields, parts, flags⟩ := p
  simp only at *
  have hall1 : ∀ h ∈ fields, IsPlainName h.1 ∧ HeaderOk h := fun h hmm =>
    ⟨(hh.plain h hmm).1, (plain_lower (hh.plain h hmm).1).2, (hh.sizes h hmm).1, (hh.sizes h hmm).2⟩
  have hall2 := partHeaders_ok parts hpo
  have hlow : ∀ l : List Header, (∀ h ∈ l, IsPlainName h.1 ∧ HeaderOk h) → l.map lowerHeader = l := by
    intro l hl
    conv_rhs => rw [← List.map_id l]
    exact List.map_congr_left fun h hmm => lowerHeader_plain (hl h hmm).1
  simp only [List.map_append, List.sum_append] at hsz
  obtain ⟨binary, t1, a1, a2, a3⟩ := encodeHeaders_total (partHeaders parts) te hi
  obtain ⟨r1, -, r3⟩ := encodeHeaders_rfc IsPlainName (fun a b ha hb _ => plain_sep a b ha hb) (partHeaders parts) hi ht
    (fun h hmm => ⟨(hall2 h hmm).1, by
      rw [(plain_lower (hall2 h hmm).1).1]
      have := (partHeaders_names parts).2 h hmm
      intro e
      rw [e] at this
      exact absurd this (by decide +kernel)⟩) a1
  rw [hlow _ hall2] at r1
  have l1 := encodeHeaders_length _ hi hm (fun h hmm => (hall2 h hmm).2) a1
  obtain ⟨block, t2, c1, c2, c3⟩ := encodeHeaders_total fields t1 a2
  obtain ⟨q1, -, q3⟩ := encodeHeaders_rfc IsPlainName (fun a b ha hb _ => plain_sep a b ha hb) fields a2 r3
    (fun h hmm => ⟨(hall1 h hmm).1, by rw [(plain_lower (hall1 h hmm).1).1]; exact hacc h hmm⟩) c1
  rw [hlow _ hall1] at q1
  have l2 := encodeHeaders_length _ a2 (by omega) (fun h hmm => (hall1 h hmm).2) c1
  obtain ⟨frags, hf⟩ := blockFragments_ok maxFrame _ _ _ [] _ c1
  have he : blockEncode maxFrame t1 flags qid fields
      = .ok (fragmentFrames flags qid frags, (frags.map fun b => 9 + b.length).sum, t2) := by
    simp [blockEncode, hf]
  obtain ⟨frags2, block2, b1, b2, b3, b4, b5, b6⟩ := blockEncode_wire he
  rw [hf] at b1
  simp only [Res.ok.injEq, Prod.mk.injEq, and_true] at b1
  subst b1
  rw [c1] at b3
  simp only [Res.ok.injEq, Prod.mk.injEq, and_true] at b3
  subst b3
  -- the pseudo-headers
  have take : ∃ x1 x2 x3 x4 u1 u2 u3, binary = x1 ++ x2 ++ x3 ++ x4 ∧
      ∃ m1 m2 m3, takeHeader (asciiBytes ":method") (fields ++ partHeaders parts) te = .ok (x1, m1, u1) ∧
      takeHeader (asciiBytes ":authority") m1 u1 = .ok (x2, m2, u2) ∧
      takeHeader (asciiBytes ":scheme") m2 u2 = .ok (x3, m3, u3) ∧
      takeHeader (asciiBytes ":path") m3 u3 = .ok (x4, fields, t1) := by
    have e1 : (parts.method.map fun m => (asciiBytes ":method", m.asStr)) = (parts.method.map Method.asStr).map fun v => (asciiBytes ":method", v) := by
      rw [Option.map_map]; rfl
    have e3 : (parts.scheme.map fun m => (asciiBytes ":scheme", m.asStr)) = (parts.scheme.map Scheme.asStr).map fun v => (asciiBytes ":scheme", v) := by
      rw [Option.map_map]; rfl
    unfold partHeaders at a1 ⊢
    rw [hst, e1, e3] at a1 ⊢
    simp only [Option.map_none, Option.toList_none, List.append_nil] at a1 ⊢
    generalize parts.method.map Method.asStr = o1 at *
    generalize parts.scheme.map Scheme.asStr = o3 at *
    generalize parts.authority = o2 at *
    generalize parts.path = o4 at *
    simp only [encodeHeaders_append, Res.bind_eq_ok] at a1
    obtain ⟨⟨y3, w3⟩, ⟨⟨y2, w2⟩, ⟨⟨y1, w1⟩, d1, ⟨z2, v2⟩, d2, e2⟩, ⟨z3, v3⟩, d3, f3⟩, ⟨z4, v4⟩, d4, f4⟩ := a1
    simp only [Res.ok.injEq, Prod.mk.injEq] at e2 f3 f4
    obtain ⟨rfl, rfl⟩ := e2
    obtain ⟨rfl, rfl⟩ := f3
    obtain ⟨rfl, rfl⟩ := f4
    have dd : asciiBytes ":authority" ≠ asciiBytes ":method" ∧ asciiBytes ":scheme" ≠ asciiBytes ":method" ∧
        asciiBytes ":path" ≠ asciiBytes ":method" ∧ asciiBytes ":scheme" ≠ asciiBytes ":authority" ∧
        asciiBytes ":path" ≠ asciiBytes ":authority" ∧ asciiBytes ":path" ≠ asciiBytes ":scheme" := by decide +kernel
    have ii : asciiBytes ":method" ∈ pseudoNames ∧ asciiBytes ":authority" ∈ pseudoNames ∧ asciiBytes ":scheme" ∈ pseudoNames ∧
        asciiBytes ":path" ∈ pseudoNames := by simp [pseudoNames]
    obtain ⟨i1, i2, i3, i4⟩ := ii
    obtain ⟨k1, k2, k3, k4, k5, k6⟩ := dd
    generalize asciiBytes ":method" = n1 at *
    generalize asciiBytes ":authority" = n2 at *
    generalize asciiBytes ":scheme" = n3 at *
    generalize asciiBytes ":path" = n4 at *
    have m2 : ∀ e ∈ (o2.map fun v => (n2, v)).toList, e.1 = n2 := opt_names o2 n2 id
    have m3 : ∀ e ∈ (o3.map fun v => (n3, v)).toList, e.1 = n3 := opt_names o3 n3 id
    have m4 : ∀ e ∈ (o4.map fun v => (n4, v)).toList, e.1 = n4 := opt_names o4 n4 id
    have s2 := takeHeader_spec i2 hh (rest := (o3.map fun v => (n3, v)).toList ++ (o4.map fun v => (n4, v)).toList) (by
        intro e hx
        rcases List.mem_append.mp hx with hx | hx
        · rw [m3 e hx]; exact ⟨i3, k4⟩
        · rw [m4 e hx]; exact ⟨i4, k5⟩) o2 d2
    have s3 := takeHeader_spec i3 hh (rest := (o4.map fun v => (n4, v)).toList) (by
        intro e hx
        rw [m4 e hx]; exact ⟨i4, k6⟩) o3 d3
    have s4 := takeHeader_spec i4 hh (rest := []) (by simp) o4 d4
    simp only [List.append_nil] at s4
    have s1 := takeHeader_spec i1 hh (rest := (o2.map fun v => (n2, v)).toList ++
          ((o3.map fun v => (n3, v)).toList ++ (o4.map fun v => (n4, v)).toList)) (by
        intro e hx
        simp only [List.mem_append] at hx
        rcases hx with hx | hx | hx
        · rw [m2 e hx]; exact ⟨i2, k1⟩
        · rw [m3 e hx]; exact ⟨i3, k2⟩
        · rw [m4 e hx]; exact ⟨i4, k3⟩) o1 d1
    simp only [List.append_assoc] at s1 ⊢
    exact ⟨_, _, _, _, _, _, _, rfl, _, _, _, s1, s2, s3, s4⟩
  obtain ⟨x1, x2, x3, x4, u1, u2, u3, hbin, m1, m2, m3, g1, g2, g3, g4⟩ := take
  have e := encode_wire .pushPromise (flagSetEndHeaders flags) sid (u31Bytes false qid ++ binary)
  have e2 : (u31Bytes false qid ++ binary).length = binary.length + 4 := by simp; omega
  have e3 : beBytes 4 qid = u31Bytes false qid := by rw [beBytes4]; rfl
  rw [e2] at e
  refine ⟨FrameHeader.encode ⟨binary.length + 4, .pushPromise, flagSetEndHeaders flags, sid⟩ ++ beBytes 4 qid ++ binary ++ fragmentFrames flags qid frags,
    9 + 4 + binary.length + (frags.map fun b => 9 + b.length).sum, t2, ?_, ?_, c2, by omega, q3, ?_⟩
  · unfold PushPromise.encode
    simp only [encodeHeader_parts parts hpo fields hh, Res.bind_ok, g1, g2, g3, g4, he, ← hbin]
  · rw [b6]; simp; omega
  · rw [e3, List.append_assoc _ (u31Bytes false qid), e, b5]
    have fin1 : HearsBytes readLimit (peerTable te) (wireFrame 5 (flagSetEndHeaders flags) sid (u31Bytes false qid ++ binary)) (peerTable t1)
        [.promise sid qid (partHeaders parts)] := by
      refine ⟨[(5, flagSetEndHeaders flags, sid, u31Bytes false qid ++ binary)], by simp [wireFrames], by simpa using hs1, ?_⟩
      rw [← List.append_nil [((5 : UInt8), _)]]
      refine .promise (.one hs0 hq1 ?_ ?_) ?_ r1 .nil
      · clear he hf b5 b6 e; revert flags; decide +kernel
      · clear he hf b5 b6 e; revert flags; decide +kernel
      · simp only [List.mem_cons, List.not_mem_nil, or_false, forall_eq, e2]; omega
    have fin2 : HearsBytes readLimit (peerTable t1) (wireFrames (codeHeaderFrames qid flags frags)) (peerTable t2)
        [.headers qid false fields] := by
      refine ⟨_, rfl, fun f hf => by rw [(codeHeaderFrames_ids _ _ _ f hf).1]; exact hq1, ?_⟩
      rw [← List.append_nil (codeHeaderFrames qid flags frags)]
      have bits : flags &&& 0x28 = 0 ∧ (flags &&& 1 == 1) = false := by
        clear he hf b5 b6 e fin1; revert flags; decide +kernel
      have hfr := codeHeaderFrames_rfc qid flags frags b2 hq0 bits.1
      rw [bits.2, Bool.false_and] at hfr
      refine .headers hfr ?_ (by rw [b4]; exact q1) .nil
      intro f hf
      have := length_mem_flatten (codeHeaderFrames_ids _ _ _ f hf).2
      rw [b4] at this
      omega
    exact hearsBytes_append fin1 fin2

/-- C92 is violated: no promise is heard as it should be. -/
theorem C92_violated_request (maxFrame readLimit limit n : Nat) (p : PushPromise) (b : Bytes) (te : HeaderIndex)
    (hr : readLimit < 2 ^ 24) (hl : limit < 2 ^ 32) (hp : PromiseOk readLimit p)
    (h : p.encode maxFrame { maxSize := limit } = .ok (b, n, te)) (T : Table) (heard : List Header) :
    ¬ HearsBytes readLimit ⟨[], limit⟩ b T [.promise p.streamId p.promisedId heard] := by
  intro hh
  obtain ⟨b2, n2, te2, a1, -, -, -, -, a2⟩ := C92_heard_partial maxFrame readLimit p hp { maxSize := limit } ⟨rfl, by simp⟩ hl (by simp)
  rw [h] at a1
  simp only [Res.ok.injEq, Prod.mk.injEq] at a1
  obtain ⟨rfl, rfl, rfl⟩ := a1
  have := (C90_one_hearing _ hr _ _ _ _ _ _ hh a2).2
  simp at this

/-- The promise of the answer to `GET http://a/` (see C77). -/
theorem samplePromise_ok : PromiseOk 16384 samplePromise := by
  refine ⟨by decide, by decide, ⟨⟨?_, ?_, ?_, ?_, ?_⟩, rfl⟩, ⟨⟨by simp [samplePromise], by simp [samplePromise], by simp [samplePromise]⟩, by simp [samplePromise]⟩, by decide +kernel, by decide⟩ <;>
    simp [samplePromise] <;> decide +kernel

theorem C92_violated : ¬ C92_statement := by
  intro h
  obtain ⟨b, n, te, a1, -⟩ := C92_heard_partial 16384 16384 samplePromise samplePromise_ok {} ⟨rfl, by simp⟩ (by decide) (by simp)
  obtain ⟨T, h1⟩ := h 16384 16384 4096 n samplePromise b te (by decide) (by decide) (by decide) samplePromise_ok a1
  exact C92_violated_request 16384 16384 4096 n samplePromise b te (by decide) (by decide) samplePromise_ok a1 T _ h1

end Webparse
